import Verif.Proof.User

/-! # C113, C114: user files and the fast random source -/

namespace Verif.User
open Exec

/-! ## C113: files of bits and of codewords -/

/-- C113, source: a file that announces `n` frames of `K` numbers and holds them is accepted, whatever follows, and from
any nonnegative start index the successive calls give the frames of the file in order, cyclically, as bits. -/
theorem C113_source (K : Nat) (rows : List (List Int)) (rest : List (Tok Int)) (start : Nat) (hK : 0 < K)
    (h0 : 0 < rows.length) (hm : ∀ r ∈ rows, r.length = K) :
    ∃ s, Frames.source K (some ⟨text ([(rows.length : Int), (K : Int)] ++ rows.flatten) rest, false⟩) start = ok s ∧
      ∀ Us : List (List Nat), (∀ U ∈ Us, U.length = K) →
        ∃ s' outs, s.run Us = ok (s', outs) ∧ outs.length = Us.length ∧
          ∀ t, t < Us.length → outs[t]? = (cyclic rows start t).map (List.map toBit) := by
  have e : (fun v : Int => if v ≠ 0 then 1 else 0) = toBit := by
    funext v; unfold toBit; by_cases hv : v = 0 <;> simp [hv]
  refine ⟨⟨K, rows.map (List.map toBit), (start : Int).tmod rows.length⟩, ?_, ?_⟩
  · unfold Frames.source
    rw [if_neg (by omega)]
    show (if (rows.length : Int) ≤ 0 ∨ (K : Int) ≤ 0 then exc .runtimeError
      else if (K : Int) = K then
        readRows 0 (fun v : Int => if v ≠ 0 then 1 else 0) (K : Int).toNat (rows.length : Int).toNat
          ⟨text rows.flatten rest, false⟩ >>= fun r => ok (⟨(K : Int).toNat, r.2, (start : Int).tmod rows.length⟩ : Frames Nat)
      else exc .runtimeError) = _
    rw [if_neg (by omega), if_pos rfl, Int.toNat_natCast, Int.toNat_natCast, readRows_ok _ _ _ _ _ hm, bind_ok, e]
  · intro Us hU
    obtain ⟨s', outs, h1, h2, h3⟩ := run_eq (s := ⟨K, rows.map (List.map toBit), (start : Int).tmod rows.length⟩)
      (rows := rows.map (List.map toBit)) (c := start) (m := K)
      ⟨rfl, by rw [List.length_map]; exact (Int.ofNat_tmod start rows.length).symm⟩ (by simpa using h0)
      (fun r hr => by
        obtain ⟨q, hq, rfl⟩ := List.mem_map.mp hr
        rw [List.length_map, hm q hq]) hU
    refine ⟨s', outs, h1, h2, fun t ht => ?_⟩
    rw [h3 t ht]
    unfold cyclic
    rw [List.length_map, List.getElem?_map]

example : ∃ s, Frames.source 2 (some ⟨text [3, 2, 0, 7, 1, 1, 0, 0] [.bad], false⟩) 2 = ok s ∧
    (do let r ← s.run [[9, 9], [9, 9]]; ok r.2) = ok [[0, 0], [0, 1]] := ⟨_, rfl, by decide⟩

/-- C113, source: sizes that are not positive and unreadable files throw `invalid_argument`; a header that is missing, not
positive or that announces another frame size throws `runtime_error`. -/
theorem C113_source_rejects (K start : Int) :
    (∀ file, K ≤ 0 → Frames.source K file start = exc .invalidArgument) ∧
      (Frames.source K none start = exc .invalidArgument) ∧
      (∀ (n size : Int) (rest : List (Tok Int)), 0 < K → n ≤ 0 ∨ size ≠ K →
        Frames.source K (some ⟨text [n, size] rest, false⟩) start = exc .runtimeError) ∧
      ∀ (toks : List (Tok Int)), 0 < K → Stops toks 0 ∨ Stops toks 1 →
        Frames.source K (some ⟨toks, false⟩) start = exc .runtimeError := by
  refine ⟨fun file h => by unfold Frames.source; rw [if_pos h], ?_, fun n size rest hK h => ?_, fun toks hK h => ?_⟩
  · unfold Frames.source
    by_cases hK : K ≤ 0
    · rw [if_pos hK]
    · rw [if_neg hK]
  · unfold Frames.source
    rw [if_neg (by omega)]
    show (if n ≤ 0 ∨ size ≤ 0 then exc .runtimeError
      else if size = K then _ else exc .runtimeError) = _
    by_cases h1 : n ≤ 0 ∨ size ≤ 0
    · rw [if_pos h1]
    · rw [if_neg h1, if_neg (by omega)]
  · unfold Frames.source
    rw [if_neg (by omega)]
    rcases h with ⟨l, rest, hl, hr, rfl⟩ | ⟨l, rest, hl, hr, rfl⟩
    · match l, hl with
      | [], _ =>
        cases rest with
        | nil => rfl
        | cons t r =>
          rcases hr with hr | hr
          · cases hr
          · cases hr; rfl
    · match l, hl with
      | [n], _ =>
        have : ∀ b : Strm Int × Option Int, b.2.getD 0 = 0 → (if n ≤ 0 ∨ b.2.getD 0 ≤ 0 then exc .runtimeError
          else if b.2.getD 0 = K then
            readRows 0 (fun v : Int => if v ≠ 0 then 1 else 0) (b.2.getD 0).toNat n.toNat b.1 >>= fun r =>
              ok (⟨K.toNat, r.2, start.tmod n⟩ : Frames Nat)
          else exc .runtimeError) = exc .runtimeError := by
          intro b hb
          rw [if_pos (Or.inr (by omega))]
        refine this (Strm.get 0 ⟨rest, false⟩) ?_
        cases rest with
        | nil => rfl
        | cons t r =>
          rcases hr with hr | hr
          · cases hr
          · cases hr; rfl

example : Stops [Tok.num (5 : Int), .bad, .num 3] 1 := ⟨[5], [.bad, .num 3], rfl, Or.inr rfl, rfl⟩

/-- C113, encoder: a file that announces and holds `n` codewords of `N` symbols for messages of `K` bits is accepted when
no positions follow (they are then `0 … K - 1`) or when a title line, the number `K` and `K` different positions follow
(they are then published).  From any nonnegative start index the successive calls give the codewords in order, cyclically. -/
theorem C113_encoder {β : Type} (cast : Int → β) (K N : Nat) (rows : List (List Int)) (start : Nat) (lines : List Line)
    (pos : List Nat) (hK : 0 < K) (hKN : K ≤ N) (h0 : 0 < rows.length) (hm : ∀ r ∈ rows, r.length = N)
    (hl : Line.title ∉ lines ∧ pos = List.range K ∨
      ∃ pre post, lines = pre ++ [.title, .words [.int K], .words (pos.map fun p => .int (p : Nat))] ++ post ∧
        Line.title ∉ pre ∧ pos.length = K ∧ pos.Nodup ∧ (∀ p ∈ pos, p < 2 ^ 31) ∧ K < 2 ^ 31) :
    ∃ s, encoder cast K N (some (⟨text ([(rows.length : Int), (N : Int), (K : Int)] ++ rows.flatten) [], false⟩, lines)) start =
        ok (s, pos) ∧
      ∀ Xs : List (List β), (∀ X ∈ Xs, X.length = N) →
        ∃ s' outs, s.run Xs = ok (s', outs) ∧ outs.length = Xs.length ∧
          ∀ t, t < Xs.length → outs[t]? = (cyclic rows start t).map (List.map cast) := by
  have hinfo : (readInfo lines).getD (List.range K) = pos ∧ pos.length = K := by
    rcases hl with ⟨hl, rfl⟩ | ⟨pre, post, rfl, h1, h2, h3, h4, h5⟩
    · rw [readInfo_none _ hl]; exact ⟨rfl, by simp⟩
    · rw [List.append_assoc, readInfo_skip _ _ h1]
      show ((if (pos.map fun p => Word.int (p : Nat)).length = u32 K then
        readPos (pos.map fun p => Word.int (p : Nat)) [] else none).getD _) = _ ∧ _
      rw [u32_small (by omega), List.length_map, if_pos h2, readPos_ok pos [] (by simpa using h3) fun p hp => by
        have := h4 p hp; omega]
      exact ⟨rfl, h2⟩
  refine ⟨⟨N, rows.map (List.map cast), (start : Int).tmod rows.length⟩, ?_, ?_⟩
  · unfold encoder
    rw [if_neg (by omega), if_neg (by omega), if_neg (by omega)]
    show (if (rows.length : Int) ≤ 0 ∨ (K : Int) ≤ 0 ∨ (N : Int) ≤ 0 then exc .runtimeError
      else if (N : Int) < K then exc .runtimeError
      else if (K : Int) = K ∧ (N : Int) = N then
        readRows 0 cast (N : Int).toNat (rows.length : Int).toNat ⟨text rows.flatten [], false⟩ >>= fun r =>
          if ((((if r.1.fail then none else readInfo lines).getD (List.range (K : Int).toNat)).length : Int)) ≠ K then
            exc .runtimeError
          else ok ((⟨(N : Int).toNat, r.2, (start : Int).tmod rows.length⟩ : Frames β),
            (if r.1.fail then none else readInfo lines).getD (List.range (K : Int).toNat))
      else exc .runtimeError) = _
    rw [if_neg (by omega), if_neg (by omega), if_pos ⟨rfl, rfl⟩, Int.toNat_natCast, Int.toNat_natCast, Int.toNat_natCast,
      readRows_ok _ _ _ _ _ hm, bind_ok]
    show (if (((readInfo lines).getD (List.range K)).length : Int) ≠ K then exc .runtimeError
      else ok (_, (readInfo lines).getD (List.range K))) = _
    rw [hinfo.1, if_neg (by rw [hinfo.2]; simp)]
  · intro Us hU
    obtain ⟨s', outs, h1, h2, h3⟩ := run_eq (s := ⟨N, rows.map (List.map cast), (start : Int).tmod rows.length⟩)
      (rows := rows.map (List.map cast)) (c := start) (m := N)
      ⟨rfl, by rw [List.length_map]; exact (Int.ofNat_tmod start rows.length).symm⟩ (by simpa using h0)
      (fun r hr => by
        obtain ⟨q, hq, rfl⟩ := List.mem_map.mp hr
        rw [List.length_map, hm q hq]) hU
    refine ⟨s', outs, h1, h2, fun t ht => ?_⟩
    rw [h3 t ht]
    unfold cyclic
    rw [List.length_map, List.getElem?_map]

example : (do
    let e ← encoder id 2 3 (some (⟨text [2, 3, 2, 1, 0, 1, 0, 1, 1] [], false⟩,
      [.words [], .words [.other], .title, .words [.int 2], .words [.int 2, .int 0], .title])) 1
    let r ← e.1.run [[9, 9, 9], [9, 9, 9]]
    ok (e.2, r.2)) = ok ([2, 0], [[0, 1, 1], [1, 0, 1]]) := by decide

/-- C113, encoder: whatever the file, the positions published by an accepted encoder are `K` different numbers. -/
theorem C113_encoder_positions {β : Type} (cast : Int → β) (K N : Int) (file : Option (Strm Int × List Line)) (start : Int)
    (s : Frames β) (pos : List Nat) (h : encoder cast K N file start = ok (s, pos)) : (pos.length : Int) = K ∧ pos.Nodup := by
  unfold encoder at h
  by_cases h1 : K ≤ 0
  · rw [if_pos h1] at h; cases h
  rw [if_neg h1] at h
  by_cases h2 : N ≤ 0
  · rw [if_pos h2] at h; cases h
  rw [if_neg h2] at h
  by_cases h3 : K > N
  · rw [if_pos h3] at h; cases h
  rw [if_neg h3] at h
  cases file with
  | none => cases h
  | some f =>
    obtain ⟨f, lines⟩ := f
    dsimp only at h
    generalize f.get 0 = a at h
    generalize a.1.get 0 = b at h
    generalize b.1.get 0 = c at h
    by_cases h4 : a.2.getD 0 ≤ 0 ∨ c.2.getD 0 ≤ 0 ∨ b.2.getD 0 ≤ 0
    · rw [if_pos h4] at h; cases h
    rw [if_neg h4] at h
    by_cases h5 : b.2.getD 0 < c.2.getD 0
    · rw [if_pos h5] at h; cases h
    rw [if_neg h5] at h
    by_cases h6 : c.2.getD 0 = K ∧ b.2.getD 0 = N
    · rw [if_pos h6] at h
      cases hr : readRows 0 cast (b.2.getD 0).toNat (a.2.getD 0).toNat c.1 with
      | exc e => rw [hr] at h; cases h
      | ub => rw [hr] at h; cases h
      | ok r =>
        rw [hr, bind_ok] at h
        by_cases h7 : (((if r.1.fail then none else readInfo lines).getD (List.range K.toNat)).length : Int) ≠ K
        · rw [if_pos h7] at h; cases h
        · rw [if_neg h7] at h
          cases h
          refine ⟨by simpa using h7, ?_⟩
          cases hi : (if r.1.fail then none else readInfo lines) with
          | none => exact List.nodup_range
          | some l =>
            cases hf : r.1.fail with
            | true => rw [hf] at hi; cases hi
            | false => rw [hf] at hi; exact readInfo_nodup _ _ hi
    · rw [if_neg h6] at h; cases h

/-! ## C113: files of noise -/

variable {R : Type}

/-- C113, channels: a text file that announces and holds `n` frames of `N` values is accepted. -/
theorem C113_channel_file (zero : R) (N frames : Nat) (rows : List (List R)) (rest : List (Tok R)) (eol users : Bool)
    (binary : Exec (List (List R))) (hN : 0 < N) (h0 : 0 < rows.length) (h32 : rows.length < 2 ^ 32)
    (hm : ∀ r ∈ rows, r.length = N) :
    Chan.mk? zero N frames (some ⟨some rows.length, some N, text rows.flatten rest, eol⟩) binary users =
      ok ⟨N, frames, rows, 0, users, List.replicate (N * frames) zero⟩ := by
  have hu : u32 ((rows.length : Nat) : Int) = rows.length := u32_small h32
  unfold Chan.mk? readText
  rw [if_neg (by omega)]
  simp only [Option.getD_some, hu, Int.toNat_natCast, reduceCtorEq, if_false, if_true]
  rw [if_neg (by omega), noiseRows_ok _ _ _ _ _ hm]
  rfl

/-- C113, channels: after any number of frames the channels use the frames of noise in order, cyclically: the user channel
outputs the noise, the additive one the sum of the input and the noise (both with one frame per wave), the erasure
channel erases the values whose noise is not zero and keeps the others, whatever the size of the registers. -/
theorem C113_channels (zero erased : R) (add : R → R → R) (bits : R → Nat) (L N frames : Nat) (hL : 0 < L)
    (rows : List (List R)) (users : Bool) (h0 : 0 < rows.length) (hm : ∀ r ∈ rows, r.length = N)
    (ops : List (Nat × List R × List R)) (ho : ∀ o ∈ ops, o.1 < frames ∧ o.2.1.length = N ∧ o.2.2.length = N) :
    let c : Chan R := ⟨N, frames, rows, 0, users, List.replicate (N * frames) zero⟩
    let gives := fun (noise : Chan R → Nat → List R → List R → Exec (Chan R × List R)) (g : R → R → R) =>
      ∃ c' outs, c.run noise ops = ok (c', outs) ∧ outs.length = ops.length ∧
        ∀ k f X Y, ops[k]? = some (f, X, Y) → ∃ row, cyclic rows 0 k = some row ∧ outs[k]? = some (List.zipWith g X row)
    (¬ (users = true ∧ frames > 1) → gives Chan.replace (fun _ e => e)) ∧
      (¬ (users = true ∧ frames > 1) → gives (Chan.add zero add) add) ∧
      gives (Chan.erase bits erased L) (fun x e => if bits e = 0 then x else erased) := by
  have hc : COk (⟨N, frames, rows, 0, users, List.replicate (N * frames) zero⟩ : Chan R) N frames rows users 0 :=
    ⟨rfl, rfl, rfl, rfl, (Nat.zero_mod _).symm, by simp⟩
  exact ⟨fun hu => chan_run (replace_handles h0 hm hu) hc ho, fun hu => chan_run (add_handles h0 hm hu) hc ho,
    chan_run (erase_handles hL h0 hm) hc ho⟩

example : (do
    let c ← Chan.mk? (0 : Int) 3 2 (some ⟨some 2, some 3, text [10, 20, 30, -1, -2, -3] [], true⟩) ub false
    let r ← c.run (Chan.add 0 (· + ·)) [(0, [1, 2, 3], [9, 9, 9]), (1, [4, 5, 6], [9, 9, 9]), (0, [0, 0, 0], [9, 9, 9])]
    ok r.2) = ok [[11, 22, 33], [3, 3, 3], [10, 20, 30]] := by decide

/-- C113, binary symmetric channel: the bits whose noise is not zero are flipped and the others kept, when the frame size is
a multiple of the register size or the noise is made of the integers 0 and 1 (the other cases are in C114). -/
theorem C113_flip (zero one : R) (isZero : R → Bool) (bits : R → Nat) (L N frames : Nat) (hL : 0 < L)
    (rows : List (List R)) (users : Bool) (h0 : 0 < rows.length) (hm : ∀ r ∈ rows, r.length = N)
    (hb : L ∣ N ∨ ∀ r ∈ rows, ∀ e ∈ r, bits e ≤ 1)
    (ops : List (Nat × List R × List R)) (ho : ∀ o ∈ ops, o.1 < frames ∧ o.2.1.length = N ∧ o.2.2.length = N) :
    ∃ c' outs, Chan.run (Chan.flip bits isZero zero one L) ⟨N, frames, rows, 0, users, List.replicate (N * frames) zero⟩ ops =
        ok (c', outs) ∧ outs.length = ops.length ∧
      ∀ k f X Y, ops[k]? = some (f, X, Y) → ∃ row, cyclic rows 0 k = some row ∧ outs[k]? = some (List.zipWith
        (fun x e => if bits e = 0 then (if isZero x then zero else one) else (if isZero x then one else zero)) X row) :=
  chan_run (flip_handles hL h0 hm hb) ⟨rfl, rfl, rfl, rfl, (Nat.zero_mod _).symm, by simp⟩ ho

example : (do
    let r ← Chan.run (R := Nat) (Chan.flip id (· == 0) 0 1 2) ⟨4, 1, [[5, 0, 5, 0]], 0, false, [0, 0, 0, 0]⟩
      [(0, [0, 0, 1, 1], [9, 9, 9, 9])]
    ok r.2) = ok [[1, 0, 0, 1]] := by decide

/-! ## C113: the fast random source -/

/-- C113, random source: the frame is made of bits of the generators, each used once: position `p` of the vector part is bit
`(p mod Lw) / L` of lane `p mod L` of its draw, position `p` of the rest is bit `p mod w` of scalar draw `p / w`; the
next frame starts with draws that have not been used. -/
theorem C113_random_fast (g : Gens) (L w K : Nat) (hL : 0 < L) (hw : 0 < w) (d : Draws) (U : List Nat) (hU : U.length = K) :
    ∃ d' o, randomFast g L w K d U = ok (d', o) ∧ o.length = K ∧ (∀ b ∈ o, b = 0 ∨ b = 1) ∧
      (∀ p, p < K / (L * w) * (L * w) → d.v + p / (L * w) < d'.v ∧
        o[p]? = some ((g.vec (d.v + p / (L * w)) (p % L)).testBit (p % (L * w) / L)).toNat) ∧
      (∀ p, K / (L * w) * (L * w) + p < K → d.s + p / w < d'.s ∧
        o[K / (L * w) * (L * w) + p]? = some ((g.sca (d.s + p / w)).testBit (p % w)).toNat) := by
  obtain ⟨d', o, e, hd, h1, h2, h3⟩ := randomFast_eq g hL hw d hU
  have hP : 0 < L * w := Nat.mul_pos hL hw
  have hKV := Nat.div_add_mod' K (L * w)
  refine ⟨d', o, e, h1, fun b hb => ?_, fun p hp => ⟨?_, h2 p hp⟩, fun p hp => ⟨?_, h3 p hp⟩⟩
  · obtain ⟨i, hi, rfl⟩ := List.getElem_of_mem hb
    have hv : o[i]? = some o[i] := List.getElem?_eq_getElem hi
    by_cases hlt : i < K / (L * w) * (L * w)
    · rw [h2 i hlt] at hv
      rw [← Option.some.inj hv]
      cases Nat.testBit _ _ <;> simp
    · obtain ⟨p, rfl⟩ : ∃ p, i = K / (L * w) * (L * w) + p := ⟨i - K / (L * w) * (L * w), by omega⟩
      rw [h3 p (by omega)] at hv
      rw [← Option.some.inj hv]
      cases Nat.testBit _ _ <;> simp
  · rw [hd]
    exact Nat.add_lt_add_left ((Nat.div_lt_iff_lt_mul hP).mpr hp) _
  · rw [hd]
    refine Nat.add_lt_add_left ?_ _
    rw [Nat.div_lt_iff_lt_mul hw]
    have h := Nat.div_add_mod' (K % (L * w) + (w - 1)) w
    have := Nat.mod_lt (K % (L * w) + (w - 1)) hw
    omega

/-- C113, random source: with bits of at most 32 bits every message can be drawn, after any number of frames, by generators
of 32-bit numbers. -/
theorem C113_random_fast_all (L w K : Nat) (hL : 0 < L) (hw : 0 < w) (hw' : w ≤ 32) (d : Draws) (u U : List Nat)
    (hu : u.length = K) (hb : ∀ b ∈ u, b = 0 ∨ b = 1) (hU : U.length = K) :
    ∃ g : Gens, (∀ i l, g.vec i l < 2 ^ w) ∧ (∀ i, g.sca i < 2 ^ 32) ∧ ∃ d', randomFast g L w K d U = ok (d', u) := by
  have hP : 0 < L * w := Nat.mul_pos hL hw
  have hvec : ∀ i l, ∃ x, x < 2 ^ w ∧ ∀ j, j < w → x.testBit j = decide (u.getD ((i - d.v) * (L * w) + (j * L + l)) 0 = 1) :=
    fun i l => exists_bits _ w
  have hsca : ∀ i, ∃ x, x < 2 ^ 32 ∧ ∀ j, j < 32 →
      x.testBit j = decide (u.getD (K / (L * w) * (L * w) + ((i - d.s) * w + j)) 0 = 1) :=
    fun i => exists_bits _ 32
  choose vec hv using hvec
  choose sca hs using hsca
  refine ⟨⟨vec, sca⟩, fun i l => (hv i l).1, fun i => (hs i).1, ?_⟩
  obtain ⟨d', o, e, -, h1, h2, h3⟩ := randomFast_eq ⟨vec, sca⟩ hL hw d hU
  refine ⟨d', ?_⟩
  rw [e]
  congr 2
  apply List.ext_getElem?
  intro i
  by_cases hi : i < K
  · have hui : u[i]? = some u[i] := List.getElem?_eq_getElem (by omega)
    have hval : (decide (u.getD i 0 = 1)).toNat = u[i] := by
      rw [getD_lt 0 (by omega)]
      rcases hb u[i] (List.getElem_mem _) with h | h <;> rw [h] <;> rfl
    rw [hui, ← hval]
    by_cases hlt : i < K / (L * w) * (L * w)
    · rw [h2 i hlt, (hv _ _).2 _ (by rw [Nat.div_lt_iff_lt_mul hL, Nat.mul_comm w L]; exact Nat.mod_lt _ hP)]
      have e2 : i % (L * w) / L * L + i % L = i % (L * w) := by
        have := Nat.div_add_mod' (i % (L * w)) L
        rw [Nat.mod_mul_right_mod] at this
        exact this
      rw [Nat.add_sub_cancel_left, e2, Nat.div_add_mod']
    · obtain ⟨p, rfl⟩ : ∃ p, i = K / (L * w) * (L * w) + p := ⟨i - K / (L * w) * (L * w), by omega⟩
      rw [h3 p hi, (hs _).2 _ (by have := Nat.mod_lt p hw; omega), Nat.add_sub_cancel_left, Nat.div_add_mod']
  · rw [List.getElem?_eq_none (by omega), List.getElem?_eq_none (by omega)]

example : randomFast ⟨fun d l => 2 * d + l, fun d => 5 + d⟩ 2 2 11 ⟨0, 0⟩ (List.replicate 11 9) =
    ok (⟨2, 2⟩, [0, 1, 0, 0, 0, 1, 1, 1, 1, 0, 0]) := by decide

/-! ## C114: what goes wrong -/

/-- C114: a file of bits with fewer numbers than announced makes the constructor use a variable that is not initialised,
whatever the file, except when a single token that is not a number takes the place of the last number: it is then
accepted, as a zero. -/
theorem C114_source_short (n K : Nat) (hn : 0 < n) (hK : 0 < K) (vals : List Int) (start : Int) :
    (vals.length < n * K → Frames.source K (some ⟨text ([(n : Int), (K : Int)] ++ vals) [], false⟩) start = ub) ∧
      (vals.length + 1 < n * K → ∀ rest, Frames.source K (some ⟨text ([(n : Int), (K : Int)] ++ vals) (.bad :: rest), false⟩) start = ub) ∧
      ∃ s, Frames.source 2 (some ⟨text [1, 2, 1] [.bad], false⟩) 0 = ok s ∧ s.rows = [[1, 0]] := by
  have key : ∀ rest : List (Tok Int), readRow 0 (fun v : Int => if v ≠ 0 then 1 else 0) (n * K) ⟨text vals rest, false⟩ = ub →
      Frames.source K (some ⟨text ([(n : Int), (K : Int)] ++ vals) rest, false⟩) start = ub := by
    intro rest h
    unfold Frames.source
    rw [if_neg (by omega)]
    show (if (n : Int) ≤ 0 ∨ (K : Int) ≤ 0 then exc .runtimeError
      else if (K : Int) = K then
        readRows 0 (fun v : Int => if v ≠ 0 then 1 else 0) (K : Int).toNat (n : Int).toNat
          ⟨text vals rest, false⟩ >>= fun r => ok (⟨(K : Int).toNat, r.2, start.tmod n⟩ : Frames Nat)
      else exc .runtimeError) = _
    rw [if_neg (by omega), if_pos rfl, Int.toNat_natCast, Int.toNat_natCast, readRows_ub _ _ _ _ _ h]
    rfl
  exact ⟨fun h => key [] (readRow_short _ _ _ _ (Or.inl ⟨rfl, h⟩)),
    fun h rest => key _ (readRow_short _ _ _ _ (Or.inr ⟨rfl, h⟩)), _, rfl, rfl⟩

/-- C114: a start index that is negative and not a multiple of the number of frames is accepted, and the first call reads
before the first frame, for every file. -/
theorem C114_negative_start (K : Nat) (rows : List (List Int)) (rest : List (Tok Int)) (start : Int) (hK : 0 < K)
    (h0 : 0 < rows.length) (hm : ∀ r ∈ rows, r.length = K) (hs : start < 0) (hd : ¬ (rows.length : Int) ∣ start) :
    ∃ s, Frames.source K (some ⟨text ([(rows.length : Int), (K : Int)] ++ rows.flatten) rest, false⟩) start = ok s ∧
      ∀ U, s.next U = ub := by
  refine ⟨⟨K, rows.map (List.map fun v => if v ≠ 0 then 1 else 0), start.tmod rows.length⟩, ?_, fun U => ?_⟩
  · unfold Frames.source
    rw [if_neg (by omega)]
    show (if (rows.length : Int) ≤ 0 ∨ (K : Int) ≤ 0 then exc .runtimeError
      else if (K : Int) = K then
        readRows 0 (fun v : Int => if v ≠ 0 then 1 else 0) (K : Int).toNat (rows.length : Int).toNat
          ⟨text rows.flatten rest, false⟩ >>= fun r => ok (⟨(K : Int).toNat, r.2, start.tmod rows.length⟩ : Frames Nat)
      else exc .runtimeError) = _
    rw [if_neg (by omega), if_pos rfl, Int.toNat_natCast, Int.toNat_natCast, readRows_ok _ _ _ _ _ hm, bind_ok]
  · unfold Frames.next
    rw [if_pos]
    show start.tmod rows.length < 0
    have h1 : start.tmod rows.length ≤ 0 := by
      have := Int.tmod_nonneg (a := -start) (rows.length : Int) (by omega)
      rw [Int.neg_tmod] at this
      omega
    have h2 : start.tmod rows.length ≠ 0 := fun h => hd (Int.dvd_of_tmod_eq_zero h)
    omega

example : Frames.source 1 (some ⟨text [2, 1, 0, 1] [], false⟩) (-1) = ok ⟨1, [[0], [1]], -1⟩ := by decide

/-- C114: the encoder accepts and publishes information positions outside the codeword, and silently replaces a section
that it cannot read by the first positions. -/
theorem C114_encoder_positions :
    (encoder id 2 3 (some (⟨text [1, 3, 2, 1, 0, 1] [], false⟩,
      [.words [], .title, .words [.int 2], .words [.int 7, .int (-1)]])) 0 = ok (⟨3, [[1, 0, 1]], 0⟩, [7, 4294967295])) ∧
    encoder id 2 3 (some (⟨text [1, 3, 2, 1, 0, 1] [], false⟩,
      [.words [], .title, .words [.int 2], .words [.int 2, .int 2]])) 0 = ok (⟨3, [[1, 0, 1]], 0⟩, [0, 1]) := by
  constructor <;> decide

/-- C114: a text file of noise with fewer values than announced and an end of line after the last one makes the constructor
use a variable that is not initialised, whatever the file. -/
theorem C114_noise_short (zero : R) (N n frames : Nat) (vals : List R) (users : Bool) (binary : Exec (List (List R))) (hN : 0 < N)
    (hn : 0 < n) (h32 : n < 2 ^ 32) (h : vals.length < n * N) :
    Chan.mk? zero N frames (some ⟨some n, some N, text vals [], true⟩) binary users = ub := by
  have hu : u32 ((n : Nat) : Int) = n := u32_small h32
  unfold Chan.mk? readText
  rw [if_neg (by omega)]
  simp only [Option.getD_some, hu, Int.toNat_natCast, reduceCtorEq, if_false, if_true]
  rw [if_neg (by omega), noiseRows_eol, readRows_ub _ _ _ _ _ (readRow_short _ _ _ _ (Or.inl ⟨rfl, h⟩))]
  rfl

/-- C114: when the users are added, the additive channel outputs the sum of the users without any noise, whatever the
noise. -/
theorem C114_add_users (zero : R) (add : R → R → R) (N frames : Nat) (hf : 1 < frames) (rows : List (List R))
    (h0 : 0 < rows.length) (hm : ∀ r ∈ rows, r.length = N) (X Y : List R) (hX : X.length = frames * N) (hY : Y.length = N) :
    ∃ c' o, Chan.add zero add ⟨N, frames, rows, 0, true, List.replicate (N * frames) zero⟩ 0 X Y = ok (c', o) ∧
      o = (List.range N).map fun i => (List.range frames).foldl (fun a g => add a (X.getD (g * N + i) zero)) zero := by
  have hc : COk (⟨N, frames, rows, 0, true, List.replicate (N * frames) zero⟩ : Chan R) N frames rows true 0 :=
    ⟨rfl, rfl, rfl, rfl, (Nat.zero_mod _).symm, by simp⟩
  obtain ⟨c', row, e, h1, h2, h3, h4⟩ := setNoise_eq hc h0 hm (f := 0) (by omega)
  have hNf : N ≤ N * frames := Nat.le_mul_of_pos_right _ (by omega)
  obtain ⟨o1, e1, l1, -⟩ := copyTo_sat (src := c'.noised) (so := 0) (n := N) (dst := Y) (d := 0)
    (by rw [h1.len]; omega) (by omega)
  have e2 := Extractor.store_eq (n := N) (out := o1) (g := fun _ => zero) (f := fun i Y => wr Y i zero) (fun _ _ _ => rfl) (by omega)
  have e3 : (forN frames (fun g Y => forN N (fun i Y => do
      let a ← rd Y i
      let x ← rd X (g * N + i)
      wr Y i (add a x)) Y) ((List.range N).map fun _ => zero)).Sat fun o =>
      o = (List.range N).map fun i => (List.range frames).foldl (fun a g => add a (X.getD (g * N + i) zero)) zero := by
    refine forN_inv (fun k (o : List R) => o = (List.range N).map fun i =>
      (List.range k).foldl (fun a g => add a (X.getD (g * N + i) zero)) zero) rfl ?_
    rintro k o hk rfl
    refine Sat.mono (forN_inv (fun m (o : List R) => o.length = N ∧ ∀ i, i < N → o[i]? = some
      ((List.range (if i < m then k + 1 else k)).foldl (fun a g => add a (X.getD (g * N + i) zero)) zero)) ⟨by simp, ?_⟩ ?_) ?_
    · intro i hi
      rw [getElem?_mapRange, if_pos hi, if_neg (by omega)]
    · rintro m o hm' ⟨a, b⟩
      have hx : k * N + m < X.length := by
        rw [hX]
        calc k * N + m < k * N + N := by omega
          _ = (k + 1) * N := by rw [Nat.succ_mul]
          _ ≤ frames * N := Nat.mul_le_mul_right _ hk
      have hb := b m hm'
      rw [if_neg (by omega)] at hb
      rw [rd_eq hb, bind_ok, rd_lt hx, bind_ok, wr_lt (by omega), sat_ok]
      refine ⟨by rw [List.length_set, a], fun i hi => ?_⟩
      by_cases him : i = m
      · subst him
        rw [List.getElem?_set_self (by omega), if_pos (by omega), List.range_succ, List.foldl_append]
        rw [List.foldl_cons, List.foldl_nil, getD_lt zero hx]
      · rw [List.getElem?_set_ne (by omega), b i hi]
        by_cases hlt : i < m
        · rw [if_pos hlt, if_pos (by omega)]
        · rw [if_neg hlt, if_neg (by omega)]
    · rintro o ⟨a, b⟩
      exact eq_mapRange a fun i hi => by rw [b i hi, if_pos hi]
  obtain ⟨o3, e3, rfl⟩ := e3
  refine ⟨c', _, ?_, rfl⟩
  unfold Chan.add
  rw [if_pos ⟨rfl, hf⟩, e, bind_ok, h1.n, e1, bind_ok, e2, bind_ok, h1.fr, e3, bind_ok]

/-- C114: in the end of a frame that does not fill a register, the binary symmetric channel never flips a zero whose noise
is neither 0 nor the integer 1, for instance the number 1 read from a text file as a `float`. -/
theorem C114_flip_tail (zero one : R) (isZero : R → Bool) (bits : R → Nat) (L N : Nat) (hL : 0 < L) (row X Y : List R)
    (hr : row.length = N) (hX : X.length = N) (hY : Y.length = N) (i : Nat) (hi : N / L * L ≤ i) (x e : R)
    (hx : X[i]? = some x) (he : row[i]? = some e) (hz : isZero x = true) (hb : 1 < bits e) :
    ∃ c' o, Chan.flip bits isZero zero one L ⟨N, 1, [row], 0, false, List.replicate (N * 1) zero⟩ 0 X Y = ok (c', o) ∧
      o[i]? = some zero := by
  have hc : COk (⟨N, 1, [row], 0, false, List.replicate (N * 1) zero⟩ : Chan R) N 1 [row] false 0 :=
    ⟨rfl, rfl, rfl, rfl, rfl, by simp⟩
  obtain ⟨c', row', o, e1, -, h2, h3, l1, l2⟩ := flip_eq (bits := bits) (isZero := isZero) (zero := zero) (one := one) hL
    (by simp) (by simpa using hr) hc (f := 0) (by omega) hX hY
  cases h2
  refine ⟨c', o, e1, ?_⟩
  have hiN : i < N := by
    rw [← hX]; exact (List.getElem?_eq_some_iff.mp hx).1
  rw [l2 i x e hiN hx he, if_neg (by omega)]
  unfold flipScalar
  rw [hz, if_pos rfl, if_pos (by omega)]

/-- The numbers of a text file as 32-bit floats: the memory of `1.0f` is the integer `0x3f800000`. -/
example : (Chan.flip (R := Nat) id (fun x => x == 0 || x == 0x80000000) 0 0x3f800000 8
    ⟨2, 1, [[0x3f800000, 0x3f800000]], 0, false, [0, 0]⟩ 0 [0, 0x3f800000] [9, 9] >>= fun r => ok r.2) = ok [0, 0] := by decide

/-- C114: with 64-bit bits, half of the bits after the vector part are always zero, whatever the generators. -/
theorem C114_random_64 (g : Gens) (hg : ∀ i, g.sca i < 2 ^ 32) (L K : Nat) (hL : 0 < L) (d : Draws) (U : List Nat) (hU : U.length = K)
    (p : Nat) (hp : K / (L * 64) * (L * 64) + p < K) (hp' : 32 ≤ p % 64) :
    ∃ d' o, randomFast g L 64 K d U = ok (d', o) ∧ o[K / (L * 64) * (L * 64) + p]? = some 0 := by
  obtain ⟨d', o, e, -, -, -, h3⟩ := randomFast_eq g hL (w := 64) (by omega) d hU
  refine ⟨d', o, e, ?_⟩
  rw [h3 p hp, Nat.testBit_lt_two_pow]
  · rfl
  · exact Nat.lt_of_lt_of_le (hg _) (Nat.pow_le_pow_right (by omega) hp')

end Verif.User
