import Verif.Proof.BCHDecUse
import Verif.Props.BCH

/-! # C67, C68: the algebraic BCH decoder -/

namespace Verif.BCHDec
open Exec Polynomial Verif.Galois Verif.BCH

/-! ## C67 -/

/-- Which decoders can be built. -/
theorem C67_accepted (K N : Int) (gen : Gen) (hN : N < 2 ^ 30) : (∃ d, Dec.mk? K N gen = ok d) ↔
    3 < K ∧ K ≤ N ∧ N - K = (gen.g.length : Int) - 1 := by
  constructor
  · rintro ⟨d, h⟩
    obtain ⟨h1, h2, h3, _⟩ := mk_dec h
    exact ⟨h1, h2, h3⟩
  · rintro ⟨h1, h2, h3⟩
    have hp : ∃ p, nextPow2 N.toNat 31 1 = ok p := by
      have hx : N.toNat < 2 ^ (Nat.log2 N.toNat + 1) := Nat.lt_log2_self
      have hl : 2 ^ Nat.log2 N.toNat ≤ N.toNat := Nat.log2_self_le (by omega)
      have hm : Nat.log2 N.toNat < 30 := by
        rw [Nat.log2_lt (by omega)]; omega
      exact ⟨_, nextPow2_sat hx (by rw [Nat.add_sub_cancel]; exact hl) 31 0 (by omega) (by omega)⟩
    obtain ⟨p, hp⟩ := hp
    unfold Dec.mk?
    rw [if_neg (by omega), if_neg (by omega), if_neg (by omega), hp, bind_ok, if_neg (by omega), if_neg (by omega)]
    exact ⟨_, rfl⟩

/-- Bounded distance decoding: after any history, a call announces a success exactly when a codeword of the full code
is at most `t` errors away from the received word, and outputs (its beginning, or its message part); otherwise it
outputs the received bits. -/
theorem C67_decode (w : Nat) (M t : Int) (p : List Nat) (gen : Gen) (K N : Int) (d : Dec) (h : Usable w M t p gen K N d)
    (R : Type) (neg : R → Bool) (b : Buf) (hb : Reach neg d b) (k : Call R) (hk : k.Ok d.N) (yh v : List Nat) (hyh : yh.length = d.N)
    (hv : v.length = if k.cw then d.N else d.K) :
    ∃ o, k.run neg d b yh v = ok o ∧ Reach neg d o.buf ∧ (o.success = true ↔ ∃ c, Within gen (k.hard neg) c) ∧
      (∀ c, Within gen (k.hard neg) c → o.v = k.part d (c.take d.N)) ∧ (o.success = false → o.v = k.part d (k.hard neg)) ∧
      o.cwd = (if o.success then 1 else 0) := by
  have F := facts h
  obtain ⟨o, h1, _, h3, h4, h5, h6⟩ := run_sat (neg := neg) F (reach_size F hb) hk hyh hv
  exact ⟨o, h1, .call k yh v hb hk hyh hv h1, ⟨h4, fun ⟨c, hc⟩ => (h3 c hc).1⟩, fun c hc => (h3 c hc).2, h5, h6⟩

theorem within_of {gen : Gen} {K N : Int} {d : Dec} (F : Facts gen K N d) {y c : List Nat} (hy : y.length = d.N) (hc : c.length = d.N)
    (hcb : IsBin c) (hd : bitPoly gen.g ∣ bitPoly c) (hh : hamming y c ≤ gen.t) :
    Within gen y (c ++ List.replicate (gen.gf.N - d.N) 0) := by
  haveI := fact_irr F.G
  have hle := F.len
  have hlen : (c ++ List.replicate (gen.gf.N - d.N) 0).length = gen.gf.N := by rw [List.length_append, List.length_replicate]; omega
  have hbin : IsBin (c ++ List.replicate (gen.gf.N - d.N) 0) := by
    intro v hv
    rcases List.mem_append.1 hv with h1 | h1
    · exact hcb v h1
    · exact Or.inl (List.eq_of_mem_replicate h1)
  refine ⟨hlen, hbin, ?_, ?_⟩
  · rw [dvd_syn F.G F.g F.t2 hbin]
    intro k h1 h2
    rw [← (dvd_syn F.G F.g F.t2 hcb).1 hd k h1 h2, syndrome_wide (c := ⟨gen.gf, 0, 0⟩) hlen.le, syndrome_wide (c := ⟨gen.gf, 0, 0⟩) (y := c) (N := gen.gf.N) (by omega)]
    refine Finset.sum_congr rfl fun p _ => ?_
    rw [pad_getD]
  · rw [hamming_diff (by omega) hlen]
    refine le_trans ?_ hh
    have e := hamming_diff (y := y) (w := c) (N := d.N) (by omega) hc
    rw [hy, Nat.sub_self, List.replicate_zero, List.append_nil] at e
    rw [e]
    refine Finset.card_le_card fun p hp => ?_
    obtain ⟨h1, h2⟩ := Finset.mem_filter.1 hp
    rw [pad_getD] at h2
    refine Finset.mem_filter.2 ⟨Finset.mem_range.2 ?_, h2⟩
    by_contra hcc
    apply h2
    rw [List.getD_eq_getElem?_getD, List.getD_eq_getElem?_getD, List.getElem?_eq_none (by omega), List.getElem?_eq_none (by omega)]

/-- Up to `t` errors are corrected: when the received bits differ from a codeword of length `N` in at most `t` positions,
the call succeeds, announces a codeword, and outputs this codeword (or its message part). -/
theorem C67_corrects (w : Nat) (M t : Int) (p : List Nat) (gen : Gen) (K N : Int) (d : Dec) (h : Usable w M t p gen K N d)
    (R : Type) (neg : R → Bool) (b : Buf) (hb : Reach neg d b) (k : Call R) (hk : k.Ok d.N) (yh v : List Nat) (hyh : yh.length = d.N)
    (hv : v.length = if k.cw then d.N else d.K) (c : List Nat) (hc : c.length = d.N) (hcb : IsBin c)
    (hcw : bitPoly gen.g ∣ bitPoly c) (hnear : hamming (k.hard neg) c ≤ gen.t) :
    ∃ o, k.run neg d b yh v = ok o ∧ o.success = true ∧ o.cwd = 1 ∧ o.v = k.part d c := by
  obtain ⟨o, h1, _, h3, h4, _, h6⟩ := C67_decode w M t p gen K N d h R neg b hb k hk yh v hyh hv
  have hw := within_of (facts h) (hard_ok (neg := neg) hk).1 hc hcb hcw hnear
  have hs := h3.2 ⟨_, hw⟩
  refine ⟨o, h1, hs, by rw [h6, hs]; rfl, ?_⟩
  rw [h4 _ hw, ← hc, List.take_left]

/-- With the codes of the full length the announced codeword is one: success means that the output of a codeword task is
a codeword at most `t` errors away from the received bits. -/
theorem C67_full_length (w : Nat) (M t : Int) (p : List Nat) (gen : Gen) (K N : Int) (d : Dec) (h : Usable w M t p gen K N d)
    (hfull : N = gen.gf.N) (R : Type) (neg : R → Bool) (b : Buf) (hb : Reach neg d b) (k : Call R) (hk : k.Ok d.N) (hcw : k.cw = true)
    (yh v : List Nat) (hyh : yh.length = d.N) (hv : v.length = d.N) :
    ∃ o, k.run neg d b yh v = ok o ∧ o.cwd = (if o.success then 1 else 0) ∧
      (o.success = true → o.v.length = d.N ∧ IsBin o.v ∧ bitPoly gen.g ∣ bitPoly o.v ∧ hamming (k.hard neg) o.v ≤ gen.t) ∧
      (o.success = false → o.v = k.hard neg) ∧
      (o.success = true ↔ ∃ c : List Nat, c.length = d.N ∧ IsBin c ∧ bitPoly gen.g ∣ bitPoly c ∧ hamming (k.hard neg) c ≤ gen.t) := by
  obtain ⟨o, h1, _, h3, h4, h5, h6⟩ := C67_decode w M t p gen K N d h R neg b hb k hk yh v hyh (by rw [hcw, if_pos rfl]; exact hv)
  have F := facts h
  have hdN : d.N = gen.gf.N := by rw [F.N, hfull]; rfl
  have hlen := (hard_ok (neg := neg) hk).1
  have hpart : ∀ x, k.part d x = x := fun x => by unfold Call.part; rw [if_pos hcw]
  have hwi : ∀ c, Within gen (k.hard neg) c → c.length = d.N ∧ IsBin c ∧ bitPoly gen.g ∣ bitPoly c ∧ hamming (k.hard neg) c ≤ gen.t := by
    rintro c ⟨g1, g2, g3, g4⟩
    rw [hlen, hdN, Nat.sub_self, List.replicate_zero, List.append_nil] at g4
    exact ⟨by omega, g2, g3, g4⟩
  refine ⟨o, h1, h6, fun hs => ?_, fun hf => by rw [h5 hf, hpart], ⟨fun hs => ?_, ?_⟩⟩
  · obtain ⟨c, hc⟩ := h3.1 hs
    have hh := hwi c hc
    have : o.v = c := by rw [h4 c hc, hpart, ← hh.1, List.take_length]
    rw [this]
    exact hh
  · obtain ⟨c, hc⟩ := h3.1 hs
    exact ⟨c, hwi c hc⟩
  · rintro ⟨c, g1, g2, g3, g4⟩
    have hw := within_of F hlen g1 g2 g3 g4
    exact h3.2 ⟨_, hw⟩

/-- Encoder, then at most `t` errors, then decoder: the message comes back. -/
theorem C67_roundtrip (w : Nat) (M t : Int) (p : List Nat) (gen : Gen) (K N : Int) (d : Dec) (h : Usable w M t p gen K N d)
    (e : Enc) (he : Enc.mk? K N gen = ok e) (u x c : List Nat) (hu : u.length = K.toNat) (hub : IsBin u) (hx : x.length = N.toNat)
    (henc : encode e u x = ok c) (y : List Nat) (hy : y.length = N.toNat) (hyb : IsBin y) (herr : hamming y c ≤ gen.t) (b : Buf)
    (hb : Reach (R := Unit) (fun _ => false) d b) (yh v : List Nat) (hyh : yh.length = N.toNat) (hv : v.length = K.toNat) :
    ∃ o, decodeHiho d b y yh v = ok o ∧ o.success = true ∧ o.v = u := by
  have F := facts h
  obtain ⟨h1, h2, h3, e1⟩ := mk_enc he
  have hK : e.K = K.toNat := by rw [e1]
  have hN : e.N = N.toNat := by rw [e1]
  have hr : e.r = gen.g.length - 1 := by rw [e1]
  obtain ⟨c', hc', q1, q2, q3, q4⟩ := encode_sat he F.g (u := u) (x := x) (by omega) hub (by omega)
  rw [henc] at hc'
  injection hc' with hc'
  subst hc'
  have hdN := F.N
  have hdK := F.K
  obtain ⟨o, g1, g2, _, g4⟩ := C67_corrects w M t p gen K N d h Unit (fun _ => false) b hb (.hiho y) ⟨by omega, hyb⟩ yh v (by omega)
    (by show v.length = d.K; omega) c (by omega) q2 q4 herr
  refine ⟨o, g1, g2, ?_⟩
  rw [g4]
  show c.drop (d.N - d.K) = u
  refine List.ext_getElem? fun i => ?_
  rw [List.getElem?_drop]
  by_cases hi : i < e.K
  · rw [← q3 i hi]
    congr 1
    omega
  · rw [List.getElem?_eq_none (by omega), List.getElem?_eq_none (by omega)]

/-- A decoder of the (15, 7) code with `t = 2`. -/
def dec15 : Dec := ⟨7, 15, gen15.gf, 15, 2⟩

/-- A decoder of the same code shortened to (12, 4). -/
def dec12 : Dec := ⟨4, 12, gen15.gf, 15, 2⟩

theorem usable15 : Usable 32 15 2 [] gen15 7 15 dec15 where
  made := by decide +kernel
  width := by decide
  prim := selectPoly_primitive (m := 4) (by omega) (by omega)
  dec := by decide +kernel
  low := by decide
  high := by decide
  int := by decide

theorem usable12 : Usable 32 15 2 [] gen15 4 12 dec12 where
  made := by decide +kernel
  width := by decide
  prim := selectPoly_primitive (m := 4) (by omega) (by omega)
  dec := by decide +kernel
  low := by decide
  high := by decide
  int := by decide

/-- What a caller sees. -/
def seen (x : Exec Out) : Option (Bool × Nat × List Nat) := match x with | .ok o => some (o.success, o.cwd, o.v) | _ => none

/-- Two errors, on the codeword of the example of C16; then three errors, detected. -/
example : seen (decodeHiho dec15 dec15.fresh [1, 1, 0, 0, 0, 0, 1, 1, 1, 0, 0, 1, 0, 0, 1] (List.replicate 15 9) (List.replicate 7 9)) =
    some (true, 1, [1, 0, 1, 1, 0, 0, 1]) ∧
  hamming [1, 1, 0, 0, 0, 0, 1, 1, 1, 0, 0, 1, 0, 0, 1] [0, 1, 0, 0, 0, 0, 1, 1, 1, 0, 1, 1, 0, 0, 1] = 2 ∧
  seen (decodeHihoCw dec15 dec15.fresh [0, 0, 1, 1, 0, 0, 0, 0, 0, 1, 0, 0, 0, 0, 0] (List.replicate 15 9) (List.replicate 15 9)) =
    some (false, 0, [0, 0, 1, 1, 0, 0, 0, 0, 0, 1, 0, 0, 0, 0, 0]) := by decide +kernel

/-- Soft inputs and a shortened code, two errors on the word of all zeros. -/
example : seen (decodeSiho (fun v : Int => decide (v < 0)) dec12 dec12.fresh [3, -1, 2, 2, 1, 4, 5, -7, 1, 1, 1, 8] (List.replicate 12 9) (List.replicate 4 9)) =
    some (true, 1, [0, 0, 0, 0]) := by decide +kernel

/-! ## C68: defects -/

/-- A shortened code announces a codeword that is not one: the decoder accepts a codeword of the full code with errors
in the missing positions, and drops these corrections.  `CWD` is 1, and the encoder's own test refuses the word. -/
theorem C68_shortened_not_codeword : Usable 32 15 2 [] gen15 4 12 dec12 ∧
    seen (decodeHihoCw dec12 dec12.fresh [1, 1, 1, 0, 0, 0, 0, 0, 0, 0, 0, 0] (List.replicate 12 0) (List.replicate 12 0)) =
      some (true, 1, [1, 1, 1, 0, 0, 0, 0, 0, 0, 1, 0, 0]) ∧
    (Enc.mk? 4 12 gen15 >>= fun e => isCodeword e [1, 1, 1, 0, 0, 0, 0, 0, 0, 1, 0, 0] (List.replicate 8 0)) = ok false :=
  ⟨usable12, by decide +kernel, by decide +kernel⟩

/-- A code shortened below half of its length is accepted, but the decoder computes with the wrong order of the field: a
codeword received without any error is refused. -/
theorem C68_short_refused : (bchGen 32 31 1 [] >>= fun gen => Enc.mk? 4 9 gen >>= fun e =>
      isCodeword e [0, 0, 0, 1, 0, 1, 0, 0, 1] (List.replicate 5 0)) = ok true ∧
    seen (bchGen 32 31 1 [] >>= fun gen => Dec.mk? 4 9 gen >>= fun d =>
      decodeHihoCw d d.fresh [0, 0, 0, 1, 0, 1, 0, 0, 1] (List.replicate 9 0) (List.replicate 9 0)) =
      some (false, 0, [0, 0, 0, 1, 0, 1, 0, 0, 1]) := by decide +kernel

end Verif.BCHDec
