import Verif.Proof.RA

/-! # C21, C22, C49: repetition and repeat-accumulate codes -/

namespace Verif.Repetition
open Exec Interleaver

/-! ## C21: repetition code -/

/-- C21, construction: exactly the pairs `0 < K`, `0 < N`, `K ∣ N` are accepted, every other pair throws
`invalid_argument`.  The code then has `rep + 1 = N / K` copies of each bit and announces copy 0 of each bit as its
position in the codeword. -/
theorem C21_constructor (K N : Int) (buffered : Bool) :
    (0 < K ∧ 0 < N ∧ K ∣ N ∧ ∃ e, Enc.mk? K N buffered = ok e ∧ (e.K : Int) = K ∧ (e.N : Int) = N ∧ e.buffered = buffered ∧
        e.N = e.K * (e.rep + 1) ∧ e.infoPos = (List.range e.K).map fun k => pos e.K e.rep buffered k 0) ∨
      (¬ (0 < K ∧ 0 < N ∧ K ∣ N) ∧ Enc.mk? K N buffered = exc .invalidArgument) := by
  unfold Enc.mk?
  by_cases h1 : K ≤ 0
  · exact Or.inr ⟨by omega, by rw [if_pos h1]⟩
  rw [if_neg h1]
  by_cases h2 : N ≤ 0
  · exact Or.inr ⟨by omega, by rw [if_pos h2]⟩
  rw [if_neg h2]
  by_cases h3 : K > N
  · refine Or.inr ⟨?_, by rw [if_pos h3]⟩
    rintro ⟨-, hN, hd⟩
    have := Int.le_of_dvd hN hd
    omega
  rw [if_neg h3]
  by_cases h4 : N.tmod K = 0
  · have hd : K ∣ N := Int.dvd_of_tmod_eq_zero h4
    rw [if_neg (by simpa using h4)]
    refine Or.inl ⟨by omega, by omega, hd, _, rfl, by simp only; omega, by simp only; omega, rfl, ?_, ?_⟩
    · obtain ⟨q, rfl⟩ := hd
      simp only
      rw [Int.mul_ediv_cancel_left _ (by omega)]
      have hq : 0 < q := by
        rcases Int.lt_trichotomy q 0 with h | h | h
        · have := Int.mul_neg_of_pos_of_neg (show 0 < K by omega) h; omega
        · subst h; omega
        · exact h
      have : (q - 1).toNat + 1 = q.toNat := by omega
      rw [this, Int.toNat_mul (by omega) (by omega)]
    · simp only
      apply List.map_congr_left
      intro k _
      unfold pos
      split
      · omega
      · rw [Nat.mul_comm]; rfl
  · refine Or.inr ⟨fun h => h4 (Int.tmod_eq_zero_of_dvd h.2.2), by rw [if_pos h4]⟩

/-- C21, encoding: every one of the `rep + 1` copies of bit `k` is `u[k]`, and every element of the output is a copy. -/
theorem C21_encode {α : Type _} (e : Enc) (hN : e.N = e.K * (e.rep + 1)) (u x : List α) (hu : u.length = e.K)
    (hx : x.length = e.N) :
    ∃ o, e.encode u x = ok o ∧ o.length = e.N ∧
      (∀ k r, k < e.K → r ≤ e.rep → o[pos e.K e.rep e.buffered k r]? = u[k]?) ∧
      ∀ j, j < e.N → ∃ k r, k < e.K ∧ r ≤ e.rep ∧ j = pos e.K e.rep e.buffered k r := by
  obtain ⟨o, h1, h2, h3⟩ := encode_sat (e := e) (u := u) (x := x) hu (by omega)
  exact ⟨o, h1, by omega, h3, fun j hj => exists_pos _ (by omega)⟩

/-- C21, codeword test: it never fails and accepts exactly the outputs of the encoder. -/
theorem C21_is_codeword {α : Type _} [DecidableEq α] (e : Enc) (hN : e.N = e.K * (e.rep + 1)) (x : List α)
    (hx : x.length = e.N) :
    ∃ b, e.isCodeword x = ok b ∧ (b = true ↔ ∃ u : List α, u.length = e.K ∧ ∀ x', x'.length = e.N → e.encode u x' = ok x) := by
  obtain ⟨b, hb, hb'⟩ := isCodeword_sat (e := e) (x := x) (by omega)
  refine ⟨b, hb, hb'.trans ⟨fun h => ?_, ?_⟩⟩
  · have hlt : ∀ k, k < e.K → pos e.K e.rep e.buffered k 0 < x.length := fun k hk => by
      rw [hx, hN]; exact pos_lt hk (Nat.zero_le _)
    refine ⟨List.ofFn fun k : Fin e.K => x[pos e.K e.rep e.buffered k 0]'(hlt k k.2), by simp, fun x' hx' => ?_⟩
    obtain ⟨o, h1, h2, h3⟩ := encode_sat (e := e) (u := List.ofFn fun k : Fin e.K => x[pos e.K e.rep e.buffered k 0]'(hlt k k.2))
      (x := x') (by simp) (by omega)
    rw [h1]
    congr 1
    refine List.ext_getElem? fun j => ?_
    by_cases hj : j < e.N
    · obtain ⟨k, r, hk, hr, rfl⟩ := exists_pos (K := e.K) (rep := e.rep) (j := j) e.buffered (by omega)
      rw [h3 k r hk hr, h k r hk hr, List.getElem?_ofFn, dif_pos hk, List.getElem?_eq_getElem (hlt k hk)]
    · rw [List.getElem?_eq_none (by omega), List.getElem?_eq_none (by omega)]
  · rintro ⟨u, hu, h⟩ k r hk hr
    obtain ⟨o, h1, h2, h3⟩ := encode_sat (e := e) (u := u) (x := x) hu (by omega)
    rw [h x hx] at h1
    cases h1
    rw [h3 k r hk hr, h3 k 0 hk (Nat.zero_le _)]

example : ∃ e, Enc.mk? 2 6 false = ok e ∧ e.N = e.K * (e.rep + 1) ∧
    e.encode [1, 0] (List.replicate 6 7) = ok [1, 1, 1, 0, 0, 0] ∧ e.isCodeword [1, 1, 1, 0, 0, 0] = ok true ∧
    e.isCodeword [1, 1, 0, 0, 0, 0] = ok false :=
  ⟨⟨2, 6, 2, false, [0, 3]⟩, by decide, by decide, by decide, by decide, by decide⟩

example : ∃ e, Enc.mk? 2 6 true = ok e ∧ e.encode [1, 0] (List.replicate 6 7) = ok [1, 0, 1, 0, 1, 0] :=
  ⟨⟨2, 6, 2, true, [0, 1]⟩, by decide, by decide⟩

/-- The `rep + 1` channel values of bit `k`. -/
def copies {R : Type _} [Inhabited R] (K rep : Nat) (buffered : Bool) (y : List R) (k : Nat) : List R :=
  (List.range (rep + 1)).map fun r => y.getD (pos K rep buffered k r) default

/-- Sum of a non-empty list from left to right with the addition `add`. -/
def total {R : Type _} (add : R → R → R) : List R → Option R
  | [] => none
  | v :: vs => some (vs.foldl add v)

theorem combine_eq {R : Type _} [Inhabited R] (add : R → R → R) (K rep : Nat) (b : Bool) (y : List R) (k : Nat) :
    total add (copies K rep b y k) = some (combine add K rep b (fun i => y.getD i default) k) := by
  unfold copies combine total
  rw [List.range_succ_eq_map, List.map_cons]
  simp only [List.map_map, List.foldl_map, Function.comp_def, Nat.succ_eq_add_one]

theorem getD_spec {R : Type _} [Inhabited R] {y : List R} {n : Nat} (hy : y.length = n) :
    ∀ i, i < n → y[i]? = some (y.getD i default) := by
  intro i hi
  rw [getD_lt default (by omega), List.getElem?_eq_getElem]

/-- C21, decoding: for both layouts, both decoders (standard, and vectorised with `L` lanes) decide bit `k` from the
sign of the sum of its copies, whatever the addition of the real type is and whatever earlier calls left in the members. -/
theorem C21_decode {R : Type _} [Inhabited R] (neg : R → Bool) (add : R → R → R) (K rep : Nat) (buffered : Bool)
    (y sys par ext : List R) (v : List Nat) (hy : y.length = K * (rep + 1)) (hs : sys.length = K) (hp : par.length = K * rep)
    (he : ext.length = K) (hv : v.length = K) :
    ∃ d : Nat → Nat, (∀ k, k < K → ∃ t, total add (copies K rep buffered y k) = some t ∧ d k = if neg t then 1 else 0) ∧
      decodeSiho neg (sisoStd add K rep) K rep buffered y sys par ext v = ok ((List.range K).map d) ∧
      ∀ L, L ∣ K → decodeSiho neg (sisoFast add L K rep) K rep buffered y sys par ext v = ok ((List.range K).map d) := by
  refine ⟨fun k => if neg (combine add K rep buffered (fun i => y.getD i default) k) then 1 else 0,
    fun k _ => ⟨_, combine_eq add K rep buffered y k, rfl⟩, ?_, fun L hL => ?_⟩
  · exact decodeSiho_eq hy (getD_spec hy) hs hp he hv (fun sys par h => sisoStd_sat h he)
  · exact decodeSiho_eq hy (getD_spec hy) hs hp he hv (fun sys par h => sisoFast_sat h he hL)

/-- C21, decoding in exact arithmetic: bit `k` is 1 exactly when the sum of its copies is negative. -/
theorem C21_decode_exact (K rep : Nat) (buffered : Bool) (y sys par ext : List Int) (v : List Nat)
    (hy : y.length = K * (rep + 1)) (hs : sys.length = K) (hp : par.length = K * rep) (he : ext.length = K) (hv : v.length = K) :
    decodeSiho (fun v : Int => decide (v < 0)) (sisoStd (· + ·) K rep) K rep buffered y sys par ext v =
      ok ((List.range K).map fun k => if (copies K rep buffered y k).sum < 0 then 1 else 0) := by
  obtain ⟨d, h1, h2, -⟩ := C21_decode (fun v : Int => decide (v < 0)) (· + ·) K rep buffered y sys par ext v hy hs hp he hv
  rw [h2]
  congr 1
  apply List.map_congr_left
  intro k hk
  obtain ⟨t, h3, h4⟩ := h1 k (List.mem_range.mp hk)
  have : (copies K rep buffered y k).sum = t := by
    unfold total at h3
    split at h3
    · cases h3
    · cases h3
      rename_i a l hc
      rw [hc, List.sum_cons]
      have : ∀ (l : List Int) (a : Int), List.foldl (· + ·) a l = a + l.sum := by
        intro l
        induction l with
        | nil => simp
        | cons x l ih => intro a; rw [List.foldl_cons, ih, List.sum_cons, Int.add_assoc]
      exact (this l a).symm
  rw [h4, this]
  simp only [decide_eq_true_eq]

/-- C21, noiseless decoding: with any addition that keeps the common sign of its arguments (exact or saturating), the
decoders return the message whenever every received value has the sign of the transmitted bit. -/
theorem C21_noiseless {R : Type _} [Inhabited R] (neg : R → Bool) (add : R → R → R)
    (hadd : ∀ a b, neg a = neg b → neg (add a b) = neg a) (e : Enc) (hN : e.N = e.K * (e.rep + 1))
    (u x : List Nat) (hu : u.length = e.K) (hbin : ∀ b ∈ u, b < 2) (hx : e.encode u (List.replicate e.N 0) = ok x)
    (y sys par ext : List R) (v : List Nat) (hy : y.length = e.N)
    (hsign : ∀ i, i < e.N → x[i]? = some (if neg (y.getD i default) then 1 else 0))
    (hs : sys.length = e.K) (hp : par.length = e.K * e.rep) (he : ext.length = e.K) (hv : v.length = e.K) :
    decodeSiho neg (sisoStd add e.K e.rep) e.K e.rep e.buffered y sys par ext v = ok u ∧
      ∀ L, L ∣ e.K → decodeSiho neg (sisoFast add L e.K e.rep) e.K e.rep e.buffered y sys par ext v = ok u := by
  obtain ⟨d, h1, h2, h3⟩ := C21_decode neg add e.K e.rep e.buffered y sys par ext v (by omega) hs hp he hv
  have key : (List.range e.K).map d = u := by
    obtain ⟨o, h4, h5, h6, -⟩ := C21_encode e hN u (List.replicate e.N 0) hu List.length_replicate
    rw [hx] at h4; cases h4
    refine (eq_mapRange (f := d) (l := u) hu fun k hk => ?_).symm
    obtain ⟨t, h7, h8⟩ := h1 k hk
    rw [h8]
    have hcop : ∀ r, r ≤ e.rep → (if neg (y.getD (pos e.K e.rep e.buffered k r) default) then 1 else 0) = u[k]'(by omega) := by
      intro r hr
      have := hsign (pos e.K e.rep e.buffered k r) (by rw [hN]; exact pos_lt hk hr)
      rw [h6 k r hk hr, List.getElem?_eq_getElem (by omega), Option.some.injEq] at this
      exact this.symm
    have hsame : ∀ r, r ≤ e.rep → neg (y.getD (pos e.K e.rep e.buffered k r) default) =
        neg (y.getD (pos e.K e.rep e.buffered k 0) default) := by
      intro r hr
      have := (hcop r hr).trans (hcop 0 (Nat.zero_le _)).symm
      generalize neg (y.getD (pos e.K e.rep e.buffered k r) default) = b at this ⊢
      generalize neg (y.getD (pos e.K e.rep e.buffered k 0) default) = b' at this ⊢
      cases b <;> cases b' <;> simp at this ⊢
    have hfold : ∀ (l : List Nat) (a : R), neg a = neg (y.getD (pos e.K e.rep e.buffered k 0) default) → (∀ j ∈ l, j < e.rep) →
        neg (l.foldl (fun v j => add v (y.getD (pos e.K e.rep e.buffered k (j + 1)) default)) a) =
          neg (y.getD (pos e.K e.rep e.buffered k 0) default) := by
      intro l
      induction l with
      | nil => intro a ha _; exact ha
      | cons j l ih =>
        intro a ha hl
        rw [List.foldl_cons]
        refine ih _ ?_ fun j' hj' => hl j' (List.mem_cons_of_mem _ hj')
        rw [hadd _ _ (ha.trans (hsame (j + 1) (hl j List.mem_cons_self)).symm), ha]
    have ht : neg t = neg (y.getD (pos e.K e.rep e.buffered k 0) default) := by
      rw [combine_eq, Option.some.injEq] at h7
      rw [← h7]
      exact hfold _ _ rfl fun j hj => List.mem_range.mp hj
    rw [ht, hcop 0 (Nat.zero_le _), List.getElem?_eq_getElem]
  exact ⟨by rw [h2, key], fun L hL => by rw [h3 L hL, key]⟩

/-- The hypotheses are met by a saturating 8-bit addition. -/
example : (∀ a b : Int, decide (a < 0) = decide (b < 0) →
    decide (max (-127) (min 127 (a + b)) < 0) = decide (a < 0)) ∧
    decodeSiho (fun v : Int => decide (v < 0)) (sisoStd (fun a b => max (-127) (min 127 (a + b))) 2 1) 2 1 false
      [-100, -90, 100, 3] [0, 0] [0, 0] [0, 0] [0, 0] = ok [1, 0] := by
  refine ⟨fun a b h => ?_, by decide⟩
  rw [decide_eq_decide] at h ⊢
  omega

/-- The standard decoder adds with `+=` in the real type: in 8 bits two copies received as `+100` are decided 1
(`Decoder_repetition_std.cpp:33-34`). -/
theorem C21_wraps_8bit :
    decodeSiho (fun v : BitVec 8 => v.msb) (sisoStd (· + ·) 1 1) 1 1 false [100#8, 100#8] [0#8] [0#8] [0#8] [0] = ok [1] := by
  decide

/-! ## C22: repeat-accumulate encoder -/

/-- C22, construction: exactly `0 < K`, `0 < N`, `K ∣ N` with an interleaver of size `N` are accepted; the repetition
count is then `N / K`. -/
theorem C22_constructor (K N : Int) (size : Nat) :
    (∃ rep, raCtor K N size = ok rep) ↔ 0 < K ∧ 0 < N ∧ K ∣ N ∧ (size : Int) = N := by
  unfold raCtor
  constructor
  · rintro ⟨rep, h⟩
    repeat' split at h
    all_goals first | contradiction | skip
    rename_i h1 h2 h3 h4 h5
    exact ⟨by omega, by omega, Int.dvd_of_tmod_eq_zero (by simpa using h4), by simpa using h5⟩
  · rintro ⟨h1, h2, h3, h4⟩
    have := Int.le_of_dvd h2 h3
    exact ⟨_, by rw [if_neg (by omega), if_neg (by omega), if_neg (by omega), if_neg (by simpa using Int.tmod_eq_zero_of_dvd h3),
      if_neg (by simpa using h4)]⟩

theorem raCtor_spec {K N : Int} {size rep : Nat} (h : raCtor K N size = ok rep) :
    0 < K.toNat ∧ 0 < rep ∧ K.toNat * rep = size := by
  obtain ⟨h1, h2, ⟨q, rfl⟩, h4⟩ := (C22_constructor K N size).mp ⟨rep, h⟩
  unfold raCtor at h
  repeat' split at h
  all_goals first | contradiction | skip
  cases h
  rw [Int.mul_ediv_cancel_left _ (by omega)]
  have hq : 0 < q := by
    rcases Int.lt_trichotomy q 0 with h | h | h
    · have := Int.mul_neg_of_pos_of_neg h1 h; omega
    · subst h; omega
    · exact h
  have : K.toNat * q.toNat = (K * q).toNat := (Int.toNat_mul (by omega) (by omega)).symm
  omega

/-- C22, encoding: for every interleaver, history and frame the published table `π` of that frame (C01) is a permutation
of `0..N-1` and every message is encoded as `x[0] = u[π(0) / rep]`, `x[i + 1] = x[i] ⊕ u[π(i + 1) / rep]`. -/
theorem C22_encode (K N : Int) (size rep : Nat) (hctor : raCtor K N size = ok rep) (uniform : Bool) (gen : GenLut)
    (hgen : ValidGen size gen) (ops : List Op) (hops : OpsValid size ops) (frameId : Nat) :
    ∃ c π, history size uniform gen ops = ok c ∧
      π = (c.pi.drop ((if uniform then frameId % c.nFrames else 0) * size)).take size ∧ IsPermutation size π ∧
      ∀ u U tmp x : List Nat, u.length = K.toNat → U.length = size → tmp.length = size → x.length = size →
        ∃ o, raEncode c K.toNat rep c.nFrames frameId u U tmp x = ok o ∧ o.length = size ∧
          o[0]? = u[π.getD 0 0 / rep]? ∧
          ∀ i, i + 1 < size → ∃ a b, o[i]? = some a ∧ u[π.getD (i + 1) 0 / rep]? = some b ∧ o[i + 1]? = some (a ^^^ b) := by
  obtain ⟨hK, hrep, hsz⟩ := raCtor_spec hctor
  have hs : 0 < size := by rw [← hsz]; exact Nat.mul_pos hK hrep
  obtain ⟨c, hc, hn, hP⟩ := permutes_of_history hs (uniform := uniform) hgen hops frameId
  obtain ⟨π, hπ, hP⟩ : ∃ π, π = (c.pi.drop ((if uniform then frameId % c.nFrames else 0) * size)).take size ∧
    Permutes c c.nFrames frameId size π := ⟨_, rfl, hP⟩
  refine ⟨c, π, hc, hπ, hP.perm, fun u U tmp x hu hU ht hx => ?_⟩
  rw [← hsz] at hP hU ht hx
  obtain ⟨o, h1, h2, h3⟩ := raEncode_sat hP hrep hu hU ht hx
  rw [hsz] at h2 h3
  have hval : ∀ i, i < size → u[π.getD i 0 / rep]? = some (u.getD (π.getD i 0 / rep) 0) := by
    intro i hi
    have hi' : i < π.length := by rw [hP.perm.length]; omega
    have hlt : π.getD i 0 / rep < K.toNat := by
      rw [getD_lt 0 hi']; exact (Nat.div_lt_iff_lt_mul hrep).mpr (hP.perm.lt hi')
    generalize π.getD i 0 / rep = q at *
    rw [getD_lt 0 (by omega), List.getElem?_eq_getElem]
  refine ⟨o, h1, h2, ?_, fun i hi => ?_⟩
  · rw [h3 0 hs, hval 0 hs]; rfl
  · exact ⟨_, _, h3 i (by omega), hval _ hi, h3 _ hi⟩

/-- C22, unique decodability: distinct messages have distinct codewords. -/
theorem C22_injective (K N : Int) (size rep : Nat) (hctor : raCtor K N size = ok rep) (uniform : Bool) (gen : GenLut)
    (hgen : ValidGen size gen) (ops : List Op) (hops : OpsValid size ops) (frameId : Nat) :
    ∃ c, history size uniform gen ops = ok c ∧ ∀ u u' U tmp x o : List Nat, u.length = K.toNat → u'.length = K.toNat →
      U.length = size → tmp.length = size → x.length = size → raEncode c K.toNat rep c.nFrames frameId u U tmp x = ok o →
      raEncode c K.toNat rep c.nFrames frameId u' U tmp x = ok o → u = u' := by
  obtain ⟨hK, hrep, hsz⟩ := raCtor_spec hctor
  have hs : 0 < size := by rw [← hsz]; exact Nat.mul_pos hK hrep
  obtain ⟨c, π, hc, -, hP, hE⟩ := C22_encode K N size rep hctor uniform gen hgen ops hops frameId
  refine ⟨c, hc, fun u u' U tmp x o hu hu' hU ht hx h h' => ?_⟩
  obtain ⟨o1, e1, l1, z1, s1⟩ := hE u U tmp x hu hU ht hx
  obtain ⟨o2, e2, l2, z2, s2⟩ := hE u' U tmp x hu' hU ht hx
  rw [h] at e1; cases e1
  rw [h'] at e2; cases e2
  have hall : ∀ i, i < size → u[π.getD i 0 / rep]? = u'[π.getD i 0 / rep]? := by
    intro i hi
    cases i with
    | zero => rw [← z1, ← z2]
    | succ i =>
      obtain ⟨a, b, p1, p2, p3⟩ := s1 i hi
      obtain ⟨a', b', q1, q2, q3⟩ := s2 i hi
      rw [p1] at q1; cases q1
      rw [p3, Option.some.injEq] at q3
      rw [p2, q2]
      have := congrArg (a ^^^ ·) q3
      simp only [← Nat.xor_assoc, Nat.xor_self, Nat.zero_xor] at this
      rw [this]
  refine List.ext_getElem? fun k => ?_
  by_cases hk : k < K.toNat
  · have hj : k * rep < size := by rw [← hsz]; exact (Nat.mul_lt_mul_right hrep).mpr hk
    obtain ⟨i, hi, hij⟩ := hP.surj hj
    have := hall i (by rw [← hP.length]; exact hi)
    rwa [getD_lt 0 hi, hij, Nat.mul_div_cancel _ hrep] at this
  · rw [List.getElem?_eq_none (by omega), List.getElem?_eq_none (by omega)]

example : raCtor 2 4 4 = ok 2 ∧ ValidGen 4 (genRowColumn 2 2 .topLeft) ∧
    (do
      let c ← history 4 false (genRowColumn 2 2 .topLeft) []
      raEncode c 2 2 1 0 [1, 0] (List.replicate 4 0) (List.replicate 4 0) (List.replicate 4 0)) = ok [1, 1, 0, 0] :=
  ⟨by decide, genRowColumn_valid 2 2 .topLeft, by decide⟩

/-! ## C49: repeat-accumulate decoder -/

/-- The codeword of `u` under `x[0] = r(0)`, `x[i + 1] = x[i] ⊕ r(i + 1)` is binary. -/
theorem acc_lt {r : Nat → Nat} {N : Nat} (h : ∀ i, i < N → r i < 2) : ∀ i, i < N → acc r i < 2
  | 0, hi => h 0 hi
  | i + 1, hi => Nat.xor_lt_two_pow (n := 1) (acc_lt h i (by omega)) (h _ hi)

/-- C49: for every `K`, `N ≥ 2`, interleaver, history, frame, number of iterations at least 1, message and received word
whose every value has the sign of the transmitted bit, and whatever earlier calls left in the members, the decoder
returns the message. -/
theorem C49_noiseless {R : Type} [AddCommGroup R] [LinearOrder R] [IsOrderedAddMonoid R] (K N : Int) (size rep : Nat)
    (hctor : raCtor K N size = ok rep) (h2 : 2 ≤ size) (uniform : Bool) (gen : GenLut) (hgen : ValidGen size gen) (ops : List Op)
    (hops : OpsValid size ops) (frameId maxIter : Nat) (hit : 0 < maxIter) :
    ∃ c, history size uniform gen ops = ok c ∧ ∀ u U tmp x o v : List Nat, ∀ y : List R, ∀ m : RaMem R,
      u.length = K.toNat → (∀ b ∈ u, b < 2) → U.length = size → tmp.length = size → x.length = size →
      raEncode c K.toNat rep c.nFrames frameId u U tmp x = ok o →
      y.length = size → (∀ (i : Nat) a w, o[i]? = some a → y[i]? = some w → Strict a w) →
      Sized K.toNat size m → v.length = K.toNat →
      raDecode c K.toNat rep c.nFrames frameId maxIter y m v = ok u := by
  obtain ⟨hK, hrep, hsz⟩ := raCtor_spec hctor
  obtain ⟨c, hc, hn, hP⟩ := permutes_of_history (by omega) (uniform := uniform) hgen hops frameId
  refine ⟨c, hc, fun u U tmp x o v y m hu hbin hU ht hx ho hy hsign hm hv => ?_⟩
  obtain ⟨π, hP⟩ : ∃ π, Permutes c c.nFrames frameId size π := ⟨_, hP⟩
  rw [← hsz] at hP hU ht hx hm hy h2
  obtain ⟨o', h3, h4, h5⟩ := raEncode_sat hP hrep hu hU ht hx
  rw [ho] at h3; cases h3
  have hub : ∀ k, u.getD k 0 < 2 := by
    intro k
    by_cases hk : k < u.length
    · rw [getD_lt 0 hk]; exact hbin _ (List.getElem_mem _)
    · rw [List.getD, List.getElem?_eq_none (by omega)]; simp
  have hctx : Ctx (K.toNat * rep) (fun i => u.getD (π.getD i 0 / rep) 0) (acc fun i => u.getD (π.getD i 0 / rep) 0) y :=
    ⟨h2, fun i _ => hub _, fun i hi => acc_lt (fun i _ => hub _) i hi, rfl, fun i _ => rfl, hy, fun i hi =>
      ⟨y[i]'(by omega), List.getElem?_eq_getElem _, hsign i _ _ (h5 i hi) (List.getElem?_eq_getElem _)⟩⟩
  rw [raDecode_eq hP hrep hit (u := fun k => u.getD k 0) (fun k _ => hub k) hctx hm hv]
  congr 1
  refine (eq_mapRange hu fun k hk => ?_).symm
  rw [getD_lt 0 (by omega), List.getElem?_eq_getElem]

/-- With `K = N = 1`, which the constructors accept, the decoder writes before its `Bw` array: `Bw[N - 2]`. -/
theorem C49_single_ub {R : Type} [AddCommGroup R] [LinearOrder R] (c : Core) (nf frameId : Nat) (y : List R) (m : RaMem R)
    (h : m.Fw.length = 1) (h' : m.Td.length = 1) (h'' : m.Bw.length = 1) (v : List Nat) :
    raCtor 1 1 1 = ok 1 ∧ raDecode c 1 1 nf frameId 1 y m v = ub := by
  refine ⟨by decide, ?_⟩
  have z : ∀ a : List R, a.length = 1 → forN 1 (fun i a => wr a i (0 : R)) a = ok [0] := by
    intro a ha
    match a, ha with
    | [a], _ => rfl
  unfold raDecode
  simp only [Nat.mul_one]
  rw [z _ h, bind_ok, z _ h'', bind_ok, z _ h', bind_ok]
  rfl

example : (do
    let c ← history 4 false (genRowColumn 2 2 .topLeft) []
    raDecode c 2 2 1 0 3 ([-1, -5, 2, 7] : List Int) ⟨[9, 9, 9, 9], [9, 9, 9, 9], [9, 9, 9, 9], [9, 9, 9, 9], [9, 9, 9, 9], [9, 9, 9, 9], [9, 9]⟩
      [5, 5]) = ok [1, 0] ∧ Sized 2 4 (⟨[9, 9, 9, 9], [9, 9, 9, 9], [9, 9, 9, 9], [9, 9, 9, 9], [9, 9, 9, 9], [9, 9, 9, 9], [9, 9]⟩ : RaMem Int) :=
  ⟨by decide, rfl, rfl, rfl, rfl, rfl, rfl, rfl⟩

end Verif.Repetition
