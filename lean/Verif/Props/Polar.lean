import Verif.Proof.Polar

/-! # C09–C11: polar encoders -/

namespace Verif.Polar
open Exec

variable {w : Nat}

theorem mk?_spec {K N : Int} {frozen : List Bool} {e : Enc} (h : Enc.mk? K N frozen = ok e) :
    e.K = K.toNat ∧ e.N = N.toNat ∧ e.frozen = frozen ∧ frozen.length = e.N ∧
      (frozen.filter (· = false)).length = e.K := by
  unfold Enc.mk? at h
  split at h
  · cases h
  split at h
  · cases h
  split at h
  · cases h
  split at h
  · cases h
  unfold Enc.setFrozen at h
  split at h
  · cases h
  split at h
  · cases h
  next h1 h2 =>
    simp only at h1 h2
    cases hl : infoLoop N.toNat frozen (List.range K.toNat) with
    | ok p =>
      simp only [hl, bind_ok] at h
      cases h
      exact ⟨rfl, rfl, rfl, by simpa using h1, by simp only [Decidable.not_not] at h2; exact h2.symm⟩
    | exc x => simp only [hl, bind_exc] at h; cases h
    | ub => simp only [hl, bind_ub] at h; cases h

/-- The non-frozen positions, in increasing order. -/
def infoPositions (frozen : List Bool) : List Nat :=
  (List.range frozen.length).filter fun i => frozen[i]? = some false

theorem infoLoop_sat {frozen : List Bool} {pos : List Nat} (hp : pos.length = (frozen.filter (· = false)).length) :
    infoLoop frozen.length frozen pos = ok (infoPositions frozen) := by
  unfold infoLoop
  let pre := fun m => (List.range m).filter fun i => frozen[i]? = some false
  have hpre : ∀ m, m ≤ frozen.length → (pre m).length = ((frozen.take m).filter (· = false)).length := by
    intro m
    induction m with
    | zero => intro _; rfl
    | succ m ih =>
      intro hm
      have hfm : m < frozen.length := by omega
      simp only [pre] at ih ⊢
      rw [List.range_succ, List.filter_append, List.length_append, ih (by omega), List.take_succ_eq_append_getElem hfm,
        List.filter_append, List.length_append]
      congr 1
      have hfi : frozen[m]? = some frozen[m] := List.getElem?_eq_getElem hfm
      cases hb : frozen[m] <;> rw [hb] at hfi <;> simp [hfi]
  have key : (forN frozen.length (fun n (s : Nat × List Nat) => do
      let f ← rd frozen n
      if f = false then do
        let p ← wr s.2 s.1 n
        ok (s.1 + 1, p)
      else ok s) (0, pos)).Sat fun s => s.2 = infoPositions frozen := by
    refine (forN_inv (fun m (s : Nat × List Nat) => s.1 = (pre m).length ∧ s.2.length = pos.length ∧
        s.2.take s.1 = pre m) ?_ ?_).mono ?_
    · exact ⟨rfl, rfl, rfl⟩
    · rintro m ⟨c, l⟩ hm ⟨h1, h2, h3⟩
      simp only at h1 h2 h3
      rw [rd_lt hm, bind_ok]
      have hfi : frozen[m]? = some frozen[m] := List.getElem?_eq_getElem hm
      have hs := hpre (m + 1) (by omega)
      have hle : ((frozen.take (m + 1)).filter (· = false)).length ≤ (frozen.filter (· = false)).length :=
        (List.Sublist.filter _ (List.take_sublist _ _)).length_le
      cases hb : frozen[m] <;> rw [hb] at hfi
      · have hp1 : pre (m + 1) = pre m ++ [m] := by
          simp only [pre]; rw [List.range_succ, List.filter_append]; simp [hfi]
        have hc : c < l.length := by
          rw [hp1, List.length_append] at hs
          simp only [List.length_cons, List.length_nil] at hs
          omega
        simp only [if_true]
        rw [wr_lt hc, bind_ok, sat_ok]
        refine ⟨by rw [hp1, h1]; simp, by simpa using h2, ?_⟩
        simp only
        rw [List.take_succ_eq_append_getElem (by simpa using hc), hp1, List.getElem_set_self,
          List.take_set_of_le (Nat.le_refl _), h3]
      · have hp1 : pre (m + 1) = pre m := by
          simp only [pre]; rw [List.range_succ, List.filter_append]; simp [hfi]
        rw [if_neg (by simp)]
        rw [hp1]
        exact sat_ok.mpr ⟨h1, h2, h3⟩
    · rintro ⟨c, l⟩ ⟨h1, h2, h3⟩
      have h4 := hpre _ (Nat.le_refl _)
      rw [List.take_length] at h4
      simp only at h1 h2 h3 ⊢
      rw [← List.take_length (l := l), h2, hp, ← h4, ← h1]
      exact h3
  obtain ⟨s, hs, h⟩ := key
  rw [hs, bind_ok, h]

/-- **C09**: the constructor accepts exactly the frozen sets of the right size, and `get_info_bits_pos` lists
the non-frozen positions in increasing order. -/
theorem C09_constructor (K N : Int) (frozen : List Bool) (e : Enc) :
    Enc.mk? K N frozen = ok e ↔
      0 < K ∧ N = frozen.length ∧ K = (frozen.filter (· = false)).length ∧
        e = { K := K.toNat, N := N.toNat, frozen := frozen, infoPos := infoPositions frozen } := by
  have hle : (frozen.filter (· = false)).length ≤ frozen.length := List.length_filter_le _ _
  constructor
  · intro h
    obtain ⟨h1, h2, h3, h4, h5⟩ := mk?_spec h
    have hK : 0 < K := by
      unfold Enc.mk? at h
      split at h
      · cases h
      · omega
    have hN : 0 < N := by
      unfold Enc.mk? at h
      rw [if_neg (by omega)] at h
      split at h
      · cases h
      · omega
    refine ⟨hK, by omega, by omega, ?_⟩
    unfold Enc.mk? at h
    rw [if_neg (by omega), if_neg (by omega), if_neg (by omega), if_neg (by omega)] at h
    unfold Enc.setFrozen at h
    rw [if_neg (by simp only; omega), if_neg (by simp only; omega)] at h
    simp only at h
    rw [← h2, ← h4, infoLoop_sat (by rw [List.length_range]; omega), bind_ok] at h
    injection h with h
    rw [← h]
    congr 1
    omega
  · rintro ⟨hK, hN, hc, rfl⟩
    unfold Enc.mk?
    rw [if_neg (by omega), if_neg (by omega), if_neg (by omega), if_neg (by omega)]
    unfold Enc.setFrozen
    rw [if_neg (by simp only; omega), if_neg (by simp only; omega)]
    simp only
    rw [show N.toNat = frozen.length by omega, infoLoop_sat (by rw [List.length_range]; omega), bind_ok]

/-- **C09**.  For every power-of-two length, frozen set and information word, `encode` places the information
bits on the non-frozen positions and returns that word times `F^{⊗n}`; nothing is read or written out of
bounds. -/
theorem C09_encode (K N : Int) (n : Nat) (frozen : List Bool) (e : Enc) (he : Enc.mk? K N frozen = ok e)
    (hN : N.toNat = 2 ^ n) (u out : List (BitVec w)) (hu : u.length = K.toNat) (ho : out.length = N.toNat) :
    e.encode u out = ok (polarTransform n (place frozen u)) := by
  obtain ⟨h1, h2, h3, h4, h5⟩ := mk?_spec he
  have hN' : e.N = 2 ^ n := by omega
  unfold Enc.encode
  rw [convert_eq (by rw [h3]; omega) (by rw [h3]; omega), bind_ok, hN', h3,
    lightEncode_eq (by rw [place_length]; omega)]

/-- **C09**: the transform is linear. -/
theorem C09_linear (n : Nat) (u v : List (BitVec w)) (hu : u.length = 2 ^ n) (hv : v.length = 2 ^ n) :
    lightEncode (2 ^ n) (List.zipWith (· ^^^ ·) u v) =
      (do let a ← lightEncode (2 ^ n) u
          let b ← lightEncode (2 ^ n) v
          ok (List.zipWith (· ^^^ ·) a b)) := by
  rw [lightEncode_eq (by simp [hu, hv]), lightEncode_eq hu, lightEncode_eq hv, bind_ok, bind_ok]
  congr 1
  rw [polarTransform_eq, polarTransform_eq, polarTransform_eq]
  apply List.ext_getElem?
  intro i
  rw [List.getElem?_zipWith, getElem?_mapRange, getElem?_mapRange, getElem?_mapRange]
  by_cases hi : i < 2 ^ n
  · simp only [hi, if_true]
    congr 1
    have : (fun j => comp n (fun j => u.getD j 0#w) j ^^^ comp n (fun j => v.getD j 0#w) j) i =
        comp n (fun j => u.getD j 0#w ^^^ v.getD j 0#w) i := by rw [comp_xor]
    simp only at this
    rw [this]
    apply comp_congr _ hi
    intro j hj
    rw [List.getD_eq_getElem?_getD, List.getElem?_zipWith, getD_lt 0#w (by omega), getD_lt 0#w (by omega),
      List.getElem?_eq_getElem (by omega), List.getElem?_eq_getElem (by omega)]
    rfl
  · simp [hi]

/-- **C09**: applied twice, the transform gives the word back. -/
theorem C09_involution (n : Nat) (u : List (BitVec w)) (hu : u.length = 2 ^ n) :
    (lightEncode (2 ^ n) u >>= fun x => lightEncode (2 ^ n) x) = ok u := by
  rw [lightEncode_eq hu, bind_ok, lightEncode_eq (polarTransform_length n u)]
  congr 1
  rw [polarTransform_eq n (polarTransform n u)]
  symm
  apply eq_map_of_getD hu
  intro p hp
  rw [comp_congr (y := comp n (fun j => u.getD j 0#w)) (fun j hj => polarTransform_getD u hj) hp, comp_comp]

theorem transform_transform (n : Nat) (u : List (BitVec w)) (hu : u.length = 2 ^ n) :
    polarTransform n (polarTransform n u) = u := by
  have := C09_involution n u hu
  rw [lightEncode_eq hu, bind_ok, lightEncode_eq (polarTransform_length n u)] at this
  injection this

/-- **Finding**: lengths that are not powers of two are accepted by the constructor; with `N = 3` encoding
reads past the end of the frame. -/
theorem C09_non_power_of_two_ub : ∃ e, Enc.mk? 2 3 [true, false, false] = ok e ∧
    e.encode [1#8, 0#8] [0#8, 0#8, 0#8] = ub := ⟨_, rfl, by decide +kernel⟩

example : ∃ e, Enc.mk? 2 4 [true, true, false, false] = ok e ∧
    e.encode [1#8, 1#8] [7#8, 7#8, 7#8, 7#8] = ok [0#8, 1#8, 0#8, 1#8] := ⟨_, rfl, by decide +kernel⟩

/-- **C10**, exactly what `is_codeword` decides: the inverse transform vanishes on every frozen position
except the last one, which is not examined. -/
theorem C10_is_codeword_exact (K N : Int) (n : Nat) (frozen : List Bool) (e : Enc) (he : Enc.mk? K N frozen = ok e)
    (hN : N.toNat = 2 ^ n) (tmp x : List (BitVec w)) (hx : x.length = N.toNat) (ht : tmp.length = N.toNat) :
    ∃ res, e.isCodeword tmp x = ok res ∧ (res = true ↔
      ∀ p, p + 1 < 2 ^ n → frozen[p]? = some true → (polarTransform n x)[p]? = some 0#w) := by
  obtain ⟨h1, h2, h3, h4, h5⟩ := mk?_spec he
  have hN' : e.N = 2 ^ n := by omega
  obtain ⟨res, hr, hiff⟩ := isCodeword_sat hN' (by rw [h3]; omega) (tmp := tmp) (x := x) (by omega) (by omega)
  refine ⟨res, hr, hiff.trans ?_⟩
  rw [h3]
  constructor
  · intro h p hp hfr
    obtain ⟨b, t, hb, htt, e1⟩ := exists_tested hp
    have := h b t hb htt
    unfold Fails at this
    rw [← e1] at this
    rw [polarTransform_eq, getElem?_mapRange, if_pos (by omega)]
    congr 1
    by_cases hz : comp n (fun j => x.getD j 0#w) p = 0#w
    · exact hz
    · exact absurd ⟨hfr, hz⟩ this
  · intro h b t hb htt hF
    have hle := block_le hb htt
    have hpos := Nat.two_pow_pos b
    have := h _ (by omega) hF.1
    rw [polarTransform_eq, getElem?_mapRange, if_pos (by omega)] at this
    exact hF.2 (by simpa using this)

/-- **C10** (partial: the last position must be an information position, as in every polar code built from
reliabilities).  `is_codeword` accepts exactly the codewords. -/
theorem C10_is_codeword_partial (K N : Int) (n : Nat) (frozen : List Bool) (e : Enc)
    (he : Enc.mk? K N frozen = ok e) (hN : N.toNat = 2 ^ n) (hlast : frozen[2 ^ n - 1]? = some false)
    (tmp x : List (BitVec w)) (hx : x.length = N.toNat) (ht : tmp.length = N.toNat) :
    ∃ res, e.isCodeword tmp x = ok res ∧ (res = true ↔ IsCodeword n frozen x) := by
  obtain ⟨res, hr, hiff⟩ := C10_is_codeword_exact K N n frozen e he hN tmp x hx ht
  obtain ⟨h1, h2, h3, h4, h5⟩ := mk?_spec he
  have hN' : e.N = 2 ^ n := by omega
  refine ⟨res, hr, hiff.trans ?_⟩
  have hpos := Nat.two_pow_pos n
  constructor
  · intro h
    refine ⟨polarTransform n x, polarTransform_length n x, ?_, transform_transform n x (by omega)⟩
    intro i hi
    have hlt : i < 2 ^ n := by
      obtain ⟨hh, _⟩ := List.getElem?_eq_some_iff.mp hi
      omega
    by_cases h' : i + 1 < 2 ^ n
    · exact h i h' hi
    · have : i = 2 ^ n - 1 := by omega
      subst this
      rw [hlast] at hi
      cases hi
  · rintro ⟨u, hu, hz, rfl⟩ p hp hfr
    rw [transform_transform n u hu]
    exact hz p hfr

/-- **Finding**: with the last position frozen, `is_codeword` accepts a word that is not a codeword. -/
theorem C10_last_position_not_checked : ∃ e, Enc.mk? 1 2 [false, true] = ok e ∧
    e.isCodeword [0#8, 0#8] [1#8, 1#8] = ok true ∧ ¬ IsCodeword 1 [false, true] [1#8, 1#8] := by
  refine ⟨_, rfl, by decide +kernel, ?_⟩
  rintro ⟨u, hu, hz, hx⟩
  have h1 := hz 1 (by decide)
  have h2 := transform_transform 1 u hu
  rw [hx] at h2
  rw [← h2] at h1
  exact absurd h1 (by decide +kernel)

/-- **C10**: what `encode` produces is accepted by `is_codeword`, for every frozen set. -/
theorem C10_encode_accepted (K N : Int) (n : Nat) (frozen : List Bool) (e : Enc) (he : Enc.mk? K N frozen = ok e)
    (hN : N.toNat = 2 ^ n) (u out tmp : List (BitVec w)) (hu : u.length = K.toNat) (ho : out.length = N.toNat)
    (ht : tmp.length = N.toNat) :
    (e.encode u out >>= fun x => e.isCodeword tmp x) = ok true := by
  rw [C09_encode K N n frozen e he hN u out hu ho, bind_ok]
  obtain ⟨h1, h2, h3, h4, h5⟩ := mk?_spec he
  have hN' : e.N = 2 ^ n := by omega
  obtain ⟨res, hr, hiff⟩ := C10_is_codeword_exact K N n frozen e he hN tmp (polarTransform n (place frozen u))
    (by rw [polarTransform_length]; omega) ht
  rw [hr, hiff.mpr]
  intro p hp hfr
  rw [transform_transform n _ (by rw [place_length]; omega)]
  exact place_frozen hfr

/-- A word of 0/1 values. -/
def IsBits (l : List (BitVec w)) : Prop := ∀ v ∈ l, v = 0#w ∨ v = 1#w

theorem comp_bits (m : Nat) : ∀ {x : Nat → BitVec w}, (∀ i, x i = 0#w ∨ x i = 1#w) →
    ∀ i, comp m x i = 0#w ∨ comp m x i = 1#w := by
  induction m with
  | zero => intro x h; exact h
  | succ m ih =>
    intro x h
    apply ih
    intro i
    unfold st
    split
    · exact h i
    · rcases h i with e | e <;> rcases h (i + 2 ^ m) with e' | e' <;> simp [e, e']

theorem place_bits {fr : List Bool} {u : List (BitVec w)} (hu : IsBits u) (i : Nat) :
    (place fr u).getD i 0#w = 0#w ∨ (place fr u).getD i 0#w = 1#w := by
  have key : ∀ (v : List (BitVec w)), IsBits v → ∀ k, v.getD k 0#w = 0#w ∨ v.getD k 0#w = 1#w := by
    intro v hv k
    by_cases hk : k < v.length
    · rw [getD_lt 0#w hk]; exact hv _ (List.getElem_mem hk)
    · left; rw [List.getD_eq_getElem?_getD, List.getElem?_eq_none (by omega)]; rfl
  by_cases hi : i < fr.length
  · have hfi : fr[i]? = some fr[i] := List.getElem?_eq_getElem hi
    rw [List.getD_eq_getElem?_getD]
    generalize fr[i] = f at hfi
    cases f
    · rw [place_info hfi]; exact key u hu _
    · rw [place_frozen hfi]; left; rfl
  · left
    rw [List.getD_eq_getElem?_getD, List.getElem?_eq_none (by rw [place_length]; omega)]; rfl

theorem maskLoop_sat {e : Enc} {x : List (BitVec w)} (hx : x.length = e.N) (hf : e.frozen.length = e.N) :
    (forN e.N (fun i o => do
      let f ← rd e.frozen i
      if f then wr o i 0#w
      else do
        let v ← rd o i
        wr o i (if v ≠ 0#w then 1#w else 0#w)) x).Sat fun o => o.length = e.N ∧
      ∀ i, i < e.N → o[i]? = some (if e.frozen.getD i true then 0#w
        else if x.getD i 0#w ≠ 0#w then 1#w else 0#w) := by
  refine (forN_inv (fun m (o : List (BitVec w)) => o.length = e.N ∧
      (∀ i, i < m → o[i]? = some (if e.frozen.getD i true then 0#w
        else if x.getD i 0#w ≠ 0#w then 1#w else 0#w)) ∧ ∀ i, m ≤ i → o[i]? = x[i]?) ?_ ?_).mono ?_
  · exact ⟨hx, by intro i hi; omega, fun i _ => rfl⟩
  · rintro m o hm ⟨hl, h1, h2⟩
    have hfm : m < e.frozen.length := by omega
    rw [rd_lt hfm, bind_ok]
    have hg : e.frozen.getD m true = e.frozen[m] := getD_lt true hfm
    have hxm : o[m]'(by omega) = x.getD m 0#w := by
      have := h2 m (Nat.le_refl _)
      rw [List.getElem?_eq_getElem (by omega), List.getElem?_eq_getElem (by omega)] at this
      rw [getD_lt 0#w (by omega)]
      simpa using this
    cases hfr : e.frozen[m]
    · simp only [Bool.false_eq_true, if_false]
      rw [rd_lt (show m < o.length by omega), bind_ok, wr_lt (show m < o.length by omega), sat_ok]
      refine ⟨by simpa using hl, ?_, ?_⟩
      · intro i hi
        by_cases him : i = m
        · subst him
          rw [List.getElem?_set_self (by omega), hg, hfr, hxm]; simp
        · rw [List.getElem?_set_ne (by omega)]; exact h1 i (by omega)
      · intro i hi
        rw [List.getElem?_set_ne (by omega)]; exact h2 i (by omega)
    · simp only [if_true]
      rw [wr_lt (show m < o.length by omega), sat_ok]
      refine ⟨by simpa using hl, ?_, ?_⟩
      · intro i hi
        by_cases him : i = m
        · subst him
          rw [List.getElem?_set_self (by omega), hg, hfr]; simp
        · rw [List.getElem?_set_ne (by omega)]; exact h1 i (by omega)
      · intro i hi
        rw [List.getElem?_set_ne (by omega)]; exact h2 i (by omega)
  · rintro o ⟨hl, h1, _⟩
    exact ⟨hl, h1⟩

/-- **C11**.  For every frozen set whose information positions are convex for bit domination (in particular
every domination-closed set, see `C11_upset_convex`), the systematic encoder outputs a codeword that carries
the information bits unchanged on the information positions. -/
theorem C11_systematic_partial (K N : Int) (n : Nat) (frozen : List Bool) (e : Enc) (he : Enc.mk? K N frozen = ok e)
    (hN : N.toNat = 2 ^ n) (hconv : Convex frozen) (u out : List (BitVec w)) (hbits : IsBits u)
    (hu : u.length = K.toNat) (ho : out.length = N.toNat) :
    ∃ x, e.encodeSys u out = ok x ∧ IsCodeword n frozen x ∧ unplace frozen x = u := by
  obtain ⟨h1, h2, h3, h4, h5⟩ := mk?_spec he
  have hN' : e.N = 2 ^ n := by omega
  have hpl : (place frozen u).length = 2 ^ n := by rw [place_length]; omega
  unfold Enc.encodeSys
  rw [convert_eq (by rw [h3]; omega) (by rw [h3]; omega), bind_ok, hN', h3, lightEncode_eq hpl, bind_ok]
  obtain ⟨z, hz, hlz, hgz⟩ := maskLoop_sat (e := e) (x := polarTransform n (place frozen u))
    (by rw [polarTransform_length]; omega) (by rw [h3]; omega)
  rw [hN', h3] at hz
  rw [hz, bind_ok, lightEncode_eq (by omega)]
  rw [h3, hN'] at hgz
  refine ⟨_, rfl, ⟨z, by omega, ?_, rfl⟩, ?_⟩
  · intro i hi
    have hlt : i < 2 ^ n := by
      obtain ⟨hh, _⟩ := List.getElem?_eq_some_iff.mp hi
      omega
    rw [hgz i hlt, List.getD_eq_getElem?_getD, hi]
    rfl
  · rw [show u = unplace frozen (place frozen u) from (unplace_place frozen u (by omega)).symm]
    apply unplace_congr (by rw [polarTransform_length]; omega) (by rw [place_length]; omega)
    intro i hi
    have hlt : i < 2 ^ n := by
      obtain ⟨hh, _⟩ := List.getElem?_eq_some_iff.mp hi
      omega
    have e1 : (polarTransform n z)[i]? = (polarTransform n (polarTransform n (place frozen u)))[i]? := by
      rw [polarTransform_eq, polarTransform_eq n (polarTransform n (place frozen u)), getElem?_mapRange,
        getElem?_mapRange, if_pos hlt, if_pos hlt, comp_eq, comp_eq, Nat.div_eq_of_lt hlt, Nat.mod_eq_of_lt hlt,
        Nat.mul_zero]
      congr 1
      apply sm_congr
      intro j hj hbelow
      rw [Nat.zero_add, List.getD_eq_getElem?_getD, hgz j hj]
      simp only [Option.getD_some]
      cases hfj : frozen.getD j true
      · simp only [Bool.false_eq_true, if_false]
        rw [polarTransform_getD _ hj]
        rcases comp_bits n (x := fun j => (place frozen u).getD j 0#w) (place_bits hbits) j with e0 | e0
        · rw [e0]; simp
        · rw [e0]
          by_cases h10 : (1#w : BitVec w) = 0#w
          · simp [h10]
          · rw [if_pos h10]
      · simp only [if_true]
        symm
        -- above a frozen position between information positions there is nothing
        rw [polarTransform_getD _ hj, comp_eq, Nat.div_eq_of_lt hj, Nat.mod_eq_of_lt hj, Nat.mul_zero]
        have hzero : sm n (fun j => (place frozen u).getD j 0#w) 0 j = sm n (fun _ => 0#w) 0 j := by
          apply sm_congr
          intro k hk hjk
          rw [Nat.zero_add]
          have hfk : frozen[k]? = some (frozen[k]'(by omega)) := List.getElem?_eq_getElem (by omega)
          cases hfk' : frozen[k]'(by omega)
          · rw [hfk'] at hfk
            exfalso
            apply hconv i j k hbelow hjk hi hfk
            rw [List.getElem?_eq_getElem (by omega)]
            rw [getD_lt true (by omega)] at hfj
            rw [hfj]
          · rw [hfk'] at hfk
            rw [List.getD_eq_getElem?_getD, place_frozen hfk]; rfl
        rw [hzero]
        unfold sm
        generalize ((List.range (2 ^ n)).filter fun k => decide (Below j k)) = l
        induction l with
        | nil => rfl
        | cons a l ih => unfold xorAll at *; simp only [List.map_cons, List.foldr_cons, ih, BitVec.xor_zero]
    rw [e1, transform_transform n _ hpl]

/-- Domination-closed information sets are convex. -/
theorem C11_upset_convex (frozen : List Bool)
    (h : ∀ i j : Nat, Below i j → j < frozen.length → frozen[i]? = some false → frozen[j]? = some false) :
    Convex frozen := by
  intro i j k hij hjk hi hk hj
  have hlt : j < frozen.length := by
    obtain ⟨hh, _⟩ := List.getElem?_eq_some_iff.mp hj
    exact hh
  rw [h i j hij hlt hi] at hj
  cases hj

/-- **Finding**: for an information set that is not convex the systematic encoder is not systematic. -/
theorem C11_not_systematic : ∃ e, Enc.mk? 2 4 [false, true, true, false] = ok e ∧
    e.encodeSys [0#8, 1#8] [0#8, 0#8, 0#8, 0#8] = ok [0#8, 1#8, 1#8, 1#8] ∧
    ∃ e', Enc.mk? 3 4 [false, true, false, false] = ok e' ∧
    e'.encodeSys [0#8, 0#8, 1#8] [0#8, 0#8, 0#8, 0#8] = ok [1#8, 1#8, 0#8, 1#8] :=
  ⟨_, rfl, by decide +kernel, _, rfl, by decide +kernel⟩

example : Convex [true, false, true, false] := by
  apply C11_upset_convex
  intro i j hij hj hi
  have : i < 4 := by
    obtain ⟨hh, _⟩ := List.getElem?_eq_some_iff.mp hi
    exact hh
  simp only [List.length_cons, List.length_nil] at hj
  revert hij hi
  unfold Below
  rcases (by omega : i = 0 ∨ i = 1 ∨ i = 2 ∨ i = 3) with h | h | h | h <;>
    rcases (by omega : j = 0 ∨ j = 1 ∨ j = 2 ∨ j = 3) with h' | h' | h' | h' <;> subst h h' <;> decide

end Verif.Polar
