import Verif.Proof.PolarSCUse
import Verif.Proof.PolarFns
import Verif.Props.Polar

/-! # C73, C74: successive cancellation decoding of polar codes -/

namespace Verif.PolarSC
open Exec Verif.Polar

variable {R : Type} {w : Nat}

/-- **C73**, construction: accepted exactly when the size is a power of two, there is one flag per bit, and `K` is the number of
information bits, not null. -/
theorem C73_constructor (F : Fns R w) (K N : Int) (frozen : List Bool) :
    (∃ d, Dec.mk? F K N frozen = ok d) ↔
      0 < K ∧ (∃ n : Nat, N = ((2 ^ n : Nat) : Int)) ∧ N = frozen.length ∧ K = (frozen.filter (· = false)).length := by
  constructor
  · rintro ⟨d, h⟩
    obtain ⟨h1, n, h2, h3, h4⟩ := mk?_ok h
    exact ⟨h1, ⟨n, h2⟩, by rw [h2, h3], h4⟩
  · rintro ⟨h1, ⟨n, h2⟩, h3, h4⟩
    obtain ⟨d, e, _⟩ := mk?_sat F h1 h2 (by rw [h2] at h3; exact_mod_cast h3.symm) h4
    exact ⟨d, e⟩

/-- **C73**, new frozen bits: accepted exactly when there is one flag per bit and as many information bits as before; they are
then those of the decoder. -/
theorem C73_set_frozen (F : Fns R w) (d : Dec R w) (hd : Reach F d) (fb : List Bool) :
    ((∃ d', d.setFrozen fb = ok d') ↔ fb.length = d.N ∧ (fb.filter (· = false)).length = d.K) ∧
      ∀ d', d.setFrozen fb = ok d' → d'.frozen = fb ∧ d'.N = d.N ∧ d'.K = d.K := by
  obtain ⟨n, h⟩ := hd.ok
  refine ⟨⟨?_, ?_⟩, ?_⟩
  · rintro ⟨d', e⟩
    obtain ⟨h1, h2⟩ := setFrozen_ok h e
    exact ⟨by rw [h1, h.N], h2.symm⟩
  · rintro ⟨h1, h2⟩
    obtain ⟨d', e, _⟩ := setFrozen_sat h (by rw [h1, h.N]) h2.symm
    exact ⟨d', e⟩
  · intro d' e
    obtain ⟨h1, h2⟩ := setFrozen_ok h e
    obtain ⟨_, g2, g3, g4⟩ := Sat.of_ok (setFrozen_sat h h1 h2) e
    exact ⟨g2, g4, g3⟩

/-- **C73**, decoding: whatever the history of the decoder, for every input, the calls succeed and give the result of successive
cancellation: the information bits (or, in the systematic class, the bits of the codeword at the positions of the information),
and the codeword.  Hard inputs are decoded as `1` and `-1`. -/
theorem C73_decode (F : Fns R w) (d : Dec R w) (hd : Reach F d) :
    ∃ n, d.N = 2 ^ n ∧ d.frozen.length = d.N ∧ (d.frozen.filter (· = false)).length = d.K ∧
      (∀ y : List R, y.length = d.N → ∃ u, IsSC F n d.frozen y u ∧
        ∀ v vc : List (BitVec w), v.length = d.K → vc.length = d.N →
          (∃ d', d.siho F .plain y v = ok (d', unplace d.frozen u) ∧ d'.frozen = d.frozen) ∧
          (∃ d', d.siho F .sys y v = ok (d', unplace d.frozen (polarTransform n u)) ∧ d'.frozen = d.frozen) ∧
          ∃ d', d.sihoCw F y vc = ok (d', polarTransform n u) ∧ d'.frozen = d.frozen) ∧
      ∀ y : List (BitVec w), y.length = d.N → ∃ u, IsSC F n d.frozen (y.map fun x => if x ≠ 0 then F.mone else F.one) u ∧
        ∀ v vc : List (BitVec w), v.length = d.K → vc.length = d.N →
          (∃ d', d.hiho F .plain y v = ok (d', unplace d.frozen u) ∧ d'.frozen = d.frozen) ∧
          (∃ d', d.hiho F .sys y v = ok (d', unplace d.frozen (polarTransform n u)) ∧ d'.frozen = d.frozen) ∧
          ∃ d', d.hihoCw F y vc = ok (d', polarTransform n u) ∧ d'.frozen = d.frozen := by
  obtain ⟨n, h⟩ := hd.ok
  refine ⟨n, h.N, h.frozen.trans h.N.symm, h.K.symm, fun y hy => ⟨sc F n d.frozen y, sc_isSC F _ _ _, fun v vc hv hvc => ⟨?_, ?_, ?_⟩⟩,
    fun y hy => ⟨sc F n d.frozen (hard F y), sc_isSC F _ _ _, fun v vc hv hvc => ⟨?_, ?_, ?_⟩⟩⟩
  · obtain ⟨⟨d', v'⟩, e, _, g1, _, g2⟩ := siho_sat F h .plain hy hv
    exact ⟨d', by rw [e]; simp only at g2; rw [g2]; rfl, g1⟩
  · obtain ⟨⟨d', v'⟩, e, _, g1, _, g2⟩ := siho_sat F h .sys hy hv
    exact ⟨d', by rw [e]; simp only at g2; rw [g2]; rfl, g1⟩
  · obtain ⟨⟨d', v'⟩, e, _, g1, _, g2⟩ := sihoCw_sat F h hy hvc
    exact ⟨d', by rw [e]; simp only at g2; rw [g2], g1⟩
  · obtain ⟨⟨d', v'⟩, e, _, g1, _, g2⟩ := hiho_sat F h .plain hy hv
    exact ⟨d', by rw [e]; simp only at g2; rw [g2]; rfl, g1⟩
  · obtain ⟨⟨d', v'⟩, e, _, g1, _, g2⟩ := hiho_sat F h .sys hy hv
    exact ⟨d', by rw [e]; simp only at g2; rw [g2]; rfl, g1⟩
  · obtain ⟨⟨d', v'⟩, e, _, g1, _, g2⟩ := hihoCw_sat F h hy hvc
    exact ⟨d', by rw [e]; simp only at g2; rw [g2], g1⟩

/-- **C73**, the result of successive cancellation is unique: the output is a function of the frozen bits and of the input. -/
theorem C73_unique (F : Fns R w) (n : Nat) (frozen : List Bool) (y : List R) (u u' : List (BitVec w)) (h : IsSC F n frozen y u) (h' : IsSC F n frozen y u') :
    u = u' := by rw [isSC_sc F h, isSC_sc F h']

/-- **C73**, the decoded word is a codeword, of bits. -/
theorem C73_codeword (F : Fns R w) (n : Nat) (frozen : List Bool) (hf : frozen.length = 2 ^ n) (y : List R) (u : List (BitVec w)) (h : IsSC F n frozen y u) :
    IsCodeword n frozen (polarTransform n u) ∧ (∀ b ∈ u, b = 0 ∨ b = 1) ∧ ∀ b ∈ polarTransform n u, b = 0 ∨ b = 1 := by
  have hb : Bits u := by
    intro x hx
    obtain ⟨i, hi, rfl⟩ := List.mem_iff_getElem.1 hx
    have := h.bit i (by rw [← h.len]; exact hi)
    rw [List.getElem?_eq_getElem hi, Option.some.injEq] at this
    rw [this]
    split
    · exact Or.inr rfl
    · exact Or.inl rfl
  refine ⟨⟨u, h.len, fun i hi => ?_, rfl⟩, hb, transform_bits h.len hb⟩
  have hl : i < 2 ^ n := by
    obtain ⟨hh, _⟩ := List.getElem?_eq_some_iff.mp hi
    omega
  rw [h.bit i hl, if_neg (by rw [hi]; simp)]
  rfl

/-! ## Round trips -/

theorem place_bits' {fr : List Bool} {u : List (BitVec w)} (h : Bits u) : Bits (place fr u) := by
  intro x hx
  obtain ⟨i, hi, rfl⟩ := List.mem_iff_getElem.1 hx
  have := place_bits (fr := fr) (u := u) h i
  rwa [getD_lt _ hi] at this

theorem recovers {F : Fns R w} {A : R → BitVec w → Prop} (S : Sound F A) : Recovers F A := by
  intro d e m out x y v vc hr he hm hml hol hx hy hv hvc
  obtain ⟨n, h⟩ := hr.ok
  have hN := h.N
  rw [C09_encode d.K d.N n d.frozen e he (by simpa using hN) m out (by simpa using hml) (by simpa using hol)] at hx
  cases hx
  have hpl : (place d.frozen m).length = 2 ^ n := by rw [place_length, h.frozen]
  have hyl : y.length = d.N := by rw [hy.length_eq, polarTransform_length, hN]
  have hs : sc F n d.frozen y = place d.frozen m := sc_votes S h.frozen hpl (place_bits' hm) (fun i hi => place_frozen hi) hy
  constructor
  · obtain ⟨⟨d', v'⟩, e, _, g1, _, g2⟩ := siho_sat F h .plain hyl hv
    simp only [PolarSC.out] at g2
    rw [hs, unplace_place _ _ (by rw [hml]; exact h.K)] at g2
    exact ⟨d', by rw [e, g2]⟩
  · obtain ⟨⟨d', v'⟩, e, _, g1, _, g2⟩ := sihoCw_sat F h hyl hvc
    simp only at g2
    rw [hs] at g2
    exact ⟨d', by rw [e, g2]⟩

theorem encodeSys_bits {K N : Int} {n : Nat} {frozen : List Bool} {e : Enc} (he : Enc.mk? K N frozen = ok e)
    (hN : N.toNat = 2 ^ n) {u out x : List (BitVec w)} (hu : u.length = K.toNat) (ho : out.length = N.toNat) (hx : e.encodeSys u out = ok x) :
    ∃ z, z.length = 2 ^ n ∧ Bits z ∧ (∀ i : Nat, frozen[i]? = some true → z[i]? = some 0#w) ∧ x = polarTransform n z := by
  obtain ⟨h1, h2, h3, h4, h5⟩ := mk?_spec he
  have hN' : e.N = 2 ^ n := by omega
  have hpl : (place frozen u).length = 2 ^ n := by rw [place_length]; omega
  unfold Enc.encodeSys at hx
  rw [convert_eq (by rw [h3]; omega) (by rw [h3]; omega), bind_ok, hN', h3, lightEncode_eq hpl, bind_ok] at hx
  obtain ⟨z, hz, hlz, hgz⟩ := maskLoop_sat (e := e) (x := polarTransform n (place frozen u))
    (by rw [polarTransform_length]; omega) (by rw [h3]; omega)
  rw [hN', h3] at hz
  rw [hz, bind_ok, lightEncode_eq (by omega)] at hx
  rw [h3, hN'] at hgz
  cases hx
  refine ⟨z, by omega, ?_, ?_, rfl⟩
  · intro b hb
    obtain ⟨i, hi, rfl⟩ := List.mem_iff_getElem.1 hb
    have := hgz i (by omega)
    rw [List.getElem?_eq_getElem hi, Option.some.injEq] at this
    rw [this]
    split
    · exact Or.inl rfl
    · split
      · exact Or.inr rfl
      · exact Or.inl rfl
  · intro i hi
    have hlt : i < 2 ^ n := by
      obtain ⟨hh, _⟩ := List.getElem?_eq_some_iff.mp hi
      omega
    rw [hgz i hlt, List.getD_eq_getElem?_getD, hi]
    rfl

theorem recoversSys {F : Fns R w} {A : R → BitVec w → Prop} (S : Sound F A) : RecoversSys F A := by
  intro d e m out x y v vc hr he hconv hm hml hol hx hy hv hvc
  obtain ⟨n, h⟩ := hr.ok
  have hN := h.N
  obtain ⟨z, z1, z2, z3, rfl⟩ := encodeSys_bits he (n := n) (by simpa using hN) (by simpa using hml) (by simpa using hol) hx
  obtain ⟨x', e', _, hu⟩ := C11_systematic_partial d.K d.N n d.frozen e he (by simpa using hN) hconv m out hm (by simpa using hml) (by simpa using hol)
  rw [hx] at e'
  cases e'
  have hyl : y.length = d.N := by rw [hy.length_eq, polarTransform_length, hN]
  have hs : sc F n d.frozen y = z := sc_votes S h.frozen z1 z2 z3 hy
  constructor
  · obtain ⟨⟨d', v'⟩, e, _, g1, _, g2⟩ := siho_sat F h .sys hyl hv
    simp only [PolarSC.out] at g2
    rw [hs, hu] at g2
    exact ⟨d', by rw [e, g2]⟩
  · obtain ⟨⟨d', v'⟩, e, _, g1, _, g2⟩ := sihoCw_sat F h hyl hvc
    simp only at g2
    rw [hs] at g2
    exact ⟨d', by rw [e, g2]⟩

theorem hard_votes {F : Fns R w} {A : R → BitVec w → Prop} (S : Sound F A) : ∀ {x : List (BitVec w)}, Bits x → List.Forall₂ A (hard F x) x
  | [], _ => .nil
  | a :: x, h => by
    refine .cons ?_ (hard_votes S fun b hb => h b (List.mem_cons_of_mem _ hb))
    by_cases ha : a = 0
    · simp only; rw [if_neg (by simpa using ha), ha]; exact S.one
    · simp only; rw [if_pos ha, (h a List.mem_cons_self).resolve_left ha]; exact S.mone

theorem recoversHard {F : Fns R w} {A : R → BitVec w → Prop} (S : Sound F A) : RecoversHard F := by
  intro d e m out x v vc hr he hm hml hol hx hv hvc
  obtain ⟨n, h⟩ := hr.ok
  have hN := h.N
  rw [C09_encode d.K d.N n d.frozen e he (by simpa using hN) m out (by simpa using hml) (by simpa using hol)] at hx
  cases hx
  have hpl : (place d.frozen m).length = 2 ^ n := by rw [place_length, h.frozen]
  have hyl : (polarTransform n (place d.frozen m)).length = d.N := by rw [polarTransform_length, hN]
  have hs : sc F n d.frozen (hard F (polarTransform n (place d.frozen m))) = place d.frozen m :=
    sc_votes S h.frozen hpl (place_bits' hm) (fun i hi => place_frozen hi) (hard_votes S (transform_bits hpl (place_bits' hm)))
  constructor
  · obtain ⟨⟨d', v'⟩, e, _, g1, _, g2⟩ := hiho_sat F h .plain hyl hv
    simp only [PolarSC.out] at g2
    rw [hs, unplace_place _ _ (by rw [hml]; exact h.K)] at g2
    exact ⟨d', by rw [e, g2]⟩
  · obtain ⟨⟨d', v'⟩, e, _, g1, _, g2⟩ := hihoCw_sat F h hyl hvc
    simp only at g2
    rw [hs] at g2
    exact ⟨d', by rw [e, g2]⟩

/-- **C73**, `int8_t`: decoding is the inverse of encoding for all inputs whose signs are those of a codeword, except the value
`-128`. -/
theorem C73_int8 : Recovers int8 (VotesInt 8) ∧ RecoversSys int8 (VotesInt 8) ∧ RecoversHard int8 :=
  ⟨recovers sound_int8, recoversSys sound_int8, recoversHard sound_int8⟩

/-- **C73**, `int16_t`. -/
theorem C73_int16 : Recovers int16 (VotesInt 16) ∧ RecoversSys int16 (VotesInt 16) ∧ RecoversHard int16 :=
  ⟨recovers sound_int16, recoversSys sound_int16, recoversHard sound_int16⟩

/-- **C73**, `float`: for all inputs, infinities included, whose signs are those of a codeword, and of magnitude at least
`2^-74`. -/
theorem C73_float : Recovers flt (VotesFl (-74)) ∧ RecoversSys flt (VotesFl (-74)) ∧ RecoversHard flt :=
  ⟨recovers sound_flt, recoversSys sound_flt, recoversHard sound_flt⟩

/-- **C73**, `double`: of magnitude at least `2^-537`. -/
theorem C73_double : Recovers dbl (VotesFl (-537)) ∧ RecoversSys dbl (VotesFl (-537)) ∧ RecoversHard dbl :=
  ⟨recovers sound_dbl, recoversSys sound_dbl, recoversHard sound_dbl⟩

/-! ## The functions -/

theorem sgn_sign (x : Int) : sgn x = x.sign := by
  rcases lt_trichotomy x 0 with h | h | h
  · rw [sgn_neg h, Int.sign_eq_neg_one_of_neg h]
  · subst h; rfl
  · rw [sgn_pos h, Int.sign_eq_one_of_pos h]

/-- **C73**, the functions of the integers of `b` = 8 or 16 bits are those of the min-sum approximation, saturated: `f` is the
product of the signs by the least magnitude, `g` the sum or difference, `h` the sign. -/
theorem C73_functions_int (b : Nat) (hb : b = 8 ∨ b = 16) (sat x y : Int) (hx : |x| < 2 ^ (b - 1)) (hy : |y| < 2 ^ (b - 1)) (hs : 0 ≤ sat) (u : BitVec w) (hw : 0 < w) :
    fInt b x y = x.sign * y.sign * min |x| |y| ∧
      gInt sat x y u = max (-sat) (min sat (if u = 0 then y + x else y - x)) ∧
      (hInt w x ≠ 0 ↔ x < 0) := by
  have hax : sgn x * x = |x| := by rw [sgn_sign, Int.sign_mul_self_eq_abs]
  have hay : sgn y * y = |y| := by rw [sgn_sign, Int.sign_mul_self_eq_abs]
  refine ⟨?_, ?_, ?_⟩
  · unfold fInt
    rw [hax, hay, sgn_sign, sgn_sign]
    have h1 : abs (x.sign * y.sign * min |x| |y|) < 2 ^ (b - 1) := by
      rw [abs_mul, abs_mul]
      have hm : abs (min |x| |y|) < 2 ^ (b - 1) := by rw [abs_of_nonneg (le_min (abs_nonneg _) (abs_nonneg _))]; exact lt_of_le_of_lt (min_le_left _ _) hx
      have e1 : |x.sign| = 0 ∨ |x.sign| = 1 := by rcases lt_trichotomy x 0 with h | h | h <;> simp [Int.sign_eq_neg_one_of_neg, Int.sign_eq_one_of_pos, h]
      have e2 : |y.sign| = 0 ∨ |y.sign| = 1 := by rcases lt_trichotomy y 0 with h | h | h <;> simp [Int.sign_eq_neg_one_of_neg, Int.sign_eq_one_of_pos, h]
      have hp : (0 : Int) < 2 ^ (b - 1) := by positivity
      rcases e1 with e1 | e1 <;> rcases e2 with e2 | e2 <;> rw [e1, e2] <;> simp only [zero_mul, mul_zero, one_mul] <;> omega
    generalize x.sign * y.sign * min |x| |y| = z at *
    unfold wrap
    rw [BitVec.toInt_ofInt]
    rw [abs_lt] at h1
    obtain ⟨h1, h2⟩ := h1
    rcases hb with rfl | rfl <;> simp only [Int.bmod] at * <;> norm_num at h1 h2 ⊢ <;> omega
  · unfold gInt saturate
    split <;> omega
  · unfold hInt
    have : BitVec.ofNat w (2 ^ (w - 1)) ≠ 0 := by
      intro h
      have h2 := congrArg BitVec.toNat h
      rw [BitVec.toNat_ofNat, Nat.mod_eq_of_lt (Nat.pow_lt_pow_right (by omega) (by omega))] at h2
      have h3 : 0 < 2 ^ (w - 1) := Nat.pow_pos (by omega)
      simp at h2
    split
    · rename_i h; exact ⟨fun _ => h, fun _ => this⟩
    · rename_i h; exact ⟨fun c => absurd rfl c, fun c => absurd c h⟩

open Verif.Float in
/-- **C73**, the functions of the floating point numbers, on representable numbers of magnitude at least `2^e`, `2e` being an
exponent of the format (`e = -74` for `float`, `-537` for `double`): `f` is exactly the product of the signs by the least
magnitude, `g` the rounded sum or difference, `h` the sign. -/
theorem C73_functions_float (F : Fmt) (e : ℤ) (he : F.emin ≤ e + e) (x y : ℚ) (hx : F.Rep x) (hy : F.Rep y) (hx1 : (2 : ℚ) ^ e ≤ |x|) (hy1 : (2 : ℚ) ^ e ≤ |y|)
    (u : BitVec w) (hw : 0 < w) :
    fFl F (.fin x) (.fin y) = .fin ((if (x < 0) = (y < 0) then 1 else -1) * min |x| |y|) ∧
      gFl F (.fin x) (.fin y) u = F.of (if u = 0 then x + y else -x + y) ∧
      (hFl w (.fin x) ≠ 0 ↔ x < 0) := by
  have hp : (0 : ℚ) < 2 ^ e := two_zpow_pos e
  have hmin : minFl (.fin |x|) (.fin |y|) = .fin (min |x| |y|) := by
    unfold minFl
    simp only [Fl.lt, decide_eq_true_eq]
    split
    · rw [min_eq_right (by linarith)]
    · rw [min_eq_left (by linarith)]
  have hrm : F.Rep (min |x| |y|) := by
    have habs : ∀ z : ℚ, F.Rep z → F.Rep |z| := by
      rintro z ⟨m, k, h1, h2, h3, h4⟩
      refine ⟨|m|, k, by rwa [abs_abs], h2, ?_, by rwa [abs_abs]⟩
      rw [h3, abs_mul, _root_.abs_of_pos (two_zpow_pos k), Int.cast_abs]
    rcases min_choice |x| |y| with h | h <;> rw [h]
    · exact habs x hx
    · exact habs y hy
  have hrn : F.Rep (-min |x| |y|) := by
    obtain ⟨m, k, h1, h2, h3, h4⟩ := hrm
    exact ⟨-m, k, by rwa [abs_neg], h2, by rw [h3]; push_cast; ring, by rwa [abs_neg]⟩
  have hnx : ¬ x < 0 → Pos e (.fin x) := fun h => by rw [abs_of_nonneg (by linarith)] at hx1; exact hx1
  have hpx : x < 0 → Pos e (Fl.fin x).neg := fun h => by rw [abs_of_neg h] at hx1; exact hx1
  have hny : ¬ y < 0 → Pos e (.fin y) := fun h => by rw [abs_of_nonneg (by linarith)] at hy1; exact hy1
  have hpy : y < 0 → Pos e (Fl.fin y).neg := fun h => by rw [abs_of_neg h] at hy1; exact hy1
  refine ⟨?_, ?_, ?_⟩
  · unfold fFl
    simp only [Fl.abs]
    rw [hmin]
    by_cases h1 : x < 0 <;> by_cases h2 : y < 0
    · rw [sgn_of_pos (mul_neg_neg he (hpx h1) (hpy h2)), if_pos (by simp [h1, h2])]
      simp only [Fmt.mul, one_mul]
      exact of_rep F hrm
    · rw [sgn_of_neg (mul_neg_left he (hpx h1) (hny h2)), if_neg (by simp [h1, h2])]
      simp only [Fmt.mul, neg_mul, one_mul]
      exact of_rep F hrn
    · rw [sgn_of_neg (by rw [mul_comm']; exact mul_neg_left he (hpy h2) (hnx h1)), if_neg (by simp [h1, h2])]
      simp only [Fmt.mul, neg_mul, one_mul]
      exact of_rep F hrn
    · rw [sgn_of_pos (mul_pos' he (hnx h1) (hny h2)), if_pos (by simp [h1, h2])]
      simp only [Fmt.mul, one_mul]
      exact of_rep F hrm
  · unfold gFl
    split <;> rfl
  · unfold hFl
    have : BitVec.ofNat w (2 ^ (w - 1)) ≠ 0 := by
      intro h
      have h2 := congrArg BitVec.toNat h
      rw [BitVec.toNat_ofNat, Nat.mod_eq_of_lt (Nat.pow_lt_pow_right (by omega) (by omega))] at h2
      have h3 : 0 < 2 ^ (w - 1) := Nat.pow_pos (by omega)
      simp at h2
    simp only [Fl.lt, decide_eq_true_eq]
    split
    · rename_i h; exact ⟨fun _ => h, fun _ => this⟩
    · rename_i h; exact ⟨fun c => absurd rfl c, fun c => absurd c h⟩

example : fInt 8 (-5) 3 = -3 ∧ gInt 63 40 30 (0 : BitVec 8) = 63 ∧ gInt 63 40 30 (1 : BitVec 8) = -10 := by decide +kernel

/-- A decoder for the examples. -/
def exDec : Dec Int 8 :=
  match Dec.mk? int8 2 4 [true, true, false, false] with
  | .ok d => d
  | _ => ⟨0, 0, [], .leaf 0 ⟨[], [], false⟩, []⟩

example : Dec.mk? int8 2 4 [true, true, false, false] = ok exDec := by decide +kernel

/-- A correct word, with a weak wrong value: the decoder corrects it. -/
example : (exDec.siho int8 .plain [5, -9, 3, 1] [0, 0]).toOption.map Prod.snd = some [1, 1] ∧
    (exDec.sihoCw int8 [5, -9, 3, -4] [7, 7, 7, 7]).toOption.map Prod.snd = some [0, 1, 0, 1] ∧
    (exDec.siho int8 .sys [5, -9, 3, -4] [0, 0]).toOption.map Prod.snd = some [0, 1] ∧
    (exDec.hiho int8 .plain [0, 1, 0, 1] [0, 0]).toOption.map Prod.snd = some [1, 1] := by decide +kernel

example : List.Forall₂ (VotesInt (w := 8) 8) [5, -9, 3, -4] [0, 1, 0, 1] := by
  refine .cons ?_ (.cons ?_ (.cons ?_ (.cons ?_ .nil))) <;> simp [VotesInt]

example : List.Forall₂ (VotesFl (w := 32) (-74)) [.fin 5, .inf true] [0, 1] := by
  refine .cons ?_ (.cons ?_ .nil)
  · simp only [VotesFl]; constructor
    · intro _; norm_num
    · intro h; exact absurd rfl h
  · simp [VotesFl]

/-! ## C74: defects -/

/-- **C74**: with `int8_t`, `f_LLR` of two values `-128` is `-128`: the opposite of `-128` does not fit.  Two inputs that vote
for the codeword `(1, 1)` (of the message `(0, 1)`) are decoded as the message `(1, 0)`, whose codeword is `(1, 0)`. -/
theorem C74_int8_min : fInt 8 (-128) (-128) = -128 ∧
    ∃ d, Dec.mk? int8 2 2 [false, false] = ok d ∧
      (d.siho int8 .plain [-128, -128] [0, 0]).toOption.map Prod.snd = some [1, 0] ∧
      (d.sihoCw int8 [-128, -128] [0, 0]).toOption.map Prod.snd = some [1, 0] ∧
      (d.siho int8 .plain [-127, -127] [0, 0]).toOption.map Prod.snd = some [0, 1] ∧
      (d.sihoCw int8 [-127, -127] [0, 0]).toOption.map Prod.snd = some [1, 1] := by
  refine ⟨by decide +kernel, _, rfl, by decide +kernel, by decide +kernel, by decide +kernel, by decide +kernel⟩

open Verif.Float in
theorem rnd_tiny {F : Fmt} {q : ℚ} (h0 : 0 ≤ q) (h : q < 2 ^ F.emin / 2) : F.rnd q = 0 := by
  unfold Fmt.rnd
  rw [if_neg (by linarith)]
  unfold Fmt.mag
  have h2 := two_zpow_pos (F.ulp q)
  have hle : (2 : ℚ) ^ F.emin ≤ 2 ^ F.ulp q := zpow_le_zpow_right₀ (by norm_num) (le_max_left _ _)
  have h3 : q / 2 ^ F.ulp q < 1 / 2 := by rw [div_lt_iff₀ h2]; linarith
  have h4 : 0 ≤ q / 2 ^ F.ulp q := div_nonneg h0 h2.le
  have h5 : ⌊q / 2 ^ F.ulp q⌋ = 0 := by rw [Int.floor_eq_iff]; constructor <;> push_cast <;> linarith
  have : rne (q / 2 ^ F.ulp q) = 0 := by unfold rne; rw [h5, if_pos (by push_cast; linarith)]
  rw [this]; simp

open Verif.Float in
theorem sc_zeros {a b : Fl} (hf : fFl b32 a b = .fin 0) (hg : gFl b32 a b (0 : BitVec 32) = .fin 0) : sc flt 1 [false, false] [a, b] = [0, 0] := by
  have hh : hFl 32 (.fin 0) = 0 := by simp [hFl, Fl.lt]
  have hp : polarTransform 0 [(0 : BitVec 32)] = [0] := by decide
  have h1 : sc flt 0 [false] [fFl b32 a b] = [0] := by rw [hf]; simp [sc, flt, hh]
  have h2 : sc flt 0 [false] [gFl b32 a b (0 : BitVec 32)] = [0] := by rw [hg]; simp [sc, flt, hh]
  show sc flt 0 [false] [fFl b32 a b] ++ sc flt 0 [false] (zip3 (gFl b32) [a] [b] (polarTransform 0 (sc flt 0 [false] [fFl b32 a b]))) = [0, 0]
  rw [h1, hp]
  show [0] ++ sc flt 0 [false] [gFl b32 a b (0 : BitVec 32)] = [0, 0]
  rw [h2]
  rfl

open Verif.Float in
/-- **C74**: with `float`, the product of the two inputs of `f_LLR` is rounded to zero when they are small: the sign is lost.
Two finite inputs whose signs are those of the codeword `(0, 1)` (of the message `(1, 1)`) are decoded as `(0, 0)`. -/
theorem C74_float_underflow : fFl b32 (.fin (2 ^ (-80 : ℤ))) (.fin (-2 ^ (-80 : ℤ))) = .fin 0 ∧
    ∃ d, Dec.mk? flt 2 2 [false, false] = ok d ∧
      (d.siho flt .plain [.fin (2 ^ (-80 : ℤ)), .fin (-2 ^ (-80 : ℤ))] [0, 0]).toOption.map Prod.snd = some [0, 0] ∧
      (d.sihoCw flt [.fin (2 ^ (-80 : ℤ)), .fin (-2 ^ (-80 : ℤ))] [0, 0]).toOption.map Prod.snd = some [0, 0] ∧
      b32.Rep (2 ^ (-80 : ℤ)) := by
  have h0 : b32.rnd 0 = 0 := rnd_tiny le_rfl (by positivity)
  have hof : b32.of 0 = .fin 0 := by unfold Fmt.of; rw [h0, if_neg (by rw [abs_zero, not_le]; positivity)]
  have hm : b32.of ((2 : ℚ) ^ (-80 : ℤ) * -2 ^ (-80 : ℤ)) = .fin 0 := by
    have : b32.rnd ((2 : ℚ) ^ (-80 : ℤ) * -2 ^ (-80 : ℤ)) = 0 := by
      rw [mul_neg, rnd_neg, rnd_tiny (by positivity), neg_zero]
      rw [← zpow_add₀ (by norm_num), lt_div_iff₀ (by norm_num)]
      show (2 : ℚ) ^ (-80 + -80 : ℤ) * 2 < 2 ^ (-149 : ℤ)
      norm_num
    unfold Fmt.of
    rw [this, if_neg (by rw [abs_zero, not_le]; positivity)]
  have hf : fFl b32 (.fin (2 ^ (-80 : ℤ))) (.fin (-2 ^ (-80 : ℤ))) = .fin 0 := by
    simp only [fFl, Fmt.mul, hm]
    have : sgnFl (.fin 0) = .fin 0 := by simp [sgnFl, Fl.lt]
    rw [this]
    have hmin : ∀ q : ℚ, minFl (.fin q) (.fin q) = .fin q := fun q => by simp [minFl]
    simp only [Fl.abs, abs_neg, hmin, Fmt.mul, zero_mul, hof]
  obtain ⟨d, hd, ho, hfr⟩ := mk?_sat flt (K := 2) (N := 2) (frozen := [false, false]) (n := 1) (by decide) (by decide) (by decide) (by decide)
  have hsc : sc flt 1 d.frozen [.fin (2 ^ (-80 : ℤ)), .fin (-2 ^ (-80 : ℤ))] = [0, 0] := by
    rw [hfr]
    have hg : gFl b32 (.fin (2 ^ (-80 : ℤ))) (.fin (-2 ^ (-80 : ℤ))) (0 : BitVec 32) = .fin 0 := by
      simp only [gFl, if_true, Fmt.add, add_neg_cancel, hof]
    exact sc_zeros hf hg
  have hN : d.N = 2 := ho.N
  have hK : d.K = 2 := by rw [ho.K, hfr]; rfl
  refine ⟨hf, d, hd, ?_, ?_, ⟨1, -80, by decide, by decide, by simp, ?_⟩⟩
  · obtain ⟨⟨d', v'⟩, e, _, _, _, g⟩ := siho_sat flt ho .plain (y := [.fin (2 ^ (-80 : ℤ)), .fin (-2 ^ (-80 : ℤ))]) (v := [0, 0]) hN.symm hK.symm
    simp only [PolarSC.out] at g
    rw [e, g, hsc, hfr]
    rfl
  · obtain ⟨⟨d', v'⟩, e, _, _, _, g⟩ := sihoCw_sat flt ho (y := [.fin (2 ^ (-80 : ℤ)), .fin (-2 ^ (-80 : ℤ))]) (v := [0, 0]) hN.symm hN.symm
    simp only at g
    have hp : polarTransform 1 [(0 : BitVec 32), 0] = [0, 0] := by decide
    rw [e, g, hsc, hp]
    rfl
  · rw [abs_of_nonneg (by positivity)]
    exact zpow_lt_zpow_right₀ (by norm_num) (by decide)

end Verif.PolarSC
