import Verif.Proof.PolarSCLCost
import Verif.Props.PolarSC

/-! # The types whose metrics are exact -/

namespace Verif.PolarSCL
open Verif.Polar
open Verif.PolarSC (Fns int8 int16 flt dbl wrap saturate fInt gInt fFl gFl C73_functions_int C73_functions_float)

theorem wrap_id {b : Nat} (hb : 0 < b) {x : Int} (h1 : -2 ^ (b - 1) ≤ x) (h2 : x < 2 ^ (b - 1)) : wrap b x = x := by
  unfold wrap
  rw [BitVec.toInt_ofInt]
  obtain ⟨k, rfl⟩ : ∃ k, b = k + 1 := ⟨b - 1, by omega⟩
  rw [Nat.add_sub_cancel] at h1 h2
  refine Int.bmod_eq_of_le ?_ ?_
  · push_cast
    rw [pow_succ]
    omega
  · push_cast
    rw [pow_succ]
    omega

theorem sign_fZ (x y : Int) : x.sign * y.sign * min |x| |y| = fZ x y := by
  unfold fZ
  rcases lt_trichotomy x 0 with h | h | h <;> rcases lt_trichotomy y 0 with h' | h' | h' <;>
    simp [h, h', Int.sign_eq_neg_one_of_neg, Int.sign_eq_one_of_pos, not_lt.2 h.le, not_lt.2 h'.le, not_lt]

/-- Integers of `b` bits: metrics start at the least one. -/
def repInt (b : Nat) (k : Bool) (r c : Int) : Prop := r = if k then c else -2 ^ (b - 1) + c

theorem phiInt_eq {b : Nat} (hb : 0 < b) {mu z : Int} (h1 : -2 ^ (b - 1) ≤ mu) (h2 : mu + |z| < 2 ^ (b - 1)) (u : Bool) : phiInt b mu z u = mu + pen z u := by
  unfold phiInt pen
  have hz := abs_cases z
  cases u
  · simp only [Bool.false_eq_true, if_false, true_and, false_and]
    split
    · rw [wrap_id hb (by omega) (by omega)]; omega
    · omega
  · simp only [if_true, Bool.true_eq_false, true_and, false_and, if_false]
    split
    · rw [wrap_id hb (by omega) (by omega)]; omega
    · omega

theorem bit_ne (w : Nat) (hw : 0 < w) (c : Bool) : ((if c then bitInit w else 0) = (0 : BitVec w)) ↔ c = false := by
  have hb : ¬ bitInit w = 0#w := bitInit_ne hw
  cases c <;> simp [hb]

theorem exact_int {w b : Nat} {F : Fns Int w} {A : Ar Int} {B : Int} (hw : 0 < w) (hb : b = 8 ∨ b = 16) (hB : 0 ≤ B) (hB1 : B + B < 2 ^ (b - 1)) (hf : F.f = fInt b) (hg : F.g = gInt B)
    (hphi : ∀ mu x u, -2 ^ (b - 1) ≤ mu → mu + pen x u ≤ B → mu + |x| < 2 ^ (b - 1) → A.phi mu x u = mu + pen x u) (hlt : A.lt = fun a b => decide (a < b))
    (hsub : A.sub = fun x y => wrap b (x - y)) (hi : A.init = -2 ^ (b - 1)) (hm : A.max = 2 ^ (b - 1) - 1) :
    Exact F A B (fun r z => r = z) (repInt b) := by
  have hb0 : 0 < b := by omega
  refine ⟨?_, ?_, ?_, ?_, ?_, ?_, ?_⟩
  · intro x y _ _ e1 e2 h
    subst e1 e2
    have := abs_nonneg x
    have := abs_nonneg y
    rw [hf, (C73_functions_int b hb B x y (by omega) (by omega) hB (0 : BitVec w) hw).1, sign_fZ]
  · intro x y _ _ c e1 e2 h
    subst e1 e2
    have h1 := abs_cases x
    have h2 := abs_cases y
    rw [hg]
    unfold gInt saturate gZ
    rw [if_congr (bit_ne w hw c) rfl rfl]
    cases c <;> simp only [if_true, Bool.false_eq_true, if_false, Bool.true_eq_false] <;> omega
  · unfold repInt
    rw [hi]; simp
  · rintro k mu l c z u hk rfl h0 h1
    unfold repInt at *
    have p1 := pen_nonneg l u
    have p2 := pen_le l u
    have p3 := abs_nonneg l
    cases k <;> simp only [if_true, Bool.false_eq_true, if_false] at * <;> subst hk <;> rw [hphi _ _ _ (by omega) (by omega) (by omega)] <;> omega
  · rintro k a b' x y ha hb' _ _ _ _
    unfold repInt at *
    subst ha hb'
    rw [hlt]
    cases k <;> simp
  · rintro k a b' x y ha hb' h0 h1 h2
    unfold repInt at *
    subst ha hb'
    rw [hsub]
    cases k <;> simp only [if_true, Bool.false_eq_true, if_false]
    · rw [wrap_id hb0 (by omega) (by omega)]; omega
    · rw [wrap_id hb0 (by omega) (by omega)]
  · rintro k a x ha h0 h1
    unfold repInt at *
    subst ha
    rw [hlt, hm]
    cases k <;> simp only [if_true, Bool.false_eq_true, if_false, decide_eq_true_eq] <;> rcases hb with rfl | rfl <;> norm_num at * <;> omega

theorem exact_int8 : Exact int8 ar8 63 (fun r z => r = z) (repInt 8) := by
  refine exact_int (by decide) (Or.inl rfl) (by decide) (by decide) rfl rfl ?_ rfl rfl rfl rfl
  intro mu x u h1 h2 h3
  show saturate (phiInt 8 mu x u) (-128) 63 = _
  rw [phiInt_eq (by decide) h1 h3]
  have := pen_nonneg x u
  unfold saturate
  norm_num at h1
  omega

theorem exact_int16 : Exact int16 ar16 16382 (fun r z => r = z) (repInt 16) := by
  refine exact_int (by decide) (Or.inr rfl) (by decide) (by decide) rfl rfl ?_ rfl rfl rfl rfl
  intro mu x u h1 h2 h3
  exact phiInt_eq (by decide) h1 h3 u

/-! ## Floating point numbers -/

section
open Verif.Float

theorem rne_near {q : ℚ} {z : ℤ} (h : |q - z| < 1 / 2) : rne q = z := by
  have h1 := rne_err q
  have h2 : |((rne q - z : ℤ) : ℚ)| < 1 := by
    push_cast
    rw [abs_le] at h1
    rw [abs_lt] at h ⊢
    constructor <;> linarith
  rw [← Int.cast_abs, ← Int.cast_one, Int.cast_lt] at h2
  have := Int.abs_lt_one_iff.1 h2
  omega

variable {F : Fmt} {e i : ℤ}

/-- A tiny number is lost in a sum. -/
theorem mag_absorb (he : F.emin ≤ e) {z : ℤ} (hz : 0 < z) (hz1 : z < 2 ^ F.p) {t : ℚ} (ht : |t| ≤ 2 ^ i) (hi : i < e - F.p - 1) : F.mag (z * 2 ^ e + t) = z * 2 ^ e := by
  have h2e := two_zpow_pos e
  have hz' : (1 : ℚ) ≤ z := by exact_mod_cast hz
  have hz1' : (z : ℚ) + 1 ≤ 2 ^ (F.p : ℤ) := by rw [zpow_natCast]; exact_mod_cast hz1
  have hp : (0 : ℤ) ≤ F.p := by omega
  have hie : (2 : ℚ) ^ i ≤ 2 ^ (e - 1) := zpow_le_zpow_right₀ (by norm_num) (by omega)
  have hhalf : (2 : ℚ) ^ (e - 1) * 2 = 2 ^ e := by rw [← zpow_add_one₀ (by norm_num)]; congr 1; omega
  have hlow : (2 : ℚ) ^ (e - 1) ≤ z * 2 ^ e + t := by
    have := (abs_le.1 ht).1
    nlinarith
  have hx0 : 0 < z * 2 ^ e + t := lt_of_lt_of_le (two_zpow_pos _) hlow
  have hhigh : z * 2 ^ e + t < 2 ^ (e + F.p) := by
    rw [zpow_add₀ (by norm_num)]
    have := (abs_le.1 ht).2
    nlinarith
  have hl1 : e - 1 ≤ Int.log 2 (z * 2 ^ e + t) := (Int.zpow_le_iff_le_log (by decide) hx0).1 (by exact_mod_cast hlow)
  have hl2 : Int.log 2 (z * 2 ^ e + t) < e + F.p := (Int.lt_zpow_iff_log_lt (by decide) hx0).1 (by exact_mod_cast hhigh)
  unfold Fmt.mag
  have hu1 : F.ulp (z * 2 ^ e + t) ≤ e := by unfold Fmt.ulp; omega
  have hu2 : e - F.p ≤ F.ulp (z * 2 ^ e + t) := by unfold Fmt.ulp; omega
  generalize F.ulp (z * 2 ^ e + t) = k at hu1 hu2 ⊢
  have hk := two_zpow_pos k
  have hM : (z : ℚ) * 2 ^ e / 2 ^ k = ((z * 2 ^ (e - k).toNat : ℤ) : ℚ) := by
    rw [mul_div_assoc, ← zpow_sub₀ (by norm_num)]
    push_cast
    rw [← zpow_natCast, Int.toNat_of_nonneg (by omega)]
  have : rne ((z * 2 ^ e + t) / 2 ^ k) = z * 2 ^ (e - k).toNat := by
    apply rne_near
    rw [add_div, hM, add_sub_cancel_left, abs_div, abs_of_pos hk, div_lt_iff₀ hk]
    have h1 : (2 : ℚ) ^ i ≤ 2 ^ (k - 2) := zpow_le_zpow_right₀ (by norm_num) (by omega)
    have h2 : (2 : ℚ) ^ (k - 2) * 4 = 2 ^ k := by
      rw [zpow_sub₀ (by norm_num)]; norm_num
    linarith
  rw [this, ← hM]
  field_simp

theorem rep_unit (he : F.emin ≤ e) (hm : e + F.p ≤ F.emax) {z : ℤ} (hz : |z| < 2 ^ F.p) : F.Rep (z * 2 ^ e) := by
  refine ⟨z, e, hz, he, rfl, ?_⟩
  rw [abs_mul, abs_of_pos (two_zpow_pos e)]
  have h1 : |(z : ℚ)| < 2 ^ (F.p : ℤ) := by rw [zpow_natCast]; exact_mod_cast hz
  calc |(z : ℚ)| * 2 ^ e < 2 ^ (F.p : ℤ) * 2 ^ e := mul_lt_mul_of_pos_right h1 (two_zpow_pos e)
    _ = 2 ^ (F.p + e) := by rw [zpow_add₀ (by norm_num)]
    _ ≤ 2 ^ F.emax := zpow_le_zpow_right₀ (by norm_num) (by omega)

theorem of_unit (he : F.emin ≤ e) (hm : e + F.p ≤ F.emax) {z : ℤ} (hz : |z| < 2 ^ F.p) : F.of (z * 2 ^ e) = .fin (z * 2 ^ e) := of_rep F (rep_unit he hm hz)

theorem of_absorb (he : F.emin ≤ e) (hm : e + F.p ≤ F.emax) {z : ℤ} (hz : 0 < z) (hz1 : z < 2 ^ F.p) {t : ℚ} (ht : |t| ≤ 2 ^ i) (hi : i < e - F.p - 1) : F.of (z * 2 ^ e + t) = .fin (z * 2 ^ e) := by
  have h2e := two_zpow_pos e
  have hz' : (1 : ℚ) ≤ z := by exact_mod_cast hz
  have hie : (2 : ℚ) ^ i ≤ 2 ^ e := zpow_le_zpow_right₀ (by norm_num) (by omega)
  have h0 : 0 ≤ z * 2 ^ e + t := by
    have := (abs_le.1 ht).1
    nlinarith
  have h := mag_absorb he hz hz1 ht hi
  obtain ⟨_, _, _, _, _, hr⟩ := rep_unit he hm (z := z) (by rw [abs_of_pos hz]; exact hz1)
  unfold Fmt.of Fmt.rnd
  rw [if_neg (not_lt.2 h0), h, if_neg (not_le.2 hr)]

/-- Multiples of `2^e`. -/
def numFl (e : ℤ) (x : Fl) (z : Int) : Prop := x = .fin (z * 2 ^ e)

/-- A metric, which is `2^i` instead of 0 before the first normalization. -/
def repFl (e i : ℤ) (k : Bool) (x : Fl) (c : Int) : Prop := x = if k = false ∧ c = 0 then .fin (2 ^ i) else .fin (c * 2 ^ e)

theorem of_zero : F.of 0 = .fin 0 := of_rep F ⟨0, F.emin, by simp, le_refl _, by simp, by rw [abs_zero]; exact two_zpow_pos _⟩

theorem fZ_unit {x y : Int} (hx : x ≠ 0) (hy : y ≠ 0) : (if ((x : ℚ) * 2 ^ e < 0) = ((y : ℚ) * 2 ^ e < 0) then (1 : ℚ) else -1) * min |(x : ℚ) * 2 ^ e| |(y : ℚ) * 2 ^ e| = fZ x y * 2 ^ e := by
  have h2e := two_zpow_pos e
  have s : ∀ z : ℤ, ((z : ℚ) * 2 ^ e < 0) ↔ z < 0 := by
    intro z
    constructor
    · intro h; by_contra hc
      have : (0 : ℚ) ≤ z := by exact_mod_cast not_lt.1 hc
      nlinarith
    · intro h
      have : (z : ℚ) < 0 := by exact_mod_cast h
      exact mul_neg_of_neg_of_pos this h2e
  have hmin : min |(x : ℚ) * 2 ^ e| |(y : ℚ) * 2 ^ e| = ((min |x| |y| : ℤ) : ℚ) * 2 ^ e := by
    rw [abs_mul, abs_mul, abs_of_pos h2e, ← min_mul_of_nonneg _ _ h2e.le]
    push_cast
    rfl
  rw [hmin]
  unfold fZ
  by_cases h : x < 0 ↔ y < 0
  · rw [if_pos (by rw [eq_iff_iff, s, s]; exact h), if_pos h, one_mul]
  · rw [if_neg (by rw [eq_iff_iff, s, s]; exact h), if_neg h]
    push_cast
    ring

theorem exact_fl {w : Nat} {G : Fns Fl w} {A : Ar Fl} {B : Int} (hw : 0 < w) (he : F.emin ≤ e + e) (he1 : F.emin ≤ e) (hm : e + F.p < F.emax) (hi : i < e - F.p - 1) (hi0 : F.emin ≤ i) (hB : B = 2 ^ F.p - 1)
    (hf : G.f = fFl F) (hg : G.g = gFl F) (hphi : A.phi = phiFl F) (hlt : A.lt = Fl.lt) (hsub : A.sub = fun x y => F.add x y.neg) (hin : A.init = .fin (2 ^ i)) (hmax : A.max = .fin ((2 ^ F.p - 1) * 2 ^ (F.emax - F.p))) :
    Exact G A B (numFl e) (repFl e i) := by
  have h2e := two_zpow_pos e
  have h2i := two_zpow_pos i
  have hie : (2 : ℚ) ^ i < 2 ^ e := zpow_lt_zpow_right₀ (by norm_num) (by omega)
  have hBp : ∀ {z : Int}, |z| ≤ B → |z| < 2 ^ F.p := by intro z h; omega
  have pos : ∀ {z : Int}, 0 < z → (2 : ℚ) ^ e ≤ z * 2 ^ e := by
    intro z hz
    have : (1 : ℚ) ≤ z := by exact_mod_cast hz
    nlinarith
  have lt0 : ∀ z : Int, Fl.lt (.fin ((z : ℚ) * 2 ^ e)) (.fin 0) = true ↔ z < 0 := by
    intro z
    simp only [Fl.lt, decide_eq_true_eq]
    constructor
    · intro h; by_contra hc
      have : (0 : ℚ) ≤ z := by exact_mod_cast not_lt.1 hc
      nlinarith
    · intro h
      have : (z : ℚ) < 0 := by exact_mod_cast h
      exact mul_neg_of_neg_of_pos this h2e
  have gt0 : ∀ z : Int, Fl.lt (.fin 0) (.fin ((z : ℚ) * 2 ^ e)) = true ↔ 0 < z := by
    intro z
    simp only [Fl.lt, decide_eq_true_eq]
    constructor
    · intro h; by_contra hc
      have : (z : ℚ) ≤ 0 := by exact_mod_cast not_lt.1 hc
      nlinarith
    · intro h
      have := pos h
      linarith
  have addp : ∀ {k : Bool} {mu : Fl} {c d : Int}, repFl e i k mu c → 0 ≤ c → 0 < d → c + d ≤ B → repFl e i k (F.add mu (.fin (d * 2 ^ e))) (c + d) := by
    intro k mu c d hk hc hd hB'
    unfold repFl at *
    rw [if_neg (by rintro ⟨_, h⟩; omega)]
    by_cases h : k = false ∧ c = 0
    · rw [if_pos h] at hk
      rw [hk, h.2]
      show F.of (2 ^ i + d * 2 ^ e) = _
      rw [add_comm, of_absorb he1 (by omega) hd (by omega) (le_of_eq (abs_of_pos h2i)) hi, Int.zero_add]
    · rw [if_neg h] at hk
      rw [hk]
      show F.of (c * 2 ^ e + d * 2 ^ e) = _
      rw [← add_mul, ← Int.cast_add, of_unit he1 (by omega) (by rw [abs_of_nonneg (by omega)]; omega)]
  refine ⟨?_, ?_, ?_, ?_, ?_, ?_, ?_⟩
  · rintro a b x y rfl rfl h
    have ax := abs_nonneg x
    have ay := abs_nonneg y
    rw [hf]
    unfold numFl
    by_cases hx : x = 0
    · subst hx
      have : fZ 0 y = 0 := by unfold fZ; simp
      rw [this]
      show F.mul (PolarSC.sgnFl (F.of _)) _ = _
      rw [Int.cast_zero, zero_mul, zero_mul, of_zero]
      have e1 : PolarSC.sgnFl (.fin 0) = .fin 0 := by unfold PolarSC.sgnFl; simp [Fl.lt]
      rw [e1]
      show F.mul (.fin 0) (PolarSC.minFl (.fin _) (.fin _)) = _
      unfold PolarSC.minFl
      split
      · show F.of _ = _
        rw [zero_mul, of_zero]
      · show F.of _ = _
        rw [zero_mul, of_zero]
    · by_cases hy : y = 0
      · subst hy
        have : fZ x 0 = 0 := by unfold fZ; simp
        rw [this]
        show F.mul (PolarSC.sgnFl (F.of _)) _ = _
        rw [Int.cast_zero, zero_mul, mul_zero, of_zero]
        have e1 : PolarSC.sgnFl (.fin 0) = .fin 0 := by unfold PolarSC.sgnFl; simp [Fl.lt]
        rw [e1]
        show F.mul (.fin 0) (PolarSC.minFl (.fin _) (.fin _)) = _
        unfold PolarSC.minFl
        split
        · show F.of _ = _
          rw [zero_mul, of_zero]
        · show F.of _ = _
          rw [zero_mul, of_zero]
      · have big : ∀ {z : Int}, z ≠ 0 → (2 : ℚ) ^ e ≤ |(z : ℚ) * 2 ^ e| := by
          intro z hz
          rw [abs_mul, abs_of_pos h2e]
          have : (1 : ℚ) ≤ |(z : ℚ)| := by
            have := Int.one_le_abs hz
            exact_mod_cast this
          nlinarith
        rw [(C73_functions_float F e he _ _ (rep_unit he1 (by omega) (hBp (by omega))) (rep_unit he1 (by omega) (hBp (by omega))) (big hx) (big hy) (0 : BitVec w) hw).1, fZ_unit hx hy]
  · rintro a b x y c rfl rfl h
    rw [hg]
    unfold gFl numFl gZ
    rw [if_congr (bit_ne w hw c) rfl rfl]
    have hx := abs_cases x
    have hy := abs_cases y
    cases c
    · rw [if_pos rfl]
      show F.of _ = _
      rw [← add_mul, ← Int.cast_add, of_unit he1 (by omega) (by rw [abs_lt]; omega)]
      simp only [Bool.false_eq_true, if_false]
      rw [Int.add_comm]
    · rw [if_neg (by simp)]
      show F.of (-(x * 2 ^ e) + y * 2 ^ e) = _
      rw [← neg_mul, ← add_mul, ← Int.cast_neg, ← Int.cast_add, of_unit he1 (by omega) (by rw [abs_lt]; omega)]
      simp only [if_true]
      rw [Int.add_comm]
  · unfold repFl
    rw [hin]; simp
  · rintro k mu l c z b hk rfl hc hB'
    rw [hphi]
    unfold phiFl
    have hz := abs_cases z
    cases b
    · simp only [true_and, Bool.false_eq_true, false_and, if_false, lt0]
      unfold pen
      simp only [Bool.false_eq_true, if_false]
      split
      · rw [show max (-z) 0 = -z by omega]
        have := addp hk hc (d := -z) (by omega) (by omega)
        rw [Int.cast_neg, neg_mul] at this
        exact this
      · rw [show max (-z) 0 = 0 by omega, Int.add_zero]; exact hk
    · simp only [true_and, Bool.true_eq_false, false_and, if_false, gt0]
      unfold pen
      simp only [if_true]
      split
      · rw [show max z 0 = z by omega]
        exact addp hk hc (by omega) (by omega)
      · rw [show max z 0 = 0 by omega, Int.add_zero]; exact hk
  · rintro k a b x y ha hb hx _ hy _
    rw [hlt]
    unfold repFl at *
    subst ha hb
    by_cases h1 : k = false ∧ x = 0
    · rw [if_pos h1]
      by_cases h2 : k = false ∧ y = 0
      · rw [if_pos h2]; simp [Fl.lt, h1.2, h2.2]
      · rw [if_neg h2]
        have : y ≠ 0 := fun e => h2 ⟨h1.1, e⟩
        have := pos (z := y) (by omega)
        simp only [Fl.lt, decide_eq_true_eq]
        constructor
        · intro; omega
        · intro; linarith
    · rw [if_neg h1]
      by_cases h2 : k = false ∧ y = 0
      · rw [if_pos h2]
        have : x ≠ 0 := fun e => h1 ⟨h2.1, e⟩
        have := pos (z := x) (by omega)
        simp only [Fl.lt, decide_eq_true_eq]
        constructor
        · intro; linarith
        · intro; omega
      · rw [if_neg h2]
        simp only [Fl.lt, decide_eq_true_eq]
        rw [mul_lt_mul_iff_left₀ h2e, Int.cast_lt]
  · rintro k a b x y ha hb h0 h1 hB'
    rw [hsub]
    unfold repFl at *
    subst ha hb
    rw [if_neg (fun h : true = false ∧ x - y = 0 => absurd h.1 (by simp))]
    by_cases h1' : k = false ∧ x = 0
    · rw [if_pos h1', if_pos ⟨h1'.1, by omega⟩]
      show F.of (2 ^ i + -2 ^ i) = _
      rw [add_neg_cancel, of_zero, show x - y = 0 by omega]
      simp
    · rw [if_neg h1']
      by_cases h2 : k = false ∧ y = 0
      · rw [if_pos h2]
        show F.of (x * 2 ^ e + -2 ^ i) = _
        have : x ≠ 0 := fun e => h1' ⟨h2.1, e⟩
        rw [of_absorb he1 (by omega) (by omega) (by omega) (le_of_eq (by rw [abs_neg, abs_of_pos h2i])) hi, h2.2, Int.sub_zero]
      · rw [if_neg h2]
        show F.of (x * 2 ^ e + -(y * 2 ^ e)) = _
        rw [← neg_mul, ← add_mul, ← Int.cast_neg, ← Int.cast_add, of_unit he1 (by omega) (by rw [abs_lt]; omega)]
        rfl
  · rintro k a x ha h0 h1
    rw [hlt, hmax]
    unfold repFl at *
    have hp1 : (1 : ℚ) ≤ 2 ^ F.p - 1 := by
      have : (2 : ℚ) ^ 1 ≤ 2 ^ F.p := pow_le_pow_right₀ (by norm_num) F.pos
      linarith
    have hmx : (2 : ℚ) ^ e < 2 ^ (F.emax - F.p) := zpow_lt_zpow_right₀ (by norm_num) (by omega)
    subst ha
    split
    · simp only [Fl.lt, decide_eq_true_eq]
      nlinarith
    · simp only [Fl.lt, decide_eq_true_eq]
      have hx : (x : ℚ) ≤ 2 ^ F.p - 1 := by
        have : x ≤ 2 ^ F.p - 1 := by omega
        exact_mod_cast this
      have := two_zpow_pos (F.emax - F.p)
      nlinarith

theorem exact_flt (h1 : -74 ≤ e) (h2 : e ≤ 100) : Exact flt arFlt (2 ^ 24 - 1) (numFl e) (repFl e (-126)) :=
  exact_fl (F := b32) (by decide) (by show -149 ≤ _; omega) (by show -149 ≤ _; omega) (by show e + (24 : Nat) < 128; omega) (by show -126 < e - (24 : Nat) - 1; omega) (by decide) rfl rfl rfl rfl rfl rfl rfl rfl

theorem exact_dbl (h1 : -537 ≤ e) (h2 : e ≤ 900) : Exact dbl arDbl (2 ^ 53 - 1) (numFl e) (repFl e (-1022)) :=
  exact_fl (F := b64) (by decide) (by show -1074 ≤ _; omega) (by show -1074 ≤ _; omega) (by show e + (53 : Nat) < 1024; omega) (by show -1022 < e - (53 : Nat) - 1; omega) (by decide) rfl rfl rfl rfl rfl rfl rfl rfl

end

end Verif.PolarSCL
