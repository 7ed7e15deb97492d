import Verif.Proof.Bin
import Mathlib.Tactic.FieldSimp
import Mathlib.Tactic.Positivity
import Mathlib.Tactic.NormNum
import Mathlib.Tactic.Linarith

/-! # Arithmetic of the modems with two points -/

namespace Verif.Bin
open Verif.Float Verif.Cstl Verif.Modem Exec

theorem mag_shape (F : Fmt) {x : ℚ} (h : 0 ≤ x) : ∃ m e : ℤ, 0 ≤ m ∧ m < 2 ^ F.p ∧ F.emin ≤ e ∧ F.mag x = m * 2 ^ e := by
  rcases eq_or_lt_of_le h with e | hx
  · exact ⟨0, F.emin, le_refl _, by positivity, le_refl _, by rw [← e, mag_zero]; simp⟩
  have hu : F.emin ≤ F.ulp x := by unfold Fmt.ulp; omega
  have h2 := two_zpow_pos (F.ulp x)
  have hx2 : x < 2 ^ (Int.log 2 x + 1) := by exact_mod_cast Int.lt_zpow_succ_log_self (b := 2) (by decide) x
  have hux : Int.log 2 x - (F.p - 1) ≤ F.ulp x := by unfold Fmt.ulp; omega
  have a1 : x / 2 ^ F.ulp x ≤ ((2 ^ F.p : ℤ) : ℚ) := by
    rw [div_le_iff₀ h2]
    push_cast
    rw [← zpow_natCast, ← zpow_add₀ (by norm_num)]
    exact le_trans hx2.le (zpow_le_zpow_right₀ (by norm_num) (by omega))
  have b1 := rne_mono a1
  rw [rne_int] at b1
  have b0 := rne_nonneg (div_nonneg h h2.le)
  rcases eq_or_lt_of_le b1 with e | l
  · refine ⟨1, F.p + F.ulp x, by decide, one_lt_pow₀ (by norm_num) (by have := F.pos; omega), by omega, ?_⟩
    unfold Fmt.mag
    rw [e, zpow_add₀ (by norm_num), zpow_natCast]; push_cast; ring
  · exact ⟨_, _, b0, l, hu, rfl⟩

theorem rnd_shape (F : Fmt) (x : ℚ) : ∃ m e : ℤ, |m| < 2 ^ F.p ∧ F.emin ≤ e ∧ F.rnd x = m * 2 ^ e := by
  rcases le_total 0 x with h | h
  · obtain ⟨m, e, h0, h1, h2, h3⟩ := mag_shape F h
    exact ⟨m, e, by rwa [abs_of_nonneg h0], h2, by rw [← h3]; exact if_neg (by linarith)⟩
  · obtain ⟨m, e, h0, h1, h2, h3⟩ := mag_shape F (x := -x) (by linarith)
    refine ⟨-m, e, by rwa [abs_neg, abs_of_nonneg h0], h2, ?_⟩
    have := rnd_neg F (-x)
    rw [neg_neg] at this
    rw [this, show F.rnd (-x) = F.mag (-x) from if_neg (by linarith), h3]
    push_cast; ring

/-- A positive value, at least `2 ^ e`. -/
def Big (e : ℤ) (x : Fl) : Prop := x = .inf false ∨ ∃ v : ℚ, x = .fin v ∧ 2 ^ e ≤ v

theorem rnd_pow {F : Fmt} {e : ℤ} (he : F.emin ≤ e) : F.rnd (2 ^ e) = 2 ^ e := by
  have := rnd_exact F 1 e (by rw [abs_one]; exact one_lt_pow₀ (by norm_num) (by have := F.pos; omega)) he
  simpa using this

theorem of_big {F : Fmt} {e : ℤ} (he : F.emin ≤ e) {x : ℚ} (h : 2 ^ e ≤ x) : Big e (F.of x) := by
  have hx : 0 < x := lt_of_lt_of_le (two_zpow_pos e) h
  by_cases hb : 2 ^ F.emax ≤ |F.rnd x|
  · left
    rw [show F.of x = .inf (decide (x < 0)) from if_pos hb, decide_eq_false (not_lt.2 hx.le)]
  · right
    refine ⟨F.rnd x, if_neg hb, ?_⟩
    rw [← rnd_pow he]
    exact rnd_mono F h

theorem big_one {F : Fmt} {e : ℤ} (he : F.emin ≤ e) {x : Fl} (h : Big e x) : Big e (F.mul (.fin 1) x) := by
  rcases h with rfl | ⟨v, rfl, hv⟩
  · left
    show (if (1 : ℚ) = 0 then Fl.nan else Fl.inf (false != decide ((1 : ℚ) < 0))) = _
    rw [if_neg (by norm_num), decide_eq_false (by norm_num)]; rfl
  · show Big e (F.of (1 * v))
    rw [one_mul]
    exact of_big he hv

theorem big_neg_one {F : Fmt} (x : Fl) : F.mul (.fin (-1)) x = (F.mul (.fin 1) x).neg := neg_mul' F (.fin 1) x

theorem big_decide {e : ℤ} {x : Fl} (h : Big e x) : decide1 x = 0 ∧ decide1 x.neg = 1 := by
  rcases h with rfl | ⟨v, rfl, hv⟩
  · exact ⟨rfl, rfl⟩
  · have : 0 < v := lt_of_lt_of_le (two_zpow_pos e) hv
    constructor
    · exact if_neg (by show ¬ decide (v < 0) = true; rw [decide_eq_true_iff]; linarith)
    · exact if_pos (by show decide (-v < 0) = true; rw [decide_eq_true_iff]; linarith)

theorem emin_le {F : Fmt} (hF : F = b32 ∨ F = b64) : F.emin ≤ -149 := by rcases hF with rfl | rfl <;> decide

theorem mul_fin (F : Fmt) (x y : ℚ) : F.mul (.fin x) (.fin y) = F.of (x * y) := rfl

theorem bpsk_factor {F : Fmt} (hF : F = b32 ∨ F = b64) {s : ℚ} (hs : |s| < 2 ^ 63) : Big (-125) (F.div (.fin 2) (b32.mul (.fin s) (.fin s))) := by
  have h0 : 0 ≤ s * s := mul_self_nonneg s
  have h1 : s * s ≤ 2 ^ (126 : ℤ) := by
    have : s * s = |s| * |s| := (abs_mul_abs_self s).symm
    rw [this]
    calc |s| * |s| ≤ 2 ^ 63 * 2 ^ 63 := mul_le_mul hs.le hs.le (abs_nonneg _) (by norm_num)
      _ = _ := by norm_num
  have r0 : 0 ≤ b32.rnd (s * s) := by have := rnd_mono b32 h0; rwa [rnd_zero] at this
  have r1 : b32.rnd (s * s) ≤ 2 ^ (126 : ℤ) := by have := rnd_mono b32 h1; rwa [rnd_pow (by decide)] at this
  rw [mul_fin, of_fin (by
    rw [abs_of_nonneg r0]
    refine lt_of_le_of_lt r1 ?_
    exact zpow_lt_zpow_right₀ (by norm_num) (by decide))]
  rcases eq_or_lt_of_le r0 with e | hp
  · left
    rw [← e]
    show (if (0 : ℚ) = 0 then if (2 : ℚ) = 0 then Fl.nan else .inf (decide ((2 : ℚ) < 0)) else F.of (2 / 0)) = _
    rw [if_pos rfl, if_neg (by norm_num), decide_eq_false (by norm_num)]
  · rw [div_eq _ hp.ne']
    refine of_big (by have := emin_le hF; omega) ?_
    rw [le_div_iff₀ hp]
    calc (2 : ℚ) ^ (-125 : ℤ) * b32.rnd (s * s) ≤ 2 ^ (-125 : ℤ) * 2 ^ (126 : ℤ) := mul_le_mul_of_nonneg_left r1 (two_zpow_pos _).le
      _ = 2 := by rw [← zpow_add₀ (by norm_num)]; norm_num

theorem awgn_factor {F : Fmt} (hF : F = b32 ∨ F = b64) {s : ℚ} (hs : 1 / 2 ^ 60 ≤ |s|) : Big (-119) (F.mul (F.mul (.fin 2) (.fin s)) (.fin s)) := by
  have hm := emin_le hF
  have key : ∀ t : ℚ, 1 / 2 ^ 60 ≤ t → Big (-119) (F.mul (F.mul (.fin 2) (.fin t)) (.fin t)) := by
    intro t ht
    have h1 : Big (-59) (F.mul (.fin 2) (.fin t)) := by
      rw [mul_fin]
      refine of_big (by omega) ?_
      rw [show (2 : ℚ) ^ (-59 : ℤ) = 2 * (1 / 2 ^ 60) by rw [zpow_neg]; norm_num]
      linarith
    have t0 : 0 < t := lt_of_lt_of_le (by positivity) ht
    rcases h1 with h1 | ⟨v, h1, hv⟩
    · rw [h1]
      left
      show (if t = 0 then Fl.nan else .inf (false != decide (t < 0))) = _
      rw [if_neg t0.ne', decide_eq_false (not_lt.2 t0.le)]; rfl
    · rw [h1, mul_fin]
      refine of_big (by omega) ?_
      rw [show (2 : ℚ) ^ (-119 : ℤ) = 2 ^ (-59 : ℤ) * (1 / 2 ^ 60) by rw [zpow_neg, zpow_neg]; norm_num]
      exact mul_le_mul hv ht (by positivity) (le_trans (two_zpow_pos _).le hv)
  rcases le_total 0 s with h | h
  · exact key s (by rwa [abs_of_nonneg h] at hs)
  · have := key (-s) (by rwa [abs_of_nonpos h] at hs)
    have e : F.mul (F.mul (.fin 2) (.fin (-s))) (.fin (-s)) = F.mul (F.mul (.fin 2) (.fin s)) (.fin s) := by
      rw [mul_fin, mul_fin, mul_neg, of_neg', neg_mul']
      have c : ∀ a : Fl, F.mul a (.fin (-s)) = (F.mul a (.fin s)).neg := by
        intro a
        have hc : ∀ (a b : Fl), F.mul a b = F.mul b a := by
          intro a b
          cases a <;> cases b <;> simp [Fmt.mul, mul_comm]
          rename_i s t; cases s <;> cases t <;> rfl
        rw [hc, show Fl.fin (-s) = (Fl.fin s).neg from rfl, neg_mul', hc]
      rw [c]
      cases F.mul (F.of (2 * s)) (Fl.fin s) <;> simp [Fl.neg]
    rwa [e] at this

/-- One rounding in the middle of the range. -/
theorem approx {F : Fmt} (hF : F = b32 ∨ F = b64) {x : ℚ} (h1 : 1 / 2 ^ 100 ≤ |x|) (h2 : |x| ≤ 2 ^ 100) :
    ∃ d : ℚ, |d| ≤ 1 / 2 ^ 23 ∧ F.of x = .fin (x * (1 + d)) := by
  have hx : 0 < |x| := lt_of_lt_of_le (by positivity) h1
  have hx0 : x ≠ 0 := abs_pos.1 hx
  have he := rnd_err F x
  have hp := inv_p hF (abs_nonneg x)
  have hm : (2 : ℚ) ^ F.emin / 2 ≤ |x| / 2 ^ 50 := by
    have h3 : (2 : ℚ) ^ F.emin ≤ 2 ^ (-149 : ℤ) := zpow_le_zpow_right₀ (by norm_num) (emin_le hF)
    have h4 : (2 : ℚ) ^ (-149 : ℤ) = 1 / 2 ^ 149 := by rw [zpow_neg]; norm_num
    have h5 : (1 : ℚ) / 2 ^ 100 / 2 ^ 50 ≤ |x| / 2 ^ 50 := div_le_div_of_nonneg_right h1 (by positivity)
    rw [h4] at h3
    have h6 : (1 : ℚ) / 2 ^ 149 / 2 = 1 / 2 ^ 100 / 2 ^ 50 := by norm_num
    linarith
  have ht : |F.rnd x - x| ≤ |x| / 2 ^ 23 := by
    have : |x| / 2 ^ 50 + |x| / 2 ^ 24 ≤ |x| / 2 ^ 23 := by
      have e : |x| / 2 ^ 23 - |x| / 2 ^ 24 - |x| / 2 ^ 50 = |x| * (1 / 2 ^ 23 - 1 / 2 ^ 24 - 1 / 2 ^ 50) := by ring
      have : 0 ≤ |x| * (1 / 2 ^ 23 - 1 / 2 ^ 24 - 1 / 2 ^ 50) := mul_nonneg hx.le (by norm_num)
      linarith
    linarith
  refine ⟨F.rnd x / x - 1, ?_, ?_⟩
  · rw [show F.rnd x / x - 1 = (F.rnd x - x) / x by field_simp, abs_div, div_le_iff₀ hx]
    linarith
  · rw [of_fin]
    · congr 1; field_simp; ring
    · have : |F.rnd x| ≤ |F.rnd x - x| + |x| := by
        have := abs_add_le (F.rnd x - x) x
        rwa [sub_add_cancel] at this
      have h3 : |x| / 2 ^ 23 ≤ |x| := div_le_self hx.le (by norm_num)
      have h4 : |F.rnd x| ≤ 2 ^ 101 := by
        rw [show (2 : ℚ) ^ 101 = 2 ^ 100 + 2 ^ 100 by norm_num]
        linarith
      refine lt_of_le_of_lt h4 ?_
      rw [← zpow_natCast]
      exact zpow_lt_zpow_right₀ (by norm_num) (by rcases hF with rfl | rfl <;> decide)

theorem of_zero (F : Fmt) : F.of 0 = .fin 0 := by
  rw [of_fin]
  · rw [rnd_zero]
  · rw [rnd_zero, abs_zero]; exact two_zpow_pos _

end Verif.Bin
