import Mathlib.Data.Int.Log
import Mathlib.Data.Rat.Floor
import Mathlib.Algebra.Order.Floor.Ring
import Mathlib.Tactic.Linarith
import Mathlib.Tactic.Positivity
import Mathlib.Tactic.FieldSimp
import Mathlib.Tactic.Ring
import Mathlib.Algebra.Order.Field.Power

/-!
# Binary floating point numbers

IEEE 754 binary formats with rounding to nearest, ties to even.  Finite values are rationals (the two zeros are identified).
-/

namespace Verif.Float

/-- A format: `p` bits of significand, `emin` the exponent of the smallest positive number, `emax` the least power of two
which overflows. -/
structure Fmt where
  p : Nat
  emin : Int
  emax : Int
  pos : 0 < p
  min_le : emin + p ≤ emax

/-- `float`. -/
def b32 : Fmt := ⟨24, -149, 128, by decide, by decide⟩
/-- `double`. -/
def b64 : Fmt := ⟨53, -1074, 1024, by decide, by decide⟩

/-- The nearest integer, ties to even. -/
def rne (q : ℚ) : ℤ :=
  if q - ⌊q⌋ < 1 / 2 then ⌊q⌋ else if 1 / 2 < q - ⌊q⌋ then ⌊q⌋ + 1 else if ⌊q⌋ % 2 = 0 then ⌊q⌋ else ⌊q⌋ + 1

/-- Exponent of the last bit of the significand. -/
def Fmt.ulp (F : Fmt) (x : ℚ) : ℤ := max F.emin (Int.log 2 x - (F.p - 1))

/-- Rounding of a nonnegative number, without upper bound on the exponents. -/
def Fmt.mag (F : Fmt) (x : ℚ) : ℚ := rne (x / 2 ^ F.ulp x) * 2 ^ F.ulp x

/-- Rounding, without upper bound on the exponents. -/
def Fmt.rnd (F : Fmt) (x : ℚ) : ℚ := if x < 0 then -F.mag (-x) else F.mag x

/-- Values: finite, infinite (`true` is the negative one), not a number. -/
inductive Fl where
  | fin (q : ℚ)
  | inf (neg : Bool)
  | nan
  deriving DecidableEq

/-- The finite numbers of a format. -/
def Fmt.Rep (F : Fmt) (x : ℚ) : Prop := ∃ m e : ℤ, |m| < 2 ^ F.p ∧ F.emin ≤ e ∧ x = m * 2 ^ e ∧ |x| < 2 ^ F.emax

/-- The result of an operation whose exact value is `x`. -/
def Fmt.of (F : Fmt) (x : ℚ) : Fl :=
  if 2 ^ F.emax ≤ |F.rnd x| then .inf (decide (x < 0)) else .fin (F.rnd x)

/-- Opposite. -/
def Fl.neg : Fl → Fl
  | .fin q => .fin (-q)
  | .inf s => .inf !s
  | .nan => .nan

/-- Sum (the sign of a null sum is not represented). -/
def Fmt.add (F : Fmt) : Fl → Fl → Fl
  | .fin x, .fin y => F.of (x + y)
  | .fin _, .inf s => .inf s
  | .inf s, .fin _ => .inf s
  | .inf s, .inf t => if s = t then .inf s else .nan
  | _, _ => .nan

/-- Multiplication. -/
def Fmt.mul (F : Fmt) : Fl → Fl → Fl
  | .fin x, .fin y => F.of (x * y)
  | .fin x, .inf s => if x = 0 then .nan else .inf (s != decide (x < 0))
  | .inf s, .fin x => if x = 0 then .nan else .inf (s != decide (x < 0))
  | .inf s, .inf t => .inf (s != t)
  | _, _ => .nan

/-- Division (the sign of a zero divisor is taken positive). -/
def Fmt.div (F : Fmt) : Fl → Fl → Fl
  | .fin x, .fin y => if y = 0 then if x = 0 then .nan else .inf (decide (x < 0)) else F.of (x / y)
  | .fin _, .inf _ => .fin 0
  | .inf s, .fin x => .inf (s != decide (x < 0))
  | _, _ => .nan

/-- Absolute value. -/
def Fl.abs : Fl → Fl
  | .fin q => .fin |q|
  | .inf _ => .inf false
  | .nan => .nan

/-- Comparison. -/
def Fl.lt : Fl → Fl → Bool
  | .fin x, .fin y => x < y
  | .fin _, .inf s => !s
  | .inf s, .fin _ => s
  | .inf s, .inf t => s && !t
  | _, _ => false

/-- The nearest integer, ties away from zero. -/
def roundAway (q : ℚ) : ℤ := if q < 0 then -⌊-q + 1 / 2⌋ else ⌊q + 1 / 2⌋

/-- `std::round`. -/
def Fl.round : Fl → Fl
  | .fin q => .fin (roundAway q)
  | x => x

/-! ## Rounding to an integer -/

theorem rne_int (z : ℤ) : rne z = z := by
  unfold rne
  rw [Int.floor_intCast, sub_self, if_pos (by norm_num)]

theorem rne_mono {x y : ℚ} (h : x ≤ y) : rne x ≤ rne y := by
  have hx1 := Int.floor_le x
  have hx2 := Int.lt_floor_add_one x
  have hy1 := Int.floor_le y
  have hy2 := Int.lt_floor_add_one y
  have hf : ⌊x⌋ ≤ ⌊y⌋ := Int.floor_mono h
  rcases eq_or_lt_of_le hf with e | l
  · unfold rne
    rw [← e] at hy1 hy2 ⊢
    split_ifs <;> first | omega | (exfalso; linarith)
  · have : rne x ≤ ⌊x⌋ + 1 := by unfold rne; split <;> [omega; split <;> [omega; split <;> omega]]
    have : ⌊y⌋ ≤ rne y := by unfold rne; split <;> [omega; split <;> [omega; split <;> omega]]
    omega

theorem rne_err (x : ℚ) : |(rne x : ℚ) - x| ≤ 1 / 2 := by
  have hx1 := Int.floor_le x
  have hx2 := Int.lt_floor_add_one x
  unfold rne
  rw [abs_le]
  split
  · constructor <;> linarith
  · split
    · push_cast; constructor <;> linarith
    · split
      · constructor <;> linarith
      · push_cast; constructor <;> linarith

theorem rne_nonneg {x : ℚ} (h : 0 ≤ x) : 0 ≤ rne x := by
  have := rne_mono h
  have h0 : rne 0 = 0 := rne_int 0
  omega

/-! ## Rounding to a format -/

variable (F : Fmt)

theorem two_zpow_pos (e : ℤ) : (0 : ℚ) < 2 ^ e := zpow_pos (by norm_num) e

theorem mag_nonneg {x : ℚ} (h : 0 ≤ x) : 0 ≤ F.mag x := by
  unfold Fmt.mag
  have := rne_nonneg (div_nonneg h (two_zpow_pos (F.ulp x)).le)
  have h2 := two_zpow_pos (F.ulp x)
  have : (0 : ℚ) ≤ rne (x / 2 ^ F.ulp x) := by exact_mod_cast this
  positivity

theorem mag_zero : F.mag 0 = 0 := by
  unfold Fmt.mag
  rw [zero_div]
  have h0 : rne 0 = 0 := rne_int 0
  rw [h0]; simp

theorem mag_mono {x y : ℚ} (h0 : 0 ≤ x) (h : x ≤ y) : F.mag x ≤ F.mag y := by
  rcases eq_or_lt_of_le h0 with e | hx
  · rw [← e, mag_zero]; exact mag_nonneg F (le_trans h0 h)
  have hy : 0 < y := lt_of_lt_of_le hx h
  have hl : Int.log 2 x ≤ Int.log 2 y := Int.log_mono_right hx h
  have hp := F.pos
  have hu : F.ulp x ≤ F.ulp y := by unfold Fmt.ulp; omega
  rcases eq_or_lt_of_le hu with e | l
  · unfold Fmt.mag
    rw [e]
    have h2 := two_zpow_pos (F.ulp y)
    have : rne (x / 2 ^ F.ulp y) ≤ rne (y / 2 ^ F.ulp y) := rne_mono (by gcongr)
    have : (rne (x / 2 ^ F.ulp y) : ℚ) ≤ rne (y / 2 ^ F.ulp y) := by exact_mod_cast this
    gcongr
  · have hx2 : x < 2 ^ (Int.log 2 x + 1) := by exact_mod_cast Int.lt_zpow_succ_log_self (b := 2) (by decide) x
    have hy2 : 2 ^ Int.log 2 y ≤ y := by exact_mod_cast Int.zpow_log_le_self (b := 2) (by decide) hy
    have hux : Int.log 2 x - (F.p - 1) ≤ F.ulp x := by unfold Fmt.ulp; omega
    have huy : F.ulp y = Int.log 2 y - (F.p - 1) := by
      have : F.emin ≤ F.ulp x := by unfold Fmt.ulp; omega
      unfold Fmt.ulp at l ⊢
      omega
    have h2x := two_zpow_pos (F.ulp x)
    have h2y := two_zpow_pos (F.ulp y)
    have a1 : x / 2 ^ F.ulp x ≤ ((2 ^ F.p : ℤ) : ℚ) := by
      rw [div_le_iff₀ h2x]
      push_cast
      rw [← zpow_natCast, ← zpow_add₀ (by norm_num)]
      refine le_trans hx2.le (zpow_le_zpow_right₀ (by norm_num) (by omega))
    have a2 : ((2 ^ (F.p - 1) : ℤ) : ℚ) ≤ y / 2 ^ F.ulp y := by
      rw [le_div_iff₀ h2y]
      push_cast
      rw [← zpow_natCast, ← zpow_add₀ (by norm_num)]
      refine le_trans (zpow_le_zpow_right₀ (by norm_num) (by omega)) hy2
    have b1 := rne_mono a1
    have b2 := rne_mono a2
    rw [rne_int] at b1 b2
    have b1' : (rne (x / 2 ^ F.ulp x) : ℚ) ≤ 2 ^ F.p := by exact_mod_cast b1
    have b2' : (2 : ℚ) ^ (F.p - 1) ≤ rne (y / 2 ^ F.ulp y) := by exact_mod_cast b2
    unfold Fmt.mag
    calc (rne (x / 2 ^ F.ulp x) : ℚ) * 2 ^ F.ulp x ≤ 2 ^ F.p * 2 ^ F.ulp x := by gcongr
      _ ≤ 2 ^ (F.p - 1) * 2 ^ F.ulp y := by
        rw [← zpow_natCast, ← zpow_natCast, ← zpow_add₀ (by norm_num), ← zpow_add₀ (by norm_num)]
        exact zpow_le_zpow_right₀ (by norm_num) (by omega)
      _ ≤ _ := by gcongr

theorem rnd_neg (x : ℚ) : F.rnd (-x) = -F.rnd x := by
  unfold Fmt.rnd
  rcases lt_trichotomy x 0 with h | h | h
  · rw [if_neg (by linarith), if_pos h, neg_neg]
  · subst h; simp [mag_zero]
  · rw [if_pos (by linarith), if_neg (by linarith), neg_neg]

theorem rnd_mono {x y : ℚ} (h : x ≤ y) : F.rnd x ≤ F.rnd y := by
  unfold Fmt.rnd
  by_cases hx : x < 0
  · rw [if_pos hx]
    by_cases hy : y < 0
    · rw [if_pos hy]
      have := mag_mono F (x := -y) (y := -x) (by linarith) (by linarith)
      linarith
    · rw [if_neg hy]
      have h1 := mag_nonneg F (x := -x) (by linarith)
      have h2 := mag_nonneg F (x := y) (by linarith)
      linarith
  · rw [if_neg hx, if_neg (by linarith)]
    exact mag_mono F (by linarith) h

theorem mag_rep (m e : ℤ) (h0 : 0 ≤ m) (hm : m < 2 ^ F.p) (he : F.emin ≤ e) : F.mag (m * 2 ^ e) = m * 2 ^ e := by
  rcases eq_or_lt_of_le h0 with hz | hz
  · rw [← hz]; simp [mag_zero]
  have h2 := two_zpow_pos e
  have hm0 : (0 : ℚ) < m := by exact_mod_cast hz
  have hlt : (m * 2 ^ e : ℚ) < (2 : ℕ) ^ (F.p + e : ℤ) := by
    push_cast
    rw [zpow_add₀ (by norm_num), zpow_natCast]
    have : (m : ℚ) < 2 ^ F.p := by exact_mod_cast hm
    gcongr
  have hlog := (Int.lt_zpow_iff_log_lt (b := 2) (by decide) (by positivity : (0 : ℚ) < m * 2 ^ e)).1 hlt
  have hu : F.ulp (m * 2 ^ e) ≤ e := by
    unfold Fmt.ulp
    omega
  unfold Fmt.mag
  have h3 := two_zpow_pos (F.ulp (m * 2 ^ e))
  generalize F.ulp (m * 2 ^ e) = u at *
  have : (m * 2 ^ e : ℚ) / 2 ^ u = ((m * 2 ^ (e - u).toNat : ℤ) : ℚ) := by
    push_cast
    rw [mul_div_assoc, ← zpow_sub₀ (by norm_num), ← zpow_natCast]
    congr 2
    omega
  rw [this, rne_int, ← this]
  field_simp

theorem rnd_exact (m e : ℤ) (hm : |m| < 2 ^ F.p) (he : F.emin ≤ e) : F.rnd (m * 2 ^ e) = m * 2 ^ e := by
  have h2 := two_zpow_pos e
  unfold Fmt.rnd
  rw [abs_lt] at hm
  by_cases h : (m * 2 ^ e : ℚ) < 0
  · rw [if_pos h]
    have hm0 : m < 0 := by
      by_contra hc
      have : (0 : ℚ) ≤ m := by exact_mod_cast not_lt.1 hc
      have : (0 : ℚ) ≤ m * 2 ^ e := by positivity
      linarith
    have := mag_rep F (-m) e (by omega) (by omega) he
    push_cast at this
    rw [neg_mul] at this
    rw [this, neg_neg]
  · rw [if_neg h]
    have hm0 : 0 ≤ m := by
      by_contra hc
      have : (m : ℚ) < 0 := by exact_mod_cast not_le.1 hc
      exact h (mul_neg_of_neg_of_pos this h2)
    exact mag_rep F m e hm0 hm.2 he

theorem rnd_rep {x : ℚ} (h : F.Rep x) : F.rnd x = x := by
  obtain ⟨m, e, hm, he, rfl, -⟩ := h
  exact rnd_exact F m e hm he

theorem rep_int (z : ℤ) (hz : |z| < 2 ^ F.p) (he : F.emin ≤ 0) (hm : (F.p : ℤ) ≤ F.emax) : F.Rep z := by
  refine ⟨z, 0, hz, he, by simp, ?_⟩
  have h1 : |(z : ℚ)| < 2 ^ F.p := by exact_mod_cast hz
  refine lt_of_lt_of_le h1 ?_
  rw [← zpow_natCast]
  exact zpow_le_zpow_right₀ (by norm_num) hm

theorem mag_err {x : ℚ} (h : 0 ≤ x) : |F.mag x - x| ≤ 2 ^ F.ulp x / 2 := by
  have h2 := two_zpow_pos (F.ulp x)
  have he := rne_err (x / 2 ^ F.ulp x)
  have : F.mag x - x = ((rne (x / 2 ^ F.ulp x) : ℚ) - x / 2 ^ F.ulp x) * 2 ^ F.ulp x := by
    unfold Fmt.mag
    field_simp
  rw [this, abs_mul, abs_of_pos h2]
  have := mul_le_mul_of_nonneg_right he h2.le
  linarith

/-- The error of rounding. -/
theorem rnd_err (x : ℚ) : |F.rnd x - x| ≤ 2 ^ F.emin / 2 + |x| / 2 ^ F.p := by
  have key : ∀ y : ℚ, 0 ≤ y → |F.mag y - y| ≤ 2 ^ F.emin / 2 + y / 2 ^ F.p := by
    intro y hy
    have hm := two_zpow_pos F.emin
    have hp : (0 : ℚ) < 2 ^ F.p := by positivity
    rcases eq_or_lt_of_le hy with e | hy'
    · rw [← e, mag_zero]
      simp only [sub_zero, abs_zero, zero_div, add_zero]
      linarith
    · refine le_trans (mag_err F hy) ?_
      by_cases hc : F.ulp y = F.emin
      · rw [hc]; have : 0 ≤ y / 2 ^ F.p := by positivity
        linarith
      · have hu : F.ulp y = Int.log 2 y - (F.p - 1) := by unfold Fmt.ulp at hc ⊢; omega
        have hy2 : 2 ^ Int.log 2 y ≤ y := by exact_mod_cast Int.zpow_log_le_self (b := 2) (by decide) hy'
        have : (2 : ℚ) ^ F.ulp y / 2 ≤ y / 2 ^ F.p := by
          rw [hu, le_div_iff₀ hp, div_mul_eq_mul_div, div_le_iff₀ (by norm_num), ← zpow_natCast, ← zpow_add₀ (by norm_num)]
          have : Int.log 2 y - (F.p - 1) + F.p = Int.log 2 y + 1 := by ring
          rw [this, zpow_add_one₀ (by norm_num)]
          linarith
        linarith
  unfold Fmt.rnd
  split
  · rename_i h
    have := key (-x) (by linarith)
    rw [abs_of_neg h]
    rw [abs_sub_comm] at this
    rw [show -F.mag (-x) - x = -x - F.mag (-x) by ring]
    exact this
  · rename_i h
    rw [abs_of_nonneg (not_lt.1 h)]
    exact key x (not_lt.1 h)

theorem of_rep {x : ℚ} (h : F.Rep x) : F.of x = .fin x := by
  unfold Fmt.of
  rw [rnd_rep F h, if_neg]
  obtain ⟨_, _, _, _, _, h⟩ := h
  exact not_le.2 h

theorem rnd_sign {x : ℚ} (h : F.rnd x < 0) : x < 0 := by
  by_contra hc
  unfold Fmt.rnd at h
  rw [if_neg hc] at h
  have := mag_nonneg F (not_lt.1 hc)
  linarith

theorem of_neg (x : ℚ) (h : F.rnd x ≠ 0 ∨ x = 0) : F.of (-x) = (F.of x).neg := by
  unfold Fmt.of
  rw [rnd_neg, abs_neg]
  split
  · rename_i ho
    have hx : x ≠ 0 := by
      rintro rfl
      have : F.rnd 0 = 0 := by unfold Fmt.rnd; rw [if_neg (lt_irrefl _), mag_zero]
      rw [this, abs_zero] at ho
      exact absurd ho (not_le.2 (two_zpow_pos _))
    show Fl.inf _ = Fl.inf _
    congr 1
    rcases lt_or_gt_of_ne hx with h | h
    · rw [decide_eq_false (by linarith), decide_eq_true h]; rfl
    · rw [decide_eq_true (by linarith), decide_eq_false (by linarith)]; rfl
  · rfl

/-! ## Rounding away -/

theorem roundAway_neg (q : ℚ) : roundAway (-q) = -roundAway q := by
  unfold roundAway
  rcases lt_trichotomy q 0 with h | h | h
  · rw [if_neg (by linarith), if_pos h, neg_neg]
  · subst h; norm_num
  · rw [if_pos (by linarith), if_neg (by linarith), neg_neg]

theorem roundAway_int (z : ℤ) : roundAway z = z := by
  have hf : ∀ k : ℤ, ⌊(k : ℚ) + 1 / 2⌋ = k := by
    intro k
    rw [Int.floor_eq_iff]
    constructor <;> linarith
  unfold roundAway
  split
  · have := hf (-z)
    push_cast at this
    rw [this, neg_neg]
  · exact hf z

theorem roundAway_mono {x y : ℚ} (h : x ≤ y) : roundAway x ≤ roundAway y := by
  have hnn : ∀ q : ℚ, 0 ≤ q → 0 ≤ ⌊q + 1 / 2⌋ := fun q hq => Int.floor_nonneg.2 (by linarith)
  unfold roundAway
  by_cases hx : x < 0
  · rw [if_pos hx]
    by_cases hy : y < 0
    · rw [if_pos hy]
      have : ⌊-y + 1 / 2⌋ ≤ ⌊-x + 1 / 2⌋ := Int.floor_mono (by linarith)
      omega
    · rw [if_neg hy]
      have h1 := hnn (-x) (by linarith)
      have h2 := hnn y (by linarith)
      omega
  · rw [if_neg hx, if_neg (by linarith)]
    exact Int.floor_mono (by linarith)

end Verif.Float
