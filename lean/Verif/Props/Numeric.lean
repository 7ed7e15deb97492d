import Verif.Model.Numeric
import Verif.Prelude.Loops
import Mathlib.Algebra.BigOperators.Group.Finset.Basic
import Mathlib.Algebra.BigOperators.Ring.Finset
import Mathlib.Algebra.BigOperators.Intervals
import Mathlib.Tactic.Ring
import Mathlib.Tactic.Linarith
import Mathlib.Tactic.FieldSimp
import Mathlib.Tactic.LinearCombination

/-! # C137–C138: numerical integration and interpolation -/

namespace Verif.Numeric
open Exec Finset

/-- The integral of the piecewise linear function through the points `(x i, y i)`, `i ≤ n`: the sum of the areas of the trapezoids. -/
def trapezoids (x y : Nat → ℚ) (n : Nat) : ℚ := ∑ i ∈ range n, (y i + y (i + 1)) / 2 * (x (i + 1) - x i)

theorem rd_getD {y : List ℚ} {i : Nat} (h : i < y.length) : rd y i = ok (y.getD i 0) := by
  rw [rd_lt h, List.getD_eq_getElem?_getD, List.getElem?_eq_getElem h, Option.getD_some]

theorem sumLoop_eq {y : List ℚ} {o n : Nat} (h : o + n ≤ y.length) (a : ℚ) :
    sumLoop y o n a = ok (a + ∑ i ∈ range n, y.getD (o + i) 0) := by
  unfold sumLoop
  obtain ⟨r, e, hr⟩ := forN_inv (n := n) (f := fun i a => do let x ← rd y (o + i); ok (a + x)) (s := a)
    (fun k b => b = a + ∑ i ∈ range k, y.getD (o + i) 0) (by simp) (by
      rintro k b hk rfl
      rw [rd_getD (by omega), bind_ok, sat_ok, sum_range_succ, add_assoc])
  rw [e, hr]

/-- Registers read one after the other from `o`. -/
theorem regs_eq {y : List ℚ} {o m L : Nat} (h : o + m * L ≤ y.length) (a : ℚ) :
    forN m (fun t a => sumLoop y (o + t * L) L a) a = ok (a + ∑ i ∈ range (m * L), y.getD (o + i) 0) := by
  obtain ⟨r, e, hr⟩ := forN_inv (n := m) (f := fun t a => sumLoop y (o + t * L) L a) (s := a)
    (fun k b => b = a + ∑ i ∈ range (k * L), y.getD (o + i) 0) (by simp) (by
      rintro k b hk rfl
      have : (k + 1) * L ≤ m * L := Nat.mul_le_mul_right _ hk
      rw [Nat.succ_mul] at this
      rw [sumLoop_eq (by omega), sat_ok, Nat.succ_mul, sum_range_add, add_assoc]
      simp only [Nat.add_assoc])
  rw [e, hr]

theorem sum_trapezoids (y : Nat → ℚ) (step : ℚ) (n : Nat) :
    ∑ i ∈ range (n + 1), (y i + y (i + 1)) / 2 * step = (y 0 / 2 + ∑ i ∈ range n, y (1 + i) + y (n + 1) / 2) * step := by
  induction n with
  | zero => rw [sum_range_succ, sum_range_zero, sum_range_zero]; ring
  | succ n ih =>
    rw [sum_range_succ, ih, sum_range_succ, show 1 + n = n + 1 by omega]
    ring

/-- **C137**, integrals.  For every number of points: the sequential functions give the sum of the areas of the trapezoids, for a constant step and for any
abscissae; the vector function of rectangles gives the sum of the ordinates times the step, whatever the register width; no array is read out of bounds. -/
theorem C137_integrals (x y : List ℚ) (step : ℚ) (size L : Nat) (hs : 2 ≤ size) (hL : 0 < L) (hx : size ≤ x.length) (hy : size ≤ y.length) :
    trapzSeq y step size = ok (trapezoids (fun i => step * i) (fun i => y.getD i 0) (size - 1)) ∧
    trapzX x y size = ok (trapezoids (fun i => x.getD i 0) (fun i => y.getD i 0) (size - 1)) ∧
    rect L y step size = ok (∑ i ∈ range size, y.getD i 0 * step) := by
  refine ⟨?_, ?_, ?_⟩
  · unfold trapzSeq trapezoids
    rw [if_neg (by omega), rd_getD (by omega), bind_ok, sumLoop_eq (by omega), bind_ok, rd_getD (by omega), bind_ok]
    congr 1
    obtain ⟨n, rfl⟩ : ∃ n, size = n + 2 := ⟨size - 2, by omega⟩
    have := sum_trapezoids (fun i => y.getD i 0) step n
    rw [show n + 2 - 1 - 1 = n by omega, show n + 2 - 1 = n + 1 by omega, ← this]
    refine sum_congr rfl fun i _ => ?_
    push_cast
    ring
  · unfold trapzX trapezoids
    rw [if_neg (by omega)]
    obtain ⟨r, e, hr⟩ := forN_inv (n := size - 1) (f := fun i a => do
        let y1 ← rd y (i + 1)
        let y0 ← rd y i
        let x1 ← rd x (i + 1)
        let x0 ← rd x i
        ok (a + (y1 + y0) / 2 * (x1 - x0))) (s := (0 : ℚ))
      (fun k b => b = ∑ i ∈ range k, (y.getD i 0 + y.getD (i + 1) 0) / 2 * (x.getD (i + 1) 0 - x.getD i 0)) (by simp) (by
        rintro k b hk rfl
        rw [rd_getD (by omega), bind_ok, rd_getD (by omega), bind_ok, rd_getD (by omega), bind_ok, rd_getD (by omega), bind_ok, sat_ok,
          sum_range_succ, add_comm (y.getD (k + 1) 0)])
    rw [e, hr]
  · unfold rect
    have hle : size / L * L ≤ size := Nat.div_mul_le_self _ _
    have := regs_eq (y := y) (o := 0) (m := size / L) (L := L) (by omega) 0
    simp only [Nat.zero_add] at this
    rw [if_neg (by omega), this, bind_ok, sumLoop_eq (by omega), bind_ok, ← sum_mul]
    congr 2
    conv_rhs => rw [show size = size / L * L + (size - size / L * L) by omega, sum_range_add]
    rw [zero_add]

/-- **C137**, cumulated integral.  Each place receives the integral up to its abscissa; what is after the points does not change. -/
theorem C137_cumulated (x y cumul : List ℚ) (size : Nat) (hx : size ≤ x.length) (hy : size ≤ y.length) (hc : size ≤ cumul.length) :
    ∃ d, cumtrapzX x y cumul size = ok d ∧ d.length = cumul.length ∧
      (∀ k, k < size → d[k]? = some (trapezoids (fun i => x.getD i 0) (fun i => y.getD i 0) k)) ∧ ∀ k, size ≤ k → d[k]? = cumul[k]? := by
  unfold cumtrapzX
  by_cases h0 : size = 0
  · rw [if_pos h0]
    exact ⟨cumul, rfl, rfl, fun k hk => absurd hk (by omega), fun _ _ => rfl⟩
  rw [if_neg h0]
  by_cases h1 : size = 1
  · rw [if_pos h1, wr_lt (by omega)]
    refine ⟨_, rfl, by simp, fun k hk => ?_, fun k hk => List.getElem?_set_ne (by omega)⟩
    obtain rfl : k = 0 := by omega
    rw [List.getElem?_set_self (by omega)]
    simp [trapezoids]
  rw [if_neg h1]
  obtain ⟨r, e, a, b, c, d⟩ := forN_inv (n := size - 1) (f := fun i (r : List ℚ × ℚ) => do
      let cumul ← wr r.1 i r.2
      let y1 ← rd y (i + 1)
      let y0 ← rd y i
      let x1 ← rd x (i + 1)
      let x0 ← rd x i
      ok (cumul, r.2 + (y1 + y0) / 2 * (x1 - x0))) (s := (cumul, (0 : ℚ)))
    (fun k r => r.2 = trapezoids (fun i => x.getD i 0) (fun i => y.getD i 0) k ∧ r.1.length = cumul.length ∧
      (∀ m, m < k → r.1[m]? = some (trapezoids (fun i => x.getD i 0) (fun i => y.getD i 0) m)) ∧ ∀ m, k ≤ m → r.1[m]? = cumul[m]?)
    ⟨by simp [trapezoids], rfl, fun m hm => absurd hm (by omega), fun _ _ => rfl⟩ (by
      rintro k ⟨d, a⟩ hk ⟨rfl, b, c, e⟩
      have b : d.length = cumul.length := b
      rw [wr_lt (show k < d.length by omega), bind_ok, rd_getD (by omega), bind_ok, rd_getD (by omega), bind_ok, rd_getD (by omega), bind_ok,
        rd_getD (by omega), bind_ok, sat_ok]
      refine ⟨?_, by rw [List.length_set, b], fun m hm => ?_, fun m hm => ?_⟩
      · show _ = trapezoids _ _ (k + 1)
        unfold trapezoids
        rw [sum_range_succ, add_comm (y.getD (k + 1) 0)]
      · show (d.set k _)[m]? = _
        by_cases ek : k = m
        · subst ek
          rw [List.getElem?_set_self (by omega)]
        · rw [List.getElem?_set_ne ek]
          exact c m (by omega)
      · show (d.set k _)[m]? = _
        rw [List.getElem?_set_ne (by omega)]
        exact e m (by omega))
  rw [e, bind_ok, wr_lt (by omega)]
  refine ⟨_, rfl, by rw [List.length_set, b], fun k hk => ?_, fun k hk => ?_⟩
  · by_cases ek : size - 1 = k
    · subst ek
      rw [List.getElem?_set_self (by omega), a]
    · rw [List.getElem?_set_ne ek]
      exact c k (by omega)
  · rw [List.getElem?_set_ne (by omega)]
    exact d k (by omega)

/-- The position found: the abscissae before it are less than the value, the one there is not. -/
theorem lower (x : List ℚ) (v : ℚ) : let i := (x.takeWhile (· < v)).length
    i ≤ x.length ∧ (∀ k (h : k < x.length), k < i → x[k] < v) ∧ ∀ h : i < x.length, v ≤ x[i] := by
  induction x with
  | nil => simp
  | cons a l ih =>
    by_cases h : a < v
    · simp only [List.takeWhile_cons, h, decide_true, if_true, List.length_cons]
      obtain ⟨h1, h2, h3⟩ := ih
      refine ⟨by omega, fun k hk hki => ?_, fun hi => ?_⟩
      · cases k with
        | zero => exact h
        | succ k => exact h2 k (by omega) (by omega)
      · exact h3 (by omega)
    · simp only [List.takeWhile_cons, h, decide_false, List.length_cons]
      exact ⟨by simp, fun k hk hki => absurd hki (by simp), fun _ => by simpa using h⟩

/-- **C137**, interpolation.  For all sorted abscissae and every value that is not greater than the last one: no array is read out of bounds; before the first
abscissa the first ordinate is returned; otherwise the value is in a segment and the result is that of the line through its two ends, or the ordinate of an end
when the value is within `eps` of it; so it is between the ordinates of the ends. -/
theorem C137_linear (eps : ℚ) (x y : List ℚ) (v : ℚ) (hl : x.length = y.length) (hne : 0 < x.length)
    (hv : v ≤ x[x.length - 1]) :
    ∃ r, linear eps x y v = ok r ∧ ((v ≤ x[0] ∧ r = y[0]'(by omega)) ∨
      ∃ i, ∃ h : i + 1 < x.length, x[i] < v ∧ v ≤ x[i + 1] ∧
        (r = y[i] + (y[i + 1] - y[i]) * (v - x[i]) / (x[i + 1] - x[i]) ∨ (|v - x[i + 1]| < eps ∧ r = y[i + 1]) ∨ (|v - x[i]| < eps ∧ r = y[i])) ∧
        min y[i] y[i + 1] ≤ r ∧ r ≤ max y[i] y[i + 1]) := by
  obtain ⟨h1, h2, h3⟩ := lower x v
  unfold linear
  simp only []
  generalize (x.takeWhile (· < v)).length = i at *
  by_cases hi : i = 0
  · subst hi
    rw [if_pos rfl, rd_lt (by omega)]
    exact ⟨_, rfl, Or.inl ⟨h3 hne, rfl⟩⟩
  rw [if_neg hi]
  have hi' : i < x.length := by
    rcases Nat.lt_or_ge i x.length with h | h
    · exact h
    · exact absurd (h2 (x.length - 1) (by omega) (by omega)) (not_lt.2 hv)
  obtain ⟨i, rfl⟩ : ∃ k, i = k + 1 := ⟨i - 1, by omega⟩
  have hlt := h2 i (by omega) (by omega)
  have hge := h3 hi'
  rw [rd_lt hi', bind_ok]
  by_cases ha : |v - x[i + 1]| < eps
  · rw [if_pos ha, rd_lt (by omega)]
    exact ⟨_, rfl, Or.inr ⟨i, hi', hlt, hge, Or.inr (Or.inl ⟨ha, rfl⟩), min_le_right _ _, le_max_right _ _⟩⟩
  rw [if_neg ha]
  simp only [Nat.add_sub_cancel]
  rw [rd_lt (show i < x.length by omega), bind_ok]
  by_cases hb : |v - x[i]| < eps
  · rw [if_pos (Or.inr hb), rd_lt (by omega)]
    exact ⟨_, rfl, Or.inr ⟨i, hi', hlt, hge, Or.inr (Or.inr ⟨hb, rfl⟩), min_le_left _ _, le_max_left _ _⟩⟩
  rw [if_neg (by rintro (h | h); · omega
                 · exact hb h), rd_lt (by omega), bind_ok, rd_lt (by omega), bind_ok]
  refine ⟨_, rfl, Or.inr ⟨i, hi', hlt, hge, Or.inl rfl, ?_, ?_⟩⟩
  all_goals
    have hd : 0 < x[i + 1] - x[i] := by linarith
    have t0 : 0 ≤ (v - x[i]) / (x[i + 1] - x[i]) := div_nonneg (by linarith) hd.le
    have t1 : (v - x[i]) / (x[i + 1] - x[i]) ≤ 1 := by rw [div_le_one hd]; linarith
    rw [mul_div_assoc]
    generalize (v - x[i]) / (x[i + 1] - x[i]) = t at t0 t1
    rcases le_total y[i] y[i + 1] with h | h
  · rw [min_eq_left h]; nlinarith
  · rw [min_eq_right h]; nlinarith
  · rw [max_eq_right h]; nlinarith
  · rw [max_eq_left h]; nlinarith

/-- The hypotheses are met: a value in the second segment, and the trapezoids of three points. -/
example : linear (1 / 1000) [0, 1, 3] [0, 10, 30] 2 = ok 20 ∧ trapzX [0, 1, 3] [0, 2, 4] 3 = ok 7 ∧ trapzSeq [1, 1, 1] 2 3 = ok 4 ∧
    rect 2 [1, 2, 3] 2 3 = ok 12 := by decide +kernel

/-- **C138** (defect): for every value greater than all the abscissae, `linear_interpolation` reads the abscissa after the last one. -/
theorem C138_after_last (eps : ℚ) (x y : List ℚ) (v : ℚ) (hne : x ≠ []) (h : ∀ a ∈ x, a < v) : linear eps x y v = ub := by
  have e : ∀ l : List ℚ, (∀ a ∈ l, a < v) → l.takeWhile (· < v) = l := by
    intro l
    induction l with
    | nil => intro _; rfl
    | cons a l ih =>
      intro h
      rw [List.takeWhile_cons, if_pos (by simpa using h a List.mem_cons_self), ih fun b hb => h b (List.mem_cons_of_mem _ hb)]
  have : x.length ≠ 0 := fun h => hne (List.length_eq_zero_iff.1 h)
  unfold linear
  simp only [e x h]
  rw [if_neg this, rd_ge (le_refl _)]
  rfl

/-- **C138** (defect): with registers of at least two elements and enough points to fill one, the vector function of trapezoids adds one ordinate too many: that at
the last multiple of the register size. -/
theorem C138_trapz (L : Nat) (hL : 2 ≤ L) (y : List ℚ) (step : ℚ) (size : Nat) (hs : L + 1 ≤ size) (hy : size ≤ y.length) :
    trapz L y step size =
      ok (trapezoids (fun i => step * i) (fun i => y.getD i 0) (size - 1) + y.getD ((size - 1) / L * L) 0 * step) := by
  obtain ⟨e1, -, -⟩ := C137_integrals y y step size L (by omega) (by omega) hy hy
  unfold trapzSeq at e1
  rw [if_neg (by omega), rd_getD (by omega), bind_ok, sumLoop_eq (by omega), bind_ok, rd_getD (by omega), bind_ok] at e1
  injection e1 with e1
  rw [← e1]
  have hq : 1 ≤ (size - 1) / L := (Nat.one_le_div_iff (by omega)).2 (by omega)
  have hle : (size - 1) / L * L ≤ size - 1 := Nat.div_mul_le_self _ _
  have hc : ((size - 1) / L * L + L - 2) / L = (size - 1) / L := by
    rw [show (size - 1) / L * L + L - 2 = (L - 2) + (size - 1) / L * L by omega, Nat.add_mul_div_right _ _ (by omega), Nat.div_eq_of_lt (by omega),
      Nat.zero_add]
  unfold trapz
  rw [if_neg (by omega), hc, regs_eq (by omega), bind_ok, sumLoop_eq (by omega), bind_ok, rd_getD (by omega), bind_ok, rd_getD (by omega), bind_ok]
  congr 1
  have hpos : 1 ≤ (size - 1) / L * L := Nat.mul_pos hq (by omega)
  generalize (size - 1) / L * L = v at *
  have key : ∑ i ∈ range v, y.getD (1 + i) 0 + ∑ i ∈ range (size - 1 - v), y.getD (v + i) 0 =
      ∑ i ∈ range (size - 1 - 1), y.getD (1 + i) 0 + y.getD v 0 := by
    obtain ⟨w, rfl⟩ : ∃ w, v = w + 1 := ⟨v - 1, by omega⟩
    rw [sum_range_succ, show 1 + w = w + 1 by omega]
    conv_rhs => rw [show size - 1 - 1 = w + (size - 1 - (w + 1)) by omega, sum_range_add]
    have : ∀ i, y.getD (1 + (w + i)) 0 = y.getD (w + 1 + i) 0 := fun i => by rw [show 1 + (w + i) = w + 1 + i by omega]
    simp only [this]
    ring
  linear_combination step * key

/-- The integral of the constant 1 on [0, 4] is 5. -/
example : trapz 4 [1, 1, 1, 1, 1] 1 5 = ok 5 ∧ trapzSeq [1, 1, 1, 1, 1] 1 5 = ok 4 := by decide +kernel

end Verif.Numeric
