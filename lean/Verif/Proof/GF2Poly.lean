import Verif.Spec.GF2Poly
import Mathlib.Algebra.Polynomial.Div
import Mathlib.Algebra.CharP.Two
import Mathlib.Tactic.Ring
import Mathlib.Algebra.Field.ZMod
import Mathlib.Tactic.LinearCombination

/-! # Sum form of bit-string polynomials -/

namespace Verif.GF2
open Polynomial

/-- `∑ k < n, f k X^(n-1-k)`. -/
noncomputable def P (n : Nat) (f : Nat → ZMod 2) : (ZMod 2)[X] :=
  ∑ k ∈ Finset.range n, C (f k) * X ^ (n - 1 - k)

theorem P_congr {n : Nat} {f g : Nat → ZMod 2} (h : ∀ k, k < n → f k = g k) : P n f = P n g := by
  unfold P
  exact Finset.sum_congr rfl fun k hk => by rw [h k (Finset.mem_range.mp hk)]

theorem P_succ (n : Nat) (f : Nat → ZMod 2) : P (n + 1) f = X * P n f + C (f n) := by
  unfold P
  rw [Finset.sum_range_succ, Finset.mul_sum]
  congr 1
  · refine Finset.sum_congr rfl fun k hk => ?_
    have := Finset.mem_range.mp hk
    rw [show n + 1 - 1 - k = (n - 1 - k) + 1 by omega, pow_succ]
    ring
  · simp

theorem coeff_P (n : Nat) (f : Nat → ZMod 2) (j : Nat) :
    (P n f).coeff j = if j < n then f (n - 1 - j) else 0 := by
  induction n generalizing j with
  | zero => simp [P]
  | succ n ih =>
    rw [P_succ, coeff_add, coeff_C]
    cases j with
    | zero => simp
    | succ j =>
      rw [coeff_X_mul, ih]
      by_cases h : j < n
      · simp [h, show n - 1 - j = n - (j + 1) by omega]
      · simp [h]

theorem P_add (n m : Nat) (f : Nat → ZMod 2) :
    P (n + m) f = P n f * X ^ m + P m (fun k => f (n + k)) := by
  induction m with
  | zero => simp [P]
  | succ m ih =>
    rw [← Nat.add_assoc, P_succ, ih, P_succ]
    ring

theorem degree_P (n : Nat) (f : Nat → ZMod 2) : (P n f).degree < n := by
  rw [degree_lt_iff_coeff_zero]
  intro m hm
  rw [coeff_P, if_neg (by omega)]

theorem P_inj {n : Nat} {f g : Nat → ZMod 2} (h : P n f = P n g) : ∀ k, k < n → f k = g k := by
  intro k hk
  have := congrArg (fun p => p.coeff (n - 1 - k)) h
  simp only [coeff_P] at this
  rw [if_pos (by omega), if_pos (by omega), show n - 1 - (n - 1 - k) = k by omega] at this
  exact this

theorem P_add_fun (n : Nat) (f g : Nat → ZMod 2) : P n (fun k => f k + g k) = P n f + P n g := by
  unfold P
  rw [← Finset.sum_add_distrib]
  exact Finset.sum_congr rfl fun k _ => by rw [C_add]; ring

theorem P_zero (n : Nat) : P n (fun _ => 0) = 0 := by simp [P]

theorem wordPoly_eq (l : List Int) : wordPoly l = P l.length (fun k => bit (l.getD k 0)) := by
  induction l with
  | nil => simp [wordPoly, P]
  | cons v l ih =>
    rw [wordPoly, ih, List.length_cons, Nat.add_comm, P_add]
    congr 1
    · simp [P]
    · apply P_congr
      intro k _
      rw [Nat.add_comm 1 k]
      simp

/-- In characteristic 2 subtraction is addition. -/
theorem sub_eq_add (p q : (ZMod 2)[X]) : p - q = p + q := CharTwo.sub_eq_add p q

theorem add_self (p : (ZMod 2)[X]) : p + p = 0 := CharTwo.add_self_eq_zero p

theorem bit_eq_zero {v : Int} : bit v = 0 ↔ v = 0 := by
  unfold bit; split <;> simp_all

theorem bit_inj {v w : Int} : bit v = bit w ↔ (v ≠ 0 ↔ w ≠ 0) := by
  unfold bit
  split <;> split <;> simp_all

/-- Writing one element of a buffer changes one term. -/
theorem P_set {n t : Nat} {b : List Int} {v : Int} (ht : t < n) (hb : t < b.length) :
    P n (fun k => bit ((b.set t v).getD k 0)) =
      P n (fun k => bit (b.getD k 0)) + C (bit v + bit (b.getD t 0)) * X ^ (n - 1 - t) := by
  ext j
  rw [coeff_add, coeff_P, coeff_P, coeff_C_mul, coeff_X_pow]
  by_cases hj : j < n
  · rw [if_pos hj, if_pos hj]
    by_cases h : j = n - 1 - t
    · subst h
      have e : n - 1 - (n - 1 - t) = t := by omega
      simp only [e, if_pos, mul_one, List.getD_eq_getElem?_getD, List.getElem?_set_self hb]
      rw [add_comm (bit v), ← add_assoc, CharTwo.add_self_eq_zero, zero_add]
      rfl
    · have : t ≠ n - 1 - j := by omega
      simp [h, List.getD_eq_getElem?_getD, List.getElem?_set_ne this]
  · rw [if_neg hj, if_neg hj, if_neg (by omega)]; simp

/-- Two polynomials of degree below a monic one that are congruent modulo it are equal. -/
theorem eq_of_dvd_add {G p q : (ZMod 2)[X]} {n : Nat} (hG : G.Monic) (hn : G.natDegree = n)
    (hp : p.degree < n) (hq : q.degree < n) (h : G ∣ p + q) : p = q := by
  have hd : (p + q).degree < G.degree := by
    rw [degree_eq_natDegree hG.ne_zero, hn]
    exact lt_of_le_of_lt (degree_add_le p q) (max_lt hp hq)
  have h0 : p + q = 0 := by
    by_contra hne
    exact absurd (degree_le_of_dvd h hne) (not_le.mpr hd)
  rw [← sub_eq_add] at h0
  exact sub_eq_zero.mp h0

end Verif.GF2
