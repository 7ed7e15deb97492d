import Mathlib.Tactic.NormNum.Prime
import Mathlib.Tactic.IntervalCases
import Mathlib.Data.Nat.Prime.Basic
import Verif.Proof.Galois

/-! # The built-in polynomials are primitive -/

namespace Verif.Galois
open Polynomial

variable {m : Nat} {p : List Nat}

theorem el_sum (a : Nat) : el m p a = ∑ i ∈ Finset.range m, if a.testBit i then al m p ^ i else 0 := by
  unfold el toPoly
  rw [map_sum]
  apply Finset.sum_congr rfl
  intro i _
  split
  · rw [map_pow, AdjoinRoot.mk_X]; rfl
  · rw [map_zero]

/-- Product of `a` by the `n` low bits of `b`. -/
def gmul (m q a : Nat) : Nat → Nat → Nat
  | 0, _ => 0
  | n + 1, b => (if b.testBit 0 then a else 0) ^^^ xtime m q (gmul m q a n (b / 2))

theorem gmul_lt {q a : Nat} (hm : 0 < m) (hq : q < 2 ^ m) (ha : a < 2 ^ m) : ∀ n b, gmul m q a n b < 2 ^ m
  | 0, _ => Nat.two_pow_pos m
  | n + 1, b => by
    rw [gmul]
    apply Nat.xor_lt_two_pow
    · split
      · exact ha
      · exact Nat.two_pow_pos m
    · exact xtime_lt hm hq (gmul_lt hm hq ha n _)

theorem el_gmul {a : Nat} (hm : 0 < m) (ha : a < 2 ^ m) : ∀ n b, el m p (gmul m (lowNum p m) a n b) =
    el m p a * ∑ i ∈ Finset.range n, if b.testBit i then al m p ^ i else 0
  | 0, b => by rw [gmul, el_zero]; simp
  | n + 1, b => by
    rw [gmul, el_xor, el_xtime hm (gmul_lt hm (low_lt p m) ha n _), el_gmul hm ha n, Finset.sum_range_succ',
      mul_add, add_comm, mul_left_comm, Finset.mul_sum]
    congr 2
    · apply Finset.sum_congr rfl
      intro i _
      rw [Nat.testBit_div_two]
      split
      · rw [pow_succ']
      · rw [mul_zero]
    · split
      · simp
      · simp [el_zero]

theorem el_mul {a b : Nat} (hm : 0 < m) (ha : a < 2 ^ m) :
    el m p (gmul m (lowNum p m) a m b) = el m p a * el m p b := by
  rw [el_gmul hm ha, ← el_sum]

/-- Power by repeated squaring (`fuel` bounds the number of bits of the exponent). -/
def gpow (m q a : Nat) : Nat → Nat → Nat
  | 0, _ => 1
  | fuel + 1, n =>
    let h := gpow m q a fuel (n / 2)
    let h2 := gmul m q h m h
    if n % 2 = 1 then gmul m q h2 m a else h2

theorem gpow_lt {a : Nat} (hm : 0 < m) {q : Nat} (hq : q < 2 ^ m) : ∀ fuel n, gpow m q a fuel n < 2 ^ m
  | 0, _ => Nat.one_lt_two_pow (by omega)
  | fuel + 1, n => by
    rw [gpow]
    have h := gpow_lt hm hq (a := a) fuel (n / 2)
    split
    · exact gmul_lt hm hq (gmul_lt hm hq h _ _) _ _
    · exact gmul_lt hm hq h _ _

theorem el_gpow {a : Nat} (hm : 0 < m) : ∀ fuel n, n < 2 ^ fuel →
    el m p (gpow m (lowNum p m) a fuel n) = el m p a ^ n
  | 0, n, h => by
    have : n = 0 := by simpa using h
    subst this
    rw [gpow, el_one hm, pow_zero]
  | fuel + 1, n, h => by
    have hq := low_lt p m
    have hh := gpow_lt (a := a) hm hq fuel (n / 2)
    have ih := el_gpow (a := a) hm fuel (n / 2) (by rw [Nat.pow_succ] at h; omega)
    rw [gpow]
    split
    · next h1 =>
      rw [el_mul hm (gmul_lt hm hq hh _ _), el_mul hm hh, ih, ← pow_add, ← pow_succ]
      congr 1; omega
    · next h1 =>
      rw [el_mul hm hh, ih, ← pow_add]
      congr 1; omega

/-- Order test on numbers. -/
def primCheck (m q : Nat) (L : List Nat) : Bool :=
  gpow m q 2 m (2 ^ m - 1) == 1 && L.all fun r => gpow m q 2 m ((2 ^ m - 1) / r) != 1

theorem primitive_of_check (hm : 2 ≤ m) (L : List Nat) (hL : ∀ r ∈ L, r.Prime) (hprod : L.prod = 2 ^ m - 1)
    (hc : primCheck m (lowNum p m) L = true) : Primitive m (fieldPoly m p) := by
  have hm0 : 0 < m := by omega
  apply primitive_of_order hm
  unfold primCheck at hc
  rw [Bool.and_eq_true, List.all_eq_true] at hc
  obtain ⟨h1, h2⟩ := hc
  have h4 : 4 ≤ 2 ^ m := Nat.pow_le_pow_right (n := 2) (by omega) hm
  have hal : el m p 2 = al m p := by
    have := el_pow (m := m) (p := p) (i := 1) (by omega)
    rwa [pow_one, pow_one] at this
  have hpow : ∀ n, n ≤ 2 ^ m - 1 → el m p (gpow m (lowNum p m) 2 m n) = al m p ^ n := by
    intro n hn
    rw [el_gpow hm0 m n (by omega), hal]
  apply orderOf_eq_of_pow_and_pow_div_prime (by omega)
  · rw [← hpow _ (Nat.le_refl _), beq_iff_eq.mp h1, el_one hm0]
  · intro r hr hdvd
    rw [← hprod] at hdvd
    obtain ⟨x, hx, hrx⟩ := (Nat.Prime.prime hr).dvd_prod_iff.mp hdvd
    have : r = x := (Nat.prime_dvd_prime_iff_eq hr (hL x hx)).mp hrx
    subst this
    intro he
    rw [← hpow _ (Nat.div_le_self _ _)] at he
    have h3 := h2 r hx
    rw [bne_iff_ne] at h3
    apply h3
    apply el_inj (gpow_lt hm0 (low_lt p m) _ _) (Nat.one_lt_two_pow (by omega)) (p := p)
    rw [he, el_one hm0]

/-- Every polynomial of `select_polynomial` is primitive. -/
theorem selectPoly_primitive (hm : 2 ≤ m) (hm' : m ≤ 20) : Primitive m (fieldPoly m (selectPoly m)) := by
  interval_cases m
  · exact primitive_of_check (by omega) [3] (by norm_num) (by norm_num) (by decide +kernel)
  · exact primitive_of_check (by omega) [7] (by norm_num) (by norm_num) (by decide +kernel)
  · exact primitive_of_check (by omega) [3, 5] (by norm_num) (by norm_num) (by decide +kernel)
  · exact primitive_of_check (by omega) [31] (by norm_num) (by norm_num) (by decide +kernel)
  · exact primitive_of_check (by omega) [3, 3, 7] (by norm_num) (by norm_num) (by decide +kernel)
  · exact primitive_of_check (by omega) [127] (by norm_num) (by norm_num) (by decide +kernel)
  · exact primitive_of_check (by omega) [3, 5, 17] (by norm_num) (by norm_num) (by decide +kernel)
  · exact primitive_of_check (by omega) [7, 73] (by norm_num) (by norm_num) (by decide +kernel)
  · exact primitive_of_check (by omega) [3, 11, 31] (by norm_num) (by norm_num) (by decide +kernel)
  · exact primitive_of_check (by omega) [23, 89] (by norm_num) (by norm_num) (by decide +kernel)
  · exact primitive_of_check (by omega) [3, 3, 5, 7, 13] (by norm_num) (by norm_num) (by decide +kernel)
  · exact primitive_of_check (by omega) [8191] (by norm_num) (by norm_num) (by decide +kernel)
  · exact primitive_of_check (by omega) [3, 43, 127] (by norm_num) (by norm_num) (by decide +kernel)
  · exact primitive_of_check (by omega) [7, 31, 151] (by norm_num) (by norm_num) (by decide +kernel)
  · exact primitive_of_check (by omega) [3, 5, 17, 257] (by norm_num) (by norm_num) (by decide +kernel)
  · exact primitive_of_check (by omega) [131071] (by norm_num) (by norm_num) (by decide +kernel)
  · exact primitive_of_check (by omega) [3, 3, 3, 7, 19, 73] (by norm_num) (by norm_num) (by decide +kernel)
  · exact primitive_of_check (by omega) [524287] (by norm_num) (by norm_num) (by decide +kernel)
  · exact primitive_of_check (by omega) [3, 5, 5, 11, 31, 41] (by norm_num) (by norm_num) (by decide +kernel)

end Verif.Galois
