import Verif.Spec.Constellation
import Verif.Prelude.Loops
import Mathlib.Algebra.BigOperators.Ring.Finset
import Mathlib.Algebra.BigOperators.Intervals
import Mathlib.Tactic.Ring
import Mathlib.Tactic.Linarith
import Mathlib.Tactic.LinearCombination
import Mathlib.Tactic.NormNum

/-! # The amplitudes of the constellations -/

namespace Verif.Cstl
open Verif.Float Exec

/-- The amplitude of a word, as an integer. -/
def lab : Nat → Nat → Int
  | 0, _ => 0
  | m + 1, j => (1 - 2 * ((j / 2 ^ m % 2 : Nat) : Int)) * (2 ^ m - lab m j)

theorem lab_succ (m j : Nat) : lab (m + 1) j = (1 - 2 * ((j / 2 ^ m % 2 : Nat) : Int)) * (2 ^ m - lab m j) := rfl

theorem lab_mod (m : Nat) : ∀ i j, i % 2 ^ m = j % 2 ^ m → lab m i = lab m j := by
  induction m with
  | zero => intros; rfl
  | succ m ih =>
    intro i j h
    have h1 : i % 2 ^ m = j % 2 ^ m := by
      have := congrArg (· % 2 ^ m) h
      simp only [Nat.pow_succ] at this
      rwa [Nat.mod_mul_right_mod, Nat.mod_mul_right_mod] at this
    have h2 : i / 2 ^ m % 2 = j / 2 ^ m % 2 := by
      have := congrArg (· / 2 ^ m) h
      simp only [Nat.pow_succ] at this
      rwa [Nat.mod_mul_right_div_self, Nat.mod_mul_right_div_self] at this
    unfold lab
    rw [ih i j h1, h2]

theorem lab_low {m j : Nat} (h : j < 2 ^ m) : lab (m + 1) j = 2 ^ m - lab m j := by
  rw [lab_succ, Nat.div_eq_of_lt h]; norm_num

theorem lab_high {m j : Nat} (h : j < 2 ^ m) : lab (m + 1) (2 ^ m + j) = lab m j - 2 ^ m := by
  rw [lab_succ]
  have h0 : 0 < 2 ^ m := Nat.two_pow_pos m
  have : (2 ^ m + j) / 2 ^ m % 2 = 1 := by
    rw [Nat.add_div_left _ h0, Nat.div_eq_of_lt h]
  rw [this, lab_mod m (2 ^ m + j) j (by rw [Nat.add_mod_left])]
  push_cast; ring

theorem OneBit.symm {n i j : Nat} (h : OneBit n i j) : OneBit n j i := by
  obtain ⟨b, hb, h⟩ := h
  exact ⟨b, hb, fun k => by rw [← h k]; exact ne_comm⟩

theorem OneBit.succ {n i j : Nat} (h : OneBit n i j) : OneBit (n + 1) i j := by
  obtain ⟨b, hb, h⟩ := h
  exact ⟨b, by omega, h⟩

theorem tb_add {n i k : Nat} (hi : i < 2 ^ n) : (2 ^ n + i).testBit k = (i.testBit k || decide (k = n)) := by
  rcases lt_trichotomy k n with h | h | h
  · rw [Nat.testBit_two_pow_add_gt h, decide_eq_false (by omega), Bool.or_false]
  · subst h
    rw [Nat.testBit_two_pow_add_eq, Nat.testBit_lt_two_pow hi]; simp
  · have h1 : 2 ^ n + i < 2 ^ k := by
      have : 2 ^ (n + 1) ≤ 2 ^ k := Nat.pow_le_pow_right (by decide) h
      rw [Nat.pow_succ] at this; omega
    rw [Nat.testBit_lt_two_pow h1, Nat.testBit_lt_two_pow (by omega), decide_eq_false (by omega)]; rfl

theorem OneBit.up {n i j : Nat} (hi : i < 2 ^ n) (hj : j < 2 ^ n) (h : OneBit n i j) : OneBit (n + 1) (2 ^ n + i) (2 ^ n + j) := by
  obtain ⟨b, hb, h⟩ := h
  refine ⟨b, by omega, fun k => ?_⟩
  rw [tb_add hi, tb_add hj]
  by_cases hk : k = n
  · subst hk
    simp only [decide_true, Bool.or_true, ne_eq, not_true_eq_false, false_iff]; omega
  · rw [decide_eq_false hk, Bool.or_false, Bool.or_false, h k]

theorem oneBit_top {n i : Nat} (hi : i < 2 ^ n) : OneBit (n + 1) i (2 ^ n + i) := by
  refine ⟨n, by omega, fun k => ?_⟩
  rw [tb_add hi]
  by_cases hk : k = n
  · subst hk; rw [Nat.testBit_lt_two_pow hi]; simp
  · rw [decide_eq_false hk, Bool.or_false]; simp [hk]

theorem lab_gray (n : Nat) : GrayLine (n + 1) (lab (n + 1)) ∧ Cyclic (n + 1) (lab (n + 1)) := by
  induction n with
  | zero =>
    have h0 : lab 1 0 = 1 := by decide
    have h1 : lab 1 1 = -1 := by decide
    have two : ∀ j, j < 2 ^ (0 + 1) → j = 0 ∨ j = 1 := by intro j hj; norm_num at hj; omega
    have ob : OneBit 1 0 1 := ⟨0, by decide, fun k => by
      rw [Nat.zero_testBit]
      cases k with
      | zero => simp
      | succ k => rw [Nat.testBit_succ]; norm_num⟩
    refine ⟨⟨?_, ?_, ?_, ?_, ?_⟩, ?_⟩
    · intro j hj; rcases two j hj with rfl | rfl <;> decide
    · intro j hj; rcases two j hj with rfl | rfl <;> decide
    · intro i j hi hj; rcases two j hj with rfl | rfl <;> rcases two i hi with rfl | rfl <;> decide
    · intro a ha h1' h2'
      norm_num at h1' h2'
      rcases (by omega : a = 1 ∨ a = -1) with rfl | rfl
      · exact ⟨0, by decide, by decide⟩
      · exact ⟨1, by decide, by decide⟩
    · intro i j hi hj e
      rcases two j hj with rfl | rfl <;> rcases two i hi with rfl | rfl
      · exact absurd e (by decide)
      · exact absurd e (by decide)
      · exact ob
      · exact absurd e (by decide)
    · intro i j hi hj e1 e2
      rcases two j hj with rfl | rfl <;> rcases two i hi with rfl | rfl
      · exact absurd e2 (by decide)
      · exact absurd e2 (by decide)
      · exact ob
      · exact absurd e1 (by decide)
  | succ n ih =>
    obtain ⟨ih, -⟩ := ih
    generalize n + 1 = m at *
    have split : ∀ j, j < 2 ^ (m + 1) → j < 2 ^ m ∨ ∃ j', j = 2 ^ m + j' ∧ j' < 2 ^ m := by
      intro j hj
      rw [Nat.pow_succ] at hj
      by_cases h : j < 2 ^ m
      · exact .inl h
      · exact .inr ⟨j - 2 ^ m, by omega, by omega⟩
    have hpow : (2 : Int) ^ (m + 1) = 2 * 2 ^ m := by ring
    have up : ∀ j, j < 2 ^ m → j < 2 ^ (m + 1) ∧ 2 ^ m + j < 2 ^ (m + 1) := by
      intro j hj; rw [Nat.pow_succ]; omega
    have heven : m ≠ 0 → (2 : Int) ^ m % 2 = 0 := by
      intro h
      obtain ⟨k, rfl⟩ := Nat.exists_eq_succ_of_ne_zero h
      rw [Nat.succ_eq_add_one, pow_succ]; omega
    have hm : m ≠ 0 := by
      rintro rfl
      have := ih.odd 0 (by decide)
      exact absurd this (by decide)
    have he := heven hm
    refine ⟨⟨?_, ?_, ?_, ?_, ?_⟩, ?_⟩
    · intro j hj
      rcases split j hj with h | ⟨j', rfl, h⟩
      · rw [lab_low h]; have := ih.odd j h; omega
      · rw [lab_high h]; have := ih.odd j' h; omega
    · intro j hj
      rw [hpow]
      rcases split j hj with h | ⟨j', rfl, h⟩
      · rw [lab_low h]; have := ih.range j h; omega
      · rw [lab_high h]; have := ih.range j' h; omega
    · intro i j hi hj e
      rcases split i hi with h | ⟨i', rfl, h⟩ <;> rcases split j hj with g | ⟨j', rfl, g⟩
      · rw [lab_low h, lab_low g] at e
        exact ih.inj i j h g (by omega)
      · rw [lab_low h, lab_high g] at e
        have := ih.range i h; have := ih.range j' g; omega
      · rw [lab_high h, lab_low g] at e
        have := ih.range i' h; have := ih.range j g; omega
      · rw [lab_high h, lab_high g] at e
        rw [ih.inj i' j' h g (by omega)]
    · intro a ha h1 h2
      rw [hpow] at h1 h2
      by_cases hp : 0 < a
      · obtain ⟨j, hj, e⟩ := ih.onto (2 ^ m - a) (by omega) (by omega) (by omega)
        exact ⟨j, (up j hj).1, by rw [lab_low hj, e]; ring⟩
      · obtain ⟨j, hj, e⟩ := ih.onto (a + 2 ^ m) (by omega) (by omega) (by omega)
        exact ⟨2 ^ m + j, (up j hj).2, by rw [lab_high hj, e]; ring⟩
    · intro i j hi hj e
      rcases split i hi with h | ⟨i', rfl, h⟩ <;> rcases split j hj with g | ⟨j', rfl, g⟩
      · rw [lab_low h, lab_low g] at e
        exact ((ih.gray j i g h (by omega)).symm).succ
      · rw [lab_low h, lab_high g] at e
        have r1 := ih.range i h; have r2 := ih.range j' g
        have : i = j' := ih.inj i j' h g (by omega)
        subst this
        exact oneBit_top h
      · rw [lab_high h, lab_low g] at e
        have := ih.range i' h; have := ih.range j g; omega
      · rw [lab_high h, lab_high g] at e
        exact (ih.gray i' j' h g (by omega)).up h g
    · intro i j hi hj e1 e2
      rw [hpow] at e1 e2
      rcases split i hi with h | ⟨i', rfl, h⟩
      · rcases split j hj with g | ⟨j', rfl, g⟩
        · rw [lab_low g] at e2
          have := ih.range j g; omega
        · rw [lab_low h] at e1
          rw [lab_high g] at e2
          have : i = j' := ih.inj i j' h g (by omega)
          subst this
          exact oneBit_top h
      · rw [lab_high h] at e1
        have := ih.range i' h; omega

theorem lab_sum (n : Nat) : ∑ j ∈ Finset.range (2 ^ (n + 1)), lab (n + 1) j = 0 := by
  have e : ∀ m, ∑ j ∈ Finset.range (2 ^ (m + 1)), lab (m + 1) j = 0 := by
    intro m
    rw [Nat.pow_succ, Nat.mul_two, Finset.sum_range_add, ← Finset.sum_add_distrib]
    apply Finset.sum_eq_zero
    intro j hj
    rw [Finset.mem_range] at hj
    rw [lab_low hj, lab_high hj]; ring
  exact e n

theorem lab_energy (n : Nat) : 3 * energy (n + 1) (lab (n + 1)) = 2 ^ (n + 1) * (4 ^ (n + 1) - 1) := by
  induction n with
  | zero => decide
  | succ n ih =>
    have hs := lab_sum n
    generalize n + 1 = m at *
    unfold energy at ih ⊢
    rw [Nat.pow_succ, Nat.mul_two, Finset.sum_range_add, ← Finset.sum_add_distrib]
    have : ∑ j ∈ Finset.range (2 ^ m), (lab (m + 1) j ^ 2 + lab (m + 1) (2 ^ m + j) ^ 2) =
        ∑ j ∈ Finset.range (2 ^ m), (2 * (2 ^ m) ^ 2 + (-(4 * 2 ^ m) * lab m j + 2 * lab m j ^ 2)) := by
      apply Finset.sum_congr rfl
      intro j hj
      rw [Finset.mem_range] at hj
      rw [lab_low hj, lab_high hj]; ring
    rw [this, Finset.sum_add_distrib, Finset.sum_add_distrib, ← Finset.mul_sum, ← Finset.mul_sum, hs, Finset.sum_const,
      Finset.card_range, nsmul_eq_mul]
    have h4 : (4 : Int) ^ m = 2 ^ m * 2 ^ m := by rw [← mul_pow]; norm_num
    push_cast
    rw [pow_succ 2 m, pow_succ 4 m, h4, ← Finset.mul_sum]
    rw [h4] at ih
    generalize (2 : Int) ^ m = x at *
    linear_combination 2 * ih

/-! ## The computed amplitudes -/

theorem wide {F : Fmt} (hF : F = b32 ∨ F = b64) : F.emin ≤ 0 ∧ (F.p : ℤ) ≤ F.emax ∧ 24 ≤ F.p := by
  rcases hF with rfl | rfl <;> decide

theorem of_int {F : Fmt} (hF : F = b32 ∨ F = b64) {z : ℤ} (hz : |z| < 2 ^ 24) : F.of z = .fin z := by
  obtain ⟨h1, h2, h3⟩ := wide hF
  refine of_rep F (rep_int F z (lt_of_lt_of_le hz ?_) h1 h2)
  exact pow_le_pow_right₀ (by norm_num) h3

theorem lab_abs : ∀ m j, |lab m j| ≤ 2 ^ m - 1
  | 0, _ => by simp [lab]
  | m + 1, j => by
    have ih := lab_abs m j
    unfold lab
    rw [abs_mul, pow_succ]
    have : |(1 : Int) - 2 * ((j / 2 ^ m % 2 : Nat) : Int)| = 1 := by
      rcases Nat.mod_two_eq_zero_or_one (j / 2 ^ m) with h | h <;> rw [h] <;> norm_num
    rw [this, one_mul]
    rw [abs_le] at ih ⊢
    constructor <;> omega

theorem lab_pos {m j : Nat} : lab m j ≤ 2 ^ m - 1 ∧ -(2 ^ m - 1) ≤ lab m j := by
  have := lab_abs m j
  rw [abs_le] at this
  exact ⟨this.2, this.1⟩

theorem sgn_of {F : Fmt} (hF : F = b32 ∨ F = b64) {b : Nat} (hb : b < 2) :
    F.add (.fin 1) (F.add (.fin b) (.fin b)).neg = .fin ((1 - 2 * (b : Int) : Int) : ℚ) := by
  rcases (by omega : b = 0 ∨ b = 1) with rfl | rfl
  · have h1 : F.add (.fin (0 : Nat)) (.fin (0 : Nat)) = .fin ((0 : Int) : ℚ) := by
      show F.of _ = _
      have := of_int hF (z := 0) (by norm_num)
      rw [← this]; congr 1; norm_num
    rw [h1]
    show F.of _ = _
    have := of_int hF (z := 1) (by norm_num)
    push_cast at this ⊢
    simpa using this
  · have h1 : F.add (.fin (1 : Nat)) (.fin (1 : Nat)) = .fin ((2 : Int) : ℚ) := by
      show F.of _ = _
      have := of_int hF (z := 2) (by norm_num)
      rw [← this]; congr 1; norm_num
    rw [h1]
    show F.of _ = _
    have := of_int hF (z := -1) (by norm_num)
    rw [show ((1 - 2 * ((1 : Nat) : Int) : Int) : ℚ) = ((-1 : Int) : ℚ) by norm_num, ← this]
    congr 1; norm_num

theorem rd_bits {n j i : Nat} (h : i < n) : rd (bitsOf n j) i = ok (j / 2 ^ i % 2) := by
  apply rd_eq
  unfold bitsOf
  rw [getElem?_mapRange, if_pos h]

/-- The computation of the amplitude is exact. -/
theorem amplitude_eq {F : Fmt} (hF : F = b32 ∨ F = b64) {n off N j : Nat} (hn : 1 ≤ n) (h24 : n ≤ 24) (hN : off + n ≤ N) :
    amplitude F n off (bitsOf N j) = ok (.fin (lab n (j / 2 ^ off) : ℚ)) := by
  unfold amplitude
  have hb : ∀ i, j / 2 ^ (off + i) % 2 = j / 2 ^ off / 2 ^ i % 2 := fun i => by rw [Nat.pow_add, ← Nat.div_div_eq_div_mul]
  have h2 : ∀ i, j / 2 ^ off / 2 ^ i % 2 < 2 := fun i => Nat.mod_lt _ (by decide)
  rw [rd_bits (by omega)]
  have h0 : F.add (.fin 1) (F.add (.fin (j / 2 ^ off % 2 : Nat)) (.fin (j / 2 ^ off % 2 : Nat))).neg = .fin (lab 1 (j / 2 ^ off) : ℚ) := by
    rw [sgn_of hF (Nat.mod_lt _ (by decide))]
    unfold lab lab
    simp
  simp only [bind_ok]
  rw [h0]
  have key := forN_inv (n := n - 1) (f := fun i s => do
    let b ← rd (bitsOf N j) (off + (i + 1))
    ok (F.mul (F.add (.fin 1) (F.add (.fin b) (.fin b)).neg) (F.add (.fin (2 ^ (i + 1) : Nat)) s.neg)))
    (s := .fin (lab 1 (j / 2 ^ off) : ℚ)) (fun i s => s = .fin (lab (i + 1) (j / 2 ^ off) : ℚ)) rfl (by
      intro i s hi hs
      subst hs
      rw [rd_bits (by omega), hb]
      simp only [bind_ok, sat_ok]
      rw [sgn_of hF (h2 _)]
      have hl := lab_pos (m := i + 1) (j := j / 2 ^ off)
      have hpw : (2 : Int) ^ (i + 1) * 2 ≤ 2 ^ 24 := by
        rw [← pow_succ]; exact pow_le_pow_right₀ (by norm_num) (by omega)
      have e1 : F.add (.fin (2 ^ (i + 1) : Nat)) (Fl.fin (lab (i + 1) (j / 2 ^ off) : ℚ)).neg = .fin ((2 ^ (i + 1) - lab (i + 1) (j / 2 ^ off) : Int) : ℚ) := by
        show F.of _ = _
        rw [← of_int hF (z := 2 ^ (i + 1) - lab (i + 1) (j / 2 ^ off)) (by rw [abs_lt]; constructor <;> omega)]
        congr 1; push_cast; ring
      rw [e1]
      show F.of _ = _
      have hl' := lab_abs (i + 1 + 1) (j / 2 ^ off)
      rw [← of_int hF (z := lab (i + 1 + 1) (j / 2 ^ off)) (by rw [pow_succ] at hl'; omega)]
      congr 1
      conv_rhs => unfold lab
      push_cast; ring)
  obtain ⟨s, hs, e⟩ := key
  rw [hs, e, Nat.sub_add_cancel hn]

end Verif.Cstl
