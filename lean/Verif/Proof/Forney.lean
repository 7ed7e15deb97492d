import Verif.Proof.BMAlg
import Mathlib.LinearAlgebra.Lagrange
import Mathlib.Algebra.Ring.GeomSum

/-! # Error values -/

namespace Verif.BM
open Finset Polynomial

variable {F : Type _} [Field F]

/-- Coefficients of `z(x) = (1 + S(x)) σ(x)`, up to the degree of `σ`. -/
def zc (σ S : ℕ → F) (k : ℕ) : F := σ k + ∑ j ∈ range k, σ j * S (k - j)

theorem revP_prod {ι : Type _} [DecidableEq ι] {σ : ℕ → F} (h1 : σ 0 = 1) {l : ℕ} {E : Finset ι} {β : ι → F}
    (hinj : ∀ i ∈ E, ∀ j ∈ E, β i = β j → i = j) (h : ∀ e ∈ E, rev σ l (β e) = 0) (hc : E.card = l) :
    revP σ l = ∏ e ∈ E, (X - C (β e)) := by
  classical
  have hm : (∏ e ∈ E, (X - C (β e))).Monic := monic_prod_of_monic _ _ fun e _ => monic_X_sub_C _
  have hd : (∏ e ∈ E, (X - C (β e))).natDegree = l := by
    rw [natDegree_prod _ _ (fun k _ => X_sub_C_ne_zero _), sum_congr rfl (fun k _ => natDegree_X_sub_C (β k))]
    simp [hc]
  have hcard : (E.image β).card = l := by rw [card_image_of_injOn fun i hi j hj e => hinj i hi j hj e, hc]
  refine eq_of_degree_sub_lt_of_eval_finset_eq (E.image β) ?_ ?_
  · rw [hcard]
    have hlt := degree_sub_lt (p := revP σ l) (q := ∏ e ∈ E, (X - C (β e)))
      (by rw [degree_eq_natDegree (revP_monic h1 l).ne_zero, degree_eq_natDegree hm.ne_zero, revP_natDegree h1, hd])
      (revP_monic h1 l).ne_zero (by rw [(revP_monic h1 l).leadingCoeff, hm.leadingCoeff])
    rw [degree_eq_natDegree (revP_monic h1 l).ne_zero, revP_natDegree h1] at hlt
    exact hlt
  · intro x hx
    obtain ⟨e, he, rfl⟩ := mem_image.1 hx
    rw [eval_revP, h e he, eval_prod]
    symm
    exact prod_eq_zero he (by simp)

/-- Quotient of `revP` by `X - b`. -/
noncomputable def quo (σ : ℕ → F) (l : ℕ) (b : F) : F[X] :=
  ∑ j ∈ range l, C (σ j) * ∑ k ∈ range (l - j), C b ^ k * X ^ (l - j - 1 - k)

theorem quo_mul (σ : ℕ → F) (l : ℕ) (b : F) : quo σ l b * (X - C b) = revP σ l - C (rev σ l b) := by
  unfold quo revP rev
  rw [sum_mul, sum_range_succ, sum_range_succ _ l, map_add, map_sum]
  simp only [Nat.sub_self, pow_zero, mul_one]
  rw [add_sub_add_right_eq_sub, ← sum_sub_distrib]
  refine sum_congr rfl fun j hj => ?_
  have hg := (Commute.all (X : F[X]) (C b)).mul_geom_sum₂ (l - j)
  have e : ∑ k ∈ range (l - j), C b ^ k * X ^ (l - j - 1 - k) = ∑ i ∈ range (l - j), (X : F[X]) ^ i * C b ^ (l - j - 1 - i) := by
    rw [← sum_range_reflect]
    refine sum_congr rfl fun k hk => ?_
    have := mem_range.1 hk
    rw [show l - j - 1 - (l - j - 1 - k) = k by omega, mul_comm]
  rw [e, mul_assoc, mul_comm _ (X - C b), hg, mul_sub, map_mul, map_pow]

theorem quo_eq {ι : Type _} [DecidableEq ι] {σ : ℕ → F} (h1 : σ 0 = 1) {l : ℕ} {E : Finset ι} {β : ι → F}
    (hinj : ∀ i ∈ E, ∀ j ∈ E, β i = β j → i = j) (h : ∀ e ∈ E, rev σ l (β e) = 0) (hc : E.card = l) {e : ι} (he : e ∈ E) :
    quo σ l (β e) = ∏ i ∈ E.erase e, (X - C (β i)) := by
  have := quo_mul σ l (β e)
  rw [h e he, map_zero, sub_zero, revP_prod h1 hinj h hc, ← mul_prod_erase E _ he, mul_comm (X - C (β e))] at this
  exact mul_right_cancel₀ (X_sub_C_ne_zero _) this

/-- The error value at a location, from `z`. -/
theorem forney {ι : Type _} [DecidableEq ι] {σ S : ℕ → F} (h1 : σ 0 = 1) {l T : ℕ} {E : Finset ι} {β w : ι → F}
    (hE : Errors S T E β w) (hroot : ∀ e ∈ E, rev σ l (β e) = 0) (hc : E.card = l) (hT : l ≤ T) {i : ι} (hi : i ∈ E) {x : F} (hx : β i * x = 1) :
    ∑ k ∈ range (l + 1), zc σ S k * x ^ k = w i * ∏ e ∈ E.erase i, (1 - β e * x) := by
  have hb : β i ≠ 0 := hE.ne i hi
  have hxb : ∀ k n, k ≤ n → x ^ k * β i ^ n = β i ^ (n - k) := by
    intro k n hk
    rw [show n = k + (n - k) by omega, pow_add, ← mul_assoc, ← mul_pow, mul_comm x, hx, one_pow, one_mul, Nat.add_sub_cancel_left]
  have key : (∑ k ∈ range (l + 1), zc σ S k * x ^ k) * β i ^ l = rev σ l (β i) + ∑ e ∈ E, w e * β e * (quo σ l (β e)).eval (β i) := by
    unfold zc rev
    rw [sum_mul]
    have e1 : ∀ k ∈ range (l + 1), (σ k + ∑ j ∈ range k, σ j * S (k - j)) * x ^ k * β i ^ l =
        σ k * β i ^ (l - k) + ∑ e ∈ E, w e * ∑ j ∈ range k, σ j * (β e ^ (k - j) * β i ^ (l - k)) := by
      intro k hk
      have hk := mem_range.1 hk
      rw [mul_assoc, hxb k l (by omega), add_mul, sum_mul]
      congr 1
      have e2 : ∀ j ∈ range k, σ j * S (k - j) * β i ^ (l - k) = ∑ e ∈ E, w e * (σ j * (β e ^ (k - j) * β i ^ (l - k))) := by
        intro j hj
        have hj := mem_range.1 hj
        rw [hE.syn (k - j) (by omega) (by omega), mul_sum, sum_mul]
        exact sum_congr rfl fun e _ => by ring
      rw [sum_congr rfl e2, sum_comm]
      exact sum_congr rfl fun e _ => by rw [mul_sum]
    rw [sum_congr rfl e1, sum_add_distrib]
    congr 1
    rw [sum_comm]
    refine sum_congr rfl fun e _ => ?_
    rw [← mul_sum, mul_assoc]
    congr 1
    unfold quo
    rw [eval_finset_sum, mul_sum]
    -- exchange the sums over `j < k ≤ l`
    have e3 : ∑ k ∈ range (l + 1), ∑ j ∈ range k, σ j * (β e ^ (k - j) * β i ^ (l - k)) =
        ∑ j ∈ range l, ∑ k ∈ range (l - j), σ j * (β e ^ (k + 1) * β i ^ (l - j - 1 - k)) := by
      rw [sum_sigma', sum_sigma']
      refine sum_bij' (fun p _ => ⟨p.2, p.1 - p.2 - 1⟩) (fun p _ => ⟨p.1 + p.2 + 1, p.1⟩) ?_ ?_ ?_ ?_ ?_
      · rintro ⟨k, j⟩ h
        simp only [mem_sigma, mem_range] at h ⊢
        omega
      · rintro ⟨k, j⟩ h
        simp only [mem_sigma, mem_range] at h ⊢
        omega
      · rintro ⟨k, j⟩ h
        simp only [mem_sigma, mem_range] at h
        simp only [Sigma.mk.injEq, heq_eq_eq, and_true]
        omega
      · rintro ⟨k, j⟩ h
        simp only [mem_sigma, mem_range] at h
        simp only [Sigma.mk.injEq, heq_eq_eq, true_and]
        omega
      · rintro ⟨k, j⟩ h
        simp only [mem_sigma, mem_range] at h
        simp only
        rw [show k - j - 1 + 1 = k - j by omega, show l - j - 1 - (k - j - 1) = l - k by omega]
    rw [e3]
    refine sum_congr rfl fun j _ => ?_
    rw [eval_mul, eval_C, eval_finset_sum, mul_sum, mul_sum]
    refine sum_congr rfl fun k _ => ?_
    rw [eval_mul, eval_pow, eval_pow, eval_C, eval_X]
    ring
  rw [hroot i hi, zero_add, sum_eq_single i ?_ (fun h => absurd hi h), quo_eq h1 hE.inj hroot hc hi, eval_prod] at key
  · have hcd : l = (E.erase i).card + 1 := by
      rw [card_erase_of_mem hi, hc]
      have : 0 < E.card := card_pos.2 ⟨i, hi⟩
      omega
    have e4 : ∏ e ∈ E.erase i, (X - C (β e)).eval (β i) = (∏ e ∈ E.erase i, (1 - β e * x)) * β i ^ (E.erase i).card := by
      rw [← prod_const, ← prod_mul_distrib]
      refine prod_congr rfl fun e _ => ?_
      rw [eval_sub, eval_X, eval_C]
      linear_combination β e * hx
    rw [e4] at key
    have hne : β i ^ l ≠ 0 := pow_ne_zero _ hb
    apply mul_right_cancel₀ hne
    rw [key]
    conv_rhs => rw [hcd, pow_succ]
    ring
  · intro e he hne
    rw [quo_eq h1 hE.inj hroot hc he, eval_prod, prod_eq_zero (mem_erase.2 ⟨Ne.symm hne, hi⟩) (by simp), mul_zero]

end Verif.BM
