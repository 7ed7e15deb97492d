import Mathlib.Algebra.Polynomial.Roots
import Mathlib.LinearAlgebra.Vandermonde
import Mathlib.LinearAlgebra.Matrix.NonsingularInverse
import Mathlib.Tactic.Ring
import Mathlib.Tactic.LinearCombination
import Mathlib.Tactic.IntervalCases
import Mathlib.Tactic.FieldSimp

/-! # The Berlekamp algorithm, in a field

The indices are those of the code: the step number of Lin and Costello plus one. -/

namespace Verif.BM
open Finset Polynomial

variable {F : Type _} [Field F]

/-- `σ_0 S_k + ... + σ_l S_(k-l)`. -/
def conv (S σ : ℕ → F) (l k : ℕ) : F := ∑ i ∈ range (l + 1), σ i * S (k - i)

/-- The recurrence `σ` of length `l` holds before `u`. -/
def Rec (S σ : ℕ → F) (l u : ℕ) : Prop := ∀ k, l < k → k < u → conv S σ l k = 0

/-- `σ_0 x^l + ... + σ_l`. -/
def rev (σ : ℕ → F) (l : ℕ) (x : F) : F := ∑ i ∈ range (l + 1), σ i * x ^ (l - i)

theorem conv_ext {S σ : ℕ → F} {l l' : ℕ} (h : ∀ i, l < i → σ i = 0) (hl : l ≤ l') (k : ℕ) : conv S σ l' k = conv S σ l k := by
  unfold conv
  symm
  apply sum_subset
  · exact range_subset_range.2 (by omega)
  · intro i _ hi
    rw [h i (by simpa using hi), zero_mul]

/-- The new coefficients. -/
def upd (σ τ : ℕ → F) (c : F) (s i : ℕ) : F := σ i + if i < s then 0 else c * τ (i - s)

theorem conv_upd {S σ τ : ℕ → F} {c : F} {s l r l' : ℕ} (hσ : ∀ i, l < i → σ i = 0) (hτ : ∀ i, r < i → τ i = 0) (h1 : l ≤ l')
    (h2 : r + s ≤ l') (k : ℕ) : conv S (upd σ τ c s) l' k = conv S σ l k + c * conv S τ r (k - s) := by
  have e : conv S (upd σ τ c s) l' k = conv S σ l' k + ∑ i ∈ range (l' + 1), (if i < s then 0 else c * τ (i - s)) * S (k - i) := by
    unfold conv upd
    rw [← sum_add_distrib]
    exact sum_congr rfl fun i _ => by rw [add_mul]
  rw [e, conv_ext hσ h1]
  congr 1
  rw [show l' + 1 = s + (l' - s + 1) by omega, sum_range_add, sum_eq_zero (s := range s), zero_add,
    ← conv_ext hτ (show r ≤ l' - s by omega)]
  · unfold conv
    rw [mul_sum]
    refine sum_congr rfl fun i _ => ?_
    rw [if_neg (by omega), Nat.add_sub_cancel_left, Nat.sub_sub, mul_assoc]
  · intro i hi
    rw [if_pos (by simpa using hi), zero_mul]

/-- What the tables of the algorithm hold when the row `u` is complete. -/
structure Inv (S : ℕ → F) (σ : ℕ → ℕ → F) (d : ℕ → F) (L : ℕ → ℕ) (u : ℕ) : Prop where
  pos : 1 ≤ u
  d0 : d 0 ≠ 0
  L0 : L 0 = 0
  one : ∀ v, v ≤ u → σ v 0 = 1
  deg : ∀ v, v ≤ u → ∀ i, L v < i → σ v i = 0
  lt : ∀ v, 1 ≤ v → v ≤ u → L v < v
  recur : ∀ v, 1 ≤ v → v ≤ u → Rec S (σ v) (L v) v
  dis : ∀ v, 1 ≤ v → v < u → d v = conv S (σ v) (L v) v
  le : ∀ q, q < u → d q ≠ 0 → q ≤ L q + L u
  ex : ∃ q, q < u ∧ d q ≠ 0 ∧ q = L q + L u

theorem inv_one {S : ℕ → F} {σ : ℕ → ℕ → F} {d : ℕ → F} {L : ℕ → ℕ} (d0 : d 0 ≠ 0) (L0 : L 0 = 0) (L1 : L 1 = 0)
    (o0 : σ 0 0 = 1) (o1 : σ 1 0 = 1) (z0 : ∀ i, 0 < i → σ 0 i = 0) (z1 : ∀ i, 0 < i → σ 1 i = 0) : Inv S σ d L 1 where
  pos := le_refl _
  d0 := d0
  L0 := L0
  one v hv := by interval_cases v <;> assumption
  deg v hv i hi := by
    interval_cases v
    · exact z0 i (by omega)
    · exact z1 i (by omega)
  lt v h1 h2 := by interval_cases v; omega
  recur v h1 h2 k h3 h4 := by omega
  dis v h1 h2 := by omega
  le q hq _ := by omega
  ex := ⟨0, by omega, d0, by omega⟩

theorem inv_zero {S : ℕ → F} {σ : ℕ → ℕ → F} {d : ℕ → F} {L : ℕ → ℕ} {u : ℕ} (h : Inv S σ d L u)
    (hd : d u = conv S (σ u) (L u) u) (h0 : d u = 0) (hL : L (u + 1) = L u) (hσ : ∀ i, σ (u + 1) i = σ u i) :
    Inv S σ d L (u + 1) := by
  have hp := h.pos
  have hlt := h.lt u hp (le_refl _)
  have e : σ (u + 1) = σ u := funext hσ
  refine ⟨by omega, h.d0, h.L0, fun v hv => ?_, fun v hv i hi => ?_, fun v h1 h2 => ?_, fun v h1 h2 => ?_, fun v h1 h2 => ?_,
    fun q hq hdq => ?_, ?_⟩
  · rcases Nat.lt_or_ge u v with hc | hc
    · obtain rfl : v = u + 1 := by omega
      rw [hσ]; exact h.one u (le_refl _)
    · exact h.one v hc
  · rcases Nat.lt_or_ge u v with hc | hc
    · obtain rfl : v = u + 1 := by omega
      rw [hσ]; exact h.deg u (le_refl _) i (by omega)
    · exact h.deg v hc i hi
  · rcases Nat.lt_or_ge u v with hc | hc
    · obtain rfl : v = u + 1 := by omega
      omega
    · exact h.lt v h1 hc
  · rcases Nat.lt_or_ge u v with hc | hc
    · obtain rfl : v = u + 1 := by omega
      intro k h3 h4
      rw [e, hL]
      rcases Nat.lt_or_ge k u with hk | hk
      · exact h.recur u hp (le_refl _) k (by omega) hk
      · obtain rfl : k = u := by omega
        rw [← hd, h0]
    · exact h.recur v h1 hc
  · rcases Nat.lt_or_ge v u with hc | hc
    · exact h.dis v h1 hc
    · obtain rfl : v = u := by omega
      exact hd
  · rcases Nat.lt_or_ge q u with hc | hc
    · rw [hL]; exact h.le q hc hdq
    · obtain rfl : q = u := by omega
      exact absurd h0 hdq
  · obtain ⟨q, h1, h2, h3⟩ := h.ex
    exact ⟨q, by omega, h2, by rw [hL]; exact h3⟩

/-- The row chosen by the search is that of the last change of length. -/
theorem chosen {S : ℕ → F} {σ : ℕ → ℕ → F} {d : ℕ → F} {L : ℕ → ℕ} {u q : ℕ} (h : Inv S σ d L u) (hq : q < u) (hd : d q ≠ 0)
    (hmax : ∀ j, j < u → d j ≠ 0 → (j : ℤ) - L j ≤ q - L q) : q = L q + L u := by
  have h1 := h.le q hq hd
  obtain ⟨j, h2, h3, h4⟩ := h.ex
  have := hmax j h2 h3
  omega

theorem inv_step {S : ℕ → F} {σ : ℕ → ℕ → F} {d : ℕ → F} {L : ℕ → ℕ} {u q : ℕ} {c : F} (h : Inv S σ d L u)
    (hd : d u = conv S (σ u) (L u) u) (h0 : d u ≠ 0) (hq : q < u) (hqd : d q ≠ 0) (hqe : q = L q + L u)
    (hc : d u + c * d q = 0) (hL : L (u + 1) = max (L u) (L q + u - q)) (hσ : ∀ i, σ (u + 1) i = upd (σ u) (σ q) c (u - q) i) :
    Inv S σ d L (u + 1) := by
  have hp := h.pos
  have hlt := h.lt u hp (le_refl _)
  have e : σ (u + 1) = upd (σ u) (σ q) c (u - q) := funext hσ
  have hL2 : L (u + 1) = max (L u) (u - L u) := by rw [hL]; congr 1; omega
  refine ⟨by omega, h.d0, h.L0, fun v hv => ?_, fun v hv i hi => ?_, fun v h1 h2 => ?_, fun v h1 h2 => ?_, fun v h1 h2 => ?_,
    fun q' hq' hdq => ?_, ?_⟩
  · rcases Nat.lt_or_ge u v with hc | hc
    · obtain rfl : v = u + 1 := by omega
      rw [e, upd, if_pos (by omega), add_zero]; exact h.one u (le_refl _)
    · exact h.one v hc
  · rcases Nat.lt_or_ge u v with hc | hc
    · obtain rfl : v = u + 1 := by omega
      rw [e, upd, h.deg u (le_refl _) i (by omega), zero_add]
      split
      · rfl
      · rw [h.deg q (by omega) _ (by omega), mul_zero]
    · exact h.deg v hc i hi
  · rcases Nat.lt_or_ge u v with hc | hc
    · obtain rfl : v = u + 1 := by omega
      omega
    · exact h.lt v h1 hc
  · rcases Nat.lt_or_ge u v with hc' | hc'
    · obtain rfl : v = u + 1 := by omega
      intro k h3 h4
      have hq1 : 1 ≤ q := by
        by_contra hn
        omega
      rw [e, conv_upd (h.deg u (le_refl _)) (h.deg q (by omega)) (by omega) (by omega)]
      rcases Nat.lt_or_ge k u with hk | hk
      · rw [h.recur u hp (le_refl _) k (by omega) hk, h.recur q hq1 (by omega) (k - (u - q)) (by omega) (by omega), mul_zero,
          add_zero]
      · obtain rfl : k = u := by omega
        rw [← hd, show k - (k - q) = q by omega, ← h.dis q hq1 hq, hc]
    · exact h.recur v h1 hc'
  · rcases Nat.lt_or_ge v u with hc | hc
    · exact h.dis v h1 hc
    · obtain rfl : v = u := by omega
      exact hd
  · rcases Nat.lt_or_ge q' u with hc | hc
    · have := h.le q' hc hdq
      omega
    · obtain rfl : q' = u := by omega
      omega
  · rcases Nat.lt_or_ge (L u) (L (u + 1)) with hc | hc
    · exact ⟨u, by omega, h0, by omega⟩
    · exact ⟨q, by omega, hqd, by omega⟩

/-- The tables up to `u` only matter. -/
theorem Inv.congr {S : ℕ → F} {σ σ' : ℕ → ℕ → F} {d d' : ℕ → F} {L L' : ℕ → ℕ} {u : ℕ} (h : Inv S σ d L u)
    (hσ : ∀ v, v ≤ u → σ' v = σ v) (hd : ∀ v, v < u → d' v = d v) (hL : ∀ v, v ≤ u → L' v = L v) : Inv S σ' d' L' u := by
  have hp := h.pos
  refine ⟨hp, by rw [hd 0 (by omega)]; exact h.d0, by rw [hL 0 (by omega)]; exact h.L0, fun v hv => ?_, fun v hv i hi => ?_,
    fun v h1 h2 => ?_, fun v h1 h2 => ?_, fun v h1 h2 => ?_, fun q hq hdq => ?_, ?_⟩
  · rw [hσ v hv]; exact h.one v hv
  · rw [hL v hv] at hi; rw [hσ v hv]; exact h.deg v hv i hi
  · rw [hL v h2]; exact h.lt v h1 h2
  · rw [hσ v h2, hL v h2]; exact h.recur v h1 h2
  · rw [hσ v (by omega), hL v (by omega), hd v h2]; exact h.dis v h1 h2
  · rw [hd q hq] at hdq; rw [hL q (by omega), hL u (le_refl _)]; exact h.le q hq hdq
  · obtain ⟨q, h1, h2, h3⟩ := h.ex
    exact ⟨q, h1, by rw [hd q h1]; exact h2, by rw [hL q (by omega), hL u (le_refl _)]; exact h3⟩

/-! ## Power sums -/

theorem vander {ι : Type _} [DecidableEq ι] {E : Finset ι} {β v : ι → F} (hinj : ∀ i ∈ E, ∀ j ∈ E, β i = β j → i = j)
    (hne : ∀ i ∈ E, β i ≠ 0) {a : ℕ} (h : ∀ k, a ≤ k → k < a + E.card → ∑ e ∈ E, v e * β e ^ k = 0) : ∀ e ∈ E, v e = 0 := by
  intro e0 he0
  let q : F[X] := ∏ k ∈ E.erase e0, (X - C (β k))
  have hdeg : q.natDegree + 1 = E.card := by
    have h1 : q.natDegree = (E.erase e0).card := by
      show (∏ k ∈ E.erase e0, (X - C (β k))).natDegree = _
      rw [natDegree_prod _ _ (fun k _ => X_sub_C_ne_zero _), sum_congr rfl (fun k _ => natDegree_X_sub_C (β k))]
      simp
    have h2 := card_erase_of_mem he0
    have h3 : 0 < E.card := card_pos.mpr ⟨e0, he0⟩
    omega
  have hsum : ∑ e ∈ E, v e * β e ^ a * q.eval (β e) = 0 := by
    have h1 : ∀ e, v e * β e ^ a * q.eval (β e) = ∑ k ∈ range (q.natDegree + 1), q.coeff k * (v e * β e ^ (a + k)) := by
      intro i
      rw [eval_eq_sum_range, mul_sum]
      refine sum_congr rfl fun k _ => ?_
      rw [pow_add]; ring
    simp only [h1]
    rw [sum_comm]
    refine sum_eq_zero fun k hk => ?_
    rw [← mul_sum, h (a + k) (by omega) (by have := mem_range.mp hk; omega), mul_zero]
  have hone : ∑ e ∈ E, v e * β e ^ a * q.eval (β e) = v e0 * β e0 ^ a * q.eval (β e0) := by
    apply sum_eq_single_of_mem e0 he0
    intro i hi hne
    have : q.eval (β i) = 0 := by
      show (∏ k ∈ E.erase e0, (X - C (β k))).eval (β i) = 0
      rw [eval_prod]
      apply prod_eq_zero (i := i) (mem_erase.mpr ⟨hne, hi⟩)
      simp
    rw [this, mul_zero]
  rw [hsum] at hone
  have hq : q.eval (β e0) ≠ 0 := by
    show (∏ k ∈ E.erase e0, (X - C (β k))).eval (β e0) ≠ 0
    rw [eval_prod, prod_ne_zero_iff]
    intro k hk
    obtain ⟨hk1, hk2⟩ := mem_erase.mp hk
    rw [eval_sub, eval_X, eval_C]
    intro e
    exact hk1 (hinj _ he0 _ hk2 (sub_eq_zero.mp e)).symm
  have h5 := (mul_eq_zero.1 hone.symm).resolve_right hq
  exact (mul_eq_zero.1 h5).resolve_right (pow_ne_zero _ (hne e0 he0))

/-- Errors of values `w` at the locators `β`, and the syndromes `S` up to `T`. -/
structure Errors {ι : Type _} (S : ℕ → F) (T : ℕ) (E : Finset ι) (β w : ι → F) : Prop where
  inj : ∀ i ∈ E, ∀ j ∈ E, β i = β j → i = j
  ne : ∀ i ∈ E, β i ≠ 0
  syn : ∀ k, 1 ≤ k → k ≤ T → S k = ∑ e ∈ E, w e * β e ^ k

section
variable {ι : Type _} [DecidableEq ι] {S : ℕ → F} {T : ℕ} {E : Finset ι} {β w : ι → F}

theorem conv_eq (hE : Errors S T E β w) (σ : ℕ → F) {l k : ℕ} (h1 : l < k) (h2 : k ≤ T) :
    conv S σ l k = ∑ e ∈ E, (w e * rev σ l (β e)) * β e ^ (k - l) := by
  have : ∀ i ∈ range (l + 1), σ i * S (k - i) = ∑ e ∈ E, w e * (σ i * β e ^ (l - i)) * β e ^ (k - l) := by
    intro i hi
    have hi := mem_range.1 hi
    rw [hE.syn _ (by omega) (by omega), mul_sum]
    refine sum_congr rfl fun e _ => ?_
    rw [show k - i = (l - i) + (k - l) by omega, pow_add]
    ring
  unfold conv rev
  rw [sum_congr rfl this, sum_comm]
  refine sum_congr rfl fun e _ => ?_
  rw [mul_sum, sum_mul]

theorem rev_zero (hE : Errors S T E β w) (hw : ∀ e ∈ E, w e ≠ 0) {σ : ℕ → F} {l u : ℕ} (h : Rec S σ l u) (hu : u ≤ T + 1)
    (hl : l + E.card < u) : ∀ e ∈ E, rev σ l (β e) = 0 := by
  have := vander (v := fun e => w e * rev σ l (β e)) hE.inj hE.ne (a := 1) fun k h1 h2 => by
    have h3 := h (l + k) (by omega) (by omega)
    rw [conv_eq hE σ (by omega) (by omega), Nat.add_sub_cancel_left] at h3
    exact h3
  intro e he
  exact (mul_eq_zero.1 (this e he)).resolve_left (hw e he)

variable {σ : ℕ → ℕ → F} {d : ℕ → F} {L : ℕ → ℕ} {u : ℕ}

/-- The length never exceeds the number of errors. -/
theorem len_le (hE : Errors S T E β w) (hw : ∀ e ∈ E, w e ≠ 0) (h : Inv S σ d L u) (hu : u ≤ T + 1) : L u ≤ E.card := by
  obtain ⟨q, h1, h2, h3⟩ := h.ex
  rcases Nat.eq_zero_or_pos q with hq | hq
  · omega
  · have : ¬ L q + E.card < q := by
      intro hc
      apply h2
      have hlt := h.lt q hq (by omega)
      rw [h.dis q hq h1, conv_eq hE _ hlt (by omega)]
      refine sum_eq_zero fun e he => ?_
      rw [rev_zero hE hw (h.recur q hq (by omega)) (by omega) hc e he, mul_zero, zero_mul]
    omega
end

/-! ## Roots -/

/-- The polynomial whose value is `rev`. -/
noncomputable def revP (σ : ℕ → F) (l : ℕ) : F[X] := ∑ i ∈ range (l + 1), C (σ i) * X ^ (l - i)

theorem eval_revP (σ : ℕ → F) (l : ℕ) (x : F) : (revP σ l).eval x = rev σ l x := by
  unfold revP rev
  rw [eval_finset_sum]
  refine sum_congr rfl fun i _ => by rw [eval_mul, eval_C, eval_pow, eval_X]

theorem revP_eq (σ : ℕ → F) (h1 : σ 0 = 1) (l : ℕ) : revP σ l = X ^ l + ∑ i ∈ range l, C (σ (i + 1)) * X ^ (l - (i + 1)) := by
  unfold revP
  rw [sum_range_succ', h1, C_1, one_mul, Nat.sub_zero, add_comm]

theorem revP_rest (σ : ℕ → F) (l : ℕ) : (∑ i ∈ range l, C (σ (i + 1)) * X ^ (l - (i + 1))).degree < (l : WithBot ℕ) := by
  refine lt_of_le_of_lt (degree_sum_le _ _) ?_
  refine (Finset.sup_lt_iff (WithBot.bot_lt_coe l)).2 ?_
  intro i hi
  have := mem_range.1 hi
  refine lt_of_le_of_lt (degree_C_mul_X_pow_le _ _) ?_
  exact WithBot.coe_lt_coe.2 (by omega : l - (i + 1) < l)

theorem revP_monic {σ : ℕ → F} (h1 : σ 0 = 1) (l : ℕ) : (revP σ l).Monic := by
  rw [revP_eq σ h1]
  exact monic_X_pow_add (revP_rest σ l)

theorem revP_natDegree {σ : ℕ → F} (h1 : σ 0 = 1) (l : ℕ) : (revP σ l).natDegree = l := by
  rw [revP_eq σ h1]
  rw [natDegree_add_eq_left_of_degree_lt]
  · exact natDegree_X_pow l
  · rw [degree_X_pow]; exact revP_rest σ l

theorem roots_card {ι : Type _} [DecidableEq ι] {σ : ℕ → F} (h1 : σ 0 = 1) {l : ℕ} {E : Finset ι} {β : ι → F}
    (hinj : ∀ i ∈ E, ∀ j ∈ E, β i = β j → i = j) (h : ∀ e ∈ E, rev σ l (β e) = 0) : E.card ≤ l := by
  classical
  have hm := revP_monic h1 l
  have h2 : E.image β ⊆ (revP σ l).roots.toFinset := by
    intro x hx
    obtain ⟨e, he, rfl⟩ := mem_image.1 hx
    rw [Multiset.mem_toFinset, mem_roots hm.ne_zero, IsRoot.def, eval_revP]
    exact h e he
  have h3 := card_le_card h2
  rw [card_image_of_injOn (fun i hi j hj e => hinj i hi j hj e)] at h3
  refine le_trans h3 (le_trans (Multiset.toFinset_card_le _) ?_)
  have := card_roots' (revP σ l)
  rwa [revP_natDegree h1] at this

/-- With as many roots as its length, every root is one of them. -/
theorem roots_mem {ι : Type _} [DecidableEq ι] {σ : ℕ → F} (h1 : σ 0 = 1) {l : ℕ} {E : Finset ι} {β : ι → F}
    (hinj : ∀ i ∈ E, ∀ j ∈ E, β i = β j → i = j) (h : ∀ e ∈ E, rev σ l (β e) = 0) (hl : l ≤ E.card) {x : F}
    (hx : rev σ l x = 0) : ∃ e ∈ E, β e = x := by
  classical
  by_contra hc
  push Not at hc
  have hxE : x ∉ E.image β := by
    intro hm
    obtain ⟨e, he, he'⟩ := mem_image.1 hm
    exact hc e he he'
  have := roots_card (ι := F) (β := id) h1 (l := l) (E := insert x (E.image β)) (fun i _ j _ e => e) (by
    intro e he
    rcases mem_insert.1 he with rfl | he
    · exact hx
    · obtain ⟨i, hi, rfl⟩ := mem_image.1 he
      exact h i hi)
  rw [card_insert_of_notMem hxE, card_image_of_injOn (fun i hi j hj e => hinj i hi j hj e)] at this
  omega

/-- The end of the algorithm when there are at most `T / 2` errors. -/
theorem final {ι : Type _} [DecidableEq ι] {S : ℕ → F} {T : ℕ} {E : Finset ι} {β w : ι → F} {σ : ℕ → ℕ → F} {d : ℕ → F}
    {L : ℕ → ℕ} (hE : Errors S T E β w) (hw : ∀ e ∈ E, w e ≠ 0) (h : Inv S σ d L (T + 1)) (ht : 2 * E.card ≤ T) :
    L (T + 1) = E.card ∧ ∀ x, rev (σ (T + 1)) (L (T + 1)) x = 0 ↔ ∃ e ∈ E, β e = x := by
  have hle := len_le hE hw h (le_refl _)
  have hz := rev_zero hE hw (h.recur (T + 1) (by omega) (le_refl _)) (le_refl _) (by omega)
  have hge := roots_card (h.one (T + 1) (le_refl _)) hE.inj hz
  refine ⟨le_antisymm hle hge, fun x => ⟨roots_mem (h.one (T + 1) (le_refl _)) hE.inj hz hle, ?_⟩⟩
  rintro ⟨e, he, rfl⟩
  exact hz e he

/-! ## As many roots as the length -/

/-- A solution of the Vandermonde system. -/
theorem solve {n : ℕ} {β : Fin n → F} (hinj : Function.Injective β) (hne : ∀ i, β i ≠ 0) (S : ℕ → F) :
    ∃ w : Fin n → F, ∀ k, 1 ≤ k → k ≤ n → S k = ∑ e, w e * β e ^ k := by
  have hdet : (Matrix.vandermonde β).det ≠ 0 := Matrix.det_vandermonde_ne_zero_iff.2 hinj
  have hu : IsUnit (Matrix.vandermonde β).det := hdet.isUnit
  let v : Fin n → F := fun k => S (k + 1)
  have hut : IsUnit (Matrix.vandermonde β).transpose.det := by rw [Matrix.det_transpose]; exact hu
  let y : Fin n → F := (Matrix.vandermonde β).transpose⁻¹.mulVec v
  have hy : (Matrix.vandermonde β).transpose.mulVec y = v := by
    show (Matrix.vandermonde β).transpose.mulVec ((Matrix.vandermonde β).transpose⁻¹.mulVec v) = v
    rw [Matrix.mulVec_mulVec, Matrix.mul_nonsing_inv _ hut, Matrix.one_mulVec]
  refine ⟨fun e => y e * (β e)⁻¹, fun k h1 h2 => ?_⟩
  have := congrFun hy ⟨k - 1, by omega⟩
  rw [Matrix.mulVec, dotProduct] at this
  show S k = _
  have e : v ⟨k - 1, by omega⟩ = S k := by
    show S (k - 1 + 1) = S k
    rw [show k - 1 + 1 = k by omega]
  rw [← e, ← this]
  refine sum_congr rfl fun i _ => ?_
  rw [Matrix.transpose_apply, Matrix.vandermonde_apply]
  show β i ^ (k - 1) * y i = y i * (β i)⁻¹ * β i ^ k
  have h3 : β i ^ k = β i ^ (k - 1) * β i := by rw [← pow_succ, show k - 1 + 1 = k by omega]
  rw [h3]
  field_simp [hne i]

/-- If the recurrence has as many roots as its length then the sequence is a combination of powers of the roots. -/
theorem combination {ι : Type _} [DecidableEq ι] {S : ℕ → F} {T l : ℕ} {E : Finset ι} {β : ι → F} {σ : ℕ → F} (h1 : σ 0 = 1)
    (hr : Rec S σ l (T + 1)) (hinj : ∀ i ∈ E, ∀ j ∈ E, β i = β j → i = j) (hne : ∀ i ∈ E, β i ≠ 0)
    (hroot : ∀ e ∈ E, rev σ l (β e) = 0) (hc : E.card = l) : ∃ w : ι → F, Errors S T E β w := by
  classical
  let f := E.equivFin
  obtain ⟨w0, hw0⟩ := solve (n := E.card) (β := fun i => β (f.symm i).1)
    (fun i j e => f.symm.injective (Subtype.ext (hinj _ (f.symm i).2 _ (f.symm j).2 e))) (fun i => hne _ (f.symm i).2) S
  let w : ι → F := fun e => if h : e ∈ E then w0 (f ⟨e, h⟩) else 0
  have hsum : ∀ k, ∑ e ∈ E, w e * β e ^ k = ∑ i, w0 i * β (f.symm i).1 ^ k := by
    intro k
    rw [← sum_coe_sort E (fun e => w e * β e ^ k)]
    refine Fintype.sum_equiv f _ _ fun e => ?_
    show w e.1 * β e.1 ^ k = w0 (f e) * β (f.symm (f e)).1 ^ k
    rw [Equiv.symm_apply_apply]
    simp only [w, e.2, dif_pos]
  refine ⟨w, hinj, hne, ?_⟩
  intro k
  induction k using Nat.strong_induction_on with
  | _ k ih =>
    intro hk1 hk2
    rcases Nat.lt_or_ge l k with hk | hk
    · have h2 := hr k hk (by omega)
      unfold conv at h2
      rw [sum_range_succ', Nat.sub_zero, h1, one_mul] at h2
      have h3 : ∑ i ∈ range l, σ (i + 1) * S (k - (i + 1)) = ∑ e ∈ E, w e * (∑ i ∈ range l, σ (i + 1) * β e ^ (l - (i + 1))) * β e ^ (k - l) := by
        have : ∀ i ∈ range l, σ (i + 1) * S (k - (i + 1)) = ∑ e ∈ E, w e * (σ (i + 1) * β e ^ (l - (i + 1))) * β e ^ (k - l) := by
          intro i hi
          have hi := mem_range.1 hi
          rw [ih (k - (i + 1)) (by omega) (by omega) (by omega), mul_sum]
          refine sum_congr rfl fun e _ => ?_
          rw [show k - (i + 1) = (l - (i + 1)) + (k - l) by omega, pow_add]
          ring
        rw [sum_congr rfl this, sum_comm]
        refine sum_congr rfl fun e _ => ?_
        rw [mul_sum, sum_mul]
      have h4 : ∀ e ∈ E, ∑ i ∈ range l, σ (i + 1) * β e ^ (l - (i + 1)) = - β e ^ l := by
        intro e he
        have := hroot e he
        unfold rev at this
        rw [sum_range_succ', Nat.sub_zero, h1, one_mul] at this
        exact eq_neg_of_add_eq_zero_left this
      rw [h3, sum_congr rfl fun e he => by rw [h4 e he]] at h2
      have h5 : ∑ e ∈ E, w e * -β e ^ l * β e ^ (k - l) = - ∑ e ∈ E, w e * β e ^ k := by
        rw [← sum_neg_distrib]
        refine sum_congr rfl fun e _ => ?_
        rw [show β e ^ k = β e ^ l * β e ^ (k - l) by rw [← pow_add, Nat.add_sub_cancel' (le_of_lt hk)]]
        ring
      rw [h5] at h2
      linear_combination h2
    · rw [hsum]
      exact hw0 k hk1 (by omega)

/-- Binary codes: the combination is the sum of the powers of the roots. -/
theorem binary {ι : Type _} [DecidableEq ι] {S : ℕ → F} {t : ℕ} {E : Finset ι} {β w : ι → F} {σ : ℕ → ℕ → F} {d : ℕ → F}
    {L : ℕ → ℕ} (h2 : (2 : F) = 0) (hsq : ∀ k, 1 ≤ k → k ≤ t → S (2 * k) = S k ^ 2) (hE : Errors S (2 * t) E β w)
    (h : Inv S σ d L (2 * t + 1)) (hc : E.card = L (2 * t + 1)) (ht : E.card ≤ t) : ∀ e ∈ E, w e = 1 := by
  classical
  have hsumsq : ∀ k : ℕ, (∑ e ∈ E, w e * β e ^ k) ^ 2 = ∑ e ∈ E, w e ^ 2 * β e ^ (2 * k) := by
    intro k
    have haddsq : ∀ x y : F, (x + y) ^ 2 = x ^ 2 + y ^ 2 := by
      intro x y
      linear_combination (x * y) * h2
    have gen : ∀ s : Finset ι, (∑ e ∈ s, w e * β e ^ k) ^ 2 = ∑ e ∈ s, w e ^ 2 * β e ^ (2 * k) := by
      intro s
      induction s using Finset.induction_on with
      | empty => simp
      | insert a s ha ih =>
        rw [sum_insert ha, sum_insert ha, haddsq, ih, mul_pow, ← pow_mul, Nat.mul_comm k 2]
    exact gen E
  have hbin : ∀ e ∈ E, w e ^ 2 - w e = 0 := by
    refine vander (β := fun e => β e ^ 2) (v := fun e => w e ^ 2 - w e) (a := 1) ?_ ?_ ?_
    · intro i hi j hj e
      have e : β i ^ 2 = β j ^ 2 := e
      apply hE.inj i hi j hj
      have : (β i - β j) ^ 2 = 0 := by linear_combination e - (β i * β j - β j ^ 2) * h2
      exact sub_eq_zero.1 (pow_eq_zero_iff (by norm_num) |>.1 this)
    · intro i hi
      exact pow_ne_zero 2 (hE.ne i hi)
    · intro k hk1 hk2
      have h3 := hsq k hk1 (by omega)
      rw [hE.syn (2 * k) (by omega) (by omega), hE.syn k hk1 (by omega), hsumsq] at h3
      show ∑ e ∈ E, (w e ^ 2 - w e) * (β e ^ 2) ^ k = 0
      have : ∀ e ∈ E, (w e ^ 2 - w e) * (β e ^ 2) ^ k = w e ^ 2 * β e ^ (2 * k) - w e * β e ^ (2 * k) := by
        intro e _
        rw [← pow_mul]; ring
      rw [sum_congr rfl this, sum_sub_distrib, h3, sub_self]
  -- the errors of value 1
  have hE' : Errors S (2 * t) (E.filter fun e => w e ≠ 0) β w := by
    refine ⟨fun i hi j hj => hE.inj i (mem_filter.1 hi).1 j (mem_filter.1 hj).1, fun i hi => hE.ne i (mem_filter.1 hi).1, ?_⟩
    intro k h1 h3
    rw [hE.syn k h1 h3]
    symm
    apply sum_subset (filter_subset _ _)
    intro e he hn
    have : w e = 0 := by
      by_contra hc
      exact hn (mem_filter.2 ⟨he, hc⟩)
    rw [this, zero_mul]
  have hle := len_le hE' (fun e he => (mem_filter.1 he).2) h (le_refl _)
  have heq : E.filter (fun e => w e ≠ 0) = E := eq_of_subset_of_card_le (filter_subset _ _) (by omega)
  intro e he
  have h3 : w e ≠ 0 := by
    rw [← heq] at he
    exact (mem_filter.1 he).2
  have h4 := hbin e he
  have : w e * (w e - 1) = 0 := by linear_combination h4
  exact sub_eq_zero.1 ((mul_eq_zero.1 this).resolve_left h3)

/-- The values are not null. -/
theorem nonzero {ι : Type _} [DecidableEq ι] {S : ℕ → F} {T : ℕ} {E : Finset ι} {β w : ι → F} {σ : ℕ → ℕ → F} {d : ℕ → F}
    {L : ℕ → ℕ} (hE : Errors S T E β w) (h : Inv S σ d L (T + 1)) (hc : E.card = L (T + 1)) : ∀ e ∈ E, w e ≠ 0 := by
  classical
  have hE' : Errors S T (E.filter fun e => w e ≠ 0) β w := by
    refine ⟨fun i hi j hj => hE.inj i (mem_filter.1 hi).1 j (mem_filter.1 hj).1, fun i hi => hE.ne i (mem_filter.1 hi).1, ?_⟩
    intro k h1 h3
    rw [hE.syn k h1 h3]
    symm
    apply sum_subset (filter_subset _ _)
    intro e he hn
    have : w e = 0 := by
      by_contra hc
      exact hn (mem_filter.2 ⟨he, hc⟩)
    rw [this, zero_mul]
  have hle := len_le hE' (fun e he => (mem_filter.1 he).2) h (le_refl _)
  have heq : E.filter (fun e => w e ≠ 0) = E := eq_of_subset_of_card_le (filter_subset _ _) (by omega)
  intro e he
  rw [← heq] at he
  exact (mem_filter.1 he).2

end Verif.BM
