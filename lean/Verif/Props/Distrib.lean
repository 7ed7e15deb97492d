import Verif.Model.Distrib
import Verif.Props.Numeric
import Mathlib.Algebra.Order.BigOperators.Group.List

/-! # C139: noise of a distribution given by the user -/

namespace Verif.Distrib
open Exec Verif.Numeric

theorem partialSums_last : ∀ (l : List ℚ) (acc d : ℚ), l ≠ [] → (partialSums acc l).getLastD d = acc + l.sum
  | [], _, _, h => absurd rfl h
  | [p], acc, d, _ => by simp [partialSums]
  | p :: q :: l, acc, d, _ => by
    have := partialSums_last (q :: l) (acc + p) (acc + p) (by simp)
    show (partialSums (acc + p) (q :: l)).getLastD (acc + p) = _
    rw [this, List.sum_cons, List.sum_cons, List.sum_cons]
    ring

/-- The kept points: a sublist of the points with a probability that is not null; cumulated probabilities strictly increasing after `acc`. -/
theorem keep_props (s : ℚ) (hs : 0 < s) : ∀ (l : List (ℚ × ℚ)) (acc : ℚ), (∀ q ∈ l, 0 ≤ q.2) →
    (keep s l (partialSums acc (l.map Prod.snd))).map Prod.fst = (l.filter fun q => q.2 ≠ 0).map Prod.fst ∧
    ((keep s l (partialSums acc (l.map Prod.snd))).map Prod.snd).Pairwise (· < ·) ∧
    (∀ c ∈ (keep s l (partialSums acc (l.map Prod.snd))).map Prod.snd, acc / s < c ∧ c ≤ (acc + (l.map Prod.snd).sum) / s) ∧
    ((∃ q ∈ l, q.2 ≠ 0) → (acc + (l.map Prod.snd).sum) / s ∈ (keep s l (partialSums acc (l.map Prod.snd))).map Prod.snd)
  | [], acc, _ => by simp [keep, partialSums]
  | (x, p) :: l, acc, h => by
    obtain ⟨h1, h2, h3, h4⟩ := keep_props s hs l (acc + p) fun q hq => h q (List.mem_cons_of_mem _ hq)
    have hp : 0 ≤ p := h (x, p) List.mem_cons_self
    have hsum : acc + ((((x, p) :: l).map Prod.snd).sum) = acc + p + (l.map Prod.snd).sum := by
      simp only [List.map_cons, List.sum_cons]; ring
    have hnn : 0 ≤ (l.map Prod.snd).sum := by
      apply List.sum_nonneg
      intro c hc
      obtain ⟨q, hq, rfl⟩ := List.mem_map.1 hc
      exact h q (List.mem_cons_of_mem _ hq)
    rw [hsum]
    by_cases hz : p = 0
    · subst hz
      have e : keep s ((x, 0) :: l) (partialSums acc (((x, 0) :: l).map Prod.snd)) = keep s l (partialSums (acc + 0) (l.map Prod.snd)) := by
        simp [keep, partialSums]
      rw [e]
      refine ⟨by rw [h1]; simp, h2, fun c hc => ?_, fun ⟨q, hq, hq'⟩ => h4 ?_⟩
      · have := h3 c hc
        rw [add_zero] at this ⊢
        exact this
      · rcases List.mem_cons.1 hq with rfl | hq
        · exact absurd rfl hq'
        · exact ⟨q, hq, hq'⟩
    · have e : keep s ((x, p) :: l) (partialSums acc (((x, p) :: l).map Prod.snd)) =
          (x, (acc + p) / s) :: keep s l (partialSums (acc + p) (l.map Prod.snd)) := by
        simp [keep, partialSums, hz]
      have hpos : 0 < p := lt_of_le_of_ne hp (Ne.symm hz)
      rw [e]
      refine ⟨by rw [List.map_cons, h1]; simp [hz], ?_, ?_, fun _ => ?_⟩
      · rw [List.map_cons, List.pairwise_cons]
        exact ⟨fun c hc => (h3 c hc).1, h2⟩
      · intro c hc
        rw [List.map_cons, List.mem_cons] at hc
        rcases hc with rfl | hc
        · exact ⟨div_lt_div_of_pos_right (by linarith) hs, div_le_div_of_nonneg_right (by linarith) hs.le⟩
        · exact ⟨lt_trans (div_lt_div_of_pos_right (by linarith) hs) (h3 c hc).1, (h3 c hc).2⟩
      · rw [List.map_cons, List.mem_cons]
        by_cases hl : ∃ q ∈ l, q.2 ≠ 0
        · exact Or.inr (h4 hl)
        · left
          have : (l.map Prod.snd).sum = 0 := by
            apply List.sum_eq_zero
            intro c hc
            obtain ⟨q, hq, rfl⟩ := List.mem_map.1 hc
            by_contra hne
            exact hl ⟨q, hq, hne⟩
          rw [this, add_zero]

/-- **C139**, cumulated probabilities.  For all points with probabilities that are not negative and not all null, scaled or not: the points kept are those of
probability not null, in order; the cumulated probabilities are strictly increasing, positive, and the last one is 1. -/
theorem C139_cdf (pdf : List (ℚ × ℚ)) (hp : ∀ q ∈ pdf, 0 ≤ q.2) (hne : ∃ q ∈ pdf, q.2 ≠ 0) :
    ∃ cy, cdf pdf = ok ((pdf.filter fun q => q.2 ≠ 0).map Prod.fst, cy) ∧ cy.length = (pdf.filter fun q => q.2 ≠ 0).length ∧
      cy.Pairwise (· < ·) ∧ (∀ c ∈ cy, 0 < c ∧ c ≤ 1) ∧ cy.getLast? = some 1 := by
  obtain ⟨q0, hq0, hq0'⟩ := hne
  have hnil : pdf ≠ [] := List.ne_nil_of_mem hq0
  have hmap : pdf.map Prod.snd ≠ [] := by simpa using hnil
  have hlast := partialSums_last (pdf.map Prod.snd) 0 0 hmap
  rw [zero_add] at hlast
  have hpos : 0 < (pdf.map Prod.snd).sum := by
    have hle : q0.2 ≤ (pdf.map Prod.snd).sum := by
      apply List.single_le_sum
      · intro c hc
        obtain ⟨q, hq, rfl⟩ := List.mem_map.1 hc
        exact hp q hq
      · exact List.mem_map_of_mem hq0
    exact lt_of_lt_of_le (lt_of_le_of_ne (hp q0 hq0) (Ne.symm hq0')) hle
  obtain ⟨h1, h2, h3, h4⟩ := keep_props _ hpos pdf 0 hp
  have one : (0 + (pdf.map Prod.snd).sum) / (pdf.map Prod.snd).sum = 1 := by rw [zero_add, div_self hpos.ne']
  rw [one] at h3 h4
  have hmem := h4 ⟨q0, hq0, hq0'⟩
  refine ⟨(keep (pdf.map Prod.snd).sum pdf (partialSums 0 (pdf.map Prod.snd))).map Prod.snd, ?_, ?_, h2, ?_, ?_⟩
  · unfold cdf
    simp only []
    rw [if_neg hnil, hlast, if_neg hpos.ne', h1]
  · have := congrArg List.length h1
    simpa using this
  · intro c hc
    have := h3 c hc
    rw [zero_div] at this
    exact this
  · generalize (keep (pdf.map Prod.snd).sum pdf (partialSums 0 (pdf.map Prod.snd))).map Prod.snd = cy at *
    have hcy : cy ≠ [] := List.ne_nil_of_mem hmem
    rw [List.getLast?_eq_getLast_of_ne_nil hcy]
    congr 1
    have u := (h3 _ (List.getLast_mem hcy)).2
    obtain ⟨k, hk, ek⟩ := List.getElem_of_mem hmem
    refine le_antisymm u ?_
    rw [List.getLast_eq_getElem]
    rw [← ek]
    rcases Nat.lt_or_ge k (cy.length - 1) with h | h
    · exact (List.pairwise_iff_getElem.1 h2 k (cy.length - 1) hk (by omega) h).le
    · have : k = cy.length - 1 := by omega
      subst this
      exact le_refl _

/-- **C139**, noise.  For every random value of [0, 1], as drawn by the generators, and sorted points: the noise is found without any access out of the arrays, and is
between the first and the last points of probability not null. -/
theorem C139_noise (eps : ℚ) (pdf : List (ℚ × ℚ)) (hp : ∀ q ∈ pdf, 0 ≤ q.2) (hne : ∃ q ∈ pdf, q.2 ≠ 0)
    (hsort : (pdf.map Prod.fst).Pairwise (· ≤ ·)) (u : ℚ) (hu : u ≤ 1) :
    ∃ cx cy r lo hi, cdf pdf = ok (cx, cy) ∧ noise eps cx cy u = ok r ∧ cx.head? = some lo ∧ cx.getLast? = some hi ∧ lo ≤ r ∧ r ≤ hi := by
  obtain ⟨cy, e, hlen, hinc, hrange, hlast⟩ := C139_cdf pdf hp hne
  generalize hcx : (pdf.filter fun q => q.2 ≠ 0).map Prod.fst = cx at e
  have hlen' : cy.length = cx.length := by rw [hlen, ← hcx, List.length_map]
  have hs : cx.Pairwise (· ≤ ·) := by
    rw [← hcx]
    exact List.Pairwise.sublist (List.Sublist.map _ List.filter_sublist) hsort
  have hpos : 0 < cy.length := by
    rcases cy with _ | ⟨c, cy⟩
    · simp at hlast
    · simp
  have hl1 : cy[cy.length - 1] = 1 := by
    rw [List.getLast?_eq_getElem?, List.getElem?_eq_getElem (by omega)] at hlast
    injection hlast
  obtain ⟨r, er, hr⟩ := C137_linear eps cy cx u hlen' hpos (by rw [hl1]; exact hu)
  have mono : ∀ i j (hj : j < cx.length) (hij : i ≤ j), cx[i]'(by omega) ≤ cx[j] := by
    intro i j hj hij
    rcases Nat.lt_or_ge i j with h | h
    · exact List.pairwise_iff_getElem.1 hs i j (by omega) hj h
    · have : i = j := by omega
      subst this
      exact le_refl _
  refine ⟨cx, cy, r, cx[0]'(by omega), cx[cx.length - 1]'(by omega), e, er, ?_, ?_, ?_⟩
  · rw [List.head?_eq_getElem?, List.getElem?_eq_getElem (by omega)]
  · rw [List.getLast?_eq_getElem?, List.getElem?_eq_getElem (by omega)]
  · rcases hr with ⟨-, rfl⟩ | ⟨i, hi, -, -, -, h1, h2⟩
    · exact ⟨le_refl _, mono _ _ (by omega) (by omega)⟩
    · have a := mono i (i + 1) (by omega) (by omega)
      rw [min_eq_left a] at h1
      rw [max_eq_right a] at h2
      exact ⟨le_trans (mono 0 i (by omega) (by omega)) h1, le_trans h2 (mono (i + 1) (cx.length - 1) (by omega) (by omega))⟩

/-- **C139**, refusals.  Without points, or when the sum of the probabilities is null, the distribution is refused; only then. -/
theorem C139_refused (pdf : List (ℚ × ℚ)) :
    (cdf pdf = exc .invalidArgument ↔ pdf = []) ∧ (cdf pdf = exc .runtimeError ↔ pdf ≠ [] ∧ (pdf.map Prod.snd).sum = 0) := by
  by_cases h : pdf = []
  · subst h
    simp [cdf]
  · have hmap : pdf.map Prod.snd ≠ [] := by simpa using h
    have hlast := partialSums_last (pdf.map Prod.snd) 0 0 hmap
    rw [zero_add] at hlast
    unfold cdf
    simp only []
    rw [if_neg h, hlast]
    by_cases hz : (pdf.map Prod.snd).sum = 0
    · rw [if_pos hz]
      simp [h, hz]
    · rw [if_neg hz]
      simp [h, hz]

/-- The hypotheses are met: four points, one of null probability; and the noise for 3/4. -/
example : cdf [(0, 1), (1, 0), (2, 2), (5, 1)] = ok ([0, 2, 5], [1 / 4, 3 / 4, 1]) ∧
    noise (1 / 1000) [0, 2, 5] [1 / 4, 3 / 4, 1] (7 / 8) = ok (7 / 2) := by decide +kernel

end Verif.Distrib
