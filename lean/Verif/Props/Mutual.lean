import Verif.Model.Mutual
import Verif.Props.Distrib
import Mathlib.Tactic.Linarith
import Mathlib.Data.List.Perm.Basic
import Mathlib.Data.List.GetD
import Mathlib.Algebra.Order.Group.Abs

/-!
# Sorting points and looking for the closest one: properties
-/

namespace Verif.Mutual

theorem sink_perm (e : ℚ × ℚ) (l : List (ℚ × ℚ)) : (sink e l).Perm (e :: l) := by
  induction l with
  | nil => simp [sink]
  | cons p l ih =>
    simp only [sink]
    split
    · exact (List.Perm.cons p ih).trans (List.Perm.swap e p l)
    · exact List.Perm.refl _

theorem sink_desc (e : ℚ × ℚ) (l : List (ℚ × ℚ)) (h : l.Pairwise (fun a b => b.1 ≤ a.1)) :
    (sink e l).Pairwise (fun a b => b.1 ≤ a.1) := by
  induction l with
  | nil => simp [sink]
  | cons p l ih =>
    rw [List.pairwise_cons] at h
    simp only [sink]
    split
    · rename_i hlt
      rw [List.pairwise_cons]
      refine ⟨fun b hb => ?_, ih h.2⟩
      rcases List.mem_cons.1 ((sink_perm e l).mem_iff.1 hb) with rfl | hb
      · exact hlt.le
      · exact h.1 b hb
    · rename_i hlt
      rw [List.pairwise_cons, List.pairwise_cons]
      refine ⟨fun b hb => ?_, h⟩
      rcases List.mem_cons.1 hb with rfl | hb
      · exact not_lt.1 hlt
      · exact (h.1 b hb).trans (not_lt.1 hlt)

theorem sink_filter (e : ℚ × ℚ) (x : ℚ) (l : List (ℚ × ℚ)) :
    (sink e l).filter (fun p => decide (p.1 = x)) = (e :: l).filter (fun p => decide (p.1 = x)) := by
  induction l with
  | nil => simp [sink]
  | cons p l ih =>
    simp only [sink]
    split
    · rename_i hlt
      rw [List.filter_cons, ih]
      by_cases hp : p.1 = x
      · have he : ¬ e.1 = x := by rintro rfl; exact absurd hlt (by rw [hp]; exact lt_irrefl _)
        simp [hp, he]
      · by_cases he : e.1 = x <;> simp [hp, he]
    · rfl

theorem fold_spec (l acc : List (ℚ × ℚ)) (h : acc.Pairwise (fun a b => b.1 ≤ a.1)) :
    (l.foldl (fun acc e => sink e acc) acc).Perm (l.reverse ++ acc) ∧
    (l.foldl (fun acc e => sink e acc) acc).Pairwise (fun a b => b.1 ≤ a.1) ∧
    ∀ x, (l.foldl (fun acc e => sink e acc) acc).filter (fun p => decide (p.1 = x)) =
      (l.reverse ++ acc).filter (fun p => decide (p.1 = x)) := by
  induction l generalizing acc with
  | nil => exact ⟨List.Perm.refl _, h, fun _ => rfl⟩
  | cons e l ih =>
    obtain ⟨h1, h2, h3⟩ := ih (sink e acc) (sink_desc e acc h)
    refine ⟨?_, h2, fun x => ?_⟩
    · refine h1.trans ?_
      rw [List.reverse_cons, List.append_assoc]
      exact List.Perm.append_left _ (sink_perm e acc)
    · refine (h3 x).trans ?_
      rw [List.reverse_cons, List.append_assoc, List.filter_append, List.filter_append, sink_filter]
      rfl

/-- **C140**: the points given to `mutual_sort` come out with all their ordinates (same points, the same number of times), in the order of the abscissae,
and the points with the same abscissa stay in the order in which they were given. -/
theorem C140_sort (l : List (ℚ × ℚ)) :
    (sort l).Perm l ∧ (sort l).Pairwise (fun a b => a.1 ≤ b.1) ∧
    ∀ x, (sort l).filter (fun p => decide (p.1 = x)) = l.filter (fun p => decide (p.1 = x)) := by
  obtain ⟨h1, h2, h3⟩ := fold_spec l [] List.Pairwise.nil
  refine ⟨?_, ?_, fun x => ?_⟩
  · refine (List.reverse_perm _).trans (h1.trans ?_)
    rw [List.append_nil]
    exact List.reverse_perm l
  · exact List.pairwise_reverse.2 h2
  · have := h3 x
    rw [List.append_nil] at this
    rw [sort, List.filter_reverse, this, List.filter_reverse, List.reverse_reverse]

example : sort [(3, 1), (1, 2), (2, 3), (1, 4)] = [(1, 2), (1, 4), (2, 3), (3, 1)] := by decide +kernel

/-- **C140**: a distribution may be given in any order: once its points are sorted, for every random value up to 1 the noise is found without an access out
of the arrays, and it lies between two of the points given with a probability that is not null. -/
theorem C140_distribution (eps : ℚ) (pdf : List (ℚ × ℚ)) (hp : ∀ q ∈ pdf, 0 ≤ q.2) (hne : ∃ q ∈ pdf, q.2 ≠ 0) (u : ℚ) (hu : u ≤ 1) :
    ∃ cx cy r, Distrib.cdf (sort pdf) = Exec.ok (cx, cy) ∧ Distrib.noise eps cx cy u = Exec.ok r ∧
      (∃ a ∈ pdf, a.2 ≠ 0 ∧ a.1 ≤ r) ∧ ∃ b ∈ pdf, b.2 ≠ 0 ∧ r ≤ b.1 := by
  obtain ⟨h1, h2, -⟩ := C140_sort pdf
  have hp' : ∀ q ∈ sort pdf, 0 ≤ q.2 := fun q hq => hp q (h1.mem_iff.1 hq)
  have hne' : ∃ q ∈ sort pdf, q.2 ≠ 0 := by
    obtain ⟨q, hq, hq'⟩ := hne
    exact ⟨q, h1.mem_iff.2 hq, hq'⟩
  obtain ⟨cx, cy, r, lo, hi, e, en, hlo, hhi, l1, l2⟩ :=
    Distrib.C139_noise eps (sort pdf) hp' hne' (List.pairwise_map.2 h2) u hu
  obtain ⟨cy', e', -⟩ := Distrib.C139_cdf (sort pdf) hp' hne'
  rw [e] at e'
  have hcx : cx = ((sort pdf).filter fun q => q.2 ≠ 0).map Prod.fst := by
    injection e' with e'
    exact (Prod.mk.inj e').1
  have hm : ∀ x ∈ cx, ∃ a ∈ pdf, a.2 ≠ 0 ∧ a.1 = x := by
    intro x hx
    rw [hcx] at hx
    obtain ⟨a, ha, rfl⟩ := List.mem_map.1 hx
    rw [List.mem_filter] at ha
    exact ⟨a, h1.mem_iff.1 ha.1, by simpa using ha.2, rfl⟩
  obtain ⟨a, ha, ha', hax⟩ := hm lo (List.mem_of_mem_head? hlo)
  obtain ⟨b, hb, hb', hbx⟩ := hm hi (List.mem_of_getLast? hhi)
  exact ⟨cx, cy, r, e, en, ⟨a, ha, ha', hax ▸ l1⟩, b, hb, hb', hbx ▸ l2⟩

/-- The hypotheses are met: points that are not sorted. -/
example : (∀ q ∈ [((3 : ℚ), (1 : ℚ)), (1, 0), (2, 4)], 0 ≤ q.2) ∧ ∃ q ∈ [((3 : ℚ), (1 : ℚ)), (1, 0), (2, 4)], q.2 ≠ 0 := by decide +kernel

theorem takeWhile_lt (l : List ℚ) (v : ℚ) (j : ℕ) (h : j < (l.takeWhile (fun a => decide (a < v))).length) :
    l.getD j 0 < v := by
  induction l generalizing j with
  | nil => simp at h
  | cons a l ih =>
    by_cases ha : a < v
    · rw [List.takeWhile_cons_of_pos (by simpa using ha)] at h
      cases j with
      | zero => simpa using ha
      | succ j => simpa using ih j (by simpa using h)
    · rw [List.takeWhile_cons_of_neg (by simpa using ha)] at h
      simp at h

theorem takeWhile_ge (l : List ℚ) (v : ℚ) (h : (l.takeWhile (fun a => decide (a < v))).length < l.length) :
    v ≤ l.getD (l.takeWhile (fun a => decide (a < v))).length 0 := by
  induction l with
  | nil => simp at h
  | cons a l ih =>
    by_cases ha : a < v
    · rw [List.takeWhile_cons_of_pos (by simpa using ha)] at h ⊢
      simpa using ih (by simpa using h)
    · rw [List.takeWhile_cons_of_neg (by simpa using ha)]
      simpa using ha

theorem sorted_getD (l : List ℚ) (hs : l.Pairwise (· ≤ ·)) (i j : ℕ) (hij : i ≤ j) (hj : j < l.length) :
    l.getD i 0 ≤ l.getD j 0 := by
  rw [List.getD_eq_getElem _ _ (by omega), List.getD_eq_getElem _ _ hj]
  rcases Nat.lt_or_eq_of_le hij with h | rfl
  · exact List.pairwise_iff_getElem.1 hs i j (by omega) hj h
  · exact le_refl _

/-- **C140**: in a sorted range that is not empty, `get_closest_index` returns the index of a value, and no value of the range is closer to the one that is
looked for. -/
theorem C140_closest (l : List ℚ) (v : ℚ) (hs : l.Pairwise (· ≤ ·)) (hne : l ≠ []) :
    closest l v < l.length ∧ ∀ j < l.length, |l.getD (closest l v) 0 - v| ≤ |l.getD j 0 - v| := by
  have hl : 0 < l.length := List.length_pos_iff.2 hne
  have hb : (l.takeWhile (fun a => decide (a < v))).length ≤ l.length := (List.takeWhile_prefix _).length_le
  have hlt := takeWhile_lt l v
  have hge := takeWhile_ge l v
  have hm := sorted_getD l hs
  unfold closest
  generalize (l.takeWhile (fun a => decide (a < v))).length = b at *
  dsimp only
  split
  · rename_i h0
    subst h0
    refine ⟨hl, fun j hj => ?_⟩
    have h1 := hge hl
    have h2 := hm 0 j (Nat.zero_le _) hj
    rw [abs_of_nonneg (by linarith), abs_of_nonneg (by linarith)]
    linarith
  · rename_i h0
    split
    · rename_i h1
      refine ⟨by omega, fun j hj => ?_⟩
      have h2 := hlt (l.length - 1) (by omega)
      have h3 := hm j (l.length - 1) (by omega) (by omega)
      rw [abs_of_nonpos (by linarith), abs_of_nonpos (by linarith)]
      linarith
    · rename_i h1
      have g1 := hlt (b - 1) (by omega)
      have g2 := hge (by omega)
      have key : ∀ j < l.length, l.getD j 0 ≤ l.getD (b - 1) 0 ∨ l.getD b 0 ≤ l.getD j 0 := by
        intro j hj
        rcases Nat.lt_or_ge j b with h | h
        · exact Or.inl (hm j (b - 1) (by omega) (by omega))
        · exact Or.inr (hm b j h hj)
      split
      · rename_i hc
        refine ⟨by omega, fun j hj => ?_⟩
        rw [abs_of_nonneg (by linarith)]
        rcases key j hj with h | h
        · rw [abs_of_nonpos (by linarith)]; linarith
        · rw [abs_of_nonneg (by linarith)]; linarith
      · rename_i hc
        refine ⟨by omega, fun j hj => ?_⟩
        rw [abs_of_nonpos (by linarith)]
        rcases key j hj with h | h
        · rw [abs_of_nonpos (by linarith)]; linarith
        · rw [abs_of_nonneg (by linarith)]; linarith

example : ([1, 4, 6] : List ℚ).Pairwise (· ≤ ·) ∧ closest [1, 4, 6] (11/2) = 2 ∧ closest [1, 4, 6] 5 = 1 ∧ closest [1, 4, 6] 9 = 2 := by decide +kernel

theorem unique_fold (l : List (ℚ × ℚ)) (h : ∀ i, i + 1 < l.length → (l.getD i (0, 0)).1 ≠ (l.getD (i + 1) (0, 0)).1) (n : ℕ)
    (hn : n + 1 ≤ l.length) : (List.range' 1 n).foldl uniqueStep (l, 0) = (l, n) := by
  induction n with
  | zero => rfl
  | succ n ih =>
    rw [List.range'_concat, List.foldl_append, ih (by omega)]
    have hh := h n (by omega)
    simp only [List.foldl_cons, List.foldl_nil, uniqueStep]
    rw [show 1 + 1 * n = n + 1 by omega, if_pos hh, if_neg (by simp)]

/-- **C141**, defect: when no two consecutive points have the same abscissa, so that nothing is to be removed, `mutual_unique` removes the last point (it
resizes the vectors to the index of the last point kept). -/
theorem C141_last_point_lost (l : List (ℚ × ℚ)) (h2 : 2 ≤ l.length)
    (h : ∀ i, i + 1 < l.length → (l.getD i (0, 0)).1 ≠ (l.getD (i + 1) (0, 0)).1) : unique l = l.dropLast := by
  unfold unique
  rw [unique_fold l h (l.length - 1) (by omega)]
  dsimp only
  rw [if_neg (by omega), List.dropLast_eq_take]

example : unique [(1, 5), (2, 6), (3, 7)] = [(1, 5), (2, 6)] ∧ unique [(1, 5), (1, 6), (2, 7), (3, 8)] = [(1, 5), (2, 7)] := by decide +kernel

end Verif.Mutual
