import Verif.Proof.BCHDecTop

/-! # The words found by the decoder are the codewords within `t` errors -/

namespace Verif.BCHDec
open Exec Finset Verif.Galois Verif.BCH Verif.BM

variable {c : Core} [Fact (Irreducible (fieldPoly c.gf.m c.gf.p))]

/-- The positions below `N` where two words differ. -/
def diff (N : ℕ) (y w : List ℕ) : Finset ℕ := (range N).filter fun p => y.getD p 0 ≠ w.getD p 0

theorem syndrome_wide {y : List ℕ} {N : ℕ} (h : y.length ≤ N) (k : ℕ) :
    syndrome c.gf y k = ∑ p ∈ range N, el c.gf.m c.gf.p (y.getD p 0) * al c.gf.m c.gf.p ^ (k * p) := by
  rw [syndrome_eq]
  refine sum_subset (range_subset_range.2 h) fun p _ hp => ?_
  have : y.length ≤ p := by simpa using hp
  rw [List.getD_eq_getElem?_getD, List.getElem?_eq_none this]
  show el _ _ 0 * _ = 0
  rw [el_zero, zero_mul]

theorem pad_getD (y : List ℕ) (k p : ℕ) : (y ++ List.replicate k 0).getD p 0 = y.getD p 0 := by
  rw [List.getD_eq_getElem?_getD, List.getD_eq_getElem?_getD]
  by_cases h : p < y.length
  · rw [List.getElem?_append_left h]
  · rw [List.getElem?_append_right (by omega), List.getElem?_eq_none (l := y) (by omega), List.getElem?_replicate]
    split <;> rfl

/-- Symbols below `2^m`. -/
def Sym (g : GF) (y : List ℕ) : Prop := ∀ p, y.getD p 0 < 2 ^ g.m

theorem sym_bin (G : Good c.gf) {y : List ℕ} (h : IsBin y) : Sym c.gf y := by
  intro p
  have := G.hm
  have h2 : 2 ^ 1 ≤ 2 ^ c.gf.m := Nat.pow_le_pow_right (by omega) (by omega)
  rcases bin_getD h (p + 1) p (by omega) with e | e <;> simp only at e <;> omega

theorem errors_of (G : Good c.gf) {T : ℕ} {y w : List ℕ} (hy : y.length ≤ c.gf.N) (hw : w.length ≤ c.gf.N) (sy : Sym c.gf y) (sw : Sym c.gf w)
    (h : ∀ k, 1 ≤ k → k ≤ T → syndrome c.gf w k = 0) :
    Errors (syndrome c.gf y) T (diff c.gf.N y w) (fun p => al c.gf.m c.gf.p ^ p)
      (fun p => el c.gf.m c.gf.p (y.getD p 0) - el c.gf.m c.gf.p (w.getD p 0)) ∧
    ∀ p ∈ diff c.gf.N y w, el c.gf.m c.gf.p (y.getD p 0) - el c.gf.m c.gf.p (w.getD p 0) ≠ 0 := by
  have hmem : ∀ p ∈ diff c.gf.N y w, p < c.gf.N := fun p hp => mem_range.1 (mem_filter.1 hp).1
  refine ⟨⟨al_inj' G _ hmem, fun p _ => al_ne_zero G.hm G.ord _, fun k h1 h2 => ?_⟩, fun p hp hc => ?_⟩
  · have e : syndrome c.gf y k = syndrome c.gf y k - syndrome c.gf w k := by rw [h k h1 h2, sub_zero]
    rw [e, syndrome_wide hy, syndrome_wide hw, ← sum_sub_distrib]
    unfold diff
    rw [sum_filter]
    refine sum_congr rfl fun p _ => ?_
    by_cases ep : y.getD p 0 = w.getD p 0
    · rw [if_neg (fun hc => hc ep), ep, sub_self]
    · rw [if_pos ep, ← sub_mul, ← pow_mul, Nat.mul_comm k p]
  · exact (mem_filter.1 hp).2 (el_inj (sy p) (sw p) (sub_eq_zero.1 hc))

/-- The positions found. -/
theorem rts_diff (G : Good c.gf) {y w : List ℕ} (hy : y.length ≤ c.gf.N) (hw : w.length ≤ c.gf.N) (sy : Sym c.gf y) (sw : Sym c.gf w)
    (h : ∀ k, 1 ≤ k → k ≤ 2 * c.t → syndrome c.gf w k = 0) (ht : (diff c.gf.N y w).card ≤ c.t) {σ d L}
    (hi : Inv (syndrome c.gf y) σ d L (2 * c.t + 1)) :
    L (2 * c.t + 1) = (diff c.gf.N y w).card ∧ (∀ p, p ∈ rts c.gf.N (Root c (σ (2 * c.t + 1)) (L (2 * c.t + 1))) c.gf.N ↔ p ∈ diff c.gf.N y w) ∧
      (rts c.gf.N (Root c (σ (2 * c.t + 1)) (L (2 * c.t + 1))) c.gf.N).length = L (2 * c.t + 1) := by
  obtain ⟨hE, hne⟩ := errors_of G hy hw sy sw h
  obtain ⟨h1, h2⟩ := final hE hne hi (by omega)
  have hm : ∀ p, p ∈ rts c.gf.N (Root c (σ (2 * c.t + 1)) (L (2 * c.t + 1))) c.gf.N ↔ p ∈ diff c.gf.N y w := by
    intro p
    rw [rts_mem (le_refl _)]
    constructor
    · rintro ⟨g1, _, g3⟩
      obtain ⟨e, he, ee⟩ := (h2 _).1 g3
      rwa [← al_inj G (mem_range.1 (mem_filter.1 he).1) g1 ee]
    · intro hp
      exact ⟨mem_range.1 (mem_filter.1 hp).1, by omega, (h2 _).2 ⟨p, hp, rfl⟩⟩
  refine ⟨h1, hm, ?_⟩
  refine Eq.trans ?_ h1.symm
  rw [← List.toFinset_card_of_nodup (rts_nodup (le_refl _))]
  congr 1
  ext p
  rw [List.mem_toFinset]
  exact hm p

/-- A codeword at most `t` positions away, in terms of the field. -/
structure Close (c : Core) (y w : List ℕ) : Prop where
  len : w.length = c.gf.N
  bin : IsBin w
  syn : ∀ k, 1 ≤ k → k ≤ 2 * c.t → syndrome c.gf w k = 0
  near : (diff c.gf.N y w).card ≤ c.t

theorem getD_take {α : Type _} (l : List α) (n p : ℕ) (d : α) (h : p < n) : (l.take n).getD p d = l.getD p d := by
  rw [List.getD_eq_getElem?_getD, List.getD_eq_getElem?_getD, List.getElem?_take_of_lt h]

theorem eq_of_getD {a b : List ℕ} {n : ℕ} (ha : a.length = n) (hb : b.length = n) (h : ∀ p, p < n → a.getD p 0 = b.getD p 0) : a = b := by
  refine List.ext_getElem (by omega) fun p h1 h2 => ?_
  have := h p (by omega)
  rwa [getD_lt 0 h1, getD_lt 0 h2] at this

theorem xor_one {a b : ℕ} (ha : a = 0 ∨ a = 1) (hb : b = 0 ∨ b = 1) (h : a ≠ b) : a ^^^ 1 = b := by
  rcases ha with rfl | rfl <;> rcases hb with rfl | rfl <;> first | rfl | exact absurd rfl h

theorem el_flip (G : Good c.gf) {a : ℕ} (ha : a = 0 ∨ a = 1) : el c.gf.m c.gf.p (a ^^^ 1) = el c.gf.m c.gf.p a + 1 := by
  have hm := G.hm
  rcases ha with rfl | rfl
  · show el _ _ 1 = _
    rw [el_zero, zero_add, el_one (by omega)]
  · show el _ _ 0 = _
    rw [el_zero, el_one (by omega), ← two_mul, two_eq_zero, zero_mul]

theorem syn_sq (G : Good c.gf) {y : List ℕ} (h : IsBin y) (k : ℕ) : syndrome c.gf y (2 * k) = syndrome c.gf y k ^ 2 := by
  have hm := G.hm
  have e : ∀ j, syndrome c.gf y j = Polynomial.aeval (al c.gf.m c.gf.p ^ j) (bitPoly y) := fun j => (aeval_bitPoly (by omega) h j).symm
  rw [e, e, Nat.mul_comm, pow_mul, aeval_sq]

theorem ends_spec (G : Good c.gf) {n : ℕ} {y : List ℕ} {r : Res} (hy : y.length = n) (hn : n ≤ c.gf.N) (hb : IsBin y)
    (hl : r.y.length = n) (h : Ends c n y r) :
    (∀ w, Close c y w → r.success = true ∧ r.y = w.take n) ∧ (r.success = true → ∃ w, Close c y w) ∧ (r.success = false → r.y = y) := by
  have sy := sym_bin G hb
  have hyb : ∀ p, y.getD p 0 = 0 ∨ y.getD p 0 = 1 := fun p => bin_getD hb (p + 1) p (by omega)
  cases h with
  | clean h hs hr =>
    refine ⟨fun w hw => ⟨hs, ?_⟩, fun _ => ⟨y ++ List.replicate (c.gf.N - n) 0, ?_, ?_, ?_, ?_⟩, fun hf => by rw [hs] at hf; cases hf⟩
    · obtain ⟨hE, hne⟩ := errors_of G (by omega) (by rw [hw.len]) sy (sym_bin G hw.bin) hw.syn
      have hz := vander (v := fun p => el c.gf.m c.gf.p (y.getD p 0) - el c.gf.m c.gf.p (w.getD p 0)) hE.inj hE.ne (a := 1) fun k h1 h2 => by
        have := hw.near
        rw [← hE.syn k h1 (by omega)]
        exact h k h1 (by omega)
      rw [hr]
      refine eq_of_getD hy (by rw [List.length_take, hw.len]; omega) fun p hp => ?_
      rw [getD_take _ _ _ _ hp]
      by_contra hc
      have hm : p ∈ diff c.gf.N y w := mem_filter.2 ⟨mem_range.2 (by omega), hc⟩
      exact hne p hm (hz p hm)
    · rw [List.length_append, List.length_replicate]; omega
    · intro v hv
      rcases List.mem_append.1 hv with h1 | h1
      · exact hb v h1
      · exact Or.inl (List.eq_of_mem_replicate h1)
    · intro k h1 h2
      rw [syndrome_wide (N := c.gf.N) (by rw [List.length_append, List.length_replicate]; omega), ← h k h1 h2, syndrome_wide (y := y) (N := c.gf.N) (by omega)]
      refine sum_congr rfl fun p _ => ?_
      rw [pad_getD]
    · have : diff c.gf.N y (y ++ List.replicate (c.gf.N - n) 0) = ∅ := by
        unfold diff
        refine filter_eq_empty_iff.2 fun p _ hc => hc ?_
        rw [pad_getD]
      rw [this, card_empty]; omega
  | fixed σ d L h hL hc hs hr =>
    refine ⟨fun w hw => ⟨hs, ?_⟩, fun _ => ?_, fun hf => by rw [hs] at hf; cases hf⟩
    · obtain ⟨h1, h2, h3⟩ := rts_diff G (by omega) (by rw [hw.len]) sy (sym_bin G hw.bin) hw.syn hw.near h
      refine eq_of_getD hl (by rw [List.length_take, hw.len]; omega) fun p hp => ?_
      rw [getD_take _ _ _ _ hp, hr p hp]
      have hm : p ∈ rts c.gf.N (Root c (σ (2 * c.t + 1)) (L (2 * c.t + 1))) c.gf.N ↔ y.getD p 0 ≠ w.getD p 0 := by
        rw [h2]
        exact ⟨fun h => (mem_filter.1 h).2, fun h => mem_filter.2 ⟨mem_range.2 (by omega), h⟩⟩
      by_cases e : y.getD p 0 = w.getD p 0
      · rw [if_neg fun hh => (hm.1 hh) e, e]
      · rw [if_pos (hm.2 e)]
        exact xor_one (hyb p) (bin_getD hw.bin (p + 1) p (by omega)) e
    · have hE0 : ∀ p ∈ (rts c.gf.N (Root c (σ (2 * c.t + 1)) (L (2 * c.t + 1))) c.gf.N).toFinset, p < c.gf.N :=
        fun p hp => ((rts_mem (le_refl _)).1 (List.mem_toFinset.1 hp)).1
      have hcard : (rts c.gf.N (Root c (σ (2 * c.t + 1)) (L (2 * c.t + 1))) c.gf.N).toFinset.card = L (2 * c.t + 1) := by
        rw [List.toFinset_card_of_nodup (rts_nodup (le_refl _)), hc]
      obtain ⟨v, hv⟩ := combination (β := fun p => al c.gf.m c.gf.p ^ p) (h.one _ (le_refl _)) (h.recur _ (by omega) (le_refl _)) (al_inj' G _ hE0)
        (fun p _ => al_ne_zero G.hm G.ord _) (fun p hp => ((rts_mem (le_refl _)).1 (List.mem_toFinset.1 hp)).2.2) hcard
      have hone := binary two_eq_zero (fun k _ _ => syn_sq G hb k) hv h hcard (by omega)
      generalize rts c.gf.N (Root c (σ (2 * c.t + 1)) (L (2 * c.t + 1))) c.gf.N = R at *
      refine ⟨(List.range c.gf.N).map fun p => if p ∈ R then y.getD p 0 ^^^ 1 else y.getD p 0, ?_, ?_, ?_, ?_⟩
      · simp
      · intro a ha
        obtain ⟨p, _, rfl⟩ := List.mem_map.1 ha
        split
        · exact xor_bin (hyb p) (Or.inr rfl)
        · exact hyb p
      · intro k h1 h2
        rw [syndrome_wide (N := c.gf.N) (by simp)]
        have e : ∀ p ∈ range c.gf.N, el c.gf.m c.gf.p (((List.range c.gf.N).map fun p => if p ∈ R then y.getD p 0 ^^^ 1 else y.getD p 0).getD p 0) *
            al c.gf.m c.gf.p ^ (k * p) = el c.gf.m c.gf.p (y.getD p 0) * al c.gf.m c.gf.p ^ (k * p) +
              if p ∈ R.toFinset then al c.gf.m c.gf.p ^ (k * p) else 0 := by
          intro p hp
          rw [List.getD_eq_getElem?_getD, getElem?_mapRange, if_pos (mem_range.1 hp)]
          simp only [Option.getD_some, List.mem_toFinset]
          by_cases hR : p ∈ R
          · rw [if_pos hR, if_pos hR, el_flip G (hyb p), add_mul, one_mul]
          · rw [if_neg hR, if_neg hR, add_zero]
        rw [sum_congr rfl e, sum_add_distrib, ← syndrome_wide (by omega), hv.syn k h1 h2, ← sum_filter]
        have e2 : (range c.gf.N).filter (fun p => p ∈ R.toFinset) = R.toFinset := by
          ext p
          rw [mem_filter, mem_range]
          exact ⟨fun h => h.2, fun h => ⟨hE0 p h, h⟩⟩
        rw [e2, ← sum_add_distrib]
        refine sum_eq_zero fun p hp => ?_
        rw [hone p hp, one_mul, ← pow_mul, Nat.mul_comm p k, ← two_mul, two_eq_zero, zero_mul]
      · refine le_trans ?_ (hcard.le.trans hL)
        refine card_le_card fun p hp => ?_
        obtain ⟨h1, h2⟩ := mem_filter.1 hp
        rw [List.getD_eq_getElem?_getD (l := List.map _ _), getElem?_mapRange, if_pos (mem_range.1 h1), Option.getD_some] at h2
        rw [List.mem_toFinset]
        by_contra hc
        rw [if_neg hc] at h2
        exact h2 rfl
  | long u σ d L h hu hL hs hr =>
    refine ⟨fun w hw => ?_, fun hf => absurd (hs.symm.trans hf) (by simp), fun _ => hr⟩
    obtain ⟨hE, hne⟩ := errors_of G (by omega) (by rw [hw.len]) sy (sym_bin G hw.bin) hw.syn
    have := len_le hE hne h hu
    have := hw.near
    omega
  | few σ d L h hc hs hr =>
    refine ⟨fun w hw => ?_, fun hf => absurd (hs.symm.trans hf) (by simp), fun _ => hr⟩
    obtain ⟨h1, h2, h3⟩ := rts_diff G (by omega) (by rw [hw.len]) sy (sym_bin G hw.bin) hw.syn hw.near h
    exact absurd h3 hc

end Verif.BCHDec
