import Verif.Spec.Perm
import Verif.Prelude.Loops
import Mathlib.Data.List.Nodup
import Mathlib.Data.List.Range
import Mathlib.Data.List.Perm.Subperm

/-! # Lemmas on permutation tables -/

namespace Verif

theorem IsPermutation.length {K : Nat} {l : List Nat} (h : IsPermutation K l) : l.length = K := by
  simpa using h.length_eq

theorem IsPermutation.nodup {K : Nat} {l : List Nat} (h : IsPermutation K l) : l.Nodup :=
  h.nodup_iff.mpr List.nodup_range

theorem IsPermutation.mem_iff {K : Nat} {l : List Nat} (h : IsPermutation K l) {v : Nat} :
    v ∈ l ↔ v < K := by
  rw [List.Perm.mem_iff h, List.mem_range]

theorem IsPermutation.lt {K : Nat} {l : List Nat} (h : IsPermutation K l) {i : Nat} (hi : i < l.length) :
    l[i] < K := h.mem_iff.mp (List.getElem_mem hi)

theorem IsPermutation.inj {K : Nat} {l : List Nat} (h : IsPermutation K l) {i j : Nat}
    (hi : i < l.length) (hj : j < l.length) (e : l[i] = l[j]) : i = j :=
  (List.Nodup.getElem_inj_iff h.nodup).mp e

theorem IsPermutation.surj {K : Nat} {l : List Nat} (h : IsPermutation K l) {v : Nat} (hv : v < K) :
    ∃ (i : Nat) (hi : i < l.length), l[i] = v := List.mem_iff_getElem.mp (h.mem_iff.mpr hv)

theorem isPermutation_of_nodup {K : Nat} {l : List Nat} (hlen : l.length = K) (hlt : ∀ v ∈ l, v < K)
    (hn : l.Nodup) : IsPermutation K l := by
  have hsub : l ⊆ List.range K := fun v hv => List.mem_range.mpr (hlt v hv)
  exact (List.subperm_of_subset hn hsub).perm_of_length_le (by simp [hlen])

theorem isPermutation_of_surj {K : Nat} {l : List Nat} (hlen : l.length = K)
    (hs : ∀ v, v < K → v ∈ l) : IsPermutation K l := by
  have hsub : List.range K ⊆ l := fun v hv => hs v (List.mem_range.mp hv)
  exact ((List.subperm_of_subset List.nodup_range hsub).perm_of_length_le (by simp [hlen])).symm

theorem isPermutation_map {K : Nat} {f : Nat → Nat} (hlt : ∀ i, i < K → f i < K)
    (hinj : ∀ i j, i < K → j < K → f i = f j → i = j) : IsPermutation K ((List.range K).map f) := by
  apply isPermutation_of_nodup (by simp)
  · intro v hv
    obtain ⟨i, hi, rfl⟩ := List.mem_map.mp hv
    exact hlt i (List.mem_range.mp hi)
  · refine List.Nodup.map_on ?_ List.nodup_range
    intro x hx y hy h
    exact hinj x y (List.mem_range.mp hx) (List.mem_range.mp hy) h

/-- A table that is a left inverse of an injective position function. -/
theorem isPermutation_of_scatter {K : Nat} {pos : Nat → Nat} {l : List Nat} (hl : l.length = K)
    (h : ∀ k, k < K → l[pos k]? = some k) : IsPermutation K l := by
  apply isPermutation_of_surj hl
  intro v hv
  exact List.mem_of_getElem? (h v hv)

/-- Bit set of the values `f i`, `off ≤ i < off + 2^d`, `i < K`, built by binary splitting. -/
def maskTree (f : Nat → Nat) (K : Nat) : Nat → Nat → Nat
  | 0, off => if off < K then 1 <<< f off else 0
  | d + 1, off => maskTree f K d off ||| maskTree f K d (off + 2 ^ d)

theorem testBit_maskTree (f : Nat → Nat) (K d off v : Nat) :
    (maskTree f K d off).testBit v = true ↔ ∃ i, off ≤ i ∧ i < off + 2 ^ d ∧ i < K ∧ f i = v := by
  induction d generalizing off with
  | zero =>
    unfold maskTree
    split
    · rename_i h
      rw [Nat.one_shiftLeft, Nat.testBit_two_pow]
      constructor
      · intro e; exact ⟨off, Nat.le_refl _, by simp, h, by simpa using e⟩
      · rintro ⟨i, h1, h2, _, rfl⟩
        obtain rfl : i = off := by simp at h2; omega
        simp
    · rename_i h
      constructor
      · simp
      · rintro ⟨i, h1, _, h3, _⟩; omega
  | succ d ih =>
    rw [maskTree, Nat.testBit_or, Bool.or_eq_true, ih, ih, Nat.pow_succ]
    constructor
    · rintro (⟨i, h1, h2, h3⟩ | ⟨i, h1, h2, h3⟩)
      · exact ⟨i, h1, by omega, h3⟩
      · exact ⟨i, by omega, by omega, h3⟩
    · rintro ⟨i, h1, h2, h3⟩
      by_cases h : i < off + 2 ^ d
      · exact Or.inl ⟨i, h1, h, h3⟩
      · exact Or.inr ⟨i, by omega, by omega, h3⟩

/-- Kernel-checkable criterion: the bit set of the values covers `0..K-1`. -/
theorem isPermutation_of_mask {f : Nat → Nat} {K d : Nat} (hm : maskTree f K d 0 = 2 ^ K - 1) :
    IsPermutation K ((List.range K).map f) := by
  apply isPermutation_of_surj (by simp)
  intro v hv
  have hb : (maskTree f K d 0).testBit v = true := by
    rw [hm, Nat.testBit_two_pow_sub_one]; simpa using hv
  obtain ⟨i, _, _, h3, h4⟩ := (testBit_maskTree f K d 0 v).mp hb
  exact List.mem_map.mpr ⟨i, List.mem_range.mpr h3, h4⟩

end Verif
