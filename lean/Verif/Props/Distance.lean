import Verif.Proof.Distance

/-! # C45–C47: Hamming distance and hard decision -/

namespace Verif.Distance
open Exec

/-- Number of positions below `size` at which the truth values of the two words differ. -/
def differences (x y : List Int) (size : Nat) : Nat :=
  (List.range size).countP fun i => decide ((x.getD i 0 = 0 ↔ y.getD i 0 ≠ 0))

theorem sum_D (x y : List Int) : ∀ size, size ≤ x.length → size ≤ y.length →
    ∑ i ∈ Finset.range size, D booleanDiff x y i = differences x y size := by
  intro size
  induction size with
  | zero => intros; rfl
  | succ n ih =>
    intro hx hy
    rw [Finset.sum_range_succ, ih (by omega) (by omega)]
    unfold differences
    rw [List.range_succ, List.countP_append, D_lt (by omega) (by omega)]
    congr 1
    simp only [List.countP_singleton, getD_lt _ (show n < x.length by omega), getD_lt _ (show n < y.length by omega),
      booleanDiff]
    by_cases h1 : x[n] = 0 <;> by_cases h2 : y[n] = 0 <;> simp [h1, h2, bne]

/-- C45.  For every size (below 2^31), every register width and every element type of 8, 16, 32 or 64 bits, the
vectorised distance is the number of positions whose truth values differ: no counter lane ever overflows. -/
theorem C45_hamming_distance (bits L : Nat) (x y : List Int) (size : Nat) (hb : bits = 8 ∨ bits = 16 ∨ bits = 32 ∨ bits = 64)
    (hx : size ≤ x.length) (hy : size ≤ y.length) (hsize : size < 2 ^ 31) :
    hammingDistance bits L x y size = ok (differences x y size) := by
  rw [← sum_D x y size hx hy]
  have key : (hammingDistance bits L x y size).Sat fun d => d = ∑ i ∈ Finset.range size, D booleanDiff x y i := by
    unfold hammingDistance
    rcases hb with rfl | rfl | rfl | rfl
    · exact distanceNarrow_sat (by omega) (by omega) (by omega) hx hy hsize
    · exact distanceNarrow_sat (by omega) (by omega) (by omega) hx hy hsize
    · exact distanceWide_sat (by omega) (by omega) hx hy (by simpa using hsize)
    · exact distanceWide_sat (by omega) (by omega) hx hy (Nat.lt_trans hsize (by decide))
  obtain ⟨d, hd, rfl⟩ := key
  exact hd

/-- Non-vacuity: a concrete pair, 8-bit elements, registers of 4 lanes, a remainder of one element. -/
example : hammingDistance 8 4 [1, 0, 0, 2, 5] [0, 0, 1, 1, 0] 5 = ok 3 ∧ differences [1, 0, 0, 2, 5] [0, 0, 1, 1, 0] 5 = 3 := by
  decide

/-- C46.  Hard decision of a word without negative zeros: bit `i` is 1 exactly when value `i` is negative; nothing
beyond `size` is written. -/
theorem C46_hard_decide (L : Nat) (x : List Soft) (size : Nat) (out : List Nat) (hx : size ≤ x.length)
    (ho : size ≤ out.length) (hz : ∀ v ∈ x, ¬ (v.sign = true ∧ v.mag = 0)) :
    ∃ o, hardDecide L x size out = ok o ∧ o.length = out.length ∧
      (∀ i (h : i < size), o[i]? = some (if x[i].neg then 1 else 0)) ∧ ∀ i : Nat, size ≤ i → o[i]? = out[i]? := by
  have hle : size / L * L ≤ size := Nat.div_mul_le_self _ _
  obtain ⟨o, h1, h2, h3⟩ := vecMap_sat (g := fun a : Soft => if a.sign then 1 else 0)
    (h := fun a : Soft => if a.neg then 1 else 0) (x := x) (L := L) (size := size) (out := out) hx ho
  refine ⟨o, h1, h2, fun i hi => ?_, fun i hi => ?_⟩
  · rw [h3, List.getElem?_eq_getElem (by omega : i < x.length)]
    have : x[i].sign = x[i].neg := by
      have := hz x[i] (List.getElem_mem _)
      unfold Soft.neg
      cases h : x[i].sign
      · rfl
      · have hm : x[i].mag ≠ 0 := fun hm => this ⟨h, hm⟩
        simp [hm]
    by_cases e : i < size / L * L
    · rw [if_pos e, ← this]; rfl
    · rw [if_neg e, if_pos hi]; rfl
  · rw [h3, if_neg (by omega), if_neg (by omega)]

/-- Non-vacuity of C46, with a remainder. -/
example : hardDecide 2 [⟨true, 3⟩, ⟨false, 0⟩, ⟨true, 1⟩] 3 [7, 7, 7, 7] = ok [1, 0, 1, 7] := by decide

/-- C47, false part 1: a negative zero is decided 1 in a whole register and 0 in the remainder, so the decision on a
value depends on its position. -/
theorem C47_negative_zero :
    hardDecide 2 [⟨true, 0⟩, ⟨true, 0⟩, ⟨true, 0⟩] 3 [0, 0, 0] = ok [1, 1, 0] := by decide

/-- C47, false part 2: for every register width `L ≥ 2`, an unknown value (zero) at the position after the last whole
register is not marked unknown by `hard_decide_unk`, while the same value in a whole register is. -/
theorem C47_unknown_tail (tau unk L : Nat) (hL : 2 ≤ L) :
    ∃ o, hardDecideUnk tau unk L (List.replicate (L + 1) ⟨false, 0⟩) (L + 1) (List.replicate (L + 1) 0) = ok o ∧
      (∀ i, i < L → o[i]? = some unk) ∧ o[L]? = some 0 := by
  obtain ⟨o, h1, -, h3⟩ := vecMap_sat (g := fun a : Soft => if a.unknown tau then unk else if a.sign then 1 else 0)
    (h := fun a : Soft => if a.neg then 1 else 0) (x := List.replicate (L + 1) ⟨false, 0⟩) (L := L) (size := L + 1)
    (out := List.replicate (L + 1) 0) (by simp) (by simp)
  have hq : (L + 1) / L * L = L := by
    rw [Nat.add_div_left 1 (by omega), Nat.div_eq_of_lt (by omega)]; omega
  refine ⟨o, h1, fun i hi => ?_, ?_⟩
  · rw [h3, hq, if_pos hi, List.getElem?_replicate, if_pos (by omega)]
    simp [Soft.unknown]
  · rw [h3, hq, if_neg (by omega), if_pos (by omega), List.getElem?_replicate, if_pos (by omega)]
    simp [Soft.neg]

/-- C47, true part: when the size is a multiple of the register width, every unknown value is marked, every other value
gets its sign. -/
theorem C47_hard_decide_unk_partial (tau unk L : Nat) (x : List Soft) (size : Nat) (out : List Nat) (hx : size ≤ x.length)
    (ho : size ≤ out.length) (hL : L ∣ size) :
    ∃ o, hardDecideUnk tau unk L x size out = ok o ∧ o.length = out.length ∧
      (∀ i (h : i < size), o[i]? = some (if x[i].mag ≤ tau then unk else if x[i].neg then 1 else 0)) ∧
      ∀ i : Nat, size ≤ i → o[i]? = out[i]? := by
  obtain ⟨o, h1, h2, h3⟩ := vecMap_sat (g := fun a : Soft => if a.unknown tau then unk else if a.sign then 1 else 0)
    (h := fun a : Soft => if a.neg then 1 else 0) (x := x) (L := L) (size := size) (out := out) hx ho
  rw [Nat.div_mul_cancel hL] at h3
  refine ⟨o, h1, h2, fun i hi => ?_, fun i hi => ?_⟩
  · rw [h3, if_pos hi, List.getElem?_eq_getElem (by omega : i < x.length)]
    simp only [Option.map_some, Soft.unknown, Soft.neg, decide_eq_true_eq]
    by_cases e : x[i].mag ≤ tau
    · rw [if_pos e, if_pos e]
    · rw [if_neg e, if_neg e]
      have : x[i].mag ≠ 0 := by omega
      simp [this]
  · rw [h3, if_neg (by omega), if_neg (by omega)]

example : hardDecideUnk 0 9 2 [⟨true, 3⟩, ⟨false, 0⟩] 2 [7, 7, 7] = ok [1, 9, 7] := by decide

end Verif.Distance
