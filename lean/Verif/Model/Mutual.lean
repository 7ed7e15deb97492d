import Mathlib.Data.Rat.Defs
import Mathlib.Algebra.Order.Ring.Rat

/-!
# Sorting points and looking for the closest one

Models `get_closest`, `get_closest_index`, `mutual_sort` and `mutual_unique` of `include/Tools/general_utils.hxx`, with one ordinate per abscissa, on rational
numbers (no rounding, no NaN).  The two vectors of a point set, of the same size (asserted by the code), are one list of pairs.
-/

namespace Verif.Mutual

/-- The inner loop of `mutual_sort`, `general_utils.hxx:52-56`: the point `e` is swapped with the one before while its abscissa is less.  The points before
`e` are given from the last one to the first one, and so is the result. -/
def sink (e : ℚ × ℚ) : List (ℚ × ℚ) → List (ℚ × ℚ)
  | [] => [e]
  | p :: l => if e.1 < p.1 then p :: sink e l else e :: p :: l

/-- `mutual_sort`, `general_utils.hxx:34-57`. -/
def sort (l : List (ℚ × ℚ)) : List (ℚ × ℚ) := (l.foldl (fun acc e => sink e acc) []).reverse

/-- The body of the loop of `mutual_unique`, `general_utils.hxx:86-93`: the points and `r`. -/
def uniqueStep (s : List (ℚ × ℚ) × ℕ) (i : ℕ) : List (ℚ × ℚ) × ℕ :=
  if (s.1.getD s.2 (0, 0)).1 ≠ (s.1.getD i (0, 0)).1 then
    if s.2 + 1 ≠ i then (s.1.set (s.2 + 1) (s.1.getD i (0, 0)), s.2 + 1) else (s.1, s.2 + 1)
  else s

/-- `mutual_unique`, `general_utils.hxx:79-100`. -/
def unique (l : List (ℚ × ℚ)) : List (ℚ × ℚ) :=
  let s := (List.range' 1 (l.length - 1)).foldl uniqueStep (l, 0)
  s.1.take (if l.length ≠ 0 ∧ s.2 = 0 then 1 else s.2)

/-- `get_closest_index`, `general_utils.hxx:13-32`; `std::lower_bound` is the number of the first values that are less than `v`, which is what it returns on a
sorted range. -/
def closest (l : List ℚ) (v : ℚ) : ℕ :=
  let b := (l.takeWhile (fun a => decide (a < v))).length
  if b = 0 then 0
  else if b = l.length then l.length - 1
  else if l.getD b 0 - v < v - l.getD (b - 1) 0 then b else b - 1

end Verif.Mutual
