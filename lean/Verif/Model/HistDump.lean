import Verif.Prelude.Exec
import Verif.Model.Monitor

/-!
# Dump of a histogram

Models the functions that write a histogram to a file (`include/Tools/Algo/Histogram.hxx`).
The contents of the histogram is the list of the entries of the `std::map`, in ascending order of the keys, as in `Monitor.Hist`.
The model gives the counts of the lines: the factor and the complement applied to the counts (`norm_sum_to_1`, `norm_minus_1`) and the
formatting of the numbers are not modelled.
-/

namespace Verif.HistDump
open Exec

/-- The abscissa of a line: `hist_min`, an entry of the histogram, or `hist_max`. -/
inductive X where
  | min
  | key (k : Int)
  | max
  deriving DecidableEq, Repr

/-- State of the loop of `dump_all_values`: `cumul`, `dumped_hist_min` and the lines written. -/
structure St where
  cumul : Nat
  dumped : Bool
  lines : List (X × Nat)
  deriving DecidableEq, Repr

/-- Body of the loop of `dump_all_values`, `Histogram.hxx:286-315`; `lo` and `hi` are `cal_hist_min` and `cal_hist_max`. -/
def step (cumulVals borders : Bool) (lo hi : Int) (s : St) (e : Int × Nat) : St :=
  if e.1 > lo ∧ hi > e.1 then
    let lines := if s.dumped then s.lines else s.lines ++ [(X.min, s.cumul)]
    let c := if cumulVals then s.cumul + e.2 else e.2
    ⟨c, true, lines ++ [(X.key e.1, c)]⟩
  else if borders ∨ e.1 = lo ∨ e.1 = hi then { s with cumul := s.cumul + e.2 }
  else s

/-- `dump_all_values`, `Histogram.hxx:269-326`: the lines written. -/
def dumpAll (cumulVals borders : Bool) (lo hi : Int) (hist : List (Int × Nat)) : List (X × Nat) :=
  let s := hist.foldl (step cumulVals borders lo hi) ⟨0, false, []⟩
  if s.cumul ≠ 0 then s.lines ++ [(X.max, s.cumul)] else s.lines

/-- `dump` with `n_rung` 0, `Histogram.hxx:192-210`, for a histogram of integers of precision 0, as that of the errors of the frames: the values
are their own keys. `none` is the return value 1. -/
def dumpInt (cumulVals borders : Bool) (lo hi : Int) (hist : List (Int × Nat)) : Option (List (X × Nat)) :=
  if lo ≥ hi then none else some (dumpAll cumulVals borders lo hi hist)

/-- First loop of `dump_intervals`, `Histogram.hxx:341-355`; `bin k` is `(int)round((uncalibrate_val(k) - hist_min) * dump_step)`. -/
def fill (borders : Bool) (n : Nat) (bin : Int → Int) : List (Int × Nat) → List Nat → Exec (List Nat)
  | [], D => ok D
  | e :: l, D =>
    let x := bin e.1
    (if 0 ≤ x ∧ x ≤ n then do
      let c ← rd D x.toNat
      wr D x.toNat (c + e.2)
    else if borders then
      if x < 0 then do
        let c ← rd D 0
        wr D 0 (c + e.2)
      else do
        let c ← rd D (D.length - 1)
        wr D (D.length - 1) (c + e.2)
    else ok D) >>= fill borders n bin l

/-- Second loop of `dump_intervals`, `Histogram.hxx:357-371`: the count of each line. -/
def rungs (cumulVals : Bool) (D : List Nat) (n : Nat) : Exec (List Nat) := do
  let s ← forN (n + 1) (fun i (s : Nat × List Nat) => do
    let d ← rd D i
    let c := if cumulVals then s.1 + d else d
    ok (c, s.2 ++ [c])) (0, [])
  ok s.2

/-- `dump_intervals`, `Histogram.hxx:328-373`, with `n` rungs. -/
def dumpIntervals (cumulVals borders : Bool) (n : Nat) (bin : Int → Int) (hist : List (Int × Nat)) : Exec (List Nat) := do
  let D ← fill borders n bin hist (List.replicate (n + 1) 0)
  rungs cumulVals D n

end Verif.HistDump
