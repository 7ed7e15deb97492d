import Verif.Prelude.Exec
import Mathlib.Data.Rat.Floor

/-!
# Numerical integration and interpolation

Models `include/Tools/Math/numerical_integration.hxx` (functions on arrays) and `include/Tools/Math/interpolation.hxx` (linear interpolation), on
rational numbers: the rounding of the operations is not modelled.  The assertions (sizes and steps not null) are disabled in release builds and not modelled.
-/

namespace Verif.Numeric
open Exec

/-- `area += y[o + i]` for `i < n`. -/
def sumLoop (y : List ℚ) (o n : Nat) (a : ℚ) : Exec ℚ := forN n (fun i a => do
  let x ← rd y (o + i)
  ok (a + x)) a

/-- `trapz_integral`, `numerical_integration.hxx:15-42`; the sum of the `L` lanes by `hadd` is that of all the elements read. -/
def trapz (L : Nat) (y : List ℚ) (step : ℚ) (size : Nat) : Exec ℚ :=
  if size ≤ 1 then ok 0
  else do
    let a ← forN (((size - 1) / L * L + L - 2) / L) (fun t a => sumLoop y (1 + t * L) L a) 0
    let a ← sumLoop y ((size - 1) / L * L) (size - 1 - (size - 1) / L * L) a
    let e ← rd y (size - 1)
    let b ← rd y 0
    ok ((a + (e + b) / 2) * step)

/-- `rect_integral`, `numerical_integration.hxx:44-67`. -/
def rect (L : Nat) (y : List ℚ) (step : ℚ) (size : Nat) : Exec ℚ :=
  if size ≤ 1 then ok 0
  else do
    let a ← forN (size / L) (fun t a => sumLoop y (t * L) L a) 0
    let a ← sumLoop y (size / L * L) (size - size / L * L) a
    ok (a * step)

/-- `trapz_integral_seq` with a step, `numerical_integration.hxx:75-95`. -/
def trapzSeq (y : List ℚ) (step : ℚ) (size : Nat) : Exec ℚ :=
  if size ≤ 1 then ok 0
  else do
    let b ← rd y 0
    let a ← sumLoop y 1 (size - 1 - 1) (b / 2)
    let e ← rd y (size - 1)
    ok ((a + e / 2) * step)

/-- `trapz_integral_seq` with abscissae, `numerical_integration.hxx:127-145`. -/
def trapzX (x y : List ℚ) (size : Nat) : Exec ℚ :=
  if size ≤ 1 then ok 0
  else forN (size - 1) (fun i a => do
    let y1 ← rd y (i + 1)
    let y0 ← rd y i
    let x1 ← rd x (i + 1)
    let x0 ← rd x i
    ok (a + (y1 + y0) / 2 * (x1 - x0))) 0

/-- `cumtrapz_integral_seq` with abscissae, `numerical_integration.hxx:147-175`. -/
def cumtrapzX (x y cumul : List ℚ) (size : Nat) : Exec (List ℚ) :=
  if size = 0 then ok cumul
  else if size = 1 then wr cumul 0 0
  else do
    let r ← forN (size - 1) (fun i (r : List ℚ × ℚ) => do
      let cumul ← wr r.1 i r.2
      let y1 ← rd y (i + 1)
      let y0 ← rd y i
      let x1 ← rd x (i + 1)
      let x0 ← rd x i
      ok (cumul, r.2 + (y1 + y0) / 2 * (x1 - x0))) (cumul, 0)
    wr r.1 (size - 1) r.2

/-- `linear_interpolation` of one value, `interpolation.hxx:15-36`; `std::lower_bound` is the number of leading abscissae less than the value (they are
sorted); `eps` is `REAL_COMP_PREC` of `comp_equal`, `include/Tools/Math/utils.hxx:33-34`. -/
def linear (eps : ℚ) (x y : List ℚ) (v : ℚ) : Exec ℚ :=
  let i := (x.takeWhile (· < v)).length
  if i = 0 then rd y i
  else do
    let xa ← rd x i
    if |v - xa| < eps then rd y i
    else do
      let xb ← rd x (i - 1)
      if i = x.length ∨ |v - xb| < eps then rd y (i - 1)
      else do
        let yb ← rd y (i - 1)
        let ya ← rd y i
        ok (yb + (ya - yb) * (v - xb) / (xa - xb))

end Verif.Numeric
