import Verif.Model.Numeric

/-!
# Noise of a distribution given by the user

Models `Distribution` in the mode `SUMMATION` (`src/Tools/Math/Distribution/Distribution.cpp`) and the use of its cumulated probabilities in
`src/Tools/Algo/Draw_generator/User_pdf_noise_generator/Fast/User_pdf_noise_generator_fast.cpp`, with the linear interpolation, on rational numbers (no
rounding).  The points are given sorted; the sort by `mutual_sort` is in
`Model/Mutual.lean`, and composed in `C140_distribution`.
-/

namespace Verif.Distrib
open Exec Verif.Numeric

/-- `std::partial_sum`, `Distribution.cpp:101`: the sums after `acc`. -/
def partialSums (acc : ℚ) : List ℚ → List ℚ
  | [] => []
  | p :: l => (acc + p) :: partialSums (acc + p) l

/-- The loop that keeps the probabilities that are not null, `Distribution.cpp:112-118`: abscissae and cumulated probabilities. -/
def keep (sum : ℚ) : List (ℚ × ℚ) → List ℚ → List (ℚ × ℚ)
  | (x, p) :: l, c :: cs => if p ≠ 0 then (x, c / sum) :: keep sum l cs else keep sum l cs
  | _, _ => []

/-- `compute_cdf` and `compute_cdf_summation` for one density, `Distribution.cpp:56-120`; `pdf` are the points and their probabilities, of the same
number.  The result is `cdf_x` and `cdf_y`. -/
def cdf (pdf : List (ℚ × ℚ)) : Exec (List ℚ × List ℚ) :=
  if pdf = [] then exc .invalidArgument
  else
    let cumul := partialSums 0 (pdf.map Prod.snd)
    let sum := cumul.getLastD 0
    if sum = 0 then exc .runtimeError
    else ok ((keep sum pdf cumul).map Prod.fst, (keep sum pdf cumul).map Prod.snd)

/-- The noise of one symbol, `User_pdf_noise_generator_fast.cpp:116-121`: the random value `u` is looked for among the cumulated probabilities. -/
def noise (eps : ℚ) (cdfX cdfY : List ℚ) (u : ℚ) : Exec ℚ := linear eps cdfY cdfX u

end Verif.Distrib
