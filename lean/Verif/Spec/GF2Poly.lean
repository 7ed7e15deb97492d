import Mathlib.Algebra.Polynomial.Basic
import Mathlib.Algebra.Polynomial.Monomial
import Mathlib.Algebra.Polynomial.Coeff
import Mathlib.Data.ZMod.Basic

/-! # Bit strings as polynomials over GF(2) -/

namespace Verif.GF2
open Polynomial

/-- The field element of a C++ value used as a bit. -/
def bit (v : Int) : ZMod 2 := if v ≠ 0 then 1 else 0

/-- The polynomial of a bit string, first bit = highest degree. -/
noncomputable def wordPoly : List Int → (ZMod 2)[X]
  | [] => 0
  | v :: l => C (bit v) * X ^ l.length + wordPoly l

end Verif.GF2
