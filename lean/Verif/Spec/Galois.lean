import Mathlib.Algebra.Polynomial.Div
import Mathlib.Algebra.Field.ZMod
import Mathlib.Data.ZMod.Basic
import Verif.Model.Galois

/-! # Specification of the Galois field tables

Elements of GF(2^m) are the polynomials of degree below `m` over GF(2), coded on the bits of a natural; products
are taken modulo the field polynomial. -/

namespace Verif.Galois
open Polynomial

/-- Polynomial coded by the `m` low bits of `a` (bit `i` is the coefficient of `X^i`). -/
noncomputable def toPoly (m a : Nat) : (ZMod 2)[X] :=
  ∑ i ∈ Finset.range m, if a.testBit i then X ^ i else 0

/-- Field polynomial of a coefficient vector: `X^m + Σ_{i<m, p[i] ≠ 0} X^i`. -/
noncomputable def fieldPoly (m : Nat) (p : List Nat) : (ZMod 2)[X] :=
  X ^ m + ∑ i ∈ Finset.range m, if p.getD i 0 ≠ 0 then X ^ i else 0

/-- The powers of `X` modulo `P` have period exactly `2^m - 1`: `P` is primitive of degree `m`. -/
def Primitive (m : Nat) (P : (ZMod 2)[X]) : Prop :=
  P ∣ X ^ (2 ^ m - 1) - 1 ∧ ∀ k, 0 < k → k < 2 ^ m - 1 → ¬ P ∣ X ^ k - 1

end Verif.Galois
