import Verif.Model.Constellation
import Mathlib.Algebra.BigOperators.Group.Finset.Basic

/-!
# What a constellation has to be
-/

namespace Verif.Cstl
open Verif.Float

/-- The two words differ in exactly one of the `n` bits. -/
def OneBit (n i j : Nat) : Prop := ∃ b, b < n ∧ ∀ k, (i.testBit k ≠ j.testBit k ↔ k = b)

/-- Amplitudes given to the words of `n` bits: the odd integers between `-2 ^ n` and `2 ^ n`, each once, and neighbours carry words which
differ in one bit. -/
structure GrayLine (n : Nat) (lab : Nat → Int) : Prop where
  odd : ∀ j, j < 2 ^ n → lab j % 2 = 1
  range : ∀ j, j < 2 ^ n → -(2 ^ n : Int) < lab j ∧ lab j < 2 ^ n
  inj : ∀ i j, i < 2 ^ n → j < 2 ^ n → lab i = lab j → i = j
  onto : ∀ a : Int, a % 2 = 1 → -(2 ^ n : Int) < a → a < 2 ^ n → ∃ j, j < 2 ^ n ∧ lab j = a
  gray : ∀ i j, i < 2 ^ n → j < 2 ^ n → lab i = lab j + 2 → OneBit n i j

/-- The two ends of the line are neighbours too. -/
def Cyclic (n : Nat) (lab : Nat → Int) : Prop :=
  ∀ i j, i < 2 ^ n → j < 2 ^ n → lab i = 2 ^ n - 1 → lab j = -(2 ^ n - 1) → OneBit n i j

/-- Sum of the squares of the amplitudes. -/
def energy (n : Nat) (lab : Nat → Int) : Int := ∑ j ∈ Finset.range (2 ^ n), lab j ^ 2

/-- The square root of the library, as far as it matters: the root of a number above one lies between one and this number. -/
def Lib.SqrtOk (L : Lib) : Prop := ∀ q : ℚ, 1 ≤ q → ∃ s : ℚ, L.sqrt (.fin q) = .fin s ∧ 1 ≤ s ∧ s ≤ q

end Verif.Cstl
