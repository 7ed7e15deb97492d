import Verif.Spec.RSC
import Mathlib.Algebra.BigOperators.Group.Finset.Basic
import Mathlib.Order.Bounds.Basic
import Mathlib.Algebra.Order.Ring.Int

/-! # Specification of max-log decoding of a terminated convolutional code

The correlation of a codeword with LLRs adds the LLRs of its symbols 0 and subtracts those of its symbols 1: up to a
constant it is twice the log-likelihood of the codeword.  The max-log posterior LLR of a symbol is half the difference of the
best correlations of the codewords with this symbol at 0 and at 1. -/

namespace Verif.BCJR
open Verif.RSC

/-- Symbol of a word. -/
def sym (x : List Int) (j : Nat) : Int := x.getD j 0

/-- Correlation of the word `x` with the LLRs `s` of the systematic symbols and `p` of the parities. -/
def corr (bf : Bool) (L : Nat) (s p : Nat → Int) (x : List Int) : Int :=
  ∑ t ∈ Finset.range L, ((1 - 2 * sym x (sysPos bf t)) * s t + (1 - 2 * sym x (parPos bf L t)) * p t)

/-- Correlations of the codewords whose symbol at position `j` is `b`. -/
def Corrs (bf : Bool) (m g0 g1 K : Nat) (s p : Nat → Int) (j : Nat) (b : Int) : Set Int :=
  {z | ∃ x, IsCodeword bf m g0 g1 K x ∧ x[j]? = some b ∧ z = corr bf (K + m) s p x}

/-- `h` is the max-log posterior LLR of the symbol at position `j`. -/
def MaxLog (bf : Bool) (m g0 g1 K : Nat) (s p : Nat → Int) (j : Nat) (h : Int) : Prop :=
  ∃ z0 z1, IsGreatest (Corrs bf m g0 g1 K s p j 0) z0 ∧ IsGreatest (Corrs bf m g0 g1 K s p j 1) z1 ∧ 2 * h = z0 - z1

/-- `x` is a codeword of maximal correlation. -/
def IsML (bf : Bool) (m g0 g1 K : Nat) (s p : Nat → Int) (x : List Int) : Prop :=
  IsCodeword bf m g0 g1 K x ∧ ∀ x', IsCodeword bf m g0 g1 K x' → corr bf (K + m) s p x' ≤ corr bf (K + m) s p x

end Verif.BCJR
