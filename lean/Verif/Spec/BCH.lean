import Mathlib.RingTheory.AdjoinRoot
import Verif.Spec.Galois
import Verif.Model.BCH

/-! # Specification of the BCH and Reed–Solomon codes -/

namespace Verif.BCH
open Polynomial Verif.Galois

/-- Polynomial of a binary word, first element = constant coefficient. -/
noncomputable def bitPoly (x : List Nat) : (ZMod 2)[X] :=
  ∑ i ∈ Finset.range x.length, C ((x.getD i 0 : Nat) : ZMod 2) * X ^ i

/-- Every element of the word is 0 or 1. -/
def IsBin (x : List Nat) : Prop := ∀ v ∈ x, v = 0 ∨ v = 1

/-- `f(α^j) = 0` in the field `GF(2)[X] / P`, where `α` is the class of `X`. -/
def RootAt (P f : (ZMod 2)[X]) (j : Nat) : Prop := P ∣ f.comp (X ^ j)

/-- The element of `GF(2)[X] / P` coded by an `m`-bit number. -/
noncomputable def elem (gf : GF) (a : Nat) : AdjoinRoot (fieldPoly gf.m gf.p) :=
  AdjoinRoot.mk (fieldPoly gf.m gf.p) (toPoly gf.m a)

/-- The element of exponent `i`: `α^i`, and 0 for `-1`. -/
noncomputable def power (gf : GF) (i : Int) : AdjoinRoot (fieldPoly gf.m gf.p) :=
  if i = -1 then 0 else AdjoinRoot.root (fieldPoly gf.m gf.p) ^ i.toNat

/-- `j`-th syndrome of a word of symbols: its value at `α^j`. -/
noncomputable def syndrome (gf : GF) (x : List Nat) (j : Nat) : AdjoinRoot (fieldPoly gf.m gf.p) :=
  ∑ i ∈ Finset.range x.length, elem gf (x.getD i 0) * AdjoinRoot.root (fieldPoly gf.m gf.p) ^ (j * i)

/-- Number of positions where two words differ. -/
def hamming {α : Type _} [DecidableEq α] (x y : List α) : Nat :=
  ((List.range (max x.length y.length)).filter fun i => x[i]? ≠ y[i]?).length

/-- Value of the `s`-th group of `m` bits, least significant bit first. -/
def symbolAt (m : Nat) (x : List Int) (s : Nat) : Nat :=
  ((List.range m).map fun k => if x.getD (s * m + k) 0 ≠ 0 then 2 ^ k else 0).sum

end Verif.BCH
