import Verif.Model.Polar

/-! # Specification of the polar transform

`G = F^{⊗n}` with `F = [[1,0],[1,1]]`: entry `(j, i)` is 1 exactly when every bit set in `i` is set in `j`. -/

namespace Verif.Polar

/-- XOR of a list of words. -/
def xorAll {w : Nat} (l : List (BitVec w)) : BitVec w := l.foldr (· ^^^ ·) 0#w

/-- `i ⊑ j`: every bit set in `i` is set in `j`. -/
abbrev Below (i j : Nat) : Prop := j &&& i = i

/-- Row vector `u` (of length `2^n`) times `F^{⊗n}`. -/
def polarTransform {w : Nat} (n : Nat) (u : List (BitVec w)) : List (BitVec w) :=
  (List.range (2 ^ n)).map fun i =>
    xorAll (((List.range (2 ^ n)).filter fun j => Below i j).map fun j => u.getD j 0#w)

/-- The word with the `K` information bits at the non-frozen positions, in order, and zeros at the frozen
ones. -/
def place {w : Nat} : List Bool → List (BitVec w) → List (BitVec w)
  | [], _ => []
  | true :: fr, u => 0#w :: place fr u
  | false :: fr, u => u.headD 0#w :: place fr u.tail

/-- Values at the non-frozen positions, in order. -/
def unplace {w : Nat} : List Bool → List (BitVec w) → List (BitVec w)
  | true :: fr, x => unplace fr x.tail
  | false :: fr, x => x.headD 0#w :: unplace fr x.tail
  | [], _ => []

/-- `x` is a codeword: the transform of a word that is zero on the frozen positions. -/
def IsCodeword {w : Nat} (n : Nat) (frozen : List Bool) (x : List (BitVec w)) : Prop :=
  ∃ u : List (BitVec w), u.length = 2 ^ n ∧ (∀ i : Nat, frozen[i]? = some true → u[i]? = some 0#w) ∧
    polarTransform n u = x

/-- The information set is convex for `⊑`: a position between two information positions is one. -/
def Convex (frozen : List Bool) : Prop :=
  ∀ i j k : Nat, Below i j → Below j k → frozen[i]? = some false → frozen[k]? = some false →
    frozen[j]? ≠ some true

end Verif.Polar
