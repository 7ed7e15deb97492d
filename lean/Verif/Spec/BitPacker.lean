import Verif.Model.BitPacker

/-! # Specification vocabulary for the bit packer -/

namespace Verif.BitPacker

/-- Position, in a symbol of `W` bits, of the `k`-th bit packed into it. -/
def bitPos (msb : Bool) (W k : Nat) : Nat := if msb then W - 1 - k else k

/-- `s` holds the `m` bits `bits 0 .. bits (m-1)`, in order, and zeros elsewhere. -/
def SymbolOf {W : Nat} (msb : Bool) (m : Nat) (bits : Nat → Bool) (s : BitVec W) : Prop :=
  ∀ k, k < W → s.getLsbD (bitPos msb W k) = (decide (k < m) && bits k)

/-- Truth value of the `t`-th element of a vector. -/
def bitAt (v : List Int) (t : Nat) : Bool := decide (v.getD t 0 ≠ 0)

/-- A bit as a 0/1 integer. -/
def ofBit (b : Bool) : Int := if b then 1 else 0

/-- Truth value of element `t` of a vector of `sz`-byte integers laid out in `mem`: some byte is not 0. -/
def elemBit (sz : Nat) (mem : List (BitVec 8)) (t : Nat) : Bool :=
  (List.range sz).any fun k => decide (mem.getD (t * sz + k) 0 ≠ 0)

end Verif.BitPacker
