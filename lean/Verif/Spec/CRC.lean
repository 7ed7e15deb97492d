import Verif.Spec.GF2Poly

/-! # Specification vocabulary for the CRC -/

namespace Verif.CRC
open Polynomial GF2

/-- The generator polynomial named by `(packed, size)`: `X^size + ∑ i < size, packed[i] X^i`. -/
noncomputable def genPoly (packed size : Nat) : (ZMod 2)[X] :=
  X ^ size + ∑ i ∈ Finset.range size, if packed.testBit i then X ^ i else 0

/-- The bit positions where two words differ (as bits). -/
def errorAt (w w' : List Int) (k : Nat) : Prop := ¬ (w.getD k 0 ≠ 0 ↔ w'.getD k 0 ≠ 0)

/-- The error word between two words of the same length: 1 where they differ. -/
def errorWord (w w' : List Int) : List Int :=
  List.zipWith (fun a b => if (a ≠ 0 ↔ b ≠ 0) then 0 else 1) w w'

/-- A bit string with values 0/1 holding the first `n` bits of packed bytes, least significant bit first. -/
def unpackedBits (data : List (BitVec 8)) (n : Nat) : List Int :=
  (List.range n).map fun t => if (data.getD (t / 8) 0).getLsbD (t % 8) then 1 else 0

end Verif.CRC
