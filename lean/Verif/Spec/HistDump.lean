import Verif.Model.HistDump

/-! # Vocabulary of C129–C130 -/

namespace Verif.HistDump

/-- The number of values of the histogram whose key satisfies `P`. -/
def mass (P : Int → Bool) (hist : List (Int × Nat)) : Nat := ((hist.filter fun e => P e.1).map Prod.snd).sum

/-- The keys taken into account: all of them with `cumul_borders`, otherwise those of the range. -/
def taken (borders : Bool) (lo hi k : Int) : Bool := borders || decide (lo ≤ k ∧ k ≤ hi)

/-- The rung of a key: the nearest one with `cumul_borders`, none outside of the range otherwise. -/
def rung (borders : Bool) (n : Nat) (x : Int) : Option Nat :=
  if x < 0 then (if borders then some 0 else none)
  else if x ≤ n then some x.toNat
  else if borders then some n else none

end Verif.HistDump
