import Verif.Spec.Prng
import Verif.Model.Events

/-! # Generators of events: specification -/

namespace Verif.Events
open Exec Verif.Float Verif.Prng

/-- The seed of lane `l`: the number `l` of MT19937 for the seed of the generator, without its first bit. -/
def laneSeed (s : BitVec 32) (l : Nat) : BitVec 32 := BitVec.ofNat 32 ((number s l).toNat % 2 ^ 31)

/-- The value to which the probability is compared for event `k` of `n`, when `i` numbers were drawn from the first generator and `j` from each lane:
whole registers come from the lanes, the rest from the first generator. -/
def value (L : Nat) (s : BitVec 32) (i j n k : Nat) : Fl :=
  if k < n / L * L then simdCc (number (laneSeed s (k % L)) (j + k / L)) else cc b32 (number s (i + (k - n / L * L)))

/-- The events drawn by a call. -/
def events (L : Nat) (s : BitVec 32) (i j n : Nat) (p : Fl) : List Nat :=
  if p = .fin 0 then List.replicate n 0
  else (List.range n).map fun k => if le (value L s i j n k) p then 1 else 0

/-- The events drawn by several calls: a call with a null probability draws no number. -/
def expect (L : Nat) (s : BitVec 32) (i j : Nat) : List Op → List (List Nat)
  | [] => []
  | .seed s' :: l => [] :: expect L s' L 0 l
  | .gen n p _ :: l => events L s i j n p :: (if p = .fin 0 then expect L s i j l else expect L s (i + n % L) (j + n / L) l)

/-- The buffers have room for the events. -/
def Op.Fits : Op → Prop
  | .seed _ => True
  | .gen n _ buf => buf.length = n

end Verif.Events
