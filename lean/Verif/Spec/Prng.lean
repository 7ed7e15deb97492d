import Mathlib.Data.Rat.Floor
import Verif.Model.Prng

/-! # Specification of MT19937

M. Matsumoto, T. Nishimura, "Mersenne Twister: a 623-dimensionally equidistributed uniform pseudo-random number generator", ACM
TOMACS 8(1), 1998; initialisation of 2002 (also that of `std::mt19937`). -/

namespace Verif.Prng
open Exec Verif.Float

/-- The initial terms. -/
def init (s : BitVec 32) : Nat → BitVec 32
  | 0 => s
  | n + 1 => 1812433253#32 * (init s n ^^^ init s n >>> 30) + BitVec.ofNat 32 (n + 1)

/-- The most significant bit of `a` followed by the 31 least significant bits of `b`. -/
def join (a b : BitVec 32) : BitVec 32 := (a.extractLsb' 31 1 ++ b.extractLsb' 0 31).cast (by decide)

/-- The product by the matrix `A` of the article. -/
def mulA (y : BitVec 32) : BitVec 32 := if y.getLsbD 0 then y >>> 1 ^^^ 0x9908B0DF#32 else y >>> 1

/-- The terms of the recurrence: `x (k + 624) = x (k + 397) ^ A (x k, x (k + 1))`. -/
def term (s : BitVec 32) (k : Nat) : BitVec 32 :=
  if k < 624 then init s k else term s (k - 624 + 397) ^^^ mulA (join (term s (k - 624)) (term s (k - 624 + 1)))
termination_by k

/-- Tempering. -/
def temper (x : BitVec 32) : BitVec 32 :=
  let y1 := x ^^^ (x >>> 11)
  let y2 := y1 ^^^ ((y1 <<< 7) &&& 0x9D2C5680#32)
  let y3 := y2 ^^^ ((y2 <<< 15) &&& 0xEFC60000#32)
  y3 ^^^ (y3 >>> 18)

/-- The number `i` of MT19937 with the seed `s`. -/
def number (s : BitVec 32) (i : Nat) : BitVec 32 := temper (term s (624 + i))

/-- Calls of the methods of a generator. `u64 left` is a call whose operands are evaluated from left to right if `left`. -/
inductive Op where
  | seed (s : BitVec 32)
  | rand
  | u32
  | u64 (left : Bool)
  | fcc | fco | foo | dcc | dco | doo

/-- Results of the calls. -/
inductive Res where
  | none
  | int (z : Int)
  | u32 (u : BitVec 32)
  | u64 (u : BitVec 64)
  | real (x : Fl)
  deriving DecidableEq

/-- A call of the model. -/
def Op.run (p : Prng) : Op → Exec (Res × Prng)
  | .seed s => do let p ← Prng.seed p s; pure (.none, p)
  | .rand => do let (z, p) ← Prng.rand p; pure (.int z, p)
  | .u32 => do let (u, p) ← randU32 p; pure (.u32 u, p)
  | .u64 left => do let (u, p) ← randU64 left p; pure (.u64 u, p)
  | .fcc => do let (x, p) ← randReal (cc b32) p; pure (.real x, p)
  | .fco => do let (x, p) ← randReal (co b32) p; pure (.real x, p)
  | .foo => do let (x, p) ← randReal (oo b32) p; pure (.real x, p)
  | .dcc => do let (x, p) ← randReal (cc b64) p; pure (.real x, p)
  | .dco => do let (x, p) ← randReal (co b64) p; pure (.real x, p)
  | .doo => do let (x, p) ← randReal (oo b64) p; pure (.real x, p)

/-- A sequence of calls. -/
def runAll (p : Prng) : List Op → Exec (List Res × Prng)
  | [] => pure ([], p)
  | op :: ops => do
    let (r, p) ← op.run p
    let (rs, p) ← runAll p ops
    pure (r :: rs, p)

/-- What a call returns when the seed is `s` and `i` numbers were drawn: the result, the seed and the number of numbers drawn
after the call. -/
def Op.expect (s : BitVec 32) (i : Nat) : Op → Res × BitVec 32 × Nat
  | .seed s' => (.none, s', 0)
  | .rand => (.int ((number s i).toNat % 2 ^ 31 : Nat), s, i + 1)
  | .u32 => (.u32 (number s i), s, i + 1)
  | .u64 left => (.u64 (if left then (number s i ++ number s (i + 1)).cast rfl else (number s (i + 1) ++ number s i).cast rfl), s, i + 2)
  | .fcc => (.real (cc b32 (number s i)), s, i + 1)
  | .fco => (.real (co b32 (number s i)), s, i + 1)
  | .foo => (.real (oo b32 (number s i)), s, i + 1)
  | .dcc => (.real (cc b64 (number s i)), s, i + 1)
  | .dco => (.real (co b64 (number s i)), s, i + 1)
  | .doo => (.real (oo b64 (number s i)), s, i + 1)

/-- What a sequence of calls returns. -/
def expectAll (s : BitVec 32) (i : Nat) : List Op → List Res
  | [] => []
  | op :: ops => (op.expect s i).1 :: expectAll (op.expect s i).2.1 (op.expect s i).2.2 ops

end Verif.Prng
