import Verif.Prelude.Exec

/-!
# Galois fields and generator polynomials

Models `src/Tools/Math/Galois.cpp`, `src/Tools/Code/BCH/BCH_polynomial_generator.cpp` and
`src/Tools/Code/RS/RS_polynomial_generator.cpp`.
-/

namespace Verif.Galois
open Exec

/-- `(int)std::ceil(std::log2(n))` for `n > 0` (exact in `double` for 31-bit `n`), `Galois.cpp:13`. -/
def ceilLog2 (n : Nat) : Nat := if n ≤ 1 then 0 else Nat.log2 (n - 1) + 1

/-- Members of `Galois`, `include/Tools/Math/Galois.hpp`. -/
structure GF where
  N : Nat
  m : Nat
  alphaTo : List Nat
  indexOf : List Int
  p : List Nat
  deriving DecidableEq, Repr

/-- Conversion of a non-negative `int` to the signed element type `I` of `w` bits, followed by its use as an
index of `index_of` (`Galois.cpp:143-144`, `148`, `156-158`): a value that does not fit becomes negative and the
access is out of bounds. -/
def toI (w x : Nat) : Exec Nat := if x < 2 ^ (w - 1) then ok x else ub

/-- `Galois::select_polynomial`, `Galois.cpp:108-132`. -/
def selectPoly (m : Nat) : List Nat :=
  let p := ((List.replicate (m + 1) 0).set m 1).set 0 1
  if m = 2 then p.set 1 1
  else if m = 3 then p.set 1 1
  else if m = 4 then p.set 1 1
  else if m = 5 then p.set 2 1
  else if m = 6 then p.set 1 1
  else if m = 7 then p.set 1 1
  else if m = 8 then ((p.set 6 1).set 5 1).set 4 1
  else if m = 9 then p.set 4 1
  else if m = 10 then p.set 3 1
  else if m = 11 then p.set 2 1
  else if m = 12 then ((p.set 7 1).set 4 1).set 3 1
  else if m = 13 then ((p.set 4 1).set 3 1).set 1 1
  else if m = 14 then ((p.set 12 1).set 11 1).set 1 1
  else if m = 15 then p.set 1 1
  else if m = 16 then ((p.set 5 1).set 3 1).set 2 1
  else if m = 17 then p.set 3 1
  else if m = 18 then p.set 7 1
  else if m = 19 then ((p.set 6 1).set 5 1).set 1 1
  else if m = 20 then p.set 3 1
  else p

/-- State of `generate_gf`: `mask`, `alpha_to`, `index_of`. -/
structure GenState where
  mask : Nat
  alpha : List Nat
  index : List Int
  deriving DecidableEq, Repr

/-- Body of the first loop of `generate_gf`, `Galois.cpp:143-147`. -/
def genLow (w m : Nat) (p : List Nat) (i : Nat) (s : GenState) : Exec GenState := do
  let v ← toI w s.mask
  let alpha ← wr s.alpha i v
  let index ← wr s.index v (i : Int)
  let pi ← rd p i
  if pi ≠ 0 then do
    let am ← rd alpha m
    let alpha ← wr alpha m (am ^^^ s.mask)
    ok ⟨s.mask <<< 1, alpha, index⟩
  else ok ⟨s.mask <<< 1, alpha, index⟩

/-- Body of the second loop of `generate_gf`, `Galois.cpp:153-158`. -/
def genHigh (w m : Nat) (mask : Nat) (i : Nat) (s : List Nat × List Int) : Exec (List Nat × List Int) := do
  let prev ← rd s.1 (i - 1)
  let am ← rd s.1 m
  let v ← toI w (if prev ≥ mask then am ^^^ ((prev ^^^ mask) <<< 1) else prev <<< 1)
  let alpha ← wr s.1 i v
  let index ← wr s.2 v (i : Int)
  ok (alpha, index)

/-- `Galois::generate_gf`, `Galois.cpp:134-162`. -/
def generate (w N m : Nat) (p : List Nat) (alpha : List Nat) (index : List Int) :
    Exec (List Nat × List Int) := do
  let alpha ← wr alpha m 0
  let s ← forN m (genLow w m p) ⟨1, alpha, index⟩
  let am ← rd s.alpha m
  let am ← toI w am
  let index ← wr s.index am (m : Int)
  let mask := s.mask >>> 1
  let r ← forRange (m + 1) N (genHigh w m mask) (s.alpha, index)
  let index ← wr r.2 0 (-1)
  ok (r.1, index)

/-- `Galois::Galois`, `Galois.cpp:10-69`, for an element type of `w` bits.  For `N ≤ 0` the member initialisers
convert a NaN or an infinity to `int` (undefined) before the check is reached. -/
def GF.mk? (w : Nat) (N : Int) (p : List Nat) : Exec GF :=
  if N ≤ 0 then ub
  else
    let n := N.toNat
    let m := ceilLog2 n
    if m ≠ ceilLog2 (n + 1) then exc .invalidArgument
    else if m ≤ 1 then exc .invalidArgument
    else if m > 20 then exc .invalidArgument
    else if m > w then exc .invalidArgument
    else if n ≠ (1 <<< m) - 1 then exc .invalidArgument
    else if p ≠ [] ∧ p.length ≠ m + 1 then exc .invalidArgument
    else do
      let q := if p = [] then selectPoly m else p
      let r ← generate w n m q (List.replicate (n + 1) 0) (List.replicate (n + 1) 0)
      ok ⟨n, m, r.1, r.2, q⟩

end Verif.Galois
