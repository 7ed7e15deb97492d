import Verif.Prelude.Exec

/-!
# Polar encoders

Models `src/Module/Encoder/Polar/Encoder_polar.cpp` and `Encoder_polar_sys.cpp`.  Elements of type `B` are
bit vectors of any width `w` (the code XORs whole words).
-/

namespace Verif.Polar
open Exec

/-- Members `K`, `N`, `frozen_bits` (`true` = frozen) and `info_bits_pos` of `Encoder_polar`
(`include/Module/Encoder/Polar/Encoder_polar.hpp`, `include/Module/Encoder/Encoder.hpp`). -/
structure Enc where
  K : Nat
  N : Nat
  frozen : List Bool
  infoPos : List Nat
  deriving DecidableEq, Repr

/-- The loop of `Encoder_polar::set_frozen_bits` filling `info_bits_pos`, `Encoder_polar.cpp:104-107`. -/
def infoLoop (N : Nat) (frozen : List Bool) (pos : List Nat) : Exec (List Nat) := do
  let s ← forN N (fun n (s : Nat × List Nat) => do
    let f ← rd frozen n
    if f = false then do
      let p ← wr s.2 s.1 n
      ok (s.1 + 1, p)
    else ok s) (0, pos)
  ok s.2

/-- `Encoder_polar::set_frozen_bits`, `Encoder_polar.cpp:99-108`, with `fb_assert`
(`src/Tools/Code/Polar/fb_assert.cpp:6-27`). -/
def Enc.setFrozen (e : Enc) (frozen : List Bool) : Exec Enc :=
  if frozen.length ≠ e.N then exc .runtimeError
  else if e.K ≠ (frozen.filter (· = false)).length then exc .runtimeError
  else do
    let p ← infoLoop e.N frozen e.infoPos
    ok { e with frozen := frozen, infoPos := p }

/-- Constructor, `Encoder_polar.cpp:12-30` and `include/Module/Encoder/Encoder.hxx:30-91`
(`info_bits_pos` starts as `0, 1, 2, ...`). -/
def Enc.mk? (K N : Int) (frozen : List Bool) : Exec Enc :=
  if K ≤ 0 then exc .invalidArgument
  else if N ≤ 0 then exc .invalidArgument
  else if K > N then exc .invalidArgument
  else if N ≠ frozen.length then exc .lengthError
  else Enc.setFrozen { K := K.toNat, N := N.toNat, frozen, infoPos := List.range K.toNat } frozen

/-- One stage of the butterflies, loops over `j` and `i` of `Encoder_polar.cpp:54-56`; `j` takes
`⌈N / 2k⌉` values. -/
def stage {w : Nat} (N k : Nat) (bits : List (BitVec w)) : Exec (List (BitVec w)) :=
  forN ((N + 2 * k - 1) / (2 * k)) (fun t =>
    let j := t * (2 * k)
    forN k (fun i b => do
      let x ← rd b (j + i)
      let y ← rd b (k + j + i)
      wr b (j + i) (x ^^^ y))) bits

/-- `Encoder_polar::light_encode`, `Encoder_polar.cpp:49-57`.  `for (k = N >> 1; k > 0; k >>= 1)` has
`log2 N` iterations, the `s`-th with `k = N >> (s + 1)`. -/
def lightEncode {w : Nat} (N : Nat) (bits : List (BitVec w)) : Exec (List (BitVec w)) :=
  forN (Nat.log2 N) (fun s => stage N (N >>> (s + 1))) bits

/-- `Encoder_polar::convert` (distinct buffers), `Encoder_polar.cpp:72-77`; the aliased branch copies `U_K`
first and runs the same loop. -/
def Enc.convert {w : Nat} (e : Enc) (uK uN : List (BitVec w)) : Exec (List (BitVec w)) := do
  let s ← forN e.frozen.length (fun i (s : Nat × List (BitVec w)) => do
    let f ← rd e.frozen i
    if f then do
      let o ← wr s.2 i 0#w
      ok (s.1, o)
    else do
      let v ← rd uK s.1
      let o ← wr s.2 i v
      ok (s.1 + 1, o)) (0, uN)
  ok s.2

/-- `Encoder_polar::_encode`, `Encoder_polar.cpp:41-47`. -/
def Enc.encode {w : Nat} (e : Enc) (uK xN : List (BitVec w)) : Exec (List (BitVec w)) := do
  let x ← e.convert uK xN
  lightEncode e.N x

/-- One stage of `is_codeword`, `Encoder_polar.cpp:86-94`: the butterflies of a block, then the test of
position `j + k - 1`.  `none` = `return false`. -/
def checkStage {w : Nat} (frozen : List Bool) (N k : Nat) (bits : List (BitVec w)) :
    Exec (Option (List (BitVec w))) :=
  forN ((N + 2 * k - 1) / (2 * k)) (fun t s =>
    match s with
    | none => ok none
    | some b => do
      let j := t * (2 * k)
      let b ← forN k (fun i b => do
        let x ← rd b (j + i)
        let y ← rd b (k + j + i)
        wr b (j + i) (x ^^^ y)) b
      let f ← rd frozen (j + k - 1)
      if f then do
        let v ← rd b (j + k - 1)
        if v ≠ 0#w then ok none else ok (some b)
      else ok (some b)) (some bits)

/-- One iteration of the loop over `k` of `is_codeword`, unless it has already returned,
`Encoder_polar.cpp:85-94`. -/
def checkStep {w : Nat} (frozen : List Bool) (N s : Nat) (st : Option (List (BitVec w))) :
    Exec (Option (List (BitVec w))) :=
  match st with
  | none => ok none
  | some b => checkStage frozen N (N >>> (s + 1)) b

/-- `Encoder_polar::is_codeword`, `Encoder_polar.cpp:80-97`. -/
def Enc.isCodeword {w : Nat} (e : Enc) (tmp xN : List (BitVec w)) : Exec Bool := do
  let b ← copyTo xN 0 e.N tmp 0
  let s ← forN (Nat.log2 e.N) (checkStep e.frozen e.N) (some b)
  ok s.isSome

/-- `Encoder_polar_sys::_encode`, `Encoder_polar_sys.cpp:26-40`; `(B)(!frozen) && X` is 0 or 1. -/
def Enc.encodeSys {w : Nat} (e : Enc) (uK xN : List (BitVec w)) : Exec (List (BitVec w)) := do
  let x ← e.convert uK xN
  let x ← lightEncode e.N x
  let x ← forN e.N (fun i o => do
    let f ← rd e.frozen i
    if f then wr o i 0#w
    else do
      let v ← rd o i
      wr o i (if v ≠ 0#w then 1#w else 0#w)) x
  lightEncode e.N x

end Verif.Polar
