import Verif.Prelude.Exec
import Verif.Prelude.Float

/-! # Model of the MT19937 pseudo random generator

`src/Tools/Algo/PRNG/PRNG_MT19937.cpp`. Floating point numbers are those of `Verif.Prelude.Float` (rounding to nearest even).
-/

namespace Verif.Prng
open Exec Verif.Float

/-- The members `MT` and `index` (include/Tools/Algo/PRNG/PRNG_MT19937.hpp:43-44). -/
structure Prng where
  MT : List (BitVec 32)
  index : Nat
  deriving DecidableEq

/-- src/Tools/Algo/PRNG/PRNG_MT19937.cpp:33 -/
def SIZE : Nat := 624
/-- src/Tools/Algo/PRNG/PRNG_MT19937.cpp:34 -/
def PERIOD : Nat := 397
/-- src/Tools/Algo/PRNG/PRNG_MT19937.cpp:35 -/
def DIFF : Nat := SIZE - PERIOD

/-- src/Tools/Algo/PRNG/PRNG_MT19937.cpp:37 -/
def M32 (x : BitVec 32) : BitVec 32 := 0x80000000#32 &&& x
/-- src/Tools/Algo/PRNG/PRNG_MT19937.cpp:38 -/
def L31 (x : BitVec 32) : BitVec 32 := 0x7FFFFFFF#32 &&& x
/-- src/Tools/Algo/PRNG/PRNG_MT19937.cpp:39 -/
def ODD (x : BitVec 32) : Nat := (x &&& 1#32).toNat
/-- src/Tools/Algo/PRNG/PRNG_MT19937.cpp:115 -/
def MATRIX : List (BitVec 32) := [0#32, 0x9908b0df#32]

/-- The two assignments of the macro `UNROLL` (src/Tools/Algo/PRNG/PRNG_MT19937.cpp:41-44) and of lines 153-154, the positions
which they read being parameters. -/
def twist (i i1 e : Nat) (MT : List (BitVec 32)) : Exec (List (BitVec 32)) := do
  let a ← rd MT i
  let b ← rd MT i1
  let y := M32 a ||| L31 b
  let c ← rd MT e
  let m ← rd MATRIX (ODD y)
  wr MT i (c ^^^ (y >>> 1) ^^^ m)

/-- `UNROLL(expr)` (src/Tools/Algo/PRNG/PRNG_MT19937.cpp:41-44), the state being `MT` and `i`. -/
def unroll (expr : Nat → Nat) (s : List (BitVec 32) × Nat) : Exec (List (BitVec 32) × Nat) := do
  let MT ← twist s.2 (s.2 + 1) (expr s.2) s.1
  pure (MT, s.2 + 1)

/-- `while (i < bound) body`. A run which needs more than `fuel` iterations is given the outcome `ub`. -/
def whileLt {σ : Type} (bound : Nat) (body : σ × Nat → Exec (σ × Nat)) : Nat → σ × Nat → Exec (σ × Nat)
  | 0, s => if s.2 < bound then ub else pure s
  | fuel + 1, s => if s.2 < bound then body s >>= whileLt bound body fuel else pure s

/-- `UNROLL(expr)` written `n` times. -/
def unrolls (n : Nat) (expr : Nat → Nat) (s : List (BitVec 32) × Nat) : Exec (List (BitVec 32) × Nat) :=
  forN n (fun _ => unroll expr) s

/-- `generate_numbers` (src/Tools/Algo/PRNG/PRNG_MT19937.cpp:96-155). -/
def generateNumbers (MT : List (BitVec 32)) : Exec (List (BitVec 32)) := do
  let s ← whileLt (DIFF - 1) (unrolls 2 fun i => i + PERIOD) SIZE (MT, 0)
  let s ← unroll (fun i => (i + PERIOD) % SIZE) s
  let s ← whileLt (SIZE - 1) (unrolls 11 fun i => i - DIFF) SIZE s
  twist (SIZE - 1) 0 (PERIOD - 1) s.1

/-- `seed` (src/Tools/Algo/PRNG/PRNG_MT19937.cpp:56-94). -/
def seed (p : Prng) (s : BitVec 32) : Exec Prng := do
  let MT ← wr p.MT 0 s
  let MT ← forRange 1 SIZE (fun i (MT : List (BitVec 32)) => do
    let a ← rd MT (i - 1)
    let b ← rd MT (i - 1)
    wr MT i (0x6c078965#32 * (a ^^^ b >>> 30) + BitVec.ofNat 32 i)) MT
  pure ⟨MT, 0⟩

/-- The constructor (src/Tools/Algo/PRNG/PRNG_MT19937.cpp:46-50). -/
def make (s : BitVec 32) : Exec Prng := seed ⟨List.replicate SIZE 0#32, 0⟩ s

/-- The four assignments of src/Tools/Algo/PRNG/PRNG_MT19937.cpp:165-168. -/
def tempering (y : BitVec 32) : BitVec 32 :=
  let y := y ^^^ y >>> 11
  let y := y ^^^ (y <<< 7 &&& 0x9d2c5680#32)
  let y := y ^^^ (y <<< 15 &&& 0xefc60000#32)
  y ^^^ y >>> 18

/-- `if (!index) generate_numbers();` (src/Tools/Algo/PRNG/PRNG_MT19937.cpp:159-160). -/
def refresh (p : Prng) : Exec (List (BitVec 32)) := if p.index = 0 then generateNumbers p.MT else pure p.MT

/-- `rand_u32` (src/Tools/Algo/PRNG/PRNG_MT19937.cpp:157-174). -/
def randU32 (p : Prng) : Exec (BitVec 32 × Prng) := do
  let MT ← refresh p
  let y ← rd MT p.index
  pure (tempering y, ⟨MT, if p.index + 1 = SIZE then 0 else p.index + 1⟩)

/-- `rand` (src/Tools/Algo/PRNG/PRNG_MT19937.cpp:176-194). -/
def rand (p : Prng) : Exec (Int × Prng) := do
  let (u, p) ← randU32 p
  pure ((0x7FFFFFFF#32 &&& u).toInt, p)

/-- `rand_u64` (src/Tools/Algo/PRNG/PRNG_MT19937.cpp:226-229). The order in which the two calls are evaluated is not specified by
C++: `left` says that the left operand is evaluated first. -/
def randU64 (left : Bool) (p : Prng) : Exec (BitVec 64 × Prng) := do
  let (a, p) ← randU32 p
  let (b, p) ← randU32 p
  let (l, r) := if left then (a, b) else (b, a)
  pure (l.setWidth 64 <<< 32 ||| r.setWidth 64, p)

/-- `UINT32_MAX`. -/
def u32max : Nat := 2 ^ 32 - 1

/-- The value of `randf_cc` (`F := b32`, src/Tools/Algo/PRNG/PRNG_MT19937.cpp:196-199) and `randd_cc` (`F := b64`, 211-214) when
`rand_u32` returns `u`. -/
def cc (F : Fmt) (u : BitVec 32) : Fl := F.div (F.of u.toNat) (F.of u32max)

/-- The value of `randf_co` (src/Tools/Algo/PRNG/PRNG_MT19937.cpp:201-204) and `randd_co` (216-219). -/
def co (F : Fmt) (u : BitVec 32) : Fl := F.div (F.of u.toNat) (F.add (F.of u32max) (.fin 1))

/-- The value of `randf_oo` (src/Tools/Algo/PRNG/PRNG_MT19937.cpp:206-209) and `randd_oo` (221-224). -/
def oo (F : Fmt) (u : BitVec 32) : Fl := F.div (F.add (F.of u.toNat) (.fin (1 / 2))) (F.add (F.of u32max) (.fin 1))

/-- The functions `randf_*` and `randd_*`: `f` is one of the functions above (src/Tools/Algo/PRNG/PRNG_MT19937.cpp:196-224). -/
def randReal (f : BitVec 32 → Fl) (p : Prng) : Exec (Fl × Prng) := do
  let (u, p) ← randU32 p
  pure (f u, p)

end Verif.Prng
