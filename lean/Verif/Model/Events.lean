import Verif.Model.Prng

/-!
# Generators of events

Models `src/Tools/Algo/Draw_generator/Event_generator/Fast/Event_generator_fast.cpp`, which draws the errors and the erasures of the binary
channels, with the numbers of `src/Tools/Algo/PRNG/PRNG_MT19937_simd.cpp`.  The generators based on the GSL, the MKL and the standard library
are not modelled.
-/

namespace Verif.Events
open Exec Verif.Float Verif.Prng

/-- Members of `include/Tools/Algo/Draw_generator/Event_generator/Fast/Event_generator_fast.hpp`.  The operations of `PRNG_MT19937_simd` are those of
`PRNG_MT19937` in each lane (`PRNG_MT19937_simd.cpp:44-164`: same recurrence, the blend of `MATRIX[0]` and `MATRIX[1]` being the read of `MATRIX`,
shifts of zeros), so it is represented by a generator per lane; its index, the same for all the lanes, is in each of them. -/
structure Gen where
  mt : Prng
  simd : List Prng

/-- The value of `PRNG_MT19937_simd::randf_cc` in a lane where `rand_s32` returns `u`, `PRNG_MT19937_simd.cpp:166-172`. -/
def simdCc (u : BitVec 32) : Fl := (b32.div (b32.of u.toInt) (b32.of (2 ^ 31 - 1))).abs

/-- The value of `randf_co` in a lane, `PRNG_MT19937_simd.cpp:174-180`; `max + 1.0f` is an operation on floats. -/
def simdCo (u : BitVec 32) : Fl := (b32.div (b32.of u.toInt) (b32.add (b32.of (2 ^ 31 - 1)) (.fin 1))).abs

/-- The value of `randf_oo` in a lane, `PRNG_MT19937_simd.cpp:182-188`, from which the fast generator of Gaussian noise takes a logarithm. -/
def simdOo (u : BitVec 32) : Fl :=
  (b32.div (b32.add (b32.of u.toInt) (.fin (1 / 2))) (b32.add (b32.of (2 ^ 31 - 1)) (.fin 1))).abs

/-- `x <= y`. -/
def le (x y : Fl) : Bool := x.lt y || (x ≠ .nan && x = y)

/-- `set_seed`, `Event_generator_fast.cpp:25-34`, with `L` lanes. -/
def Gen.setSeed (L : Nat) (g : Gen) (s : BitVec 32) : Exec Gen := do
  let mt ← Prng.seed g.mt s
  let r ← forN L (fun i (r : Prng × List (BitVec 32)) => do
    let x ← Prng.rand r.1
    let seeds ← wr r.2 i (BitVec.ofInt 32 x.1)
    ok (x.2, seeds)) (mt, List.replicate L 0#32)
  let simd ← forN L (fun l simd => do
    let s ← rd r.2 l
    let q ← rd simd l
    let q ← Prng.seed q s
    wr simd l q) g.simd
  ok ⟨r.1, simd⟩

/-- The constructors, `Event_generator_fast.cpp:10-16`: the members are built, then `set_seed` is called; what the default seeds are does not
matter. -/
def Gen.make (L : Nat) (s : BitVec 32) : Exec Gen :=
  Gen.setSeed L ⟨⟨List.replicate SIZE 0#32, 0⟩, List.replicate L ⟨List.replicate SIZE 0#32, 0⟩⟩ s

/-- `generate`, `Event_generator_fast.cpp:50-75` (floats, `L = mipp::N<R_32>()`) and `:86-118` (doubles, `L = 2 * mipp::N<R_64>()`: the low half of
the lanes is stored first, then the high half, and the conversion from `float` is exact). -/
def Gen.generate (L : Nat) (g : Gen) (draw : List Nat) (n : Nat) (p : Fl) : Exec (Gen × List Nat) :=
  if p = .fin 0 then do
    let draw ← forN n (fun i draw => wr draw i 0) draw
    ok (g, draw)
  else do
    let r ← forN (n / L) (fun v (r : List Prng × List Nat) => forN L (fun l (r : List Prng × List Nat) => do
      let q ← rd r.1 l
      let x ← randReal simdCc q
      let simd ← wr r.1 l x.2
      let draw ← wr r.2 (v * L + l) (if le x.1 p then 1 else 0)
      ok (simd, draw)) r) (g.simd, draw)
    let t ← forRange (n / L * L) n (fun i (t : Prng × List Nat) => do
      let x ← randReal (cc b32) t.1
      let draw ← wr t.2 i (if le x.1 p then 1 else 0)
      ok (x.2, draw)) (g.mt, r.2)
    ok (⟨t.1, r.1⟩, t.2)

/-- A call of a method: a new seed, or events drawn in a buffer of their number. -/
inductive Op where
  | seed (s : BitVec 32)
  | gen (n : Nat) (p : Fl) (buf : List Nat)

/-- Several calls, and the events drawn by each. -/
def Gen.run (L : Nat) (g : Gen) : List Op → Exec (Gen × List (List Nat))
  | [] => ok (g, [])
  | .seed s :: l => g.setSeed L s >>= fun g => Gen.run L g l >>= fun q => ok (q.1, [] :: q.2)
  | .gen n p buf :: l => g.generate L buf n p >>= fun r => Gen.run L r.1 l >>= fun q => ok (q.1, r.2 :: q.2)

end Verif.Events
