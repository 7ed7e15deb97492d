import Verif.Model.Polar
import Verif.Prelude.Loops
import Mathlib.Data.List.Dedup

/-!
# Multi-kernel polar codes

Models `src/Tools/Code/Polar/Polar_code.cpp` (without the file reader `read_polar_MK_code`) and the encoders
`src/Module/Encoder/Polar_MK/Encoder_polar_MK.cpp` and `Encoder_polar_MK_sys.cpp`.  Elements of type `B` are bit
vectors of any width `w`.
-/

namespace Verif.PolarMK
open Exec

/-- A kernel, `std::vector<std::vector<bool>>`: the list of its rows. -/
abbrev Kernel := List (List Bool)

/-- Members of `Polar_code`, `include/Tools/Code/Polar/Polar_code.hpp:24-26`. -/
structure Code where
  N : Nat
  kernels : List Kernel
  stages : List Nat
  deriving DecidableEq, Repr

/-- Product of two `int`; signed overflow is undefined behaviour. -/
def mulI (a b : Nat) : Exec Nat := if a * b < 2 ^ 31 then ok (a * b) else ub

/-- Element `mat[row][col]` of a `std::vector<std::vector<bool>>`. -/
def rd2 (mat : Kernel) (row col : Nat) : Exec Bool := do
  let r ← rd mat row
  rd r col

/-- Assignment `tmp[i][j] = v`. -/
def wr2 (tmp : Kernel) (i j : Nat) (v : Bool) : Exec Kernel := do
  let r ← rd tmp i
  let r ← wr r j v
  wr tmp i r

/-- The body of the loops of `get_cofactor` on the state `(tmp, i, j)`, `Polar_code.cpp:195-208`. -/
def cofactorStep (mat : Kernel) (p q n row col : Nat) (s : Kernel × Nat × Nat) : Exec (Kernel × Nat × Nat) :=
  if row ≠ p ∧ col ≠ q then do
    let v ← rd2 mat row col
    let t ← wr2 s.1 s.2.1 s.2.2 v
    if s.2.2 + 1 = n - 1 then ok (t, s.2.1 + 1, 0) else ok (t, s.2.1, s.2.2 + 1)
  else ok s

/-- `get_cofactor`, `Polar_code.cpp:184-211`. -/
def cofactor (mat tmp : Kernel) (p q n : Nat) : Exec Kernel := do
  let s ← forN n (fun row => forN n (cofactorStep mat p q n row)) (tmp, 0, 0)
  ok s.1

/-- `determinant_of_matrix`, `Polar_code.cpp:215-240`; `n = 0` runs no turn of the loop.  `D` is an unbounded
integer here: an overflow of `int` would need kernels of more than a dozen rows. -/
def determinant : Nat → Kernel → Exec Int
  | 0, _ => ok 0
  | 1, mat => do
    let b ← rd2 mat 0 0
    ok (if b then 1 else 0)
  | n + 2, mat => do
    let tmp := List.replicate mat.length (List.replicate mat.length false)
    let s ← forN (n + 2) (fun f (s : Int × Int × Kernel) => do
      let t ← cofactor mat s.2.2 0 f (n + 2)
      let b ← rd2 mat 0 f
      let d ← determinant (n + 1) t
      ok (s.1 + s.2.1 * (if b then 1 else 0) * d, -s.2.1, t)) (0, 1, tmp)
    ok s.1

/-- `Polar_code::verif`, `Polar_code.cpp:319-365`: square kernels, invertible kernels (the determinant is not
zero), expected length.  The `std::map` of the number of stages of each kernel is replaced by `dedup` and
`count`, `std::pow` on small integers by the exact power. -/
def Code.verif (c : Code) : Exec Unit :=
  if c.kernels.any (fun k => k.any fun r => r.length ≠ k.length) then exc .lengthError
  else do
    forEach c.kernels (fun k _ => do
      let d ← determinant k.length k
      if d ≠ 0 then ok () else exc .runtimeError) ()
    let m ← forEach c.stages.dedup (fun s m => do
      let k ← rd c.kernels s
      mulI m (k.length ^ c.stages.count s)) 1
    if m ≠ c.N then exc .lengthError else ok ()

/-- `Polar_code::verif_MK`, `Polar_code.cpp:286-317`. -/
def Code.verifMK (c : Code) : Exec Unit :=
  if c.stages.length = 0 then exc .lengthError
  else if c.stages.length < c.kernels.length then exc .lengthError
  else if c.stages.any (fun s => c.kernels.length ≤ s) then exc .runtimeError
  else c.verif

/-- Constructor from the kernels and the stages, `Polar_code.cpp:272-284`: the length is computed before the
stages are checked.  The constructor from a file, `Polar_code.cpp:248-261`, is the same after the file is read. -/
def Code.mk? (kernels : List Kernel) (stages : List Nat) : Exec Code := do
  let n ← forEach stages (fun s n => do
    let k ← rd kernels s
    mulI n k.length) 1
  let c : Code := { N := n, kernels, stages }
  c.verifMK
  ok c

/-- Constructor from the length and one kernel, `Polar_code.cpp:263-270`.  `m` is the number of stages, the
value of `(int)(std::log(N)/std::log(kernel_matrix.size()))`, left unspecified; that conversion is undefined
when `N` is not positive. -/
def Code.mkMono? (N : Int) (kernel : Kernel) (m : Nat) : Exec Code :=
  if N ≤ 0 then ub
  else do
    let c : Code := { N := N.toNat, kernels := [kernel], stages := List.replicate m 0 }
    c.verif
    ok c

/-- `Polar_code::is_mono_kernel`, `Polar_code.cpp:403-411`. -/
def Code.isMono (c : Code) : Exec Nat := do
  let t ← rd c.stages 0
  if c.stages.tail.any (fun s => s ≠ t) then ok 0
  else do
    let k ← rd c.kernels 0
    ok k.length

/-- Entry `(i, j)` of the product of a kernel by itself, `Polar_code.cpp:385-388`.  The indices are in bounds
because the kernels are square. -/
def square (k : Kernel) (i j : Nat) : Bool :=
  (((List.range k.length).filter fun t => (k.getD i []).getD t false && (k.getD t []).getD j false).length) % 2 = 1

/-- The test of one kernel in `Polar_code::can_be_systematic`, `Polar_code.cpp:380-397`. -/
def selfInverse (k : Kernel) : Bool :=
  (List.range k.length).all fun i => (List.range k.length).all fun j => square k i j == decide (i = j)

/-- `Polar_code::can_be_systematic`, `Polar_code.cpp:367-401`. -/
def Code.canBeSystematic (c : Code) : Exec Bool := do
  let t ← c.isMono
  if t = 0 ∧ (List.range (c.stages.length / 2)).any
      (fun l => c.stages.getD l 0 ≠ c.stages.getD (c.stages.length - 1 - l) 0) then ok false
  else ok (c.kernels.all selfInverse)

/-- `Polar_code::get_biggest_kernel_size`, `Polar_code.cpp:431-439`. -/
def Code.biggest (c : Code) : Nat := c.kernels.foldl (fun m k => max m k.length) 0

/-- Members of `Encoder_polar_MK`, `include/Module/Encoder/Polar_MK/Encoder_polar_MK.hpp`: `core` holds `K`, `N`,
`frozen_bits` and `info_bits_pos`; `idx` and `u` are the buffers of one kernel. -/
structure Enc (w : Nat) where
  core : Polar.Enc
  code : Code
  ke : List (List (BitVec w))
  idx : List Nat
  u : List (BitVec w)
  deriving DecidableEq, Repr

/-- One bit as a `B`. -/
def ofBit {w : Nat} (b : Bool) : BitVec w := if b then 1#w else 0#w

/-- The transposed kernel in a flat table, `Encoder_polar_MK.cpp:27` and `50-53`. -/
def flatKernel {w : Nat} (k : Kernel) : Exec (List (BitVec w)) :=
  forN k.length (fun i => forN k.length (fun j o => do
    let b ← rd2 k j i
    wr o (i * k.length + j) (ofBit b))) (List.replicate (k.length * k.length) 0#w)

/-- The loop over the kernels of the constructor, `Encoder_polar_MK.cpp:48-54`. -/
def flatKernels {w : Nat} (ks : List Kernel) : Exec (List (List (BitVec w))) :=
  forEach ks (fun k o => do
    let r ← flatKernel k
    ok (o ++ [r])) []

/-- Constructor, `Encoder_polar_MK.cpp:12-57`: the checks of the base class, the size of the frozen bits, their
number, the flat kernels and `set_frozen_bits`.  `Polar.Enc.mk?` models the same checks, which `Encoder_polar`
makes in the same order. -/
def Enc.mk? (w : Nat) (K N : Int) (code : Code) (frozen : List Bool) : Exec (Enc w) := do
  let core ← Polar.Enc.mk? K N frozen
  let ke ← flatKernels code.kernels
  ok { core, code, ke, idx := List.replicate code.biggest 0, u := List.replicate code.biggest 0#w }

/-- Constructor of `Encoder_polar_MK_sys`, `Encoder_polar_MK_sys.cpp:10-25`. -/
def Enc.mkSys? (w : Nat) (K N : Int) (code : Code) (frozen : List Bool) : Exec (Enc w) := do
  let e ← Enc.mk? w K N code frozen
  let b ← code.canBeSystematic
  if b then ok e else exc .runtimeError

/-- `Encoder_polar_MK::set_frozen_bits`, `Encoder_polar_MK.cpp:161-171` (the code of `Encoder_polar`). -/
def Enc.setFrozen {w : Nat} (e : Enc w) (frozen : List Bool) : Exec (Enc w) := do
  let c ← e.core.setFrozen frozen
  ok { e with core := c }

/-- `sum += u[j] & Ke[stride + j]`, `Encoder_polar_MK.cpp:84-87`; `Ke` holds zeros and ones, so the sum is the
number of `j` whose term is one. -/
def kernelSum {w : Nat} (u ke : List (BitVec w)) (size i : Nat) : Exec Nat :=
  forN size (fun j sum => do
    let a ← rd u j
    let b ← rd ke (i * size + j)
    ok (sum + (a &&& b).toNat)) 0

/-- The lambda `apply_polar_kernel`, `Encoder_polar_MK.cpp:80-90`. -/
def applyKernel {w : Nat} (u : List (BitVec w)) (idx : List Nat) (ke x : List (BitVec w)) (size : Nat) :
    Exec (List (BitVec w)) :=
  forN size (fun i x => do
    let sum ← kernelSum u ke size i
    let p ← rd idx i
    wr x p (BitVec.ofNat w (sum % 2))) x

/-- Buffers used by `light_encode`: the codeword, `idx` and `u`. -/
structure Buf (w : Nat) where
  x : List (BitVec w)
  idx : List Nat
  u : List (BitVec w)
  deriving DecidableEq, Repr

/-- One kernel of one stage, `Encoder_polar_MK.cpp:102-112`. -/
def oneKernel {w : Nat} (ke : List (BitVec w)) (size nk b k : Nat) (s : Buf w) : Exec (Buf w) := do
  let t ← forN size (fun i (t : List Nat × List (BitVec w)) => do
    let ix ← wr t.1 i (b * nk * size + nk * i + k)
    let p ← rd ix i
    let v ← rd s.x p
    let u ← wr t.2 i v
    ok (ix, u)) (s.idx, s.u)
  let x ← applyKernel t.2 t.1 ke s.x size
  ok { x, idx := t.1, u := t.2 }

/-- One stage, the body of the loop over `s`, `Encoder_polar_MK.cpp:95-116`; `nk` is `n_kernels`. -/
def stage {w : Nat} (e : Enc w) (st : Nat) (t : Nat × Buf w) : Exec (Nat × Buf w) := do
  let kn ← rd e.code.kernels st
  let m ← mulI t.1 kn.length
  if m = 0 then ub
  else do
    let ke ← rd e.ke st
    let s ← forN (e.core.N / m) (fun b => forN t.1 (fun k => oneKernel ke kn.length t.1 b k)) t.2
    ok (m, s)

/-- `Encoder_polar_MK::light_encode`, `Encoder_polar_MK.cpp:76-118`. -/
def Enc.lightEncode {w : Nat} (e : Enc w) (s : Buf w) : Exec (Buf w) := do
  let r ← forEach e.code.stages (stage e) (1, s)
  ok r.2

/-- `Encoder_polar_MK::_encode`, `Encoder_polar_MK.cpp:68-74`, with `convert`, `Encoder_polar_MK.cpp:120-139` (the
code of `Encoder_polar::convert`). -/
def Enc.encode {w : Nat} (e : Enc w) (uK xN : List (BitVec w)) : Exec (Enc w × List (BitVec w)) := do
  let x ← e.core.convert uK xN
  let s ← e.lightEncode { x, idx := e.idx, u := e.u }
  ok ({ e with idx := s.idx, u := s.u }, s.x)

/-- The loop of `Encoder_polar_MK_sys::_encode` that clears the frozen positions,
`Encoder_polar_MK_sys.cpp:45-46`; `(B)(!frozen) && X` is 0 or 1. -/
def Enc.mask {w : Nat} (e : Enc w) (x : List (BitVec w)) : Exec (List (BitVec w)) :=
  forN e.core.N (fun i o => do
    let f ← rd e.core.frozen i
    if f then wr o i 0#w
    else do
      let v ← rd o i
      wr o i (if v ≠ 0#w then 1#w else 0#w)) x

/-- `Encoder_polar_MK_sys::_encode`, `Encoder_polar_MK_sys.cpp:36-50`. -/
def Enc.encodeSys {w : Nat} (e : Enc w) (uK xN : List (BitVec w)) : Exec (Enc w × List (BitVec w)) := do
  let x ← e.core.convert uK xN
  let s ← e.lightEncode { x, idx := e.idx, u := e.u }
  let x ← e.mask s.x
  let s ← e.lightEncode { s with x }
  ok ({ e with idx := s.idx, u := s.u }, s.x)

end Verif.PolarMK
