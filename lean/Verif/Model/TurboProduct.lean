import Verif.Model.BCH
import Verif.Model.Interleaver

/-!
# Turbo product encoder

Models `src/Module/Encoder/Turbo_product/Encoder_turbo_product.cpp` (one frame), with the component encoders that the factory passes
(`src/Factory/Module/Encoder/Turbo_product/Encoder_turbo_product.cpp:134-145`): two `Encoder_BCH`.

Simplifications: sizes fit in an `int`; the buffers `U_K` and `X_N` hold the slice of one frame; memorizing is off; `clone` is a copy.
-/

namespace Verif.TurboProduct
open Exec Verif.BCH Verif.Interleaver

/-- Members of `Encoder_turbo_product`, `include/Module/Encoder/Turbo_product/Encoder_turbo_product.hpp:21-29`, with the base class's
`K`, `N` and `info_bits_pos`; `nfr`, `nfc` are the numbers of frames of the component encoders, `nf` that of the interleaver. -/
structure PEnc where
  K : Nat
  N : Nat
  er : Enc
  nfr : Nat
  ec : Enc
  nfc : Nat
  core : Core
  nf : Nat
  ext : Bool
  xi : List Nat
  infoPos : List Nat

/-- `parity_extended ? 1 : 0`. -/
def PEnc.par (e : PEnc) : Nat := if e.ext then 1 else 0

/-- The constructor, `Encoder_turbo_product.cpp:11-78`, after the base constructor (`include/Module/Encoder/Encoder.hxx:29-90`).  The two
tests that compare a member with the value it was initialised with (`:41-57`) cannot fire and are left out. -/
def PEnc.mk? (er : Enc) (nfr : Nat) (ec : Enc) (nfc : Nat) (core : Core) (nf : Nat) : Exec PEnc :=
  if er.K * ec.K = 0 then exc .invalidArgument
  else if core.size = 0 then exc .invalidArgument
  else if er.K * ec.K > core.size then exc .invalidArgument
  else
    let ext := decide (core.size = (er.N + 1) * (ec.N + 1))
    if (ext = true ∧ core.size ≠ (er.N + 1) * (ec.N + 1)) ∨ (ext = false ∧ core.size ≠ er.N * ec.N) then exc .invalidArgument
    else
      let par := if ext then 1 else 0
      if er.N + par ≠ nfc then exc .runtimeError
      else if ec.N + par ≠ nfr then exc .runtimeError
      else ok ⟨er.K * ec.K, core.size, er, nfr, ec, nfc, core, nf, ext, List.replicate core.size 0, List.range (er.K * ec.K)⟩

/-- `compute_parity(x.data() + o, n)`, `src/Tools/Perf/compute_parity.h:9-17`. -/
def computeParity (x : List Nat) (o n : Nat) : Exec Nat :=
  forN n (fun i p => rd x (o + i) >>= fun v => ok (p ^^^ v)) 0

/-- `enc.encode(src.data() + so, dst.data() + d, j)` for a component encoder with `nf` frames (`include/Module/Encoder/Encoder.hxx:170-176`,
`src/Module/Task.cpp:219-346`): frame `j` of the two buffers is used, i.e. `K` values from `so + j * K` and `N` values from
`d + j * N`. -/
def encFrame (e : Enc) (nf : Nat) (src : List Nat) (so : Nat) (dst : List Nat) (d : Nat) (j : Nat) : Exec (List Nat) :=
  if j ≥ nf then exc .invalidArgument
  else if so + j * e.K + e.K ≤ src.length ∧ d + j * e.N + e.N ≤ dst.length then do
    let c ← encode e ((src.drop (so + j * e.K)).take e.K) ((dst.drop (d + j * e.N)).take e.N)
    copyTo c 0 e.N dst (d + j * e.N)
  else ub

/-- `buf[(j+1)*n -1] = compute_parity(buf.data() + j*n, n -1)` when the code is extended, `Encoder_turbo_product.cpp:118-122` and
`:140-144`. -/
def addParity (ext : Bool) (n j : Nat) (buf : List Nat) : Exec (List Nat) :=
  if ext then do
    let p ← computeParity buf (j * n) (n - 1)
    wr buf ((j + 1) * n - 1) p
  else ok buf

/-- Body of the loop over the rows, `Encoder_turbo_product.cpp:115-123`; `X_row_par_off` is `j` when the code is extended, 0 otherwise. -/
def encRow (e : PEnc) (u : List Nat) (j : Nat) (xi : List Nat) : Exec (List Nat) := do
  let xi ← encFrame e.er e.nfr u 0 xi (if e.ext then j else 0) j
  addParity e.ext (e.er.N + e.par) j xi

/-- Body of the loop over the columns, `Encoder_turbo_product.cpp:136-147`; `U_col_M_off` is `j * M`. -/
def encCol (e : PEnc) (x : List Nat) (j : Nat) (xi : List Nat) : Exec (List Nat) := do
  let xi ← encFrame e.ec e.nfc x (j * (e.ec.N + e.par - e.ec.K)) xi (if e.ext then j else 0) j
  addParity e.ext (e.ec.N + e.par) j xi

/-- `_encode`, `Encoder_turbo_product.cpp:101-163`: the new `X_N_i` and the output. -/
def PEnc.encode (e : PEnc) (f : Nat) (u x : List Nat) : Exec (PEnc × List Nat) := do
  let xi ← forN e.ec.K (encRow e u) e.xi
  let x ← interleave e.core 1 e.nf f xi x
  let xi ← forN (e.er.N + e.par) (encCol e x) xi
  let x ← deinterleave e.core 1 e.nf f xi x
  ok ({ e with xi := xi }, x)

end Verif.TurboProduct
