import Verif.Model.Interleaver
import Mathlib.Algebra.Order.Group.Unbundled.Abs

/-!
# Repeat-accumulate codes

Models `src/Module/Encoder/RA/Encoder_RA.cpp` and `src/Module/Decoder/RA/Decoder_RA.cpp`.  Bits are `Nat`s.  The arithmetic
of the LLRs is a parameter (`Ops`), instantiated by exact arithmetic on any ordered group and by `w`-bit integers.  The
interleaver is the model of `Verif.Interleaver`; one frame per wave; `nf` is the number of frames of the module.  Not
modelled: `clone`, `set_n_frames`, and `Xd`, `Xu`, which are never used.
-/

namespace Verif.RA
open Exec Verif.Interleaver

/-- Members of `Encoder_RA`, `include/Module/Encoder/RA/Encoder_RA.hpp`. -/
structure Enc where
  K : Nat
  N : Nat
  rep : Nat
  U : List Nat
  tmp : List Nat
  pos : List Nat
  core : Core
  nf : Nat

/-- Checks of the base classes (`Encoder.hxx:44-63`, and `src/Module/Decoder/Decoder.cpp:24-43` for the decoder) and of
`Encoder_RA.cpp:21-34`. -/
def sizes (K N : Int) (core : Core) : Exec (Nat × Nat) :=
  if K ≤ 0 then exc .invalidArgument
  else if N ≤ 0 then exc .invalidArgument
  else if K > N then exc .invalidArgument
  else if N.toNat % K.toNat ≠ 0 then exc .invalidArgument
  else if core.size ≠ N.toNat then exc .lengthError
  else ok (K.toNat, N.toNat)

/-- Constructor, `Encoder_RA.cpp:14-40`. -/
def Enc.mk? (K N : Int) (core : Core) (nf : Nat) : Exec Enc := do
  let s ← sizes K N core
  ok ⟨s.1, s.2, s.2 / s.1, List.replicate s.2 0, List.replicate s.2 0, (List.range s.1).map fun k => s.2 / s.1 * k, core, nf⟩

/-- `_encode`, `Encoder_RA.cpp:59-75`. -/
def Enc.encode (e : Enc) (f : Nat) (u x : List Nat) : Exec (Enc × List Nat) := do
  let U ← forN e.K (fun i U => forN e.rep (fun j U => rd u i >>= fun b => wr U (i * e.rep + j) b) U) e.U
  let tmp ← interleave e.core 1 e.nf f U e.tmp
  let tmp ← forRange 1 e.N (fun i t => do
    let a ← rd t (i - 1)
    let b ← rd t i
    wr t i (a ^^^ b)) tmp
  let x ← copyTo tmp 0 tmp.length x 0
  ok ({ e with U := U, tmp := tmp }, x)

/-! ## Decoder -/

/-- Arithmetic of the LLRs: every result is converted to the type `R` of the LLRs. -/
structure Ops (R : Type) where
  zero : R
  add : R → R → R
  sub : R → R → R
  neg : R → R
  abs : R → R
  min : R → R → R
  pos : R → Bool
  isNeg : R → Bool

/-- Exact arithmetic. -/
def exact (R : Type) [AddCommGroup R] [LinearOrder R] : Ops R :=
  ⟨0, (· + ·), (· - ·), (- ·), fun a => |a|, fun a b => if b < a then b else a, fun a => decide (0 < a), fun a => decide (a < 0)⟩

/-- Integers of `w` bits: operations are computed on `int` and converted back. -/
def fixed (w : Nat) : Ops (BitVec w) :=
  ⟨0#w, fun a b => BitVec.ofInt w (a.toInt + b.toInt), fun a b => BitVec.ofInt w (a.toInt - b.toInt), fun a => BitVec.ofInt w (-a.toInt),
    fun a => BitVec.ofInt w a.toInt.natAbs, fun a b => if b.toInt < a.toInt then b else a, fun a => decide (0 < a.toInt),
    fun a => decide (a.toInt < 0)⟩

/-- `check_node` and `sign`, `Decoder_RA.cpp:148-173`. -/
def chk {R : Type} (o : Ops R) (a b : R) : R :=
  let m := o.min (o.abs a) (o.abs b)
  if o.pos a ≠ o.pos b then o.neg m else m

/-- Members of `Decoder_RA`, `include/Module/Decoder/RA/Decoder_RA.hpp:22-31`. -/
structure Dec (R : Type) where
  K : Nat
  N : Nat
  rep : Nat
  iters : Nat
  Fw : List R
  Bw : List R
  Tu : List R
  Td : List R
  Wu : List R
  Wd : List R
  U : List R
  core : Core
  nf : Nat

/-- Constructor, `Decoder_RA.cpp:12-60`. -/
def Dec.mk? {R : Type} (o : Ops R) (K N : Int) (core : Core) (nf : Nat) (iters : Int) : Exec (Dec R) :=
  if K ≤ 0 ∨ N ≤ 0 ∨ K > N then exc .invalidArgument
  else if iters ≤ 0 then exc .invalidArgument
  else do
    let s ← sizes K N core
    let z := List.replicate s.2 o.zero
    ok ⟨s.1, s.2, s.2 / s.1, iters.toNat, z, z, z, z, z, z, List.replicate s.1 o.zero, core, nf⟩

/-- `Decoder_RA.cpp:85-90`. -/
def Dec.load {R : Type} (o : Ops R) (d : Dec R) : Exec (Dec R) := do
  let s ← forN d.N (fun i (s : List R × List R × List R) => do
    let a ← wr s.1 i o.zero
    let b ← wr s.2.1 i o.zero
    let c ← wr s.2.2 i o.zero
    ok (a, b, c)) (d.Fw, d.Bw, d.Td)
  ok { d with Fw := s.1, Bw := s.2.1, Td := s.2.2 }

/-- Forward recursion, `Decoder_RA.cpp:101-103`. -/
def forward {R : Type} (o : Ops R) (N : Nat) (Y Td Fw : List R) : Exec (List R) := do
  let t ← rd Td 0
  let Fw ← wr Fw 0 t
  forRange 1 N (fun i F => do
    let a ← rd F (i - 1)
    let y ← rd Y (i - 1)
    let t ← rd Td i
    wr F i (chk o (o.add a y) t)) Fw

/-- Backward recursion, `Decoder_RA.cpp:106-109`; `Bw[N - 2]` is out of bounds for `N = 1`. -/
def backward {R : Type} (o : Ops R) (N : Nat) (Y Td Bw : List R) : Exec (List R) :=
  if N < 2 then ub
  else do
    let y ← rd Y (N - 1)
    let t ← rd Td (N - 1)
    let Bw ← wr Bw (N - 2) (chk o y t)
    forN (N - 2) (fun k B => do
      let i := N - 3 - k
      let a ← rd B (i + 1)
      let y ← rd Y (i + 1)
      let t ← rd Td (i + 1)
      wr B i (chk o (o.add a y) t)) Bw

/-- Extrinsic values, `Decoder_RA.cpp:112-115` (`N` is at least 2 here). -/
def extrinsic {R : Type} (o : Ops R) (N : Nat) (Y Fw Bw Tu : List R) : Exec (List R) := do
  let b ← rd Bw 0
  let y ← rd Y 0
  let Tu ← wr Tu 0 (o.add b y)
  let y1 ← rd Y (N - 1)
  let y2 ← rd Y (N - 2)
  let f ← rd Fw (N - 2)
  let Tu ← wr Tu (N - 1) (chk o y1 (o.add y2 f))
  forRange 1 (N - 1) (fun i T => do
    let f ← rd Fw (i - 1)
    let y1 ← rd Y (i - 1)
    let b ← rd Bw i
    let y2 ← rd Y i
    wr T i (chk o (o.add f y1) (o.add b y2))) Tu

/-- Sums over the repetitions, `Decoder_RA.cpp:121-130`. -/
def combine {R : Type} (o : Ops R) (K rep : Nat) (Wu Wd U : List R) : Exec (List R × List R) :=
  forN K (fun i (s : List R × List R) => do
    let tmp ← forN rep (fun j t => rd Wu (i * rep + j) >>= fun v => ok (o.add t v)) o.zero
    let Wd ← forN rep (fun j W => rd Wu (i * rep + j) >>= fun v => wr W (i * rep + j) (o.sub tmp v)) s.1
    let U ← wr s.2 i tmp
    ok (Wd, U)) (Wd, U)

/-- One iteration, `Decoder_RA.cpp:94-134`. -/
def Dec.iter {R : Type} (o : Ops R) (f : Nat) (Y : List R) (d : Dec R) : Exec (Dec R) := do
  let Fw ← forward o d.N Y d.Td d.Fw
  let Bw ← backward o d.N Y d.Td d.Bw
  let Tu ← extrinsic o d.N Y Fw Bw d.Tu
  let Wu ← deinterleave d.core 1 d.nf f Tu d.Wu
  let r ← combine o d.K d.rep Wu d.Wd d.U
  let Td ← interleave d.core 1 d.nf f r.1 d.Td
  ok { d with Fw := Fw, Bw := Bw, Tu := Tu, Td := Td, Wu := Wu, Wd := r.1, U := r.2 }

/-- `_decode_siho`, `Decoder_RA.cpp:79-146`; `hard_decide` is element-wise (see C46). -/
def Dec.decode {R : Type} (o : Ops R) (d : Dec R) (f : Nat) (Y : List R) (V : List Nat) : Exec (Dec R × List Nat) := do
  let d ← d.load o
  let d ← forN d.iters (fun _ d => d.iter o f Y) d
  let V ← forN d.K (fun i V => rd d.U i >>= fun v => wr V i (if o.isNeg v then 1 else 0)) V
  ok (d, V)

end Verif.RA
