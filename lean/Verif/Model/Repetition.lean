import Mathlib.Algebra.Order.Group.Unbundled.Abs
import Verif.Model.Interleaver

/-!
# Repetition and repeat-accumulate codes

Models `src/Module/Encoder/Repetition/Encoder_repetition_sys.cpp`, `src/Module/Decoder/Repetition/*.cpp`,
`src/Module/Encoder/RA/Encoder_RA.cpp` and `src/Module/Decoder/RA/Decoder_RA.cpp`.

The real type `R` of the decoders is a parameter with its addition and its test `v < 0`, so that exact, wrapping and
saturating arithmetic are instances.  The final `hard_decide` is modelled element-wise as the test `v < 0` (C46).
-/

namespace Verif.Repetition
open Exec

/-- Members of `Encoder_repetition_sys`. -/
structure Enc where
  K : Nat
  N : Nat
  rep : Nat
  buffered : Bool
  infoPos : List Nat
  deriving DecidableEq, Repr

/-- Constructor, `Encoder_repetition_sys.cpp:12-29` after the checks of `Encoder`, `Encoder.hxx:44-61`. -/
def Enc.mk? (K N : Int) (buffered : Bool) : Exec Enc :=
  if K ≤ 0 then exc .invalidArgument
  else if N ≤ 0 then exc .invalidArgument
  else if K > N then exc .invalidArgument
  else if N.tmod K ≠ 0 then exc .invalidArgument
  else
    let rep := (N / K - 1).toNat
    ok ⟨K.toNat, N.toNat, rep, buffered, (List.range K.toNat).map fun k => if buffered then k else (rep + 1) * k⟩

/-- One bit of the unbuffered encoding, `Encoder_repetition_sys.cpp:56-67`. -/
def encodeBit {α : Type _} (rep : Nat) (u : List α) (i : Nat) (x : List α) : Exec (List α) := do
  let bit ← rd u i
  let x ← wr x (i * (rep + 1)) bit
  forN rep (fun j x => wr x (i * (rep + 1) + 1 + j) bit) x

/-- `_encode`, `Encoder_repetition_sys.cpp:40-70`. -/
def Enc.encode {α : Type _} (e : Enc) (u x : List α) : Exec (List α) :=
  if e.buffered then
    copyTo u 0 e.K x 0 >>= forN e.rep (fun i x => copyTo u 0 e.K x ((i + 1) * e.K))
  else forN e.K (encodeBit e.rep u) x

/-- `while (k < n && p(k)) k++`: the final `k`. -/
def scan (n : Nat) (p : Nat → Exec Bool) : Nat → Nat → Exec Nat
  | 0, k => ok k
  | fuel + 1, k => if k < n then p k >>= fun b => if b then scan n p fuel (k + 1) else ok k else ok k

/-- `while (valid && r < n) { valid = p(r); r++; }`: the final `valid`, starting from `true`. -/
def allTrue (n : Nat) (p : Nat → Exec Bool) : Nat → Nat → Exec Bool
  | 0, _ => ok true
  | fuel + 1, r => if r < n then p r >>= fun b => if b then allTrue n p fuel (r + 1) else ok false else ok true

/-- `X_N[a] == X_N[b]`. -/
def same {α : Type _} [DecidableEq α] (x : List α) (a b : Nat) : Exec Bool :=
  rd x a >>= fun u => rd x b >>= fun v => ok (decide (u = v))

/-- `is_codeword`, `Encoder_repetition_sys.cpp:72-104`. -/
def Enc.isCodeword {α : Type _} [DecidableEq α] (e : Enc) (x : List α) : Exec Bool :=
  if e.buffered then
    allTrue e.rep (fun r => scan e.K (fun k => same x k ((r + 1) * e.K + k)) (e.K + 1) 0 >>= fun k => ok (decide (k = e.K)))
      (e.rep + 1) 0
  else
    allTrue e.K (fun k => scan e.rep (fun r => same x (k * (e.rep + 1)) (k * (e.rep + 1) + r + 1)) (e.rep + 1) 0 >>= fun r =>
      ok (decide (r = e.rep))) (e.K + 1) 0

/-- One bit of `_load`, `Decoder_repetition.cpp:42-50`. -/
def loadBit {R : Type _} (K rep : Nat) (y : List R) (i : Nat) (s : List R × List R) : Exec (List R × List R) := do
  let v ← rd y (i * (rep + 1))
  let sys ← wr s.1 i v
  let par ← forN rep (fun j par => rd y (i * (rep + 1) + 1 + j) >>= fun v => wr par (j * K + i) v) s.2
  ok (sys, par)

/-- The buffered branch of `_load`, `Decoder_repetition.cpp:54-56`. -/
def loadBuffered {R : Type _} (K rep : Nat) (y : List R) (s : List R × List R) : Exec (List R × List R) := do
  let sys ← copyTo y 0 K s.1 0
  let par ← forN rep (fun i par => copyTo y ((i + 1) * K) K par (i * K)) s.2
  ok (sys, par)

/-- `_load`, `Decoder_repetition.cpp:36-58`. -/
def load {R : Type _} (K rep : Nat) (buffered : Bool) (y : List R) (s : List R × List R) : Exec (List R × List R) :=
  if buffered then loadBuffered K rep y s else forN K (loadBit K rep y) s

/-- One bit of `Decoder_repetition_std::_decode_siso_alt`, `Decoder_repetition_std.cpp:30-36`. -/
def sisoBit {R : Type _} (add : R → R → R) (K rep : Nat) (sys par : List R) (i : Nat) (ext : List R) : Exec (List R) := do
  let s ← rd sys i
  let v ← forN rep (fun j v => rd par (j * K + i) >>= fun p => ok (add v p)) s
  wr ext i v

/-- `Decoder_repetition_std::_decode_siso_alt`, `Decoder_repetition_std.cpp:26-39`. -/
def sisoStd {R : Type _} (add : R → R → R) (K rep : Nat) (sys par ext : List R) : Exec (List R) :=
  forN K (sisoBit add K rep sys par) ext

/-- Load of a register of `L` lanes. -/
def loadReg {R : Type _} (L : Nat) (x : List R) (i : Nat) : Exec (List R) :=
  if i + L ≤ x.length then ok ((x.drop i).take L) else ub

/-- One register of `Decoder_repetition_fast::_decode_siso_alt`, `Decoder_repetition_fast.cpp:41-47`. -/
def sisoReg {R : Type _} (add : R → R → R) (L K rep : Nat) (sys par : List R) (b : Nat) (ext : List R) : Exec (List R) := do
  let r ← loadReg L sys (b * L)
  let r ← forN rep (fun j r => loadReg L par (j * K + b * L) >>= fun p => ok (List.zipWith add r p)) r
  copyTo r 0 L ext (b * L)

/-- `Decoder_repetition_fast::_decode_siso_alt`, `Decoder_repetition_fast.cpp:37-50`, for `K` a multiple of the register
width `L` (checked by the constructor, `:19-25`). -/
def sisoFast {R : Type _} (add : R → R → R) (L K rep : Nat) (sys par ext : List R) : Exec (List R) :=
  forN (K / L) (sisoReg add L K rep sys par) ext

/-- `hard_decide`, element-wise. -/
def decide' {R : Type _} (neg : R → Bool) (x : List R) (K : Nat) (out : List Nat) : Exec (List Nat) :=
  forN K (fun i o => rd x i >>= fun v => wr o i (if neg v then 1 else 0)) out

/-- `Decoder_repetition::_decode_siho`, `Decoder_repetition.cpp:60-81`; `siso` is the virtual `_decode_siso_alt`; the
lists `sys`, `par`, `ext` are the members as left by earlier calls. -/
def decodeSiho {R : Type _} (neg : R → Bool) (siso : List R → List R → List R → Exec (List R)) (K rep : Nat)
    (buffered : Bool) (y sys par ext : List R) (v : List Nat) : Exec (List Nat) := do
  let (sys, par) ← load K rep buffered y (sys, par)
  let ext ← siso sys par ext
  decide' neg ext K v

/-! ## Repeat-accumulate -/

/-- The repetition loops of `Encoder_RA::_encode`, `Encoder_RA.cpp:63-66`. -/
def raRepeat {α : Type _} (K rep : Nat) (u : List α) (U : List α) : Exec (List α) :=
  forN K (fun i => forN rep (fun j U => rd u i >>= fun b => wr U (i * rep + j) b)) U

/-- The accumulation loop, `Encoder_RA.cpp:71-72`. -/
def raAccumulate (N : Nat) (x : List Nat) : Exec (List Nat) :=
  forN (N - 1) (fun k x => rd x k >>= fun a => rd x (k + 1) >>= fun b => wr x (k + 1) (a ^^^ b)) x

/-- `Encoder_RA::_encode`, `Encoder_RA.cpp:59-75`; `c` is the interleaver core, used on one frame. -/
def raEncode (c : Interleaver.Core) (K rep nf frameId : Nat) (u U tmp x : List Nat) : Exec (List Nat) := do
  let U ← raRepeat K rep u U
  let tmp ← Interleaver.interleave c 1 nf frameId U tmp
  let tmp ← raAccumulate (K * rep) tmp
  copyTo tmp 0 (K * rep) x 0

/-- Constructor of `Encoder_RA` and `Decoder_RA`, `Encoder_RA.cpp:12-40`, `Decoder_RA.cpp:12-60` after the checks of
`Encoder`/`Decoder`: the repetition count. -/
def raCtor (K N : Int) (coreSize : Nat) : Exec Nat :=
  if K ≤ 0 then exc .invalidArgument
  else if N ≤ 0 then exc .invalidArgument
  else if K > N then exc .invalidArgument
  else if N.tmod K ≠ 0 then exc .invalidArgument
  else if (coreSize : Int) ≠ N then exc .lengthError
  else ok (N / K).toNat

section
variable {R : Type} [AddCommGroup R] [LinearOrder R]

/-- `Decoder_RA::check_node`, `Decoder_RA.cpp:148-166`, with `sign`, `:168-173`. -/
def checkNode (a b : R) : R :=
  if decide (0 < a) = decide (0 < b) then min |a| |b| else - min |a| |b|

/-- The working arrays of `Decoder_RA`. -/
structure RaMem (R : Type) where
  Fw : List R
  Bw : List R
  Tu : List R
  Td : List R
  Wu : List R
  Wd : List R
  U : List R

/-- `Fw`, `Decoder_RA.cpp:101-103`. -/
def raForward (N : Nat) (y Td Fw : List R) : Exec (List R) := do
  let t ← rd Td 0
  let Fw ← wr Fw 0 t
  forN (N - 1) (fun k Fw => rd Fw k >>= fun f => rd y k >>= fun v => rd Td (k + 1) >>= fun t =>
    wr Fw (k + 1) (checkNode (f + v) t)) Fw

/-- `Bw`, `Decoder_RA.cpp:106-109`; index `N - 2` is negative for `N = 1`. -/
def raBackward (N : Nat) (y Td Bw : List R) : Exec (List R) :=
  if N < 2 then ub
  else rd y (N - 1) >>= fun v => rd Td (N - 1) >>= fun t => wr Bw (N - 2) (checkNode v t) >>=
    forDown (N - 2) (fun i Bw => rd Bw (i + 1) >>= fun b => rd y (i + 1) >>= fun v => rd Td (i + 1) >>= fun t =>
      wr Bw i (checkNode (b + v) t))

/-- `Tu`, `Decoder_RA.cpp:112-115`. -/
def raExtrinsic (N : Nat) (y Fw Bw Tu : List R) : Exec (List R) := do
  let b ← rd Bw 0
  let v ← rd y 0
  let Tu ← wr Tu 0 (b + v)
  let v1 ← rd y (N - 1)
  let v2 ← rd y (N - 2)
  let f ← rd Fw (N - 2)
  let Tu ← wr Tu (N - 1) (checkNode v1 (v2 + f))
  forRange 1 (N - 1) (fun i Tu => rd Fw (i - 1) >>= fun f => rd y (i - 1) >>= fun v => rd Bw i >>= fun b => rd y i >>= fun w =>
    wr Tu i (checkNode (f + v) (b + w))) Tu

/-- One information bit of the U computation, `Decoder_RA.cpp:124-129`. -/
def raUBit (rep : Nat) (Wu : List R) (i : Nat) (s : List R × List R) : Exec (List R × List R) := do
  let tmp ← forN rep (fun j t => rd Wu (i * rep + j) >>= fun w => ok (t + w)) 0
  let Wd ← forN rep (fun j Wd => rd Wu (i * rep + j) >>= fun w => wr Wd (i * rep + j) (tmp - w)) s.1
  let U ← wr s.2 i tmp
  ok (Wd, U)

/-- One iteration, `Decoder_RA.cpp:94-134`. -/
def raIter (c : Interleaver.Core) (K rep nf frameId : Nat) (y : List R) (m : RaMem R) : Exec (RaMem R) := do
  let N := K * rep
  let Fw ← raForward N y m.Td m.Fw
  let Bw ← raBackward N y m.Td m.Bw
  let Tu ← raExtrinsic N y Fw Bw m.Tu
  let Wu ← Interleaver.deinterleave c 1 nf frameId Tu m.Wu
  let (Wd, U) ← forN K (raUBit rep Wu) (m.Wd, m.U)
  let Td ← Interleaver.interleave c 1 nf frameId Wd m.Td
  ok ⟨Fw, Bw, Tu, Td, Wu, Wd, U⟩

/-- `Decoder_RA::_decode_siho`, `Decoder_RA.cpp:79-146`; `m` holds the arrays as left by earlier calls. -/
def raDecode (c : Interleaver.Core) (K rep nf frameId maxIter : Nat) (y : List R) (m : RaMem R) (v : List Nat) :
    Exec (List Nat) := do
  let N := K * rep
  let Fw ← forN N (fun i a => wr a i 0) m.Fw
  let Bw ← forN N (fun i a => wr a i 0) m.Bw
  let Td ← forN N (fun i a => wr a i 0) m.Td
  let m ← forN maxIter (fun _ m => raIter c K rep nf frameId y m) { m with Fw := Fw, Bw := Bw, Td := Td }
  decide' (fun x : R => decide (x < 0)) m.U K v

end

end Verif.Repetition
