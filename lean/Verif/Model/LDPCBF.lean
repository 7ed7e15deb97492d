import Verif.Model.LDPCBP
import Verif.Prelude.Loops

/-!
# LDPC bit flipping decoders

Models `src/Module/Decoder/LDPC/BF/Decoder_LDPC_bit_flipping.cpp` with `OMWBF/Decoder_LDPC_bit_flipping_OMWBF.cpp` (weighted bit
flipping, soft input) and `Decoder_LDPC_bit_flipping_hard.cpp` with
`PPBF/Decoder_LDPC_probabilistic_parallel_bit_flipping.cpp` (probabilistic parallel bit flipping, hard input), with one frame.
The parity check matrix is the object of `Model/Sparse.lean`: its rows are the variables and its columns the checks.  The decoders
keep references on the matrix and on the positions of the information bits: the model takes values, i.e. these objects outlive the
decoder and are not modified.
-/

namespace Verif.LDPCBF
open Exec Verif.Sparse Verif.Float Verif.LDPCBP

/-! ## Weighted bit flipping -/

/-- The operations of the type `R` of the LLRs: those of `LDPCBP`, the opposite, the product and the constants `1` and `-1`. -/
structure Arith (R : Type) extends Ops R where
  opp : R → R
  mul : R → R → R
  one : R
  mone : R

/-- `float` and `double`. -/
def arithFz (F : Fmt) : Arith Fz where
  toOps := opsFz F
  opp := Fz.opp
  mul := Fz.mul F
  one := ⟨false, .fin 1⟩
  mone := ⟨true, .fin 1⟩

/-- The signed integer types of `b` bits; the opposite and the product are converted to the type before the sum and not after,
which gives the same result when the type is narrower than `int` and when nothing overflows. -/
def arithInt (b : Nat) : Arith Int where
  toOps := opsInt b
  opp x := wrap b (-x)
  mul x y := wrap b (x * y)
  one := 1
  mone := -1

variable {R : Type}

/-- The members of `Decoder_LDPC_bit_flipping_OMWBF` that the decoding reads or writes (`Decoder_LDPC_bit_flipping.hpp:20-44`,
`Decoder_LDPC_bit_flipping_OMWBF.hpp:21-22`).  `decis` and `synd` only contain 0 and 1: they are lists of Booleans.  `transpose`,
`C_to_V`, `V_to_C` and `syndrome_depth` are read by no function of this decoder. -/
structure Soft (R : Type) where
  K : Nat
  N : Nat
  nIte : Int
  H : Mat
  info : List Nat
  factor : R
  enable : Bool
  nv : List Nat
  np : List Nat
  lp : List R
  ymin : List R
  decis : List Bool
  synd : List Bool
  energy : List R
  deriving DecidableEq

/-- The constructors, `src/Module/Decoder/Decoder.cpp:24-43`, `Decoder_LDPC_bit_flipping.cpp:17-110`,
`Decoder_LDPC_bit_flipping_OMWBF.cpp:12-34`; `char8` tells that `R` is `signed char`.  The test on the connections of lines 74-99
can only fail for a matrix whose two descriptions disagree: it is not modelled.  The degrees are stored on 8 bits, lines 101-107. -/
def Soft.mk? (o : Arith R) (char8 : Bool) (K N nIte : Int) (H : Mat) (info : List Nat) (factor : R) (enable : Bool) (depth : Int) :
    Exec (Soft R) :=
  if K ≤ 0 then exc .invalidArgument
  else if N ≤ 0 then exc .invalidArgument
  else if K > N then exc .invalidArgument
  else if !checkLUT info K.toNat then exc .invalidArgument
  else if depth ≤ 0 then exc .invalidArgument
  else if N ≠ H.nRows then exc .invalidArgument
  else if char8 then exc .runtimeError
  else ok ⟨K.toNat, N.toNat, nIte, H, info, factor, enable, H.c2r.map (fun l => l.length % 256), H.r2c.map (fun l => l.length % 256),
    List.replicate N.toNat o.mone, List.replicate H.nCols o.zero, List.replicate N.toNat false, List.replicate H.nCols false,
    List.replicate N.toNat o.zero⟩

/-- The least magnitude of each check, `Decoder_LDPC_bit_flipping.cpp:202-212`. -/
def Soft.mins (o : Arith R) (d : Soft R) (Y : List R) : Exec (List R) :=
  forN d.H.nCols (fun m ymin => do
    let len ← rd d.nv m
    let col ← rd d.H.c2r m
    let v ← forN len (fun j v => do
      let p ← rd col j
      let y ← rd Y p
      ok (if o.lt (o.abs y) v then o.abs y else v)) o.top
    wr ymin m v) d.ymin

/-- The first decisions, `Decoder_LDPC_bit_flipping.cpp:214-217`. -/
def Soft.decide0 (o : Arith R) (d : Soft R) (Y : List R) : Exec (List Bool) :=
  forN d.N (fun i decis => rd Y i >>= fun y => wr decis i (o.isNeg y)) d.decis

/-- `std::vector::at`. -/
def atE {α : Type} (l : List α) (i : Nat) : Exec α := match l[i]? with | some a => ok a | none => exc .outOfRange

/-- The syndrome, `Decoder_LDPC_bit_flipping_OMWBF.cpp:51-59`; the Boolean tells if a check fails.  `at` throws `out_of_range`. -/
def Soft.syndrome (d : Soft R) (decis : List Bool) : Exec (List Bool × Bool) :=
  forN d.H.nCols (fun i (s : List Bool × Bool) => do
    let len ← rd d.nv i
    let b ← forN len (fun j b => do
      let col ← rd d.H.c2r i
      let p ← atE col j
      let x ← rd decis p
      ok (b ^^ x)) false
    let synd ← wr s.1 i b
    ok (synd, s.2 || b)) (d.synd, false)

/-- The energies, `Decoder_LDPC_bit_flipping_OMWBF.cpp:61-70`. -/
def Soft.energies (o : Arith R) (d : Soft R) (Y ymin : List R) (synd : List Bool) : Exec (List R) :=
  forN d.N (fun i energy => do
    let len ← rd d.np i
    let row ← rd d.H.r2c i
    let e ← forN len (fun j e => do
      let m ← rd row j
      let s ← rd synd m
      let v ← rd ymin m
      ok (o.add e (if s then v else o.opp v))) o.zero
    let y ← rd Y i
    wr energy i (o.sub e (o.mul d.factor (o.abs y)))) d.energy

/-- The index of the first greatest energy, `Decoder_LDPC_bit_flipping_OMWBF.cpp:72-82`. -/
def Soft.argmax (o : Arith R) (d : Soft R) (energy : List R) : Exec Nat := do
  let e0 ← rd energy 0
  let r ← forRange 1 d.N (fun i (s : Nat × R) => do
    let e ← rd energy i
    ok (if o.lt s.2 e then (i, e) else s)) (0, e0)
  ok r.1

/-- `if (syndrome) decis[ind_max] = (decis[ind_max] == 0) ? 1 : 0`, `Decoder_LDPC_bit_flipping_OMWBF.cpp:83-84`. -/
def flipIf (b : Bool) (decis : List Bool) (i : Nat) : Exec (List Bool) :=
  if b then rd decis i >>= fun x => wr decis i (!x) else ok decis

/-- `BF_process`, `Decoder_LDPC_bit_flipping_OMWBF.cpp:46-87`: the returned Boolean is false when a check failed before the flip. -/
def Soft.process (o : Arith R) (d : Soft R) (Y : List R) : Exec (Soft R × Bool) := do
  let s ← d.syndrome d.decis
  let energy ← d.energies o Y d.ymin s.1
  let i ← d.argmax o energy
  let decis ← flipIf s.2 d.decis i
  ok ({ d with synd := s.1, energy := energy, decis := decis }, !s.2)

/-- `BF_decode`, `Decoder_LDPC_bit_flipping.cpp:196-239`: the loop stops at the first valid syndrome if the test is enabled. -/
def Soft.decode (o : Arith R) (d : Soft R) (Y : List R) : Exec (Soft R × Bool) := do
  let ymin ← d.mins o Y
  let decis ← d.decide0 o Y
  let r ← forN d.nIte.toNat (fun _ (s : Soft R × Bool × Bool) =>
    if s.2.2 then ok s else do
      let p ← s.1.process o Y
      ok (p.1, p.2, d.enable && p.2)) ({ d with ymin := ymin, decis := decis }, true, false)
  let lp ← forN d.N (fun i lp => rd r.1.decis i >>= fun x => wr lp i (if x then o.mone else o.one)) r.1.lp
  ok ({ r.1 with lp := lp }, r.2.1)

/-- `CWD[0] = synd; return !synd;`, `Decoder_LDPC_bit_flipping.cpp:168-169`. -/
def resOf {α : Type} (synd : Bool) (out : List α) : Res α := ⟨if synd then 1 else 0, if synd then 0 else 1, out⟩

/-- `_decode_siho`, `Decoder_LDPC_bit_flipping.cpp:143-170`. -/
def Soft.siho (o : Arith R) (d : Soft R) (Y : List R) (V : List Bool) : Exec (Soft R × Res Bool) := do
  let r ← d.decode o Y
  let V ← forN d.K (fun i V => do
    let k ← rd d.info i
    let l ← rd r.1.lp k
    wr V i (!o.nonneg l)) V
  ok (r.1, resOf r.2 V)

/-- `_decode_siho_cw`, `Decoder_LDPC_bit_flipping.cpp:172-194`; `hard_decide` is the loop `in[i] < 0` (its vector form is modelled in
`Model/Distance.lean`; both agree on `1` and `-1`). -/
def Soft.sihoCw (o : Arith R) (d : Soft R) (Y : List R) (V : List Bool) : Exec (Soft R × Res Bool) := do
  let r ← d.decode o Y
  let V ← forN d.N (fun i V => rd r.1.lp i >>= fun l => wr V i (o.isNeg l)) V
  ok (r.1, resOf r.2 V)

/-- `_decode_siso`, `Decoder_LDPC_bit_flipping.cpp:126-141`. -/
def Soft.siso (o : Arith R) (d : Soft R) (Y1 Y2 : List R) : Exec (Soft R × Res R) := do
  let r ← d.decode o Y1
  let Y2 ← forN d.N (fun i Y2 => do
    let l ← rd r.1.lp i
    let y ← rd Y1 i
    wr Y2 i (o.sub l y)) Y2
  ok (r.1, resOf r.2 Y2)

/-! ## Probabilistic parallel bit flipping -/

/-- A random source: `draw s e` is the result of the Bernoulli distribution number `e` on a source in state `s` and the next
state.  The generator `std::mt19937` and `std::bernoulli_distribution` are not modelled: the theorems hold for every source. -/
structure Source where
  σ : Type
  draw : σ → Nat → Bool × σ

/-- The members of `Decoder_LDPC_probabilistic_parallel_bit_flipping` (`Decoder_LDPC_bit_flipping_hard.hpp`,
`Decoder_LDPC_probabilistic_parallel_bit_flipping.hpp`); the bits are values of the type `B` of `w` bits, `rng` is the state of the
generator and `nProba` the number of Bernoulli distributions. -/
structure Hard (S : Source) (w : Nat) where
  K : Nat
  N : Nat
  nIte : Nat
  enable : Bool
  depth : Nat
  H : Mat
  info : List Nat
  nProba : Nat
  vn : List (BitVec w)
  cn : List (BitVec w)
  rng : S.σ

/-- The constructors, `src/Module/Decoder/Decoder.cpp:24-43`, `Decoder_LDPC_bit_flipping_hard.cpp:16-59`,
`Decoder_LDPC_probabilistic_parallel_bit_flipping.cpp:11-45`. -/
def Hard.mk? (S : Source) (w : Nat) (char8 : Bool) (K N nIte : Int) (H : Mat) (info : List Nat) (nProba : Nat) (enable : Bool) (depth : Int)
    (rng : S.σ) : Exec (Hard S w) :=
  if K ≤ 0 then exc .invalidArgument
  else if N ≤ 0 then exc .invalidArgument
  else if K > N then exc .invalidArgument
  else if !checkLUT info K.toNat then exc .invalidArgument
  else if nIte ≤ 0 then exc .invalidArgument
  else if depth ≤ 0 then exc .invalidArgument
  else if N ≠ H.nRows then exc .invalidArgument
  else if char8 then exc .runtimeError
  else if nProba ≠ H.rowsMax + 2 then exc .runtimeError
  else ok ⟨K.toNat, N.toNat, nIte.toNat, enable, depth.toNat, H, info, nProba, List.replicate N.toNat 0#w, List.replicate H.nCols 0#w, rng⟩

variable {S : Source} {w : Nat}

/-- `cn_process`, `Decoder_LDPC_probabilistic_parallel_bit_flipping.cpp:56-71`. -/
def Hard.cnProcess (d : Hard S w) (vn cn : List (BitVec w)) : Exec (List (BitVec w)) :=
  forN d.H.nCols (fun c cn => do
    let col ← rd d.H.c2r c
    let b ← forN col.length (fun v b => do
      let p ← rd col v
      let x ← rd vn p
      ok (b ^^^ x)) 0#w
    wr cn c b) cn

/-- `vn_process`, `Decoder_LDPC_probabilistic_parallel_bit_flipping.cpp:73-90`.  The energy is a signed integer that is converted to
the index of a distribution: out of range is undefined behaviour. -/
def Hard.vnProcess (d : Hard S w) (Y cn vn : List (BitVec w)) (rng : S.σ) : Exec (List (BitVec w) × S.σ) :=
  forN d.H.nRows (fun v (s : List (BitVec w) × S.σ) => do
    let row ← rd d.H.r2c v
    let x ← rd s.1 v
    let y ← rd Y v
    let e ← forN row.length (fun c e => do
      let p ← rd row c
      let b ← rd cn p
      ok (e + b.toInt)) (x ^^^ y).toInt
    if 0 ≤ e ∧ e < d.nProba then do
      let r := S.draw s.2 e.toNat
      let vn ← wr s.1 v (x ^^^ (if r.1 then 1#w else 0#w))
      ok (vn, r.2)
    else ub) (vn, rng)

/-- `check_syndrome`, `Decoder_LDPC_bit_flipping_hard.cpp:211-219`. -/
def checkNodes (cn : List (BitVec w)) : Bool := !cn.foldl (fun a b => a || b != 0#w) false

/-- What the loop of `decode` carries: the variables, the checks, the generator, `synd`, `cur_syndrome_depth` and whether the loop
is left. -/
structure Loop (S : Source) (w : Nat) where
  vn : List (BitVec w)
  cn : List (BitVec w)
  rng : S.σ
  synd : Bool
  cur : Nat
  stop : Bool

/-- One turn of the loop of `decode`, `Decoder_LDPC_bit_flipping_hard.cpp:189-203`. -/
def Hard.turn (d : Hard S w) (Y : List (BitVec w)) (s : Loop S w) : Exec (Loop S w) :=
  if s.stop then ok s else do
    let cn ← d.cnProcess s.vn s.cn
    let synd := if d.enable then checkNodes cn else s.synd
    let cur := if d.enable && synd then s.cur + 1 else 0
    if d.enable && synd && decide (cur ≥ d.depth) then ok ⟨s.vn, cn, s.rng, synd, cur, true⟩
    else do
      let r ← d.vnProcess Y cn s.vn s.rng
      ok ⟨r.1, cn, r.2, synd, cur, false⟩

/-- `decode`, `Decoder_LDPC_bit_flipping_hard.cpp:179-209`. -/
def Hard.decode (d : Hard S w) (Y : List (BitVec w)) : Exec (Hard S w × Bool) := do
  let s ← forN d.nIte (fun _ s => d.turn Y s) ⟨d.vn, d.cn, d.rng, false, 0, false⟩
  let synd := if !d.enable || !s.synd then checkNodes s.cn else s.synd
  ok ({ d with vn := s.vn, cn := s.cn, rng := s.rng }, synd)

/-- `_decode_hiho`, `Decoder_LDPC_bit_flipping_hard.cpp:68-89`, `_store`, lines 164-170.  `_decode_siho`, lines 114-137, is this
function on the result of `hard_decide`. -/
def Hard.hiho (d : Hard S w) (Y V : List (BitVec w)) : Exec (Hard S w × Res (BitVec w)) := do
  let vn ← copyTo Y 0 d.N d.vn 0
  let r ← { d with vn := vn }.decode Y
  let V ← forN d.K (fun i V => do
    let k ← rd d.info i
    let x ← rd r.1.vn k
    wr V i x) V
  ok (r.1, resOf r.2 V)

/-- `_decode_hiho_cw`, `Decoder_LDPC_bit_flipping_hard.cpp:91-112`, `_store_cw`, lines 172-177.  `_decode_siho_cw`, lines 139-162, is
this function on the result of `hard_decide`. -/
def Hard.hihoCw (d : Hard S w) (Y V : List (BitVec w)) : Exec (Hard S w × Res (BitVec w)) := do
  let vn ← copyTo Y 0 d.N d.vn 0
  let r ← { d with vn := vn }.decode Y
  let V ← copyTo r.1.vn 0 d.N V 0
  ok (r.1, resOf r.2 V)

end Verif.LDPCBF
