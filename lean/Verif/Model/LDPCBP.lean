import Verif.Prelude.Float
import Verif.Model.Sparse

/-!
# LDPC belief propagation decoders

Models `include/Module/Decoder/LDPC/BP/{Flooding,Horizontal_layered,Vertical_layered}/*.hxx` (the scalar decoders, not the SIMD
ones), `include/Module/Decoder/LDPC/BP/Decoder_LDPC_BP.hxx`, `src/Module/Decoder/LDPC/BP/Decoder_LDPC_BP.cpp` and the update rules
`include/Tools/Code/LDPC/Update_rule/{MS,OMS,NMS,AMS,SPA,LSPA}/*.hxx`, with one frame.  The parity check matrix is the object of
`Model/Sparse.lean`: its rows are the variables and its columns the checks.
-/

namespace Verif.LDPCBP
open Exec Verif.Sparse Verif.Float

/-! ## The type of the LLRs -/

/-- The operations of the type `R` of the LLRs: `0`, `std::numeric_limits<R>::max()`, `+`, `-`, `std::abs`, `std::signbit`,
`std::copysign` (the second argument is the sign), `<`, `==`, the tests `x < 0` and `x >= 0`. -/
structure Ops (R : Type) where
  zero : R
  top : R
  add : R → R → R
  sub : R → R → R
  abs : R → R
  sign : R → Bool
  csign : R → Bool → R
  lt : R → R → Bool
  eq : R → R → Bool
  isNeg : R → Bool
  nonneg : R → Bool

variable {R : Type}

/-- `std::min`. -/
def Ops.min (o : Ops R) (a b : R) : R := if o.lt b a then b else a

/-- `std::max`. -/
def Ops.max (o : Ops R) (a b : R) : R := if o.lt a b then b else a

/-- A floating-point number with its sign bit: the magnitude is a non-negative number, infinite, or not a number. -/
structure Fz where
  neg : Bool
  mag : Fl
  deriving DecidableEq

/-- The value, without the sign of a zero. -/
def Fz.val (x : Fz) : Fl := if x.neg then x.mag.neg else x.mag

/-- A value and the sign to give it if it is null (or not a number). -/
def Fz.of (v : Fl) (z : Bool) : Fz :=
  match v with
  | .fin q => ⟨if q = 0 then z else decide (q < 0), .fin |q|⟩
  | .inf s => ⟨s, .inf false⟩
  | .nan => ⟨z, .nan⟩

/-- Opposite. -/
def Fz.opp (x : Fz) : Fz := ⟨!x.neg, x.mag⟩

/-- Sum, rounded to nearest: a null sum is negative only when both terms are. -/
def Fz.add (F : Fmt) (x y : Fz) : Fz := Fz.of (F.add x.val y.val) (x.neg && y.neg)

/-- Difference. -/
def Fz.sub (F : Fmt) (x y : Fz) : Fz := Fz.add F x y.opp

/-- Product. -/
def Fz.mul (F : Fmt) (x y : Fz) : Fz := Fz.of (F.mul x.val y.val) (x.neg ^^ y.neg)

/-- Quotient, for a positive divisor. -/
def Fz.div (F : Fmt) (x y : Fz) : Fz := Fz.of (F.div x.val y.val) (x.neg ^^ y.neg)

/-- `x >= 0`. -/
def nonnegFl : Fl → Bool
  | .fin q => decide (0 ≤ q)
  | .inf s => !s
  | .nan => false

/-- The greatest finite number of a format. -/
def maxFin (F : Fmt) : ℚ := (2 ^ F.p - 1) * 2 ^ (F.emax - F.p)

/-- `float` and `double`. -/
def opsFz (F : Fmt) : Ops Fz where
  zero := ⟨false, .fin 0⟩
  top := ⟨false, .fin (maxFin F)⟩
  add := Fz.add F
  sub := Fz.sub F
  abs x := ⟨false, x.mag⟩
  sign x := x.neg
  csign x s := ⟨s, x.mag⟩
  lt x y := Fl.lt x.val y.val
  eq x y := decide (x.val = y.val) && decide (x.val ≠ .nan)
  isNeg x := Fl.lt x.val (.fin 0)
  nonneg x := nonnegFl x.val

/-- Conversion to a signed integer type of `b` bits. -/
def wrap (b : Nat) (x : Int) : Int := x.bmod (2 ^ b)

/-- The signed integer types of `b` bits: the operations are those of `int`, then a conversion.  `copysign` is on `double`. -/
def opsInt (b : Nat) : Ops Int where
  zero := 0
  top := 2 ^ (b - 1) - 1
  add x y := wrap b (x + y)
  sub x y := wrap b (x - y)
  abs x := wrap b |x|
  sign x := decide (x < 0)
  csign x s := wrap b (if s then -|x| else |x|)
  lt x y := decide (x < y)
  eq x y := decide (x = y)
  isNeg x := decide (x < 0)
  nonneg x := decide (0 ≤ x)

/-! ## The update rules -/

/-- An update rule: `start` is the state after `begin_chk_node_in`, `inp` is `compute_chk_node_in`, `mid` is `end_chk_node_in` and
`begin_chk_node_out`, `out` is `compute_chk_node_out`.  The other functions only record the number of the iteration, which no rule
reads. -/
structure Rule (R : Type) where
  σ : Type
  start : σ
  inp : σ → Nat → R → σ
  mid : σ → σ
  out : σ → Nat → R → R

/-- The members of `Update_rule_MS`, `Update_rule_MS.hpp:27-31`. -/
structure MSt (R : Type) where
  sign : Bool
  min1 : R
  min2 : R
  cst1 : R
  cst2 : R

/-- `begin_chk_node_in`, `Update_rule_MS.hxx:42-49`; the other members are written before they are read. -/
def msStart (o : Ops R) : MSt R := ⟨false, o.top, o.top, o.zero, o.zero⟩

/-- `compute_chk_node_in`, `Update_rule_MS.hxx:51-61`. -/
def msIn (o : Ops R) (s : MSt R) (_ : Nat) (x : R) : MSt R :=
  { s with
    sign := s.sign ^^ o.sign x
    min2 := o.min s.min2 (o.max (o.abs x) s.min1)
    min1 := o.min s.min1 (o.abs x) }

/-- `compute_chk_node_out`, `Update_rule_MS.hxx:77-86`. -/
def msOut (o : Ops R) (s : MSt R) (_ : Nat) (x : R) : R :=
  o.csign (if o.eq (o.abs x) s.min1 then s.cst1 else s.cst2) (s.sign ^^ o.sign x)

/-- `Update_rule_MS`; `end_chk_node_in`, `Update_rule_MS.hxx:63-69`. -/
def ms (o : Ops R) : Rule R :=
  ⟨MSt R, msStart o, msIn o, fun s => { s with cst1 := o.max o.zero s.min2, cst2 := o.max o.zero s.min1 }, msOut o⟩

/-- `Update_rule_OMS`; `end_chk_node_in`, `Update_rule_OMS.hxx:51-59`, the rest is that of `MS`. -/
def oms (o : Ops R) (offset : R) : Rule R :=
  ⟨MSt R, msStart o, msIn o,
    fun s => { s with cst1 := o.max o.zero (o.sub s.min2 offset), cst2 := o.max o.zero (o.sub s.min1 offset) }, msOut o⟩

/-- `Update_rule_NMS`; `end_chk_node_in`, `Update_rule_NMS.hxx:87-95`, the rest is that of `MS`; `norm` is the multiplication by the
factor. -/
def nms (o : Ops R) (norm : R → R) : Rule R :=
  ⟨MSt R, msStart o, msIn o, fun s => { s with cst1 := o.max o.zero (norm s.min2), cst2 := o.max o.zero (norm s.min1) }, msOut o⟩

/-- `normalize`, `Update_rule_NMS.hxx:33-43`. -/
def normFz (F : Fmt) (factor : Fz) (x : Fz) : Fz := Fz.mul F x factor

/-- `normalize`, `Update_rule_NMS.hxx:13-31`, for an integer type and a factor of `k` eighths; other factors throw. -/
def normInt (b k : Nat) (x : Int) : Int :=
  if k = 1 then x / 8
  else if k = 2 then x / 4
  else if k = 3 then wrap b (x / 4 + x / 8)
  else if k = 4 then x / 2
  else if k = 5 then wrap b (x / 2 + x / 8)
  else if k = 6 then wrap b (x / 2 + x / 4)
  else if k = 7 then wrap b (x / 2 + x / 4 + x / 8)
  else x

/-- The members of `Update_rule_AMS`, `Update_rule_AMS.hpp:21-24`. -/
structure ASt (R : Type) where
  sign : Bool
  min : R
  dmin : R
  delta : R

/-- `Update_rule_AMS`, `Update_rule_AMS.hxx:42-87`; `MIN` is the template argument. -/
def ams (o : Ops R) (MIN : R → R → R) : Rule R :=
  ⟨ASt R, ⟨false, o.top, o.top, o.zero⟩,
    fun s _ x =>
      { s with
        sign := s.sign ^^ o.sign x
        min := o.min s.min (o.abs x)
        dmin := MIN s.dmin (if o.eq (o.abs x) (o.min s.min (o.abs x)) then s.min else o.abs x) },
    fun s => { s with delta := o.max o.zero (MIN s.dmin s.min), dmin := o.max o.zero s.dmin },
    fun s _ x => o.csign (if o.eq (o.abs x) s.min then s.dmin else s.delta) (s.sign ^^ o.sign x)⟩

/-- The members of `Update_rule_SPA` and `Update_rule_LSPA`: `acc` is `product` or `sum`, `values` is a vector in the code. -/
structure PSt where
  sign : Bool
  acc : Fz
  values : Nat → Fz

/-- The value 1. -/
def one : Fz := ⟨false, .fin 1⟩

/-- `1 - std::numeric_limits<R>::epsilon()`. -/
def oneMinus (F : Fmt) : Fz := ⟨false, .fin (1 - 2 ^ (1 - (F.p : Int)))⟩

/-- `std::numeric_limits<R>::min()`: the smallest positive normal number. -/
def minNormal (F : Fmt) : Fz := ⟨false, .fin (2 ^ (F.emin + F.p - 1))⟩

/-- `Update_rule_SPA`, `Update_rule_SPA.hxx:57-102`; `th x` is `tanh(x * 0.5)` and `ath x` is `2.0 * atanh(x)`. -/
def spa (F : Fmt) (th ath : Fz → Fz) : Rule Fz :=
  ⟨PSt, ⟨false, one, fun _ => one⟩,
    fun s i x => ⟨s.sign ^^ x.neg, Fz.mul F s.acc (th ⟨false, x.mag⟩), fun j => if j = i then th ⟨false, x.mag⟩ else s.values j⟩,
    fun s => s,
    fun s i x =>
      let t := Fz.div F s.acc (s.values i)
      ⟨s.sign ^^ x.neg, (ath (if Fl.lt t.val one.val then t else oneMinus F)).mag⟩⟩

/-- `Update_rule_LSPA`, `Update_rule_LSPA.hxx:57-103`; `th x` is `tanh(x * 0.5)`, `ath x` is `2.0 * atanh(x)`. -/
def lspa (F : Fmt) (th ath ln ex : Fz → Fz) : Rule Fz :=
  let res := fun x : Fz => if (th ⟨false, x.mag⟩).val ≠ .fin 0 then ln (th ⟨false, x.mag⟩) else minNormal F
  ⟨PSt, ⟨false, ⟨false, .fin 0⟩, fun _ => one⟩,
    fun s i x => ⟨s.sign ^^ x.neg, Fz.add F s.acc (res x), fun j => if j = i then res x else s.values j⟩,
    fun s => s,
    fun s i x =>
      let t := Fz.sub F s.acc (s.values i)
      ⟨s.sign ^^ x.neg, (ath (if t.val ≠ .fin 0 then ex t else oneMinus F)).mag⟩⟩

/-! ## What the decoders share -/

/-- The parameters of a decoder, `Decoder_LDPC_BP.hpp:17-22`, `Decoder_LDPC_BP_flooding.hpp:24`, that no call modifies. -/
structure Cfg where
  K : Nat
  N : Nat
  nIte : Nat
  H : Mat
  syndrome : Bool
  depth : Nat
  info : List Nat
  deriving DecidableEq

/-- `tools::check_LUT`, `src/Tools/general_utils.cpp:179-204`. -/
def checkLUT (l : List Nat) (size : Nat) : Bool := (size = 0 || l.length = size) && decide l.Nodup

/-- The checks of the constructors, `src/Module/Decoder/Decoder.cpp:24-43`, `Decoder_LDPC_BP.cpp:9-41`,
`Decoder_LDPC_BP_flooding.hxx:34`. -/
def Cfg.mk? (K N nIte : Int) (H : Mat) (info : List Nat) (syndrome : Bool) (depth : Int) : Exec Cfg :=
  if K ≤ 0 then exc .invalidArgument
  else if N ≤ 0 then exc .invalidArgument
  else if K > N then exc .invalidArgument
  else if nIte ≤ 0 then exc .invalidArgument
  else if depth ≤ 0 then exc .invalidArgument
  else if N ≠ H.nRows then exc .invalidArgument
  else if !checkLUT info K.toNat then exc .invalidArgument
  else ok ⟨K.toNat, N.toNat, nIte.toNat, H, syndrome, depth.toNat, info⟩

/-- `check_syndrome_soft`, `Decoder_LDPC_BP.hxx:8-20`; `cur` is `cur_syndrome_depth`. -/
def Cfg.check (o : Ops R) (g : Cfg) (cur : Nat) (Y : List R) : Exec (Nat × Bool) :=
  if g.syndrome then do
    let s ← checkSoft o.isNeg Y g.H
    let cur := if s then (cur + 1) % g.depth else 0
    ok (cur, s && decide (cur = 0))
  else ok (cur, false)

/-- What a call gives: `CWD[0]`, the returned status and the output. -/
structure Res (α : Type) where
  cwd : Nat
  status : Nat
  out : List α
  deriving DecidableEq

/-- `CWD[0] = !status; return status;`. -/
def res {α : Type} (status : Bool) (out : List α) : Res α := ⟨if status then 0 else 1, if status then 1 else 0, out⟩

/-- The decisions on the information bits, `Decoder_LDPC_BP_flooding.hxx:115-119`,
`Decoder_LDPC_BP_horizontal_layered.hxx:97-101`, `Decoder_LDPC_BP_vertical_layered.hxx:110-114`. -/
def Cfg.store (o : Ops R) (g : Cfg) (post : List R) (V : List Nat) : Exec (List Nat) :=
  forN g.K (fun v V => do
    let k ← rd g.info v
    let x ← rd post k
    wr V v (if o.nonneg x then 0 else 1)) V

/-- `tools::hard_decide`, `src/Tools/Perf/common/hard_decide.cpp:6-37`: the sign bit in the registers of `lanes` elements, the test
`x < 0` for the others.  The loops are modelled in `Model/Distance.lean`. -/
def Cfg.storeCw (o : Ops R) (lanes : Nat) (g : Cfg) (post : List R) (V : List Nat) : Exec (List Nat) :=
  forN g.N (fun v V => do
    let x ← rd post v
    wr V v (if (if v < g.N / lanes * lanes then o.sign x else o.isNeg x) then 1 else 0)) V

/-- The extrinsic values, `Decoder_LDPC_BP_flooding.hxx:94-95`, `Decoder_LDPC_BP_horizontal_layered.hxx:72-73`,
`Decoder_LDPC_BP_vertical_layered.hxx:85-86`. -/
def Cfg.extrinsic (o : Ops R) (g : Cfg) (post Y Y2 : List R) : Exec (List R) :=
  forN g.N (fun v Y2 => do
    let x ← rd post v
    let y ← rd Y v
    wr Y2 v (o.sub x y)) Y2

/-! ## Flooding -/

/-- The members, `Decoder_LDPC_BP_flooding.hpp:24-31`; `auto` is `auto_reset`, `cur` is `cur_syndrome_depth`. -/
structure Flood (R : Type) where
  cfg : Cfg
  cur : Nat
  auto : Bool
  tr : List Nat
  post : List R
  c2v : List R
  v2c : List R
  deriving DecidableEq

/-- The state of the loops that build `transpose`. -/
structure TrSt where
  conns : List Nat
  tr : List Nat
  k : Nat

/-- The body of the inner loop that builds `transpose`, `Decoder_LDPC_BP_flooding.hxx:46-64`; `connections` is a vector of
`unsigned char`. -/
def trBody (H : Mat) (col : List Nat) (j : Nat) (s : TrSt) : Exec TrSt := do
  let v ← rd col j
  let b ← forN v (fun ii b => rd H.r2c ii >>= fun row => ok (b + row.length)) 0
  let n ← rd s.conns v
  let conns ← wr s.conns v ((n + 1) % 256)
  let row ← rd H.r2c v
  if (n + 1) % 256 > row.length then exc .runtimeError
  else do
    let tr ← wr s.tr s.k (b + n)
    ok ⟨conns, tr, s.k + 1⟩

/-- `transpose`, `Decoder_LDPC_BP_flooding.hxx:36-66`. -/
def buildTr (H : Mat) : Exec (List Nat) := do
  let s ← forN H.c2r.length (fun i s => rd H.c2r i >>= fun col => forN col.length (trBody H col) s)
    ⟨List.replicate H.nRows 0, List.replicate H.nConn 0, 0⟩
  ok s.tr

/-- `_reset`, `Decoder_LDPC_BP_flooding.hxx:80-85`. -/
def Flood.reset (o : Ops R) (d : Flood R) : Flood R := { d with c2v := List.replicate d.c2v.length o.zero }

/-- Constructor, `Decoder_LDPC_BP_flooding.hxx:14-69`; `post0` is the value -1. -/
def Flood.mk? (o : Ops R) (post0 : R) (K N nIte : Int) (H : Mat) (info : List Nat) (syndrome : Bool) (depth : Int) :
    Exec (Flood R) := do
  let g ← Cfg.mk? K N nIte H info syndrome depth
  let tr ← buildTr H
  ok (Flood.reset o ⟨g, 0, true, tr, List.replicate g.N post0, List.replicate H.nConn o.zero, List.replicate H.nConn o.zero⟩)

/-- The sum of the messages of a variable, `Decoder_LDPC_BP_flooding.hxx:197-199,247-249`. -/
def sumMsg (o : Ops R) (c2v : List R) (p deg : Nat) : Exec R :=
  forN deg (fun c s => rd c2v (p + c) >>= fun m => ok (o.add s m)) o.zero

/-- `_initialize_var_to_chk`, `Decoder_LDPC_BP_flooding.hxx:185-208`. -/
def initV2C (o : Ops R) (H : Mat) (Y c2v v2c : List R) : Exec (List R) := do
  let s ← forN H.nRows (fun v (s : Nat × List R) => do
    let row ← rd H.r2c v
    let sum ← sumMsg o c2v s.1 row.length
    let y ← rd Y v
    let tmp := o.add y sum
    let v2c ← forN row.length (fun c v2c => rd c2v (s.1 + c) >>= fun m => wr v2c (s.1 + c) (o.sub tmp m)) s.2
    ok (s.1 + row.length, v2c)) (0, v2c)
  ok s.2

/-- `_decode_single_ite`, `Decoder_LDPC_BP_flooding.hxx:210-234`. -/
def floodIte (r : Rule R) (H : Mat) (tr : List Nat) (v2c c2v : List R) : Exec (List R) := do
  let s ← forN H.nCols (fun c (s : Nat × List R) => do
    let col ← rd H.c2r c
    let st ← forN col.length (fun v st => do
      let t ← rd tr (s.1 + v)
      let x ← rd v2c t
      ok (r.inp st v x)) r.start
    let c2v ← forN col.length (fun v c2v => do
      let t ← rd tr (s.1 + v)
      let x ← rd v2c t
      wr c2v t (r.out (r.mid st) v x)) s.2
    ok (s.1 + col.length, c2v)) (0, c2v)
  ok s.2

/-- `_compute_post`, `Decoder_LDPC_BP_flooding.hxx:236-256`. -/
def computePost (o : Ops R) (H : Mat) (Y c2v post : List R) : Exec (List R) := do
  let s ← forN H.nRows (fun v (s : Nat × List R) => do
    let row ← rd H.r2c v
    let sum ← sumMsg o c2v s.1 row.length
    let y ← rd Y v
    let post ← wr s.2 v (o.add y sum)
    ok (s.1 + row.length, post)) (0, post)
  ok s.2

/-- One iteration, `Decoder_LDPC_BP_flooding.hxx:166-167`. -/
def Flood.ite (o : Ops R) (r : Rule R) (d : Flood R) (Y : List R) : Exec (Flood R) := do
  let v2c ← initV2C o d.cfg.H Y d.c2v d.v2c
  let c2v ← floodIte r d.cfg.H d.tr v2c d.c2v
  ok { d with v2c, c2v }

/-- `_compute_post` on the members, `Decoder_LDPC_BP_flooding.hxx:172,178`. -/
def Flood.upPost (o : Ops R) (d : Flood R) (Y : List R) : Exec (Flood R) := do
  let post ← computePost o d.cfg.H Y d.c2v d.post
  ok { d with post }

/-- The loop of `_decode`, `Decoder_LDPC_BP_flooding.hxx:161-178`, `n` iterations before its end; `valid` is `valid_synd`. -/
def Flood.loop (o : Ops R) (r : Rule R) (Y : List R) : Nat → Flood R → Bool → Exec (Flood R × Bool)
  | 0, d, valid => do
    let d ← d.upPost o Y
    ok (d, valid)
  | n + 1, d, valid => do
    let d ← d.ite o r Y
    if d.cfg.syndrome && decide (n ≠ 0) then do
      let d ← d.upPost o Y
      let c ← d.cfg.check o d.cur d.post
      if c.2 then ok ({ d with cur := c.1 }, true)
      else Flood.loop o r Y n { d with cur := c.1 } false
    else Flood.loop o r Y n d valid

/-- `_decode`, `Decoder_LDPC_BP_flooding.hxx:155-183`: the status. -/
def Flood.decode (o : Ops R) (r : Rule R) (d : Flood R) (Y : List R) : Exec (Flood R × Bool) := do
  let q ← Flood.loop o r Y d.cfg.nIte d true
  ok (q.1, !q.2)

/-- The end of a call, `Decoder_SIHO.hxx:67-75`, `Decoder_SISO.hxx:80-88`: `_reset` if the automatic reset is enabled. -/
def Flood.finish (o : Ops R) (d : Flood R) : Flood R := if d.auto then d.reset o else d

/-- `decode_siho`, `Decoder_LDPC_BP_flooding.hxx:101-128`. -/
def Flood.siho (o : Ops R) (r : Rule R) (d : Flood R) (Y : List R) (V : List Nat) : Exec (Flood R × Res Nat) := do
  let q ← d.decode o r Y
  let V ← q.1.cfg.store o q.1.post V
  ok (q.1.finish o, res q.2 V)

/-- `decode_siho_cw`, `Decoder_LDPC_BP_flooding.hxx:130-153`. -/
def Flood.sihoCw (o : Ops R) (r : Rule R) (lanes : Nat) (d : Flood R) (Y : List R) (V : List Nat) : Exec (Flood R × Res Nat) := do
  let q ← d.decode o r Y
  let V ← q.1.cfg.storeCw o lanes q.1.post V
  ok (q.1.finish o, res q.2 V)

/-- `decode_siso`, `Decoder_LDPC_BP_flooding.hxx:87-99`. -/
def Flood.siso (o : Ops R) (r : Rule R) (d : Flood R) (Y Y2 : List R) : Exec (Flood R × Res R) := do
  let q ← d.decode o r Y
  let Y2 ← q.1.cfg.extrinsic o q.1.post Y Y2
  ok (q.1.finish o, res q.2 Y2)

/-! ## Layered schedulings -/

/-- The two layered decoders. -/
inductive Sched where
  | horizontal | vertical
  deriving DecidableEq

/-- The members, `Decoder_LDPC_BP_horizontal_layered.hpp:24-31`, `Decoder_LDPC_BP_vertical_layered.hpp:24-32`; `offs` is
`messages_offsets`, empty for the horizontal one. -/
structure Layer (R : Type) where
  sched : Sched
  cfg : Cfg
  cur : Nat
  auto : Bool
  var : List R
  msgs : List R
  contr : List R
  offs : List Nat
  deriving DecidableEq

/-- `messages_offsets`, `Decoder_LDPC_BP_vertical_layered.hxx:38-44`. -/
def buildOffs (H : Mat) : Exec (List Nat) := do
  let s ← forN H.nCols (fun c (s : Nat × List Nat) => do
    let offs ← wr s.2 c s.1
    let col ← rd H.c2r c
    ok (s.1 + col.length, offs)) (0, List.replicate H.nCols 0)
  ok s.2

/-- `_reset`, `Decoder_LDPC_BP_horizontal_layered.hxx:45-51`, `Decoder_LDPC_BP_vertical_layered.hxx:58-64`. -/
def Layer.reset (o : Ops R) (d : Layer R) : Layer R :=
  { d with msgs := List.replicate d.msgs.length o.zero, var := List.replicate d.var.length o.zero }

/-- `messages_offsets` of the two decoders. -/
def offsFor (s : Sched) (H : Mat) : Exec (List Nat) :=
  match s with
  | .horizontal => ok []
  | .vertical => buildOffs H

/-- Constructors, `Decoder_LDPC_BP_horizontal_layered.hxx:12-34`, `Decoder_LDPC_BP_vertical_layered.hxx:16-47`. -/
def Layer.mk? (o : Ops R) (s : Sched) (K N nIte : Int) (H : Mat) (info : List Nat) (syndrome : Bool) (depth : Int) :
    Exec (Layer R) := do
  let g ← Cfg.mk? K N nIte H info syndrome depth
  let offs ← offsFor s H
  ok (Layer.reset o ⟨s, g, 0, true, List.replicate g.N o.zero, List.replicate H.nConn o.zero, List.replicate H.colsMax o.zero, offs⟩)

/-- `_load`, `Decoder_LDPC_BP_horizontal_layered.hxx:53-59`, `Decoder_LDPC_BP_vertical_layered.hxx:66-72`. -/
def load (o : Ops R) (Y var : List R) : Exec (List R) :=
  forN var.length (fun v var => do
    let x ← rd var v
    let y ← rd Y v
    wr var v (o.add x y)) var

/-- The inputs of a check, `Decoder_LDPC_BP_horizontal_layered.hxx:171-177`, `Decoder_LDPC_BP_vertical_layered.hxx:187-195`: the state
of the rule and the contributions. -/
def chkIn (o : Ops R) (r : Rule R) (col : List Nat) (p : Nat) (var msgs contr : List R) : Exec (r.σ × List R) :=
  forN col.length (fun v (s : r.σ × List R) => do
    let i ← rd col v
    let x ← rd var i
    let m ← rd msgs (p + v)
    let contr ← wr s.2 v (o.sub x m)
    ok (r.inp s.1 v (o.sub x m), contr)) (r.start, contr)

/-- The state of the loops of the layered decoders. -/
structure LSt (R : Type) where
  p : Nat
  var : List R
  msgs : List R
  contr : List R

/-- One check of the horizontal scheduling, `Decoder_LDPC_BP_horizontal_layered.hxx:170-185`; `kr` and `kw` are equal between
checks. -/
def horChk (o : Ops R) (r : Rule R) (H : Mat) (c : Nat) (s : LSt R) : Exec (LSt R) := do
  let col ← rd H.c2r c
  let q ← chkIn o r col s.p s.var s.msgs s.contr
  let w ← forN col.length (fun v (w : List R × List R) => do
    let x ← rd q.2 v
    let m := r.out (r.mid q.1) v x
    let msgs ← wr w.1 (s.p + v) m
    let i ← rd col v
    let var ← wr w.2 i (o.add x m)
    ok (msgs, var)) (s.msgs, s.var)
  ok ⟨s.p + col.length, w.2, w.1, q.2⟩

/-- `_decode_single_ite`, `Decoder_LDPC_BP_horizontal_layered.hxx:159-187`. -/
def horIte (o : Ops R) (r : Rule R) (H : Mat) (var msgs contr : List R) : Exec (LSt R) :=
  forN H.nCols (horChk o r H) ⟨0, var, msgs, contr⟩

/-- The position of variable `vv` in a check, `v_out`: the last one, -1 (here `none`) if there is none,
`Decoder_LDPC_BP_vertical_layered.hxx:183,191`. -/
def vOut (vv : Nat) (col : List Nat) : Option Nat :=
  (List.range col.length).foldl (fun s v => if col[v]? = some vv then some v else s) none

/-- One check of one variable of the vertical scheduling, `Decoder_LDPC_BP_vertical_layered.hxx:183-201`; the fields of the state
are `msg_acc`, `messages` and `contributions`. -/
def verChk (o : Ops R) (r : Rule R) (H : Mat) (offs : List Nat) (var : List R) (vv : Nat) (row : List Nat) (c : Nat)
    (s : R × List R × List R) : Exec (R × List R × List R) := do
  let cc ← rd row c
  let p ← rd offs cc
  let col ← rd H.c2r cc
  let q ← chkIn o r col p var s.2.1 s.2.2
  match vOut vv col with
  | none => ub
  | some v => do
    let m ← rd s.2.1 (p + v)
    let x ← rd q.2 v
    let m' := r.out (r.mid q.1) v x
    let msgs ← wr s.2.1 (p + v) m'
    ok (o.add (o.sub s.1 m) m', msgs, q.2)

/-- One variable of the vertical scheduling, `Decoder_LDPC_BP_vertical_layered.hxx:179-203`. -/
def verVar (o : Ops R) (r : Rule R) (H : Mat) (offs : List Nat) (vv : Nat) (s : LSt R) : Exec (LSt R) := do
  let row ← rd H.r2c vv
  let q ← forN row.length (verChk o r H offs s.var vv row) (o.zero, s.msgs, s.contr)
  let x ← rd s.var vv
  let var ← wr s.var vv (o.add x q.1)
  ok ⟨s.p, var, q.2.1, q.2.2⟩

/-- `_decode_single_ite`, `Decoder_LDPC_BP_vertical_layered.hxx:171-205`. -/
def verIte (o : Ops R) (r : Rule R) (H : Mat) (offs : List Nat) (var msgs contr : List R) : Exec (LSt R) :=
  forN H.nRows (verVar o r H offs) ⟨0, var, msgs, contr⟩

/-- One iteration. -/
def layIte (o : Ops R) (r : Rule R) (d : Layer R) : Exec (LSt R) :=
  match d.sched with
  | .horizontal => horIte o r d.cfg.H d.var d.msgs d.contr
  | .vertical => verIte o r d.cfg.H d.offs d.var d.msgs d.contr

/-- The loop of `_decode`, `Decoder_LDPC_BP_horizontal_layered.hxx:143-152`, `Decoder_LDPC_BP_vertical_layered.hxx:156-164`, `n`
iterations before its end; `valid` is `valid_synd`. -/
def Layer.loop (o : Ops R) (r : Rule R) : Nat → Layer R → Bool → Exec (Layer R × Bool)
  | 0, d, valid => ok (d, valid)
  | n + 1, d, _ => do
    let s ← layIte o r d
    let c ← d.cfg.check o d.cur s.var
    if c.2 then ok ({ d with cur := c.1, var := s.var, msgs := s.msgs, contr := s.contr }, true)
    else Layer.loop o r n { d with cur := c.1, var := s.var, msgs := s.msgs, contr := s.contr } false

/-- The value returned by `_decode`, `Decoder_LDPC_BP_horizontal_layered.hxx:156`, `Decoder_LDPC_BP_vertical_layered.hxx:168`. -/
def layStatus (s : Sched) (syndrome valid : Bool) : Bool :=
  match s with
  | .horizontal => !valid && syndrome
  | .vertical => false

/-- `_load` then `_decode`: the status. -/
def Layer.decode (o : Ops R) (r : Rule R) (d : Layer R) (Y : List R) : Exec (Layer R × Bool) := do
  let var ← load o Y d.var
  let q ← Layer.loop o r d.cfg.nIte { d with var } true
  ok (q.1, layStatus d.sched d.cfg.syndrome q.2)

/-- The end of a call, `Decoder_SIHO.hxx:67-75`, `Decoder_SISO.hxx:80-88`: `_reset` if the automatic reset is enabled. -/
def Layer.finish (o : Ops R) (d : Layer R) : Layer R := if d.auto then d.reset o else d

/-- `decode_siho`, `Decoder_LDPC_BP_horizontal_layered.hxx:82-110`, `Decoder_LDPC_BP_vertical_layered.hxx:95-123`. -/
def Layer.siho (o : Ops R) (r : Rule R) (d : Layer R) (Y : List R) (V : List Nat) : Exec (Layer R × Res Nat) := do
  let q ← d.decode o r Y
  let V ← q.1.cfg.store o q.1.var V
  ok (q.1.finish o, res q.2 V)

/-- `decode_siho_cw`, `Decoder_LDPC_BP_horizontal_layered.hxx:112-135`, `Decoder_LDPC_BP_vertical_layered.hxx:125-148`. -/
def Layer.sihoCw (o : Ops R) (r : Rule R) (lanes : Nat) (d : Layer R) (Y : List R) (V : List Nat) : Exec (Layer R × Res Nat) := do
  let q ← d.decode o r Y
  let V ← q.1.cfg.storeCw o lanes q.1.var V
  ok (q.1.finish o, res q.2 V)

/-- `decode_siso`, `Decoder_LDPC_BP_horizontal_layered.hxx:61-80`, `Decoder_LDPC_BP_vertical_layered.hxx:74-93`: the extrinsic values
are kept in `var_nodes`. -/
def Layer.siso (o : Ops R) (r : Rule R) (d : Layer R) (Y Y2 : List R) : Exec (Layer R × Res R) := do
  let q ← d.decode o r Y
  let Y2 ← q.1.cfg.extrinsic o q.1.var Y Y2
  let var ← copyTo Y2 0 q.1.cfg.N q.1.var 0
  ok (Layer.finish o { q.1 with var }, res q.2 Y2)

end Verif.LDPCBP
