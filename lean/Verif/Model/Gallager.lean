import Verif.Model.LDPCBP

/-!
# Gallager A, B and E decoders

Models `src/Module/Decoder/LDPC/BP/Flooding/Gallager/Decoder_LDPC_BP_flooding_Gallager_{A,B,E}.cpp` (cited as `A.cpp`, `B.cpp` and
`E.cpp`), with one frame.  The parity check matrix is the object of `Model/Sparse.lean`.  The bits, of type `B`, and the messages, of
type `int8_t`, are integers; `int` does not overflow.
-/

namespace Verif.Gallager
open Exec Verif.Sparse Verif.Float Verif.LDPCBP

/-- The three decoders. -/
inductive Algo where
  | A | B | E
  deriving DecidableEq

/-- Conversion to `int8_t`. -/
def i8 (x : Int) : Int := x.bmod 256

/-- `^` on `int`. -/
def xorI (a b : Int) : Int := (BitVec.ofInt 32 a ^^^ BitVec.ofInt 32 b).toInt

/-- The members, `Decoder_LDPC_BP_flooding_Gallager_A.hpp:25-32`; `cur` is `cur_syndrome_depth`, `algo` is the class and `wide` tells
that `B` is `int64_t`. -/
structure Gal where
  algo : Algo
  wide : Bool
  cfg : Cfg
  cur : Nat
  HY : List Int
  V : List Int
  c2v : List Int
  v2c : List Int
  tr : List Nat
  deriving DecidableEq

/-- Constructors, `A.cpp:14-74`, `B.cpp:11-20`, `E.cpp:12-21`; the loop that builds `transpose` (`A.cpp:34-64`) is the one of
`Decoder_LDPC_BP_flooding.hxx:36-66`. -/
def Gal.mk? (algo : Algo) (wide : Bool) (K N nIte : Int) (H : Mat) (info : List Nat) (syndrome : Bool) (depth : Int) : Exec Gal := do
  let g ← Cfg.mk? K N nIte H info syndrome depth
  let tr ← buildTr H
  ok ⟨algo, wide, g, 0, List.replicate g.N 0, List.replicate g.N 0, List.replicate H.nConn 0, List.replicate H.nConn 0, tr⟩

/-- `std::accumulate` on the messages of a variable, `A.cpp:262,313`, `B.cpp:55`, `E.cpp:71,125`. -/
def acc (c2v : List Int) (p deg : Nat) : Exec Int :=
  forN deg (fun c s => rd c2v (p + c) >>= fun m => ok (s + m)) 0

/-- The message of a variable to a check after the first iteration, from its value `y`, the sum of its messages, the message `m` of the
check and its degree: `A.cpp:263-269`, `B.cpp:56-62`, `E.cpp:72-78`. -/
def newMsg (a : Algo) (ite : Nat) (y sum m : Int) (deg : Nat) : Int :=
  match a with
  | .A =>
    let diff := if y ≠ 0 then (deg : Int) - sum else sum
    let diff := if y ≠ m then diff - 1 else diff
    if diff = (deg : Int) - 1 ∧ deg ≠ 1 then (if y = 0 then 1 else 0) else y
  | .B =>
    let diff := ((deg : Int) - sum) - (sum + y) + m
    if diff = 0 then y else if diff < 0 then 1 else 0
  | .E =>
    let sum := sum + (if ite < 2 then 2 else 1) * y
    i8 (sum - m).sign

/-- The messages of one variable, `A.cpp:252-271`, `B.cpp:45-79`, `E.cpp:62-80`. -/
def varMsgs (a : Algo) (ite : Nat) (c2v : List Int) (y : Int) (p deg : Nat) (v2c : List Int) : Exec (List Int) :=
  if ite = 0 then forN deg (fun c v2c => wr v2c (p + c) y) v2c
  else do
    let sum ← acc c2v p deg
    forN deg (fun c v2c => rd c2v (p + c) >>= fun m => wr v2c (p + c) (newMsg a ite y sum m deg)) v2c

/-- `_initialize_var_to_chk`, `A.cpp:238-276`, `B.cpp:31-84`, `E.cpp:47-85`. -/
def initV2C (a : Algo) (H : Mat) (ite : Nat) (Y c2v v2c : List Int) : Exec (List Int) := do
  let s ← forN H.nRows (fun v (s : Nat × List Int) =>
    rd H.r2c v >>= fun row => (rd Y v >>= fun y => varMsgs a ite c2v (i8 y) s.1 row.length s.2) >>= fun v2c =>
    ok (s.1 + row.length, v2c)) (0, v2c)
  ok s.2

/-- The messages of one check, `A.cpp:288-297`, `E.cpp:97-108`. -/
def chkMsgs (a : Algo) (tr : List Nat) (v2c : List Int) (p deg : Nat) (c2v : List Int) : Exec (List Int) :=
  match a with
  | .E => forN deg (fun v c2v => do
      let acc ← forN deg (fun vv acc => if v ≠ vv then rd tr (p + vv) >>= fun t => rd v2c t >>= fun x => ok (i8 (acc * x)) else ok acc) 1
      let t ← rd tr (p + v)
      wr c2v t acc) c2v
  | _ => do
    let acc ← forN deg (fun v acc => rd tr (p + v) >>= fun t => rd v2c t >>= fun x => ok (xorI acc x)) 0
    forN deg (fun v c2v => do
      let t ← rd tr (p + v)
      let x ← rd v2c t
      wr c2v t (i8 (xorI acc x))) c2v

/-- `_decode_single_ite`, `A.cpp:278-299`, `E.cpp:87-110`. -/
def singleIte (a : Algo) (H : Mat) (tr : List Nat) (v2c c2v : List Int) : Exec (List Int) := do
  let s ← forN H.nCols (fun c (s : Nat × List Int) =>
    rd H.c2r c >>= fun col => chkMsgs a tr v2c s.1 col.length s.2 >>= fun c2v => ok (s.1 + col.length, c2v)) (0, c2v)
  ok s.2

/-- `tools::div2`, `include/Tools/Math/utils.hxx:17-20`: on `int64_t` the generic version multiplies by `(int64_t)0.5`. -/
def div2 (wide : Bool) (x : Int) : Int := if wide then x * 0 else x / 2

/-- The vote of one variable, `A.cpp:312-316`, `E.cpp:123-129`; `deg` is the degree and `sum` the sum of its messages. -/
def voteOf (a : Algo) (wide : Bool) (y sum : Int) (deg : Nat) : Int :=
  match a with
  | .E =>
    let sum := sum + y
    i8 (div2 wide (1 - (if sum = 0 then y else sum.sign)))
  | _ =>
    let nZero := (deg : Int) - sum
    let d := nZero - sum
    if d = 0 then i8 y else if d < 0 then 1 else 0

/-- `_make_majority_vote`, `A.cpp:301-329`, `E.cpp:112-133`. -/
def majority (a : Algo) (wide : Bool) (H : Mat) (Y c2v V : List Int) : Exec (List Int) := do
  let s ← forN H.nRows (fun v (s : Nat × List Int) => do
    let row ← rd H.r2c v
    let y ← rd Y v
    let sum ← acc c2v s.1 row.length
    let V ← wr s.2 v (voteOf a wide y sum row.length)
    ok (s.1 + row.length, V)) (0, V)
  ok s.2

/-- `check_syndrome_hard`, `include/Module/Decoder/LDPC/BP/Decoder_LDPC_BP.hxx:22-34`. -/
def checkH (g : Cfg) (cur : Nat) (V : List Int) : Exec (Nat × Bool) :=
  if g.syndrome then do
    let s ← checkHard V g.H
    let cur := if s then (cur + 1) % g.depth else 0
    ok (cur, s && decide (cur = 0))
  else ok (cur, false)

/-- The two calls of an iteration, `A.cpp:221-222`. -/
def Gal.ite (d : Gal) (ite : Nat) (Y : List Int) : Exec Gal := do
  let v2c ← initV2C d.algo d.cfg.H ite Y d.c2v d.v2c
  let c2v ← singleIte d.algo d.cfg.H d.tr v2c d.c2v
  ok { d with v2c, c2v }

/-- The vote on the members, `A.cpp:227,233`. -/
def Gal.vote (d : Gal) (Y : List Int) : Exec Gal := do
  let V ← majority d.algo d.wide d.cfg.H Y d.c2v d.V
  ok { d with V }

/-- The loop of `_decode`, `A.cpp:217-233`: `n` iterations before its end, `ite` done. -/
def Gal.loop (Y : List Int) : Nat → Nat → Gal → Bool → Exec (Gal × Bool)
  | 0, _, d, synd => do
    let d ← d.vote Y
    ok (d, synd)
  | n + 1, ite, d, synd => do
    let d ← d.ite ite Y
    if d.cfg.syndrome && decide (n ≠ 0) then do
      let d ← d.vote Y
      let c ← checkH d.cfg d.cur d.V
      if c.2 then ok ({ d with cur := c.1 }, true)
      else Gal.loop Y n (ite + 1) { d with cur := c.1 } false
    else Gal.loop Y n (ite + 1) d synd

/-- `_decode`, `A.cpp:213-236`: the status. -/
def Gal.decode (d : Gal) (Y : List Int) : Exec (Gal × Bool) := do
  let q ← Gal.loop Y d.cfg.nIte 0 d true
  ok (q.1, !q.2)

/-- `std::transform` from `Y` to `HY_N`, `A.cpp:92-95,126-129,160-163,191-194`, for values whose double fits in `B`. -/
def transform (N : Nat) (Y HY : List Int) : Exec (List Int) :=
  forN N (fun v HY => rd Y v >>= fun x => wr HY v (1 - (x + x))) HY

/-- Whether the constructor sets `transform_HY_N`, `A.cpp:72`, `E.cpp:17`. -/
def Gal.transforms (d : Gal) : Bool := decide (d.algo = .E)

/-- Load and decode hard values, `A.cpp:90-103,124-137`. -/
def Gal.hard (d : Gal) (Y : List Int) : Exec (Gal × Bool) :=
  if d.transforms then do
    let HY ← transform d.cfg.N Y d.HY
    Gal.decode { d with HY } HY
  else d.decode Y

/-- `tools::hard_decide`, `src/Tools/Perf/common/hard_decide.cpp:6-37`: the sign bit in the registers of `lanes` elements, the test
`x < 0` for the others.  The loops are modelled in `Model/Distance.lean`. -/
def hardDecide {R : Type} (o : Ops R) (lanes N : Nat) (Y : List R) (HY : List Int) : Exec (List Int) :=
  forN N (fun v HY => rd Y v >>= fun x => wr HY v (if (if v < N / lanes * lanes then o.sign x else o.isNeg x) then 1 else 0)) HY

/-- Load and decode LLRs, `A.cpp:157-167,188-198`; the transformation is in place. -/
def Gal.soft {R : Type} (o : Ops R) (lanes : Nat) (d : Gal) (Y : List R) : Exec (Gal × Bool) := do
  let HY ← hardDecide o lanes d.cfg.N Y d.HY
  let HY ← if d.transforms then transform d.cfg.N HY HY else ok HY
  Gal.decode { d with HY } HY

/-- The decisions on the information bits, `A.cpp:107-108,171-172`. -/
def Gal.store (d : Gal) (V : List Int) : Exec (List Int) :=
  forN d.cfg.K (fun i V => do
    let k ← rd d.cfg.info i
    let x ← rd d.V k
    wr V i x) V

/-- `std::copy`, `A.cpp:141,202`. -/
def Gal.storeCw (d : Gal) (V : List Int) : Exec (List Int) :=
  forN d.cfg.N (fun i V => rd d.V i >>= fun x => wr V i x) V

/-- `decode_hiho`, `A.cpp:85-117`. -/
def Gal.hiho (d : Gal) (Y V : List Int) : Exec (Gal × Res Int) := do
  let q ← d.hard Y
  let V ← q.1.store V
  ok (q.1, res q.2 V)

/-- `decode_hiho_cw`, `A.cpp:119-150`. -/
def Gal.hihoCw (d : Gal) (Y V : List Int) : Exec (Gal × Res Int) := do
  let q ← d.hard Y
  let V ← q.1.storeCw V
  ok (q.1, res q.2 V)

/-- `decode_siho`, `A.cpp:152-181`. -/
def Gal.siho {R : Type} (o : Ops R) (lanes : Nat) (d : Gal) (Y : List R) (V : List Int) : Exec (Gal × Res Int) := do
  let q ← d.soft o lanes Y
  let V ← q.1.store V
  ok (q.1, res q.2 V)

/-- `decode_siho_cw`, `A.cpp:183-211`. -/
def Gal.sihoCw {R : Type} (o : Ops R) (lanes : Nat) (d : Gal) (Y : List R) (V : List Int) : Exec (Gal × Res Int) := do
  let q ← d.soft o lanes Y
  let V ← q.1.storeCw V
  ok (q.1, res q.2 V)

end Verif.Gallager
