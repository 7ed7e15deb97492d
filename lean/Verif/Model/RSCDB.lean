import Verif.Model.RSC
import Verif.Model.Interleaver

/-!
# Double-binary convolutional and turbo encoders

Models `src/Module/Encoder/RSC_DB/Encoder_RSC_DB.cpp` and `src/Module/Encoder/Turbo_DB/Encoder_turbo_DB.cpp`.  Elements of type `B`
are mathematical integers (every value the encoders store is 0 or 1).
-/

namespace Verif.RSCDB
open Exec Verif.RSC

/-- What `Encoder_RSC_DB` fixes from the name of the standard: `n_ff`, `poly` and `circ_states`, `Encoder_RSC_DB.hpp:20-30`. -/
structure Std where
  nff : Nat
  poly : List (List Nat)
  circ : List (List Nat)

/-- DVB-RCS1, `Encoder_RSC_DB.cpp:31-44`. -/
def rcs1 : Std where
  nff := 3
  poly := [[1,0,0], [1,1,1], [1,0,1,1], [1,0,0,1], [1,0,1]]
  circ := [[0,6,4,2,7,1,3,5],
           [0,3,7,4,5,6,2,1],
           [0,5,3,6,2,7,1,4],
           [0,4,1,5,6,2,7,3],
           [0,2,5,7,1,3,4,6],
           [0,7,6,1,3,4,5,2]]

/-- DVB-RCS2, `Encoder_RSC_DB.cpp:45-66`. -/
def rcs2 : Std where
  nff := 4
  poly := [[1,0,0,0], [1,1,0,1], [1,1,1,0,1], [1,0,1,1,1], [0,0,1,1]]
  circ := [[0,14,3,13,7,9,4,10,15,1,12,2,8,6,11,5],
           [0,11,13,6,10,1,7,12,5,14,8,3,15,4,2,9],
           [0,8,9,1,2,10,11,3,4,12,13,5,6,14,15,7],
           [0,3,4,7,8,11,12,15,1,2,5,6,9,10,13,14],
           [0,12,5,9,11,7,14,2,6,10,3,15,13,1,8,4],
           [0,4,12,8,9,13,5,1,2,6,14,10,11,15,7,3],
           [0,6,10,12,5,3,15,9,11,13,1,7,14,8,4,2],
           [0,7,8,15,1,6,9,14,3,4,11,12,2,5,10,13],
           [0,5,14,11,13,8,3,6,10,15,4,1,7,2,9,12],
           [0,13,7,10,15,2,8,5,14,3,9,4,1,12,6,11],
           [0,2,6,4,12,14,10,8,9,11,15,13,5,7,3,1],
           [0,9,11,2,6,15,13,4,12,5,7,14,10,3,1,8],
           [0,10,15,5,14,4,1,11,13,7,2,8,3,9,12,6],
           [0,15,1,14,3,12,2,13,7,8,6,9,4,11,5,10]]

/-- `(s >> i) & 1`. -/
def bit (s i : Nat) : Nat := (s >>> i) &&& 1

/-- The loops that compute the two parities, `Encoder_RSC_DB.cpp:184-190`, for the row `p` of `poly`. -/
def parity (c : Std) (p : List Nat) (st ff0 : Nat) : Exec Nat := do
  let a ← rd p 0
  forN c.nff (fun i y => do
    let a ← rd p (i + 1)
    ok (y ^^^ bit st (c.nff - (i + 1)) * a)) (ff0 * a)

/-- The new contents of the flip-flops, `Encoder_RSC_DB.cpp:170-182`. -/
def flipFlops (c : Std) (st inp : Nat) : Exec (List Nat) := do
  let p0 ← rd c.poly 0
  let p1 ← rd c.poly 1
  let p4 ← rd c.poly 4
  let x ← forN c.nff (fun i x => do
    let a ← rd p4 (c.nff - 1 - i)
    ok (x ^^^ bit st i * a)) 0
  let a ← rd p0 0
  let b ← rd p1 0
  let ff ← wr (List.replicate c.nff 0) 0 (x ^^^ a * bit inp 1 ^^^ b * bit inp 0)
  forN (c.nff - 1) (fun i ff => do
    let a ← rd p0 (i + 1)
    let b ← rd p1 (i + 1)
    wr ff (i + 1) (bit st (c.nff - (i + 1)) ^^^ a * bit inp 1 ^^^ b * bit inp 0)) ff

/-- `calc_state_trans`, `Encoder_RSC_DB.cpp:166-199`: the new state and `par`. -/
def calcTrans (c : Std) (st inp : Nat) : Exec (Nat × Nat) := do
  let ff ← flipFlops c st inp
  let ff0 ← rd ff 0
  let p2 ← rd c.poly 2
  let y ← parity c p2 st ff0
  let p3 ← rd c.poly 3
  let w ← parity c p3 st ff0
  let s ← forN c.nff (fun i s => do
    let a ← rd ff i
    ok ((s <<< 1) ||| a)) 0
  ok (s, (y <<< 1) ||| w)

/-- `t[r][s] = v`. -/
def put (t : List (List Nat)) (r s v : Nat) : Exec (List (List Nat)) := do
  let row ← rd t r
  let row ← wr row s v
  wr t r row

/-- The tables `next_state` and `out_parity`, `Encoder_RSC_DB.cpp:17-18,129-147`; the four inputs are a loop. -/
def tables (c : Std) : Exec (List (List Nat) × List (List Nat)) :=
  forN (1 <<< c.nff) (fun s t => forN 4 (fun i t => do
    let r ← calcTrans c s i
    let nx ← put t.1 i s r.1
    let py ← put t.2 i s r.2
    ok (nx, py)) t) (List.replicate 4 (List.replicate (1 <<< c.nff) 0), List.replicate 4 (List.replicate (1 <<< c.nff) 0))

/-- Members of `Encoder_RSC_DB`, `include/Module/Encoder/RSC_DB/Encoder_RSC_DB.hpp`, and `info_bits_pos` of `Encoder`. -/
structure Enc where
  K : Nat
  N : Nat
  std : Std
  buffered : Bool
  nx : List (List Nat)
  py : List (List Nat)
  infoPos : List Nat

/-- The choice of the standard, `Encoder_RSC_DB.cpp:30-72`. -/
def std? (s : String) : Exec Std := if s = "DVB-RCS1" then ok rcs1 else if s = "DVB-RCS2" then ok rcs2 else exc .invalidArgument

/-- `info_bits_pos` set by the constructor, `Encoder_RSC_DB.cpp:149-154`, for an even `K` (initially `0, 1, 2, ...`). -/
def initPos (K : Nat) (buffered : Bool) : Exec (List Nat) :=
  if !buffered then forN (K / 2) (fun j p => do
    let p ← wr p (2 * j) (2 * (2 * j))
    wr p (2 * j + 1) (2 * (2 * j) + 1)) (List.range K)
  else ok (List.range K)

/-- Constructor, `Encoder_RSC_DB.cpp:9-155`, after the base constructor (`include/Module/Encoder/Encoder.hxx:30-91`).  The checks
of the sizes of `poly` (`:74-120`) are not modelled: `poly` is one of two constants, which meet them. -/
def Enc.mk? (K N : Int) (standard : String) (buffered : Bool) : Exec Enc :=
  if K ≤ 0 then exc .invalidArgument
  else if N ≤ 0 then exc .invalidArgument
  else if K > N then exc .invalidArgument
  else if N ≠ 2 * K then exc .invalidArgument
  else do
    let c ← std? standard
    if K % 2 ≠ 0 then exc .invalidArgument
    else do
      let t ← tables c
      let pos ← initPos K.toNat buffered
      ok ⟨K.toNat, N.toNat, c, buffered, t.1, t.2, pos⟩

/-- `table[in][state]`, with an `int` for `in`. -/
def look (t : List (List Nat)) (inp : Int) (st : Nat) : Exec Nat := do
  let row ← rdI t inp
  rd row st

/-- `__pre_encode`, `Encoder_RSC_DB.cpp:223-234`.  The loops on `i += 2` are loops on `i / 2`; `K` is even. -/
def Enc.preEncode (e : Enc) (u : List Int) : Exec Nat :=
  forN (e.K / 2) (fun k st => do
    let a ← rd u (2 * k)
    let b ← rd u (2 * k + 1)
    look e.nx (a * 2 + b) st) 0

/-- The systematic bits in `__encode_from_state`, `Encoder_RSC_DB.cpp:212-216`: `j` and `X_N`. -/
def writeSys (onlyParity : Bool) (off j : Nat) (a b : Int) (x : List Int) : Exec (Nat × List Int) :=
  if !onlyParity then do
    let x ← wr x (off + j) a
    let x ← wr x (off + (j + 1)) b
    ok (j + 2, x)
  else ok (j, x)

/-- The body of `__encode_from_state`, `Encoder_RSC_DB.cpp:207-219`: the state is `j`, `state` and `X_N`; `off` is the offset of the
pointer `X_N` in the buffer. -/
def Enc.encodeStep (e : Enc) (u : List Int) (off : Nat) (onlyParity : Bool) (k : Nat) (s : Nat × Nat × List Int) :
    Exec (Nat × Nat × List Int) := do
  let a ← rd u (2 * k)
  let b ← rd u (2 * k + 1)
  let p ← look e.py (a * 2 + b) s.2.1
  let st ← look e.nx (a * 2 + b) s.2.1
  let r ← writeSys onlyParity off s.1 a b s.2.2
  let x ← wr r.2 (off + r.1) (bit p 1 : Nat)
  let x ← wr x (off + (r.1 + 1)) (bit p 0 : Nat)
  ok (r.1 + 2, st, x)

/-- `circ_states[((K/2) % (n_states-1)) -1][circ_state]`, `Encoder_RSC_DB.cpp:242,295`. -/
def Enc.initState (e : Enc) (circ : Nat) : Exec Nat :=
  look e.std.circ (((e.K / 2) % ((1 <<< e.std.nff) - 1) : Nat) - 1) circ

/-- The call of `__encode_from_state` of `_encode`, `Encoder_RSC_DB.cpp:243-249`. -/
def Enc.emit (e : Enc) (u x : List Int) (init : Nat) : Exec (Nat × Nat × List Int) :=
  if e.buffered then do
    let x ← copyTo u 0 e.K x 0
    forN (e.K / 2) (e.encodeStep u e.K true) (0, init, x)
  else forN (e.K / 2) (e.encodeStep u 0 false) (0, init, x)

/-- `_encode`, `Encoder_RSC_DB.cpp:236-258`. -/
def Enc.encode (e : Enc) (u x : List Int) : Exec (List Int) := do
  let circ ← e.preEncode u
  let init ← e.initState circ
  let r ← e.emit u x init
  if init ≠ r.2.1 then exc .runtimeError else ok r.2.2

/-- The indices of the four bits of the `k`-th couple in `is_codeword`, `Encoder_RSC_DB.cpp:288-318`. -/
def Enc.at4 (e : Enc) (k : Nat) : Nat × Nat × Nat × Nat :=
  if e.buffered then (2 * k, 2 * k + 1, e.K + 2 * k, e.K + 2 * k + 1)
  else (2 * k * 2, 2 * k * 2 + 1, 2 * k * 2 + 2, 2 * k * 2 + 3)

/-- Body of the second loop of `is_codeword`, `Encoder_RSC_DB.cpp:297-318`; `none` = `return false`. -/
def Enc.check (e : Enc) (x : List Int) (k : Nat) (s : Option Nat) : Exec (Option Nat) :=
  match s with
  | none => ok none
  | some st => do
    let a ← rd x (e.at4 k).1
    let b ← rd x (e.at4 k).2.1
    let p ← look e.py (a * 2 + b) st
    let st ← look e.nx (a * 2 + b) st
    let y ← rd x (e.at4 k).2.2.1
    if y ≠ (bit p 1 : Nat) then ok none
    else do
      let w ← rd x (e.at4 k).2.2.2
      if w ≠ (bit p 0 : Nat) then ok none else ok (some st)

/-- `is_codeword`, `Encoder_RSC_DB.cpp:283-324`. -/
def Enc.isCodeword (e : Enc) (x : List Int) : Exec Bool := do
  let circ ← forN (e.K / 2) (fun k st => do
    let a ← rd x (e.at4 k).1
    let b ← rd x (e.at4 k).2.1
    look e.nx (a * 2 + b) st) 0
  let init ← e.initState circ
  let s ← forN (e.K / 2) (e.check x) (some init)
  match s with
  | none => ok false
  | some st => ok (decide (init = st))

/-- `get_trellis`, `Encoder_RSC_DB.cpp:260-281`. -/
def Std.getTrellis (c : Std) : Exec (List (List Int)) :=
  forN (1 <<< c.nff) (fun s t => forN 4 (fun i t => do
    let r ← calcTrans c s i
    let t0 ← rd t 0
    let t0 ← wr t0 (s * 4 + i) (r.1 : Nat)
    let t1 ← rd t 1
    let t1 ← wr t1 (r.1 * 4 + i) (s : Nat)
    let t2 ← rd t 2
    let t2 ← wr t2 (s * 4 + i) (-((bit r.2 1 : Nat) * 2) + 1)
    let t3 ← rd t 3
    let t3 ← wr t3 (s * 4 + i) (-((bit r.2 0 : Nat) * 2) + 1)
    ok [t0, t1, t2, t3]) t) (List.replicate 4 (List.replicate ((1 <<< c.nff) * 4) 0))

/-! ## Turbo encoder -/

open Verif.Interleaver

/-- Members of `Encoder_turbo_DB`, `include/Module/Encoder/Turbo_DB/Encoder_turbo_DB.hpp`; `nf` is the number of frames. -/
structure TEnc where
  K : Nat
  N : Nat
  n : Enc
  i : Enc
  core : Core
  nf : Nat
  uCpy : List Int
  uI : List Int
  xTmp : List Int
  parN : List Int
  parI : List Int

/-- Constructor, `Encoder_turbo_DB.cpp:12-76`; the comparisons of the numbers of frames are not modelled. -/
def TEnc.mk? (K N : Int) (n i : Enc) (core : Core) (nf : Nat) : Exec TEnc :=
  if K ≤ 0 then exc .invalidArgument
  else if N ≤ 0 then exc .invalidArgument
  else if K > N then exc .invalidArgument
  else if K % 2 ≠ 0 then exc .invalidArgument
  else if N ≠ 3 * K then exc .invalidArgument
  else if (core.size : Int) * 2 ≠ K then exc .lengthError
  else if !n.buffered || !i.buffered then exc .invalidArgument
  else ok ⟨K.toNat, N.toNat, n, i, core, nf, List.replicate (K.toNat * nf) 0, List.replicate (K.toNat * nf) 0,
    List.replicate (N.toNat * nf) 0, List.replicate K.toNat 0, List.replicate K.toNat 0⟩

/-- `std::swap(v[i], v[j])`. -/
def swapAt (v : List Int) (i j : Nat) : Exec (List Int) := do
  let a ← rd v i
  let b ← rd v j
  let v ← wr v i b
  wr v j a

/-- The swaps and the interleaving of couples, `Encoder_turbo_DB.cpp:104-112` and `159-167`: `v` is the vector of the swaps, `off` the
offset of the frame, `o` the interleaved vector. -/
def shuffle (c : Core) (K off : Nat) (v o : List Int) : Exec (List Int × List Int) := do
  let v ← forN ((K + 3) / 4) (fun j v => swapAt v (off + 4 * j) (off + 4 * j + 1)) v
  let o ← forN (K / 2) (fun j o => do
    let lut ← c.getLutInv
    let l ← rd lut j
    let a ← rd v (off + l * 2)
    let o ← wr o (off + 2 * j) a
    let b ← rd v (off + l * 2 + 1)
    wr o (off + 2 * j + 1) b) o
  ok (v, o)

/-- `enco->encode(U, X_N_tmp.data(), frame_id)`: message at `off K` of `u`, codeword at `off N` of `tmp`. -/
def encAt (e : Enc) (f : Nat) (u tmp : List Int) : Exec (List Int) :=
  if f * e.N + e.N ≤ tmp.length ∧ f * e.K + e.K ≤ u.length then do
    let w ← e.encode ((u.drop (f * e.K)).take e.K) ((tmp.drop (f * e.N)).take e.N)
    copyTo w 0 e.N tmp (f * e.N)
  else ub

/-- The loops that write the parities, `Encoder_turbo_DB.cpp:128-139`: the state is `j` and `X_N`. -/
def emitPar (K : Nat) (pn pi x : List Int) : Exec (List Int) := do
  let s ← forN (K / 2) (fun i (s : Nat × List Int) => do
    let a ← rd pn (2 * i)
    let x ← wr s.2 s.1 a
    let b ← rd pi (2 * i)
    let x ← wr x (s.1 + 1) b
    ok (s.1 + 2, x)) (K, x)
  let s ← forN (K / 2) (fun i (s : Nat × List Int) => do
    let a ← rd pn (2 * i + 1)
    let x ← wr s.2 s.1 a
    let b ← rd pi (2 * i + 1)
    let x ← wr x (s.1 + 1) b
    ok (s.1 + 2, x)) s
  ok s.2

/-- `_encode`, `Encoder_turbo_DB.cpp:98-140`, for the frame `f`: `u` and `x` are the message and the codeword of this frame, and
`enco_n` reads the message itself. -/
def TEnc.encode (e : TEnc) (f : Nat) (u x : List Int) : Exec (TEnc × List Int) := do
  let v ← copyTo u 0 e.K e.uCpy (f * e.K)
  let s ← shuffle e.core e.K (f * e.K) v e.uI
  if f * e.n.N + e.n.N ≤ e.xTmp.length ∧ e.n.K ≤ u.length then do
    let w ← e.n.encode (u.take e.n.K) ((e.xTmp.drop (f * e.n.N)).take e.n.N)
    let tmp ← copyTo w 0 e.n.N e.xTmp (f * e.n.N)
    let pn ← copyTo tmp (f * e.n.N + e.n.K) (e.n.N - e.n.K) e.parN 0
    let tmp ← encAt e.i f s.2 tmp
    let pi ← copyTo tmp (f * e.i.N + e.i.K) (e.i.N - e.i.K) e.parI 0
    let x ← copyTo u 0 e.K x 0
    let x ← emitPar e.K pn pi x
    ok ({ e with uCpy := s.1, uI := s.2, xTmp := tmp, parN := pn, parI := pi }, x)
  else ub

/-- The loops that gather the parities of one encoder, `Encoder_turbo_DB.cpp:149-154` (`d = 0`) and `170-175` (`d = 1`). -/
def gather (K d : Nat) (x tmp : List Int) : Exec (List Int) :=
  forN (K / 2) (fun i tmp => do
    let a ← rd x (1 * K + 2 * i + d)
    let tmp ← wr tmp (K + 2 * i) a
    let b ← rd x (2 * K + 2 * i + d)
    wr tmp (K + 2 * i + 1) b) tmp

/-- The end of `is_codeword`, `Encoder_turbo_DB.cpp:159-180`. -/
def TEnc.isCodeword2 (e : TEnc) (x : List Int) : Exec (TEnc × Bool) := do
  let s ← shuffle e.core e.K 0 e.xTmp e.uI
  let tmp ← copyTo s.2 0 e.K s.1 0
  let tmp ← gather e.K 1 x tmp
  let b ← e.i.isCodeword (tmp.take e.i.N)
  ok ({ e with uI := s.2, xTmp := tmp }, b)

/-- `is_codeword`, `Encoder_turbo_DB.cpp:142-181`. -/
def TEnc.isCodeword (e : TEnc) (x : List Int) : Exec (TEnc × Bool) := do
  let tmp ← copyTo x 0 e.K e.xTmp 0
  let tmp ← gather e.K 0 x tmp
  let b ← e.n.isCodeword (tmp.take e.n.N)
  if b then TEnc.isCodeword2 { e with xTmp := tmp } x else ok ({ e with xTmp := tmp }, false)

end Verif.RSCDB
