import Verif.Model.Distance
import Verif.Model.Sparse

/-!
# LDPC peeling decoder

Models `src/Module/Decoder/LDPC/BP/Peeling/Decoder_LDPC_BP_peeling.cpp` and `src/Module/Decoder/LDPC/BP/Decoder_LDPC_BP.cpp`, with
one frame.  The parity check matrix is the object of `Model/Sparse.lean`: its rows are the variables and its columns the checks.
The symbols are 0, 1 and the unknown symbol, which are not negative: they are natural numbers here.
-/

namespace Verif.Peeling
open Exec Verif.Sparse Verif.Distance

/-- The types of the bits, `include/Tools/types.h:12-15`. -/
inductive BTy where
  | i8 | i16 | i32 | i64
  deriving DecidableEq, Repr

/-- `unknown_symbol_val`, `include/Tools/Noise/noise_utils.hxx:47-51`, that is `sat_val`, `include/Tools/Math/utils.hxx:48-53`:
there is no specialization for `int64_t`, and `std::numeric_limits<int64_t>::infinity()` is 0. -/
def unkSym : BTy → Nat
  | .i8 => 63
  | .i16 => 16382
  | .i32 => 1073741823
  | .i64 => 0

/-- The members, `Decoder_LDPC_BP_peeling.hpp:23-27`, `Decoder_LDPC_BP.hpp:17-22`. -/
structure Dec where
  ty : BTy
  K : Nat
  N : Nat
  nIte : Nat
  H : Mat
  syndrome : Bool
  depth : Nat
  info : List Nat
  cur : Nat
  VN : List Nat
  CN : List Nat
  deriving DecidableEq

/-- `tools::check_LUT`, `src/Tools/general_utils.cpp:179-204`. -/
def checkLUT (l : List Nat) (size : Nat) : Bool := (size = 0 || l.length = size) && decide l.Nodup

/-- Constructor, `Decoder_LDPC_BP_peeling.cpp:13-27`, `Decoder_LDPC_BP.cpp:9-41`, `src/Module/Decoder/Decoder.cpp:24-43`. -/
def Dec.mk? (ty : BTy) (K N nIte : Int) (H : Mat) (info : List Nat) (syndrome : Bool) (depth : Int) : Exec Dec :=
  if K ≤ 0 then exc .invalidArgument
  else if N ≤ 0 then exc .invalidArgument
  else if K > N then exc .invalidArgument
  else if nIte ≤ 0 then exc .invalidArgument
  else if depth ≤ 0 then exc .invalidArgument
  else if N ≠ H.nRows then exc .invalidArgument
  else if !checkLUT info K.toNat then exc .invalidArgument
  else ok ⟨ty, K.toNat, N.toNat, nIte.toNat, H, syndrome, depth.toNat, info, 0, List.replicate N.toNat 0, List.replicate H.nCols 0⟩

/-- The `while` loops, `Decoder_LDPC_BP_peeling.cpp:56-63,90-97`: adds the value `s` of variable `i` to its checks and removes its
connections.  A loop that has not ended after `fuel` turns is `ub`. -/
def forward (i s : Nat) : Nat → Mat → List Nat → Exec (Mat × List Nat)
  | 0, L, CN => do
    let row ← rd L.r2c i
    if row.length = 0 then ok (L, CN) else ub
  | fuel + 1, L, CN => do
    let row ← rd L.r2c i
    match row with
    | [] => ok (L, CN)
    | c :: _ => do
      let v ← rd CN c
      let CN ← wr CN c (v ^^^ s)
      let L ← orThrow (rm L i c)
      forward i s fuel L CN

/-- The body of the first loop, `Decoder_LDPC_BP_peeling.cpp:51-65`. -/
def known (unk : Nat) (VN : List Nat) (i : Nat) (r : Mat × List Nat) : Exec (Mat × List Nat) := do
  let s ← rd VN i
  if s = unk then ok r
  else do
    let row ← rd r.1.r2c i
    forward i s row.length r.1 r.2

/-- What the iterations modify. -/
structure St where
  L : Mat
  VN : List Nat
  CN : List Nat
  deriving DecidableEq

/-- A check of degree 1, `Decoder_LDPC_BP_peeling.cpp:83-97`.  `vn_pos` is a reference to the only element of a vector, still read
at lines 90 and 96 after line 87 has erased this element: the value is taken to be still there. -/
def resolve (i v : Nat) (st : St) : Exec St := do
  let s ← rd st.CN i
  let VN ← wr st.VN v s
  let CN ← wr st.CN i 0
  let L ← orThrow (rm st.L v i)
  let row ← rd L.r2c v
  let r ← forward v s row.length L CN
  ok ⟨r.1, VN, r.2⟩

/-- The body of the loop on the checks, `Decoder_LDPC_BP_peeling.cpp:75-101`; the flags are `no_modification` and
`all_check_nodes_done`. -/
def check (i : Nat) (r : St × Bool × Bool) : Exec (St × Bool × Bool) := do
  let col ← rd r.1.L.c2r i
  match col with
  | [v] => do
    let st ← resolve i v r.1
    ok (st, false, r.2.2)
  | _ => ok (r.1, r.2.1, r.2.2 && col.length = 0)

/-- One iteration, `Decoder_LDPC_BP_peeling.cpp:71-101`. -/
def sweep (st : St) : Exec (St × Bool × Bool) := forN st.L.nCols check (st, true, true)

/-- The loop on the iterations, `Decoder_LDPC_BP_peeling.cpp:69-111`, from `n` iterations before its end; `cur` is
`cur_syndrome_depth`, `done` is `all_check_nodes_done`. -/
def iterate (syndrome : Bool) (depth : Nat) : Nat → St → Nat → Bool → Exec (St × Nat × Bool)
  | 0, st, cur, done => ok (st, cur, done)
  | n + 1, st, cur, _ => do
    let r ← sweep st
    if syndrome && (r.2.2 || r.2.1) then
      if cur + 1 ≥ depth then ok (r.1, cur + 1, r.2.2)
      else iterate syndrome depth n r.1 (cur + 1) r.2.2
    else iterate syndrome depth n r.1 0 r.2.2

/-- `_decode`, `Decoder_LDPC_BP_peeling.cpp:38-114`. -/
def Dec.decode (d : Dec) : Exec (Dec × Bool) := do
  let r ← forN d.H.nRows (known (unkSym d.ty) d.VN) (d.H, List.replicate d.CN.length 0)
  let q ← iterate d.syndrome d.depth d.nIte ⟨r.1, d.VN, r.2⟩ 0 false
  ok ({ d with cur := q.2.1, VN := q.1.VN, CN := q.1.CN }, q.2.2)

/-- What a call gives: `CWD[0]`, the returned status and the output. -/
structure Res where
  cwd : Nat
  status : Nat
  out : List Nat
  deriving DecidableEq

/-- `CWD[0] = synd; return !synd;`. -/
def res (b : Bool) (out : List Nat) : Res := ⟨if b then 1 else 0, if b then 0 else 1, out⟩

/-- `_store`, `Decoder_LDPC_BP_peeling.cpp:210-215`. -/
def Dec.store (d : Dec) (v : List Nat) : Exec (List Nat) :=
  forN d.K (fun i v => do
    let p ← rd d.info i
    let x ← rd d.VN p
    wr v i x) v

/-- `_store_cw`, `Decoder_LDPC_BP_peeling.cpp:217-221`. -/
def Dec.storeCw (d : Dec) (v : List Nat) : Exec (List Nat) := copyTo d.VN 0 d.VN.length v 0

/-- `_decode_hiho`, `Decoder_LDPC_BP_peeling.cpp:116-137`. -/
def Dec.hiho (d : Dec) (y v : List Nat) : Exec (Dec × Res) := do
  let VN ← copyTo y 0 d.N d.VN 0
  let r ← Dec.decode { d with VN }
  let v ← r.1.store v
  ok (r.1, res r.2 v)

/-- `_decode_hiho_cw`, `Decoder_LDPC_BP_peeling.cpp:139-160`. -/
def Dec.hihoCw (d : Dec) (y v : List Nat) : Exec (Dec × Res) := do
  let VN ← copyTo y 0 d.N d.VN 0
  let r ← Dec.decode { d with VN }
  let v ← r.1.storeCw v
  ok (r.1, res r.2 v)

/-- `_decode_siho`, `Decoder_LDPC_BP_peeling.cpp:162-184`; `lanes` is the number of elements of a register, `tau` the threshold of
unknown LLRs. -/
def Dec.siho (lanes tau : Nat) (d : Dec) (y : List Soft) (v : List Nat) : Exec (Dec × Res) := do
  let VN ← hardDecideUnk tau (unkSym d.ty) lanes y d.N d.VN
  let r ← Dec.decode { d with VN }
  let v ← r.1.store v
  ok (r.1, res r.2 v)

/-- `_decode_siho_cw`, `Decoder_LDPC_BP_peeling.cpp:186-208`. -/
def Dec.sihoCw (lanes tau : Nat) (d : Dec) (y : List Soft) (v : List Nat) : Exec (Dec × Res) := do
  let VN ← hardDecideUnk tau (unkSym d.ty) lanes y d.N d.VN
  let r ← Dec.decode { d with VN }
  let v ← r.1.storeCw v
  ok (r.1, res r.2 v)

end Verif.Peeling
