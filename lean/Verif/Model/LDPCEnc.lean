import Verif.Model.Sparse

/-!
# LDPC encoders

Models `_encode` of the encoders in `src/Module/Encoder/LDPC` on one frame: `U` is the input frame of `K` values of the type
`B` (`BitVec w`), `X` the previous content of the output frame.
-/

namespace Verif.Sparse
open Exec

/-- A bit as a value of type `B`. -/
def b2v (w : Nat) (b : Bool) : BitVec w := if b then 1#w else 0#w

/-- `Encoder_LDPC::check_G_dimensions` and `_check_G_dimensions`, `Encoder_LDPC.cpp:52-58, 68-87`; returns the turned matrix. -/
def checkG (K N : Nat) (G : Mat) : Exec Mat :=
  if K ≠ (turn G .vertical).nCols then exc .invalidArgument
  else if N ≠ (turn G .vertical).nRows then exc .runtimeError
  else ok (turn G .vertical)

/-- `Encoder_LDPC::check_H_dimensions` and `_check_H_dimensions`, `Encoder_LDPC.cpp:60-66, 89-100`. -/
def checkH (N : Nat) (H : Mat) : Exec Mat :=
  if N ≠ (turn H .vertical).nRows then exc .runtimeError else ok (turn H .vertical)

/-- `_check_H_dimensions` of the IRA and QC encoders, `Encoder_LDPC_from_IRA.cpp:62-75`, `Encoder_LDPC_from_QC.cpp:61-74`. -/
def checkHP (K N : Nat) (H : Mat) : Exec Mat :=
  checkH N H >>= fun H => if N - K ≠ H.nCols then exc .runtimeError else ok H

/-- `Encoder_LDPC::_encode`, `Encoder_LDPC.cpp:102-114`. -/
def encG {w : Nat} (G : Mat) (N : Nat) (U X : List (BitVec w)) : Exec (List (BitVec w)) :=
  forN N (fun i X => rd G.r2c i >>= fun links =>
    forN links.length (fun j x => rd links j >>= fun l => rd U l >>= fun u => ok (x + u)) 0#w >>= fun x =>
    wr X i (x &&& 1#w)) X

/-- `Encoder_LDPC::is_codeword`, `Encoder_LDPC.cpp:116-124`. -/
def isCodeword (X : List Int) (H : Mat) : Exec Bool := if H.nConn = 0 then exc .unimplemented else checkHard X H

/-- `for (auto& l : H.get_rows_from_col(i)) if (l < K) parity[i] ^= U_K[l];`, `Encoder_LDPC_from_IRA.cpp:48-50, 56-58`. -/
def xorCol {w : Nat} (H : Mat) (K i : Nat) (U : List (BitVec w)) (acc : BitVec w) : Exec (BitVec w) :=
  rd H.c2r i >>= fun col => forEach col (fun l acc => if l < K then rd U l >>= fun u => ok (acc ^^^ u) else ok acc) acc

/-- `Encoder_LDPC_from_IRA::_encode`, `Encoder_LDPC_from_IRA.cpp:33-60`. -/
def encIRA {w : Nat} (H : Mat) (K N : Nat) (U X : List (BitVec w)) : Exec (List (BitVec w)) :=
  copyTo U 0 K X 0 >>= fun X =>
  forN (N - K) (fun i X => wr X (K + i) 0#w) X >>= fun X =>
  rd X K >>= fun p => xorCol H K 0 U p >>= fun x => wr X K x >>= fun X =>
  forRange 1 (N - K) (fun i X => rd X (K + i - 1) >>= fun p => xorCol H K i U p >>= fun x => wr X (K + i) x) X

/-- The right part of the check values, `Encoder_LDPC_from_QC.cpp:45-50`: the accumulators are of type `int8_t`. -/
def qcParity {w : Nat} (H : Mat) (K M : Nat) (U : List (BitVec w)) : Exec (List (BitVec 8)) :=
  forN M (fun i parity => rd H.c2r i >>= fun col =>
    forEach col (fun l parity => if l < K then rd U l >>= fun u => rd parity i >>= fun p => wr parity i (p ^^^ u.setWidth 8)
      else ok parity) parity) (List.replicate M 0#8)

/-- `Encoder_LDPC_from_QC::_encode`, `Encoder_LDPC_from_QC.cpp:35-59`; `inv` is the matrix `invH2` with entries 0 and 1. -/
def encQC {w : Nat} (H : Mat) (inv : List (List Bool)) (K N : Nat) (U X : List (BitVec w)) : Exec (List (BitVec w)) :=
  copyTo U 0 K X 0 >>= fun X =>
  qcParity H K (N - K) U >>= fun parity =>
  forN (N - K) (fun i X =>
    forN (N - K) (fun j x => rd parity j >>= fun p => rd inv i >>= fun row => rd row j >>= fun b =>
      ok (x ^^^ (p &&& b2v 8 b).signExtend w)) 0#w >>= fun x => wr X (K + i) x) X

/-! ## DVB-S2 -/

/-- `struct dvbs2_values`, `DVBS2_constants.hpp:21-30`; all the numbers are positive. -/
structure DVBS2 where
  enc : List Nat
  N : Nat
  K : Nat
  NmK : Nat
  M : Nat
  Q : Nat
  lines : Nat
  deriving DecidableEq, Repr

/-- One message bit: the loop on `q`, `Encoder_LDPC_DVBS2.cpp:46-55`, on the parity part `Px`; `p` is the position of the
pointer in the table. -/
def dvbBit {w : Nat} (d : DVBS2) (p nb l : Nat) (u : BitVec w) (Px : List (BitVec w)) : Exec (List (BitVec w)) :=
  if u = 1#w then forN nb (fun q Px => rd d.enc (p + q) >>= fun e =>
    rd Px ((e + l * d.Q) % d.NmK) >>= fun x => wr Px ((e + l * d.Q) % d.NmK) (x ^^^ 1#w)) Px
  else ok Px

/-- The loop on the lines of the table, `Encoder_LDPC_DVBS2.cpp:37-59`; the state is the position of the pointer and the
parity part, the value of `xPos` is `y * M + l`. -/
def dvbLines {w : Nat} (d : DVBS2) (U : List (BitVec w)) (Px : List (BitVec w)) : Exec (Nat × List (BitVec w)) :=
  forN d.lines (fun y s => rd d.enc s.1 >>= fun nb =>
    forN d.M (fun l Px => rd U (y * d.M + l) >>= fun u => dvbBit d (s.1 + 1) nb l u Px) s.2 >>= fun Px =>
    ok (s.1 + 1 + nb, Px)) (0, Px)

/-- `Encoder_LDPC_DVBS2::_encode`, `Encoder_LDPC_DVBS2.cpp:29-63`: the output is the message followed by the parity part.  A
zero `NmK` would make the remainder undefined. -/
def encDVBS2 {w : Nat} (d : DVBS2) (U : List (BitVec w)) : Exec (List (BitVec w)) :=
  if d.NmK = 0 then ub else
  copyTo U 0 d.K (List.replicate d.K 0#w) 0 >>= fun S =>
  dvbLines d U (List.replicate d.NmK 0#w) >>= fun s =>
  forRange 1 d.NmK (fun i Px => rd Px i >>= fun a => rd Px (i - 1) >>= fun b => wr Px i (a ^^^ b)) s.2 >>= fun Px =>
  ok (S ++ Px)

/-- `build_H`, `DVBS2_constants.cpp:11-50`. -/
def buildH (d : DVBS2) : Exec Mat :=
  if d.NmK = 0 then ub else
  forN d.lines (fun y s => rd d.enc s.1 >>= fun nb =>
    forN d.M (fun l H => forN nb (fun q H => rd d.enc (s.1 + 1 + q) >>= fun e =>
      orThrow (add H (y * d.M + l) ((e + l * d.Q) % d.NmK))) H) s.2 >>= fun H =>
    ok (s.1 + 1 + nb, H)) (0, new d.N d.NmK) >>= fun s =>
  forRange d.K d.N (fun x H => orThrow (add H x (x - d.K)) >>= fun H =>
    if x - d.K + 1 < d.NmK then orThrow (add H x (x - d.K + 1)) else ok H) s.2

end Verif.Sparse
