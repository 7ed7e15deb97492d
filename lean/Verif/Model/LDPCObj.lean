import Verif.Model.LDPCEnc
import Verif.Model.Full

/-! # Constructors of the LDPC encoders -/

namespace Verif.Sparse
open Exec

/-- Checks of the base class, `Encoder.hxx:42-63`. -/
def encoderArgs (K N : Nat) : Exec Unit := if K = 0 then exc .invalidArgument else if N = 0 then exc .invalidArgument
  else if K > N then exc .invalidArgument else ok ()

/-- `Encoder_LDPC(K, N, G)`, `Encoder_LDPC.cpp:29-38`; returns the member `G`. -/
def makeG (K N : Nat) (G : Mat) : Exec Mat := encoderArgs K N >>= fun _ => checkG K N G

/-- `Encoder_LDPC(K, N, G, H)`, `Encoder_LDPC.cpp:40-50`; returns the members `G` and `H`. -/
def makeGH (K N : Nat) (G H : Mat) : Exec (Mat × Mat) :=
  encoderArgs K N >>= fun _ => checkG K N G >>= fun G => checkH N H >>= fun H => ok (G, H)

/-- `Encoder_LDPC_from_IRA(K, N, H)`, `Encoder_LDPC_from_IRA.cpp:11-22`; returns the member `H`. -/
def makeIRA (K N : Nat) (H : Mat) : Exec Mat := encoderArgs K N >>= fun _ => checkHP K N H

/-- `Encoder_LDPC_from_QC(K, N, H)`, `Encoder_LDPC_from_QC.cpp:12-24`; returns the members `H` and `invH2`. -/
def makeQC (K N : Nat) (H : Mat) : Exec (Mat × FM) :=
  encoderArgs K N >>= fun _ => luSparse H >>= fun inv => checkHP K N H >>= fun H => ok (H, inv)

/-- The argument `G_method`. -/
inductive GMethod where
  | identity
  | luDec
  | unknown
  deriving DecidableEq, Repr

/-- The choice of the method, `Encoder_LDPC_from_H.cpp:27-36`. -/
def hToG (H : Mat) : GMethod → Exec (Mat × List Nat)
  | .identity => hToGIdentitySparse H
  | .luDec => hToGLUSparse H
  | .unknown => exc .invalidArgument

/-- An object `Encoder_LDPC_from_H`. -/
structure FromH where
  G : Mat
  H : Mat
  infoPos : List Nat

/-- `Encoder_LDPC_from_H(K, N, H, G_method, "")`, `Encoder_LDPC_from_H.cpp:16-57`: no file is written. -/
def makeFromH (K N : Nat) (H : Mat) (m : GMethod) : Exec FromH :=
  encoderArgs K N >>= fun _ => hToG (turn H .horizontal) m >>= fun x =>
  checkG K N x.1 >>= fun G => checkH N (turn H .horizontal) >>= fun H => ok ⟨G, H, x.2⟩

end Verif.Sparse
