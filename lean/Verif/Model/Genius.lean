import Verif.Model.Distance
import Verif.Model.BitPacker

/-!
# Memorizing encoders and genius decoders

Models the recording of codewords by `Encoder<B>` (`include/Module/Encoder/Encoder.hxx`), `Decoder_BCH_genius`
(`src/Module/Decoder/BCH/Genius/Decoder_BCH_genius.cpp`), `Decoder_RS_genius`
(`src/Module/Decoder/RS/Genius/Decoder_RS_genius.cpp`) and the virtual dispatch of `Decoder_HIHO` / `Decoder_RS`.
-/

namespace Verif.Genius
open Exec

/-- The recording part of `Encoder<B>`: `K`, `N`, `n_frames`, `n_frames_per_wave`, `memorizing`, `U_K_mem`, `X_N_mem`,
`Encoder.hxx:29-43`. -/
structure MemEnc where
  K : Nat
  N : Nat
  nFrames : Nat
  npw : Nat
  memorizing : Bool
  uMem : List (List Int)
  xMem : List (List Int)
  deriving DecidableEq, Repr

/-- `Encoder::set_memorizing(true)` on a new object, `Encoder.hxx:127-152`: one zero word per frame. -/
def MemEnc.init (K N nFrames npw : Nat) : MemEnc :=
  ⟨K, N, nFrames, npw, true, List.replicate nFrames (List.replicate K 0), List.replicate nFrames (List.replicate N 0)⟩

/-- The copy loops of the codelet, `Encoder.hxx:67-71` and `:77-81`: frame `f` of the wave goes to the recorded word
`frameId + f`. -/
def record (n npw frameId : Nat) (buf : List Int) (mem : List (List Int)) : Exec (List (List Int)) :=
  forN npw (fun f mem => rd mem (frameId + f) >>= fun dst => copyTo buf (f * n) n dst 0 >>= fun d =>
    wr mem (frameId + f) d) mem

/-- `if (enc.is_memorizing()) ...`, `Encoder.hxx:66` and `:76`. -/
def MemEnc.recordIf (e : MemEnc) (n frameId : Nat) (buf : List Int) (mem : List (List Int)) : Exec (List (List Int)) :=
  if e.memorizing then record n e.npw frameId buf mem else ok mem

/-- The `encode` codelet, `Encoder.hxx:63-84`.  `enc` is `_encode`: what it writes to the output buffer. -/
def MemEnc.codelet (e : MemEnc) (enc : List Int → Nat → Exec (List Int)) (u : List Int) (frameId : Nat) :
    Exec (MemEnc × List Int) := do
  let uMem ← e.recordIf e.K frameId u e.uMem
  let x ← enc u frameId
  let xMem ← e.recordIf e.N frameId x e.xMem
  ok ({ e with uMem := uMem, xMem := xMem }, x)

/-- `get_X_N`, `Encoder.hxx:163-167`. -/
def MemEnc.getX (e : MemEnc) (frameId : Nat) : Exec (List Int) := rd e.xMem (frameId % e.nFrames)

/-- Constructor of `Decoder_BCH_genius`, `Decoder_BCH_genius.cpp:14-29` and `Decoder_BCH.cpp:12-26`; the sizes have been
accepted by `Decoder`.  The result is the dimension, length and correction power. -/
def bchCtor (K N t : Int) (e : MemEnc) : Exec (Nat × Nat × Int) :=
  if K ≤ 3 then exc .invalidArgument
  else if e.memorizing = false then exc .invalidArgument
  else ok (K.toNat, N.toNat, t)

/-- `Decoder_BCH_genius::_decode_hiho`, `:38-54`: the output and `last_is_codeword[frame_id]`. `W` and `L` are the
element width and the register width of the distance. -/
def bchHiho (bits L K N : Nat) (t : Int) (e : MemEnc) (y v : List Int) (frameId : Nat) : Exec (List Int × Bool) := do
  let x ← e.getX frameId
  let n ← Distance.hammingDistance bits L x y N
  let v ← if (n : Int) ≤ t then copyTo x (N - K) K v 0 else copyTo y (N - K) K v 0
  ok (v, decide ((n : Int) ≤ t))

/-- `Decoder_BCH_genius::_decode_hiho_cw`, `:56-72`. -/
def bchHihoCw (bits L N : Nat) (t : Int) (e : MemEnc) (y v : List Int) (frameId : Nat) : Exec (List Int × Bool) := do
  let x ← e.getX frameId
  let n ← Distance.hammingDistance bits L x y N
  let v ← if (n : Int) ≤ t then copyTo x 0 N v 0 else copyTo y 0 N v 0
  ok (v, decide ((n : Int) ≤ t))

/-- Virtual dispatch of the `decode_hiho` codelet for a class that overrides only the version without `CWD`
(`Decoder_BCH_genius`): `Decoder_HIHO.hxx:44-60` and `:199-206`.  Result: output word, `CWD` of the (single) frame,
`get_last_is_codeword`. -/
def bchPublic (bits L K N : Nat) (t : Int) (e : MemEnc) (y v : List Int) (frameId : Nat) :
    Exec (List Int × Int × Bool) := do
  let (v, last) ← bchHiho bits L K N t e y v frameId
  ok (v, 0, last)

/-- As `bchPublic` for `decode_hiho_cw`, `Decoder_HIHO.hxx:66-82` and `:215-222`. -/
def bchPublicCw (bits L N : Nat) (t : Int) (e : MemEnc) (y v : List Int) (frameId : Nat) :
    Exec (List Int × Int × Bool) := do
  let (v, last) ← bchHihoCw bits L N t e y v frameId
  ok (v, 0, last)

/-- `Decoder_RS_genius::_decode`, `Decoder_RS_genius.cpp:34-39`. -/
def rsDecode {W : Nat} (_y : List (BitVec W)) (_frameId : Nat) : Exec (Int × List (BitVec W)) := exc .unimplemented

/-- `Decoder_RS::_decode_hiho` (the version with `CWD`, which the codelet calls and which `Decoder_RS_genius` does not
override), `Decoder_RS.cpp:46-66`, with the genius `_decode`: pack the `N` bits, decode, unpack the `K` last ones.
`W` is the width of a symbol element, `K` and `N` count bits. -/
def rsPublic (W m nRdncy K N : Nat) (y : List Int) (yhN : List (BitVec W)) (v : List Int) (frameId : Nat) :
    Exec (List Int × Bool) := do
  let yh ← BitPacker.pack W false m N 1 y yhN
  let (status, yh) ← rsDecode yh frameId
  let v ← BitPacker.unpack false m K 1 (yh.drop nRdncy) v
  ok (v, status = 0)

/-- `Decoder_RS::_decode_hiho_cw`, `Decoder_RS.cpp:68-88`, with the genius `_decode`. -/
def rsPublicCw (W m N : Nat) (y : List Int) (yhN : List (BitVec W)) (v : List Int) (frameId : Nat) :
    Exec (List Int × Bool) := do
  let yh ← BitPacker.pack W false m N 1 y yhN
  let (status, yh) ← rsDecode yh frameId
  let v ← BitPacker.unpack false m N 1 yh v
  ok (v, status = 0)

end Verif.Genius
