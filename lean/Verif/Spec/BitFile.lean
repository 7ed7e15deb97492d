import Verif.Model.BitFile

/-! # Specification vocabulary for binary files of bits -/

namespace Verif.BitFile

/-- Bit `t` of a file, the least significant bit of a byte first; 0 after the end of the file. -/
def fileBit (file : List (BitVec 8)) (t : Nat) : Int :=
  if h : t / 8 < file.length then (if file[t / 8].getLsbD (t % 8) then 1 else 0) else 0

/-- A value of the sent frames as a bit. -/
def asBit (v : Int) : Int := if v = 0 then 0 else 1

/-- What a user does with a sink. -/
inductive SinkOp where
  | send (V : List Int)
  | reset

/-- A history of calls on a sink. -/
def runSink (s : Sink) : List SinkOp → Exec Sink
  | [] => .ok s
  | .send V :: ops => s.send V >>= fun s => runSink s ops
  | .reset :: ops => runSink s.reset ops

/-- The bits sent since the last reset, after those of `acc`. -/
def sentBits (acc : List Int) : List SinkOp → List Int
  | [] => acc
  | .send V :: ops => sentBits (acc ++ V) ops
  | .reset :: ops => sentBits [] ops

/-- Every frame of the history has `K` elements. -/
def framesOf (K : Nat) (ops : List SinkOp) : Prop := ∀ V, SinkOp.send V ∈ ops → V.length = K

/-- What a user does with a source; `generate` is given the output buffer. -/
inductive SourceOp where
  | generate (U : List Int)
  | reset

/-- A history of calls on a source: the frame and the value of `is_done()` after each `generate`.  `none` when a call
has not returned after `fuel` iterations of its loop. -/
def runSource (fuel : Nat) (s : Source) : List SourceOp → Exec (Option (List (List Int × Bool)))
  | [] => .ok (some [])
  | .reset :: ops => runSource fuel s.reset ops
  | .generate U :: ops => s.generate fuel U >>= fun r =>
    match r with
    | none => .ok none
    | some (U, s) => runSource fuel s ops >>= fun outs =>
      match outs with
      | none => .ok none
      | some outs => .ok (some ((U, s.isDone) :: outs))

/-- Every buffer of the history has `K` elements. -/
def buffersOf (K : Nat) (ops : List SourceOp) : Prop := ∀ U, SourceOp.generate U ∈ ops → U.length = K

/-- The observations a history must give, when the `i`-th `generate` since the last reset gives `frame i` and
`is_done()` after it is `done i`; `n` is the number of `generate`s since the last reset. -/
def expected (frame : Nat → List Int) (done : Nat → Bool) (n : Nat) : List SourceOp → List (List Int × Bool)
  | [] => []
  | .reset :: ops => expected frame done 0 ops
  | .generate _ :: ops => (frame n, done n) :: expected frame done (n + 1) ops

/-- The `n`-th slice of `K` bits of a file, zeros after its end. -/
def slice (file : List (BitVec 8)) (K n : Nat) : List Int := (List.range K).map fun j => fileBit file (n * K + j)

/-- The `n`-th slice of `K` bits of a file repeated forever. -/
def cyclicSlice (file : List (BitVec 8)) (K n : Nat) : List Int :=
  (List.range K).map fun j => fileBit file ((n * K + j) % (8 * file.length))

end Verif.BitFile
