import Verif.Model.Simple

/-! # Vocabulary of C131–C132 -/

namespace Verif.Simple

variable {T : Type}

/-- The number of frames and what each frame is expected to be initialised with, after a call that returned normally: data set for all the frames, data
set for each frame, or a change of the number of frames, in which the new frames get the data of the first one. -/
def IOp.expect (s : Nat × (Nat → List T)) : IOp T → Nat × (Nat → List T)
  | .all v => (s.1, fun _ => v)
  | .each vs => (s.1, fun f => vs.getD f [])
  | .frames k => (k, fun f => if f < s.1 then s.2 f else s.2 0)

/-- The number of frames and the last data received by each frame, zeros for a frame that received nothing since it exists. -/
def FOp.expect (zeros : List T) (s : Nat × (Nat → List T)) : FOp T → Nat × (Nat → List T)
  | .finalize f inp => (s.1, fun g => if g = f then inp else s.2 g)
  | .frames k => if k = 0 then s else (k, fun g => if g < k then s.2 g else zeros)

/-- The calls that have to be accepted, for frames of `n` elements: data of this size, for all the frames or for each of them, at least one frame. -/
def IOp.accepted (n frames : Nat) : IOp T → Bool
  | .all v => v.length == n
  | .each vs => vs.length == frames && vs.all fun v => v.length == n
  | .frames k => decide (0 < k)

/-- The frames expected after a sequence of calls on a new initializer; refused calls have no effect. -/
def expected (zeros : List T) (ops : List (IOp T)) : Nat × (Nat → List T) :=
  ops.foldl (fun s o => if o.accepted zeros.length s.1 then o.expect s else s) (1, fun _ => zeros)

/-- Every frame finalised exists at the time of the call and its data has `n` elements. -/
def legal (n : Nat) : Nat → List (FOp T) → Bool
  | _, [] => true
  | frames, .finalize f inp :: l => decide (f < frames) && inp.length == n && legal n frames l
  | frames, .frames k :: l => legal n (if k = 0 then frames else k) l

/-- The frames received after a sequence of calls on a new finalizer. -/
def received (zeros : List T) (ops : List (FOp T)) : Nat × (Nat → List T) := ops.foldl (FOp.expect zeros) (1, fun _ => zeros)

end Verif.Simple
