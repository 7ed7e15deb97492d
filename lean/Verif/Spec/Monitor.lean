import Verif.Model.Monitor

/-!
# Specification vocabulary for monitors
-/

namespace Verif.Monitor

/-- Number of wrong bits of frame `f`: positions at which the truth values of the two words differ, or, when unknown
values count, at which one of them is unknown. -/
def frameErrors (a : Args) (U V : List Int) (f : Nat) : Nat :=
  (List.range a.K).countP fun i =>
    decide ((U.getD (f * a.K + i) 0 = 0 ↔ V.getD (f * a.K + i) 0 ≠ 0) ∨
      a.unk = true ∧ (U.getD (f * a.K + i) 0 = a.sat ∨ V.getD (f * a.K + i) 0 = a.sat))

/-- Numbers of wrong bits of the frames of a call. -/
def callErrors (a : Args) (n : Nat) (U V : List Int) : List Nat := (List.range n).map (frameErrors a U V)

/-- Events of a call: one per wrong frame, in order, one for the call, and one if the limit of wrong frames is reached. -/
def callEvents (a : Args) (n : Nat) (U V : List Int) (limit : Bool) : List Ev :=
  (List.range n).filterMap (fun f => if frameErrors a U V f = 0 then none else some (Ev.fe (frameErrors a U V f) f)) ++
    (Ev.check :: if limit then [Ev.feLimit] else [])

/-- The number of times a value was recorded according to the histogram. -/
def Hist.count (h : Hist) (v : Int) : Nat := ((h.hist.find? fun e => e.1 == v * h.scale).map (·.2)).getD 0

/-- The histogram holds exactly the values of `l`, with ascending keys. -/
structure Hist.Holds (h : Hist) (l : List Int) : Prop where
  scale : 0 < h.scale
  sorted : h.hist.Pairwise fun a b => a.1 < b.1
  count : ∀ v, h.count v = l.count v
  total : h.nValues = l.length

/-- What happened since the last reset: the number of wrong bits of every frame compared (`errs`) and those recorded in the
histogram (`rec`); with the current number of frames per call and whether the histogram is activated. -/
structure Log where
  errs : List Nat
  recs : List Nat
  nFrames : Nat
  histOn : Bool

/-- Calls on a monitor. -/
inductive Op where
  | check (U V : List Int)
  | reset
  | frames (n : Nat)
  | hist (on : Bool)

def Log.init : Log := ⟨[], [], 1, false⟩

def Log.op (a : Args) (l : Log) : Op → Log
  | .check U V =>
    let e := callErrors a l.nFrames U V
    { l with errs := l.errs ++ e, recs := l.recs ++ if l.histOn then e.filter (· ≠ 0) else [] }
  | .reset => { l with errs := [], recs := [] }
  | .frames n => { l with nFrames := n }
  | .hist on => { l with histOn := on }

/-- The caller's obligations: large enough buffers, a positive number of frames, and fewer than `2^31` errors in a call
(the status is an `int`). -/
def Op.ok (a : Args) (l : Log) : Op → Prop
  | .check U V => l.nFrames * a.K ≤ U.length ∧ l.nFrames * a.K ≤ V.length ∧ (callErrors a l.nFrames U V).sum < 2 ^ 31
  | .frames n => 0 < n
  | _ => True

/-- Every call of the history meets the caller's obligations. -/
def okAll (a : Args) : Log → List Op → Prop
  | _, [] => True
  | l, o :: os => o.ok a l ∧ okAll a (l.op a o) os

/-- The model of a call (`check_errors` on all the frames). -/
def Mnt.op (m : Mnt) : Op → Exec Mnt
  | .check U V => m.check U V (-1) true >>= fun r => .ok r.1
  | .reset => .ok m.reset
  | .frames n => m.setFrames n
  | .hist on => .ok { m with histOn := on }

/-- A type of elements the library is built for, and a size that fits an `int`. -/
structure Args.Ok (a : Args) : Prop where
  K : 0 < a.K
  int : a.K < 2 ^ 31
  bits : a.bits = 8 ∨ a.bits = 16 ∨ a.bits = 32 ∨ a.bits = 64

/-- The counters of `errs`, on 64 bits. -/
def Attr.of (errs : List Nat) : Attr :=
  ⟨BitVec.ofNat 64 errs.length, BitVec.ofNat 64 errs.sum, BitVec.ofNat 64 (errs.countP (· ≠ 0))⟩

/-- The monitor's counters and histogram are those of the log. -/
structure Shows (m : Mnt) (errs recs : List Nat) : Prop where
  vals : m.vals = Attr.of errs
  hist : m.hist.Holds (recs.map Int.ofNat)
  scale : m.hist.scale = 1

/-- The monitor after a history. -/
structure Agrees (a : Args) (m : Mnt) (l : Log) : Prop where
  args : m.args = a
  shows : Shows m l.errs l.recs
  nFrames : m.nFrames = l.nFrames
  histOn : m.histOn = l.histOn

end Verif.Monitor
