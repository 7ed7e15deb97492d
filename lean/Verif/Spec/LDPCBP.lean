import Verif.Model.LDPCBP
import Verif.Spec.Sparse

/-!
# Specification of belief propagation on a Tanner graph

A message between check `c` and variable `v` is a value `m c v`, an LLR of variable `v` is a value `y v`: there is no memory layout
here.  `o` gives the arithmetic of the LLRs and `r` the update rule of the checks.
-/

namespace Verif.LDPCBP
open Verif.Sparse Verif.Float

variable {R : Type}

/-- The variables of check `c`, in the order of the matrix. -/
def vars (H : Mat) (c : Nat) : List Nat := H.c2r.getD c []

/-- The checks of variable `v`, in increasing order. -/
def chks (H : Mat) (v : Nat) : List Nat := (List.range H.nCols).filter fun c => decide (v ∈ vars H c)

/-- The checks of variable `v`, in the order of the matrix. -/
def rowOf (H : Mat) (v : Nat) : List Nat := H.r2c.getD v []

/-- The message of a check to its `i`-th variable, whose message to the check is `x`, when the messages of its variables to the
check are `xs`. -/
def Rule.eval (r : Rule R) (xs : List R) (i : Nat) (x : R) : R :=
  r.out (r.mid (xs.zipIdx.foldl (fun s p => r.inp s p.2 p.1) r.start)) i x

/-- The message of check `c` to variable `v` when the messages of the variables to the check are `q`. -/
def fromChk (r : Rule R) (H : Mat) (c : Nat) (q : Nat → R) (v : Nat) : R :=
  r.eval ((vars H c).map q) ((vars H c).idxOf v) (q v)

/-- The least magnitude of the messages other than the `i`-th one, at most the greatest value of the type. -/
def minOther (o : Ops R) (xs : List R) (i : Nat) : R := (xs.eraseIdx i).foldl (fun a x => o.min a (o.abs x)) o.top

/-- The product of the signs of the messages other than the `i`-th one: `true` if negative. -/
def signOther (o : Ops R) (xs : List R) (i : Nat) : Bool := (xs.eraseIdx i).foldl (fun s x => s ^^ o.sign x) false

/-! ## Flooding: all the checks, then all the variables -/

/-- The a posteriori value of variable `v`: its LLR plus the messages of its checks. -/
def total (o : Ops R) (H : Mat) (y : Nat → R) (m : Nat → Nat → R) (v : Nat) : R :=
  o.add (y v) ((chks H v).foldl (fun s c => o.add s (m c v)) o.zero)

/-- The message of variable `v` to check `c`: its a posteriori value without the message of this check. -/
def toChk (o : Ops R) (H : Mat) (y : Nat → R) (m : Nat → Nat → R) (c v : Nat) : R := o.sub (total o H y m v) (m c v)

/-- The messages of the checks after `n` iterations. -/
def flood (o : Ops R) (r : Rule R) (H : Mat) (y : Nat → R) : Nat → Nat → Nat → R
  | 0 => fun _ _ => o.zero
  | n + 1 => fun c v => fromChk r H c (toChk o H y (flood o r H y n) c) v

/-- The a posteriori values after `n` iterations. -/
def floodPost (o : Ops R) (r : Rule R) (H : Mat) (y : Nat → R) (n v : Nat) : R := total o H y (flood o r H y n) v

/-! ## Layered schedulings -/

/-- The a posteriori values and the messages of the checks. -/
structure LayF (R : Type) where
  L : Nat → R
  m : Nat → Nat → R

/-- Before the first iteration. -/
def layStart (o : Ops R) (y : Nat → R) : LayF R := ⟨fun v => o.add o.zero (y v), fun _ _ => o.zero⟩

/-- The message of variable `v` to check `c`. -/
def layTo (o : Ops R) (s : LayF R) (c v : Nat) : R := o.sub (s.L v) (s.m c v)

/-- The update of check `c` of the horizontal scheduling: all the messages of the check and the a posteriori values of its
variables. -/
def horAt (o : Ops R) (r : Rule R) (H : Mat) (s : LayF R) (c : Nat) : LayF R where
  L v := if v ∈ vars H c then o.add (layTo o s c v) (fromChk r H c (layTo o s c) v) else s.L v
  m c' v := if c' = c ∧ v ∈ vars H c then fromChk r H c (layTo o s c) v else s.m c' v

/-- One iteration of the horizontal scheduling. -/
def horSweep (o : Ops R) (r : Rule R) (H : Mat) (s : LayF R) : LayF R := (List.range H.nCols).foldl (horAt o r H) s

/-- The update of the message of check `c` to variable `v` of the vertical scheduling; `a.1` sums the differences of messages. -/
def verEdge (o : Ops R) (r : Rule R) (H : Mat) (L : Nat → R) (v : Nat) (a : R × (Nat → Nat → R)) (c : Nat) : R × (Nat → Nat → R) :=
  (o.add (o.sub a.1 (a.2 c v)) (fromChk r H c (layTo o ⟨L, a.2⟩ c) v),
   fun c' v' => if c' = c ∧ v' = v then fromChk r H c (layTo o ⟨L, a.2⟩ c) v else a.2 c' v')

/-- The update of variable `v` of the vertical scheduling: the messages it receives, then its a posteriori value. -/
def verAt (o : Ops R) (r : Rule R) (H : Mat) (s : LayF R) (v : Nat) : LayF R where
  L v' := if v' = v then o.add (s.L v) ((rowOf H v).foldl (verEdge o r H s.L v) (o.zero, s.m)).1 else s.L v'
  m := ((rowOf H v).foldl (verEdge o r H s.L v) (o.zero, s.m)).2

/-- One iteration of the vertical scheduling. -/
def verSweep (o : Ops R) (r : Rule R) (H : Mat) (s : LayF R) : LayF R := (List.range H.nRows).foldl (verAt o r H) s

/-- One iteration. -/
def sweepOf (o : Ops R) (r : Rule R) (H : Mat) : Sched → LayF R → LayF R
  | .horizontal => horSweep o r H
  | .vertical => verSweep o r H

/-- The state after `n` iterations. -/
def lay (o : Ops R) (r : Rule R) (H : Mat) (s : Sched) (y : Nat → R) : Nat → LayF R
  | 0 => layStart o y
  | n + 1 => sweepOf o r H s (lay o r H s y n)

/-- The a posteriori values after `n` iterations. -/
def layPost (o : Ops R) (r : Rule R) (H : Mat) (s : Sched) (y : Nat → R) (n v : Nat) : R := (lay o r H s y n).L v

/-! ## When to stop -/

/-- `x` is a codeword: every check is satisfied. -/
def Codeword (A : Conns) (x : Nat → Bool) : Prop := ∀ c, c < A.cols → Satisfied A x c

/-- The signs of the a posteriori values are a codeword. -/
def Valid (o : Ops R) (A : Conns) (p : Nat → R) : Prop := Codeword A fun v => o.isNeg (p v)

/-- The last `depth` iterations are valid, `k` valid ones being counted before the first. -/
def Run (valid : Nat → Prop) (depth k n : Nat) : Prop := depth ≤ n + k ∧ ∀ j, 1 ≤ j → j ≤ n → n < j + depth → valid j

/-- `n` is the first iteration where `stop` holds, at most `limit`; `limit` if the criterion is disabled. -/
structure StopsAt (enabled : Bool) (stop : Nat → Prop) (limit n : Nat) : Prop where
  pos : 1 ≤ n
  le : n ≤ limit
  before : enabled = true → ∀ i, 1 ≤ i → i < n → ¬ stop i
  last : n < limit → enabled = true ∧ stop n

/-- The LLRs of a list. -/
def llr (o : Ops R) (Y : List R) (v : Nat) : R := Y.getD v o.zero

/-! ## Histories -/

/-- The decoders that a history of calls on `d0` gives, the sizes being those of the sockets.  The flag tells that the decoder is
ready for a new codeword: it is new, it has just been reset or its last decoding was with the automatic reset. -/
inductive Flood.Hist (o : Ops R) (r : Rule R) (d0 : Flood R) : Bool → Flood R → Prop
  | init : Flood.Hist o r d0 true d0
  | setAuto {b : Bool} {d : Flood R} (a : Bool) : Flood.Hist o r d0 b d → Flood.Hist o r d0 b { d with auto := a }
  | reset {b : Bool} {d : Flood R} : Flood.Hist o r d0 b d → Flood.Hist o r d0 true (d.reset o)
  | siho {b : Bool} {d d' : Flood R} {Y : List R} {V : List Nat} {q : Res Nat} : Flood.Hist o r d0 b d → Y.length = d.cfg.N →
      V.length = d.cfg.K → d.siho o r Y V = .ok (d', q) → Flood.Hist o r d0 d.auto d'
  | sihoCw {lanes : Nat} {b : Bool} {d d' : Flood R} {Y : List R} {V : List Nat} {q : Res Nat} : Flood.Hist o r d0 b d →
      Y.length = d.cfg.N → V.length = d.cfg.N → d.sihoCw o r lanes Y V = .ok (d', q) → Flood.Hist o r d0 d.auto d'
  | siso {b : Bool} {d d' : Flood R} {Y Y2 : List R} {q : Res R} : Flood.Hist o r d0 b d → Y.length = d.cfg.N →
      Y2.length = d.cfg.N → d.siso o r Y Y2 = .ok (d', q) → Flood.Hist o r d0 d.auto d'

/-- The same for the layered decoders. -/
inductive Layer.Hist (o : Ops R) (r : Rule R) (d0 : Layer R) : Bool → Layer R → Prop
  | init : Layer.Hist o r d0 true d0
  | setAuto {b : Bool} {d : Layer R} (a : Bool) : Layer.Hist o r d0 b d → Layer.Hist o r d0 b { d with auto := a }
  | reset {b : Bool} {d : Layer R} : Layer.Hist o r d0 b d → Layer.Hist o r d0 true (d.reset o)
  | siho {b : Bool} {d d' : Layer R} {Y : List R} {V : List Nat} {q : Res Nat} : Layer.Hist o r d0 b d → Y.length = d.cfg.N →
      V.length = d.cfg.K → d.siho o r Y V = .ok (d', q) → Layer.Hist o r d0 d.auto d'
  | sihoCw {lanes : Nat} {b : Bool} {d d' : Layer R} {Y : List R} {V : List Nat} {q : Res Nat} : Layer.Hist o r d0 b d →
      Y.length = d.cfg.N → V.length = d.cfg.N → d.sihoCw o r lanes Y V = .ok (d', q) → Layer.Hist o r d0 d.auto d'
  | siso {b : Bool} {d d' : Layer R} {Y Y2 : List R} {q : Res R} : Layer.Hist o r d0 b d → Y.length = d.cfg.N →
      Y2.length = d.cfg.N → d.siso o r Y Y2 = .ok (d', q) → Layer.Hist o r d0 d.auto d'

/-! ## Signs -/

/-- The sign of `x` is that of bit `b`, or `x` is null; `x` is a number. -/
def Agrees (b : Bool) (x : Fz) : Prop :=
  match x.val with
  | .fin q => if b then q ≤ 0 else 0 ≤ q
  | .inf s => s = b
  | .nan => False

/-- The sign of `x` is that of bit `b`: `x` is a number which is not null. -/
def Strict (b : Bool) (x : Fz) : Prop := Agrees b x ∧ x.val ≠ .fin 0

/-- A number, finite or infinite. -/
def IsNum (x : Fz) : Prop :=
  match x.mag with
  | .fin q => 0 ≤ q
  | .inf s => s = false
  | .nan => False

/-- A floating-point number of the format: its sign and its magnitude, not negative. -/
def IsFz (F : Fmt) (x : Fz) : Prop :=
  match x.mag with
  | .fin q => 0 ≤ q ∧ F.Rep q
  | .inf s => s = false
  | .nan => True

/-- The value, or its opposite if `b`. -/
def flip (b : Bool) (v : Fl) : Fl := if b then v.neg else v

/-- The min-sum rules on floating-point numbers: plain, with an offset which is not negative, with a factor between 0 and 1. -/
inductive MinSum (F : Fmt) : Rule Fz → Prop
  | ms : MinSum F (ms (opsFz F))
  | oms {offset : Fz} {t : ℚ} : offset.val = .fin t → 0 ≤ t → MinSum F (oms (opsFz F) offset)
  | nms {factor : Fz} {t : ℚ} : factor.val = .fin t → 0 ≤ t → t ≤ 1 → MinSum F (nms (opsFz F) (normFz F factor))

/-- The LLRs `y` of a codeword `b` received without error: every LLR is a number of the format which is not null, with the sign of its
bit (an infinity is allowed). -/
def NoError (F : Fmt) (n : Nat) (b : Nat → Bool) (y : Nat → Fz) : Prop := ∀ v, v < n → IsFz F (y v) ∧ Strict (b v) (y v)

/-- The LLRs `y` are finite numbers of the format, the LLRs `y'` have the opposite value where the bit of `b` is one and the same value
elsewhere. -/
def Flipped (F : Fmt) (n : Nat) (b : Nat → Bool) (y y' : Nat → Fz) : Prop :=
  ∀ v, v < n → IsFz F (y v) ∧ IsFz F (y' v) ∧ (∃ q, (y v).val = .fin q) ∧ (y' v).val = flip (b v) (y v).val

end Verif.LDPCBP
