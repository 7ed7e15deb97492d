import Verif.Model.Gallager
import Verif.Spec.LDPCBP

/-!
# Specification of the Gallager decoders on a Tanner graph

Received bits and messages are signs: `1` for the bit 0, `-1` for the bit 1, and `0` for an erased message of the decoder E.  A message between
check `c` and variable `v` is a value `m c v`: there is no memory layout here.
-/

namespace Verif.Gallager
open Verif.Sparse Verif.LDPCBP

/-- The sign of a bit. -/
def sgn (b : Bool) : Int := if b then -1 else 1

/-- The other elements of a list. -/
def others (l : List Nat) (x : Nat) : List Nat := l.filter fun a => decide (a ≠ x)

/-- The message to check `c` of a variable of received sign `y` and of checks `l`, that sent it the messages `m`, after `n` iterations.
Before the first one it is the received sign.
* A: the received sign, unless all the other checks disagree with it;
* B: the received sign, unless more other checks disagree with it than checks (`c` included) agree;
* E: the sign of the sum of the received sign, counted twice in the second iteration, and of the messages of the other checks. -/
def varMsg (a : Algo) (n : Nat) (y : Int) (l : List Nat) (m : Nat → Int) (c : Nat) : Int :=
  if n = 0 then y else
  match a with
  | .A => if l.length ≠ 1 ∧ ∀ c' ∈ others l c, m c' = -y then -y else y
  | .B => if l.countP (fun c' => decide (m c' = y)) < (others l c).countP (fun c' => decide (m c' = -y)) then -y else y
  | .E => ((if n = 1 then 2 else 1) * y + ((others l c).map m).sum).sign

/-- The message of a check to variable `v`, its variables being `l` and their messages `q`: the product of those of the others. -/
def chkMsg (l : List Nat) (q : Nat → Int) (v : Nat) : Int := ((others l v).map q).prod

/-- The messages of the checks after `n` iterations. -/
def msgs (a : Algo) (H : Mat) (y : Nat → Int) : Nat → Nat → Nat → Int
  | 0 => fun _ _ => 1
  | n + 1 => fun c v => chkMsg (vars H c) (fun v' => varMsg a n (y v') (chks H v') (fun c' => msgs a H y n c' v') c) v

/-- The vote of a variable: the majority of its messages, with its received sign for the decoder E; its received sign in case of a tie. -/
def vote (a : Algo) (y : Int) (l : List Nat) (m : Nat → Int) : Int :=
  let s := (l.map m).sum + if a = .E then y else 0
  if s = 0 then y else s.sign

/-- The decision on variable `v` after `n` iterations. -/
def decision (a : Algo) (H : Mat) (y : Nat → Bool) (n v : Nat) : Bool :=
  decide (vote a (sgn (y v)) (chks H v) (fun c => msgs a H (fun v => sgn (y v)) n c v) = -1)

/-- A bit as an integer. -/
def bit (b : Bool) : Int := if b then 1 else 0

/-- A frame of bits. -/
def bits (n : Nat) (y : Nat → Bool) : List Int := (List.range n).map fun v => bit (y v)

/-- The hard decisions on LLRs. -/
def hardOf {R : Type} (o : Ops R) (lanes N : Nat) (Y : List R) (v : Nat) : Bool :=
  if v < N / lanes * lanes then o.sign (llr o Y v) else o.isNeg (llr o Y v)

/-- The decoders that a history of calls on `d0` gives, on frames of bits or of LLRs, the sizes being those of the sockets. -/
inductive Gal.Hist {R : Type} (o : Ops R) (lanes : Nat) (d0 : Gal) : Gal → Prop
  | init : Gal.Hist o lanes d0 d0
  | hiho {d d' : Gal} {y : Nat → Bool} {V : List Int} {q : Res Int} : Gal.Hist o lanes d0 d → V.length = d.cfg.K →
      d.hiho (bits d.cfg.N y) V = .ok (d', q) → Gal.Hist o lanes d0 d'
  | hihoCw {d d' : Gal} {y : Nat → Bool} {V : List Int} {q : Res Int} : Gal.Hist o lanes d0 d → V.length = d.cfg.N →
      d.hihoCw (bits d.cfg.N y) V = .ok (d', q) → Gal.Hist o lanes d0 d'
  | siho {d d' : Gal} {Y : List R} {V : List Int} {q : Res Int} : Gal.Hist o lanes d0 d → Y.length = d.cfg.N → V.length = d.cfg.K →
      d.siho o lanes Y V = .ok (d', q) → Gal.Hist o lanes d0 d'
  | sihoCw {d d' : Gal} {Y : List R} {V : List Int} {q : Res Int} : Gal.Hist o lanes d0 d → Y.length = d.cfg.N → V.length = d.cfg.N →
      d.sihoCw o lanes Y V = .ok (d', q) → Gal.Hist o lanes d0 d'

end Verif.Gallager
