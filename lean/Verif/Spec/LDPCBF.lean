import Verif.Model.LDPCBF
import Verif.Spec.LDPCBP

/-!
# Specification of the bit flipping decoders

The decisions are a function `x : Nat → Bool` of the variables; the parity check matrix is the set of connections `A`, the matrix
`H` that represents it only gives the order in which sums are computed.
-/

namespace Verif.LDPCBF
open Exec Verif.Sparse Verif.Float Verif.LDPCBP

instance (A : Conns) (x : Nat → Bool) (c : Nat) : Decidable (Satisfied A x c) := by unfold Satisfied; infer_instance

instance (A : Conns) (x : Nat → Bool) : Decidable (Codeword A x) := by unfold Codeword; infer_instance

variable {R : Type}

/-! ## Weighted bit flipping -/

/-- The least magnitude of the LLRs of the variables of check `c`. -/
def minMag (o : Arith R) (H : Mat) (y : Nat → R) (c : Nat) : R := (vars H c).foldl (fun a p => o.min a (o.abs (y p))) o.top

/-- The energy of variable `v`: its failing checks count positively and the others negatively, with their least magnitudes, minus
its own magnitude weighted by `f`. -/
def energyOf (o : Arith R) (H : Mat) (A : Conns) (f : R) (y : Nat → R) (x : Nat → Bool) (v : Nat) : R :=
  o.sub ((rowOf H v).foldl (fun e c => o.add e (if Satisfied A x c then o.opp (minMag o H y c) else minMag o H y c)) o.zero)
    (o.mul f (o.abs (y v)))

/-- The first variable of greatest energy among the `n + 1` first ones. -/
def worst (o : Arith R) (e : Nat → R) : Nat → Nat
  | 0 => 0
  | n + 1 => if o.lt (e (worst o e n)) (e (n + 1)) then n + 1 else worst o e n

/-- One iteration: nothing changes when all the checks are satisfied, otherwise the worst variable is flipped. -/
def flipWorst (o : Arith R) (H : Mat) (A : Conns) (f : R) (y : Nat → R) (x : Nat → Bool) : Nat → Bool :=
  if Codeword A x then x else fun v => if v = worst o (energyOf o H A f y x) (A.rows - 1) then !x v else x v

/-- The decisions after `n` iterations; the first ones are the signs of the LLRs. -/
def decisions (o : Arith R) (H : Mat) (A : Conns) (f : R) (y : Nat → R) : Nat → Nat → Bool
  | 0 => fun v => o.isNeg (y v)
  | n + 1 => flipWorst o H A f y (decisions o H A f y n)

/-- What the decoder announces after `n` iterations: the decisions before the last one were a codeword. -/
def announced (o : Arith R) (H : Mat) (A : Conns) (f : R) (y : Nat → R) : Nat → Bool
  | 0 => true
  | n + 1 => decide (Codeword A (decisions o H A f y n))

/-- The arithmetic distinguishes `1` and `-1`. -/
def Signs (o : Arith R) : Prop := o.isNeg o.one = false ∧ o.isNeg o.mone = true ∧ o.nonneg o.one = true ∧ o.nonneg o.mone = false

/-- The degrees of the variables and of the checks are less than 256. -/
def SmallDegrees (A : Conns) : Prop := (∀ c, c < A.cols → A.colDeg c < 256) ∧ ∀ v, v < A.rows → A.rowDeg v < 256

/-- The decoders a history of calls can give: the sizes are those of the sockets, the positions of the information bits are positions
of the codeword. -/
inductive Soft.Reach (o : Arith R) (A : Conns) (H : Mat) (f : R) (n : Int) (info : List Nat) : Soft R → Prop
  | make {char8 enable : Bool} {K N depth : Int} {d : Soft R} :
      Soft.mk? o char8 K N n H info f enable depth = .ok d → Soft.Reach o A H f n info d
  | siho {d d' : Soft R} {Y : List R} {V : List Bool} {r : Res Bool} : Soft.Reach o A H f n info d → Y.length = d.N → V.length = d.K →
      d.siho o Y V = .ok (d', r) → Soft.Reach o A H f n info d'
  | sihoCw {d d' : Soft R} {Y : List R} {V : List Bool} {r : Res Bool} : Soft.Reach o A H f n info d → Y.length = d.N → V.length = d.N →
      d.sihoCw o Y V = .ok (d', r) → Soft.Reach o A H f n info d'
  | siso {d d' : Soft R} {Y V : List R} {r : Res R} : Soft.Reach o A H f n info d → Y.length = d.N → V.length = d.N →
      d.siso o Y V = .ok (d', r) → Soft.Reach o A H f n info d'

/-- The frame of the values `y`. -/
def frameOf {α : Type} (n : Nat) (y : Nat → α) : List α := (List.range n).map y

/-- `y'` is `y` with the sign of the LLRs of the ones of `x` changed; these LLRs are not null. -/
def SignChanged (o : Arith R) (A : Conns) (x : Nat → Bool) (y y' : Nat → R) : Prop :=
  ∀ v, v < A.rows → o.abs (y' v) = o.abs (y v) ∧ o.isNeg (y' v) = (o.isNeg (y v) ^^ x v)

/-! ## Probabilistic parallel bit flipping -/

variable {S : Source}

/-- The frame of `n` bits in the type of `w` bits. -/
def bits (w n : Nat) (x : Nat → Bool) : List (BitVec w) := (List.range n).map fun v => if x v then 1#w else 0#w

/-- The energy of variable `v`: the number of its checks that fail, plus one if its decision is not the received bit. -/
def count (A : Conns) (y x : Nat → Bool) (v : Nat) : Nat :=
  (if x v = y v then 0 else 1) + ((Finset.range A.cols).filter fun c => (v, c) ∈ A.set ∧ ¬ Satisfied A x c).card

/-- The results for the `n` first variables, drawn in order with the distributions `e`, and the next state of the source. -/
def draws (S : Source) (e : Nat → Nat) (s : S.σ) : Nat → (Nat → Bool) × S.σ
  | 0 => (fun _ => false, s)
  | n + 1 =>
    let p := draws S e s n
    let r := S.draw p.2 (e n)
    (fun v => if v = n then r.1 else p.1 v, r.2)

/-- One parallel flip: variable `v` is flipped when the draw of its energy says so. -/
def flipAll (A : Conns) (y : Nat → Bool) (q : (Nat → Bool) × S.σ) : (Nat → Bool) × S.σ :=
  let p := draws S (count A y q.1) q.2 A.rows
  (fun v => q.1 v ^^ p.1 v, p.2)

/-- `n + 1` iterations, after `cur` consecutive codewords: the decisions, the state of the source, and whether the last decisions that
were checked are a codeword. -/
def ppRun (A : Conns) (enable : Bool) (depth : Nat) (y : Nat → Bool) : Nat → Nat → (Nat → Bool) × S.σ → ((Nat → Bool) × S.σ) × Bool
  | n, cur, q =>
    if enable = true ∧ Codeword A q.1 ∧ depth ≤ cur + 1 then (q, true)
    else match n with
      | 0 => (flipAll A y q, decide (Codeword A q.1))
      | n + 1 => ppRun A enable depth y n (if enable = true ∧ Codeword A q.1 then cur + 1 else 0) (flipAll A y q)

/-- The decoders a history of calls on frames of bits can give. -/
inductive Hard.Reach (A : Conns) (H : Mat) (info : List Nat) {S : Source} {w : Nat} : Hard S w → Prop
  | make {char8 enable : Bool} {K N nIte depth : Int} {nProba : Nat} {s : S.σ} {d : Hard S w} :
      Hard.mk? S w char8 K N nIte H info nProba enable depth s = .ok d → Hard.Reach A H info d
  | hiho {d d' : Hard S w} {y : Nat → Bool} {V : List (BitVec w)} {r : Res (BitVec w)} : Hard.Reach A H info d → V.length = d.K →
      d.hiho (bits w A.rows y) V = .ok (d', r) → Hard.Reach A H info d'
  | hihoCw {d d' : Hard S w} {y : Nat → Bool} {V : List (BitVec w)} {r : Res (BitVec w)} : Hard.Reach A H info d → V.length = d.N →
      d.hihoCw (bits w A.rows y) V = .ok (d', r) → Hard.Reach A H info d'

end Verif.LDPCBF
