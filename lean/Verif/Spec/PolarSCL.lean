import Verif.Model.PolarSCL
import Verif.Spec.PolarSC

/-! # Specification of list decoding -/

namespace Verif.PolarSCL
open Verif.PolarSC (Fns soft IsSC)
open Verif.Polar

/-- A word of bits, with `bit_init` for 1. -/
def word (w : Nat) (u : List Bool) : List (BitVec w) := u.map fun b => if b then bitInit w else 0

variable {R : Type} {w : Nat}

/-- The soft value of the next bit, when the bits `u` are decided (`soft` is that of the successive cancellation, `Spec/PolarSC.lean`). -/
def sv (F : Fns R w) (m : Nat) (y : List R) (u : List Bool) : R := soft F m y (word w u) u.length

/-- The path `p` (its bits and its metric) extended by the bit `b`. -/
def extend (F : Fns R w) (A : Ar R) (m : Nat) (y : List R) (b : Bool) (p : List Bool × R) : List Bool × R := (p.1 ++ [b], A.phi p.2 (sv F m y p.1) b)

/-- The least metric is subtracted. -/
def normalize (A : Ar R) (V : List (List Bool × R)) : List (List Bool × R) := V.map fun p => (p.1, A.sub p.2 (V.foldl (fun r p => minR A r p.2) A.max))

/-- `V` is a list of the paths of a list decoder of list size `L`, when the bits whose frozen flags are `fr` are decided: a frozen bit is null; an information bit takes both values, and when there are then more
than `L` paths only the best half of them is kept. -/
inductive Lists (F : Fns R w) (A : Ar R) (m : Nat) (y : List R) (L : Nat) : List Bool → List (List Bool × R) → Prop
  | start : Lists F A m y L [] [([], A.init)]
  | frozen {fr V} : Lists F A m y L fr V → Lists F A m y L (fr ++ [true]) (normalize A (V.map (extend F A m y false)))
  | info {fr V} : Lists F A m y L fr V → 2 * V.length ≤ L → Lists F A m y L (fr ++ [false]) (V.flatMap fun p => [extend F A m y false p, extend F A m y true p])
  | prune {fr V kept dropped} : Lists F A m y L fr V → L < 2 * V.length → (kept ++ dropped).Perm (V.flatMap fun p => [extend F A m y false p, extend F A m y true p]) →
    kept.length = V.length → (∀ k ∈ kept, ∀ x ∈ dropped, A.lt x.2 k.2 = false) → Lists F A m y L (fr ++ [false]) kept
  | perm {fr V W} : Lists F A m y L fr V → V.Perm W → Lists F A m y L fr W

/-- A path whose frozen bits are null. -/
def Fits (fr u : List Bool) : Prop := List.Forall₂ (fun f b => f = true → b = false) fr u

/-- What is assumed of the sort of the standard library: it returns the elements, by increasing metrics. -/
def SortOk (A : Ar R) (sort : List (Cand R w) → List (Cand R w)) : Prop := ∀ l, (sort l).Perm l ∧ (sort l).Pairwise fun a b => A.lt b.met a.met = false

/-- The comparison is a strict order. -/
def Strict (A : Ar R) : Prop := (∀ a, A.lt a a = false) ∧ ∀ a b c, A.lt a b = true → A.lt b c = true → A.lt a c = true

/-- A word of bits, with 1 for 1. -/
def bits (w : Nat) (u : List Bool) : List (BitVec w) := u.map fun b => if b then 1 else 0

/-- The information bits that the CRC is given. -/
def seen (sys : Bool) (frozen : List Bool) (m : Nat) (u : List Bool) : List (BitVec w) := unplace frozen (if sys then polarTransform m (word w u) else word w u)

/-- The bits `u` are those of a best path of the list; with a CRC, of a best path among those that pass it, if there is one. -/
def Chosen (A : Ar R) (crc : Option (List (BitVec w) → Bool)) (sys : Bool) (frozen : List Bool) (m : Nat) (V : List (List Bool × R)) (u : List Bool) : Prop :=
  ∃ mu, (u, mu) ∈ V ∧
    match crc with
    | none => ∀ p ∈ V, A.lt p.2 mu = false
    | some check => ∀ p ∈ V, check (seen sys frozen m p.1) = true → check (seen sys frozen m u) = true ∧ A.lt p.2 mu = false

/-- Correlation of a word, sent as `+1` for 0 and `-1` for 1, with what is received. -/
def corr (x : List (BitVec w)) (z : List Int) : Int := (List.zipWith (fun b v => if b ≠ 0 then -v else v) x z).sum

/-- A word of bits, with `bit_init` instead of 1. -/
def marked (x : List (BitVec w)) : List (BitVec w) := x.map fun b => if b ≠ 0 then bitInit w else 0

/-- The decoders that a history of calls can give: at least two bits, the sizes are those of the sockets, and new frozen bits are as many as the previous ones. -/
inductive Reach (F : Fns R w) (A : Ar R) (sort : List (Cand R w) → List (Cand R w)) : Dec R w → Prop
  | make {K N L : Int} {frozen : List Bool} {sys : Bool} {crc : Option (List (BitVec w) → Bool)} {crcSize : Nat} {d : Dec R w} : 2 ≤ N →
      Dec.mk? F A K N L frozen sys crc crcSize = .ok d → Reach F A sort d
  | frozen {d d' : Dec R w} {fb : List Bool} : Reach F A sort d → fb.length = d.N → (fb.filter (· = false)).length = d.K → d.setFrozen fb = .ok d' → Reach F A sort d'
  | siho {d d' : Dec R w} {y : List R} {v v' : List (BitVec w)} : Reach F A sort d → y.length = d.N → v.length = d.K → d.siho F A sort y v = .ok (d', v') → Reach F A sort d'
  | sihoCw {d d' : Dec R w} {y : List R} {v v' : List (BitVec w)} : Reach F A sort d → y.length = d.N → v.length = d.N → d.sihoCw F A sort y v = .ok (d', v') → Reach F A sort d'

/-- The decoder is the inverse of `Encoder_polar`: whatever its history, soft inputs that are good for a codeword give the message, if it passes the CRC (when there is one).  The codeword is given with `bit_init`
instead of 1. -/
def Recovers (F : Fns R w) (A : Ar R) (sort : List (Cand R w) → List (Cand R w)) (Good : List Bool → List R → List (BitVec w) → Prop) : Prop :=
  ∀ (d : Dec R w) (e : Enc) (msg out x : List (BitVec w)) (y : List R) (v vc : List (BitVec w)), Reach F A sort d → d.sys = false → Enc.mk? d.K d.N d.frozen = .ok e →
    (∀ b ∈ msg, b = 0 ∨ b = 1) → msg.length = d.K → out.length = d.N → e.encode msg out = .ok x → Good d.frozen y x → (∀ check, d.crc = some check → check (marked msg) = true) →
    v.length = d.K → vc.length = d.N →
    (∃ d', d.siho F A sort y v = .ok (d', msg)) ∧ ∃ d', d.sihoCw F A sort y vc = .ok (d', marked x)

/-- The same with `Encoder_polar_sys` and the systematic decoder. -/
def RecoversSys (F : Fns R w) (A : Ar R) (sort : List (Cand R w) → List (Cand R w)) (Good : List Bool → List R → List (BitVec w) → Prop) : Prop :=
  ∀ (d : Dec R w) (e : Enc) (msg out x : List (BitVec w)) (y : List R) (v vc : List (BitVec w)), Reach F A sort d → d.sys = true → Enc.mk? d.K d.N d.frozen = .ok e → Convex d.frozen →
    (∀ b ∈ msg, b = 0 ∨ b = 1) → msg.length = d.K → out.length = d.N → e.encodeSys msg out = .ok x → Good d.frozen y x → (∀ check, d.crc = some check → check (marked msg) = true) →
    v.length = d.K → vc.length = d.N →
    (∃ d', d.siho F A sort y v = .ok (d', msg)) ∧ ∃ d', d.sihoCw F A sort y vc = .ok (d', x)

/-- The decoder, without CRC and with a list of all the messages, is a maximum likelihood decoder on the inputs that are integers of sum of magnitudes at most `B` (`num r z`: the input `r` is the integer `z`). -/
def MaxLik (F : Fns R w) (A : Ar R) (sort : List (Cand R w) → List (Cand R w)) (num : R → Int → Prop) (B : Int) : Prop :=
  ∀ (d : Dec R w), Reach F A sort d → d.crc = none → 2 ^ d.K ≤ d.L → ∀ (y : List R) (z : List Int), List.Forall₂ num y z → y.length = d.N → (z.map abs).sum ≤ B →
    ∀ (v vc : List (BitVec w)), v.length = d.K → vc.length = d.N →
    ∃ (n : Nat) (x : List (BitVec w)), d.N = 2 ^ n ∧ IsCodeword n d.frozen x ∧ (∀ b ∈ x, b = 0 ∨ b = 1) ∧ (∀ x' : List (BitVec w), IsCodeword n d.frozen x' → (∀ b ∈ x', b = 0 ∨ b = 1) → corr x' z ≤ corr x z) ∧
      (∃ d', d.siho F A sort y v = .ok (d', unplace d.frozen (if d.sys then x else polarTransform n x))) ∧ ∃ d', d.sihoCw F A sort y vc = .ok (d', if d.sys then x else marked x)

/-- The decoder of one path gives the result of successive cancellation (`Spec/PolarSC.lean`), unless an information bit is decided on a null soft value. -/
def LikeSC (F : Fns R w) (A : Ar R) (sort : List (Cand R w) → List (Cand R w)) (num : R → Int → Prop) (B : Int) : Prop :=
  ∀ (d : Dec R w), Reach F A sort d → d.L = 1 → ∀ (y : List R) (z : List Int), List.Forall₂ num y z → y.length = d.N → (z.map abs).sum ≤ B →
    ∀ (n : Nat) (u : List (BitVec w)), d.N = 2 ^ n → IsSC F n d.frozen y u → (∀ i : Nat, d.frozen[i]? = some false → ¬ num (soft F n y u i) 0) →
    ∀ (v vc : List (BitVec w)), v.length = d.K → vc.length = d.N →
    (∃ d', d.siho F A sort y v = .ok (d', unplace d.frozen (if d.sys then polarTransform n u else u))) ∧
      ∃ d', d.sihoCw F A sort y vc = .ok (d', if d.sys then polarTransform n u else marked (polarTransform n u))

end Verif.PolarSCL
