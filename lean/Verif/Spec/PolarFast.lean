import Verif.Model.PolarFast
import Verif.Spec.PolarSC

/-! # Specification of fast successive cancellation decoding -/

namespace Verif.PolarFast
open Verif.PolarSC Verif.Polar

variable {R : Type} {w : Nat}

/-- The frozen bits that a terminal pattern of a given size describes: all frozen, none, all but the last one, only the first
one. -/
def expand : NT × Nat → List Bool
  | (.r0, n) => List.replicate n true
  | (.r1, n) => List.replicate n false
  | (.rep, n) => List.replicate (n - 1) true ++ [false]
  | (.spc, n) => true :: List.replicate (n - 1) false
  | _ => []

/-- The lists of patterns that the first constructor and the parser of strings (`Nodes_parser.hxx:34-243`) give: the first pattern is
the standard one, and the two indexes are those of patterns of rate 0 and 1. -/
def PatsOk (pats : List Pat) (i0 i1 : Nat) : Prop :=
  (∃ p, pats[0]? = some p ∧ p.t = .std) ∧ (∃ p, pats[i0]? = some p ∧ p.t = .r0) ∧ ∃ p, pats[i1]? = some p ∧ p.t = .r1

/-- The decoders that a history of calls can give: the sizes are those of the sockets, the frozen bits are in number. -/
inductive Reach (A : Api R w) : Dec R w → Prop
  | make {K N : Int} {frozen : List Bool} {pats : List Pat} {i0 i1 : Nat} {d : Dec R w} : PatsOk pats i0 i1 → Dec.mk? A K N frozen pats i0 i1 = .ok d → Reach A d
  | frozen {d d' : Dec R w} {fb : List Bool} : Reach A d → fb.length = d.N → d.K = (fb.filter (· = false)).length → d.setFrozen fb = .ok d' → Reach A d'
  | siho {d d' : Dec R w} {y : List R} {v v' : List (BitVec w)} : Reach A d → y.length = d.N → v.length = d.K → d.siho A y v = .ok (d', v') → Reach A d'
  | sihoCw {d d' : Dec R w} {y : List R} {v v' : List (BitVec w)} : Reach A d → y.length = d.N → v.length = d.N → d.sihoCw A y v = .ok (d', v') → Reach A d'
  | hiho {d d' : Dec R w} {y v v' : List (BitVec w)} : Reach A d → y.length = d.N → v.length = d.K → d.hiho A y v = .ok (d', v') → Reach A d'
  | hihoCw {d d' : Dec R w} {y v v' : List (BitVec w)} : Reach A d → y.length = d.N → v.length = d.N → d.hihoCw A y v = .ok (d', v') → Reach A d'

/-- How the decoder writes a bit: null, or the word with only its sign bit. -/
def word (b : BitVec w) : BitVec w := if b = 0 then 0 else bitInit w

/-- On small inputs without a null soft value at an information bit, whatever the history, the outputs are those of successive
cancellation. -/
def Agrees (A : Api R w) (small : List R → Prop) : Prop :=
  ∀ (d : Dec R w) (n : Nat) (y : List R) (u v vc : List (BitVec w)), Reach A d → d.N = 2 ^ n → 64 ≤ d.N → y.length = d.N → small y → IsSC A.fns n d.frozen y u →
    (∀ i : Nat, d.frozen[i]? = some false → soft A.fns n y u i ≠ A.fns.zero) → v.length = d.K → vc.length = d.N →
    (∃ d', d.siho A y v = .ok (d', (unplace d.frozen (polarTransform n u)).map word)) ∧ ∃ d', d.sihoCw A y vc = .ok (d', (polarTransform n u).map word)

/-- The same in terms of the naive systematic decoder: two decoders of the two classes, whatever their histories, with the same
frozen bits, give the same bits. -/
def SameAsNaive (A : Api R w) (small : List R → Prop) : Prop :=
  ∀ (d : Dec R w) (dn dn' dn'' : PolarSC.Dec R w) (y : List R) (v vc o oc : List (BitVec w)), Reach A d → PolarSC.Reach A.fns dn → dn.N = d.N → dn.frozen = d.frozen → 64 ≤ d.N → y.length = d.N →
    small y → (∀ n u, d.N = 2 ^ n → IsSC A.fns n d.frozen y u → ∀ i : Nat, d.frozen[i]? = some false → soft A.fns n y u i ≠ A.fns.zero) → v.length = d.K → vc.length = d.N →
    dn.siho A.fns .sys y v = .ok (dn', o) → dn.sihoCw A.fns y vc = .ok (dn'', oc) →
    (∃ d', d.siho A y v = .ok (d', o.map word)) ∧ ∃ d', d.sihoCw A y vc = .ok (d', oc.map word)

/-- Inputs that vote for a codeword give it, whatever the history. -/
def RecoversCw (A : Api R w) (Votes : R → BitVec w → Prop) (small : List R → Prop) : Prop :=
  ∀ (d : Dec R w) (n : Nat) (x : List (BitVec w)) (y : List R) (v vc : List (BitVec w)), Reach A d → d.N = 2 ^ n → 64 ≤ d.N → IsCodeword n d.frozen x → (∀ b ∈ x, b = 0 ∨ b = 1) →
    List.Forall₂ Votes y x → small y → v.length = d.K → vc.length = d.N →
    (∃ d', d.siho A y v = .ok (d', (unplace d.frozen x).map word)) ∧ ∃ d', d.sihoCw A y vc = .ok (d', x.map word)

/-- The decoder is the inverse of `Encoder_polar_sys`, up to the representation of bits. -/
def RecoversSys (A : Api R w) (Votes : R → BitVec w → Prop) (small : List R → Prop) : Prop :=
  ∀ (d : Dec R w) (e : Enc) (m out x : List (BitVec w)) (y : List R) (v vc : List (BitVec w)), Reach A d → 64 ≤ d.N → Enc.mk? d.K d.N d.frozen = .ok e → Convex d.frozen →
    (∀ b ∈ m, b = 0 ∨ b = 1) → m.length = d.K → out.length = d.N → e.encodeSys m out = .ok x → List.Forall₂ Votes y x → small y → v.length = d.K → vc.length = d.N →
    (∃ d', d.siho A y v = .ok (d', m.map word)) ∧ ∃ d', d.sihoCw A y vc = .ok (d', x.map word)

/-- The same with hard inputs, for sizes at most `B`. -/
def RecoversHard (A : Api R w) (B : Option Nat) : Prop :=
  ∀ (d : Dec R w) (e : Enc) (m out x : List (BitVec w)) (v vc : List (BitVec w)), Reach A d → 64 ≤ d.N → (∀ b, B = some b → d.N ≤ b) → Enc.mk? d.K d.N d.frozen = .ok e → Convex d.frozen →
    (∀ b ∈ m, b = 0 ∨ b = 1) → m.length = d.K → out.length = d.N → e.encodeSys m out = .ok x → v.length = d.K → vc.length = d.N →
    (∃ d', d.hiho A x v = .ok (d', m.map word)) ∧ ∃ d', d.hihoCw A x vc = .ok (d', x.map word)

/-- On all inputs whose values are bounded, decoding succeeds, and gives a codeword and its information bits; the result does not
depend on the history: it is the same for two decoders with the same frozen bits and patterns. -/
def Total (A : Api R w) (P : R → Prop) : Prop :=
  ∀ (d d' : Dec R w) (y : List R), Reach A d → Reach A d' → d'.frozen = d.frozen → d'.pats = d.pats → d'.i0 = d.i0 → d'.i1 = d.i1 → 64 ≤ d.N → y.length = d.N → (∀ a ∈ y, P a) →
    ∃ n c, d.N = 2 ^ n ∧ IsCodeword n d.frozen c ∧ (∀ b ∈ c, b = 0 ∨ b = 1) ∧ ∀ v vc : List (BitVec w), v.length = d.K → vc.length = d.N →
      (∃ e, d.siho A y v = .ok (e, (unplace d.frozen c).map word)) ∧ (∃ e, d'.siho A y v = .ok (e, (unplace d.frozen c).map word)) ∧
      (∃ e, d.sihoCw A y vc = .ok (e, c.map word)) ∧ ∃ e, d'.sihoCw A y vc = .ok (e, c.map word)

/-- Sum of magnitudes. -/
def sumAbs (y : List Int) : Nat := (y.map Int.natAbs).sum

/-- Floating-point values that are integer multiples of a same power of two, between `2^lo` and `2^hi`, and whose magnitudes have a
sum of less than `2^p` times this power. -/
def SmallFl (p : Nat) (lo hi : Int) (y : List Float.Fl) : Prop :=
  ∃ (e : Int) (q : List Int), lo ≤ e ∧ e ≤ hi ∧ y = q.map (fun a => .fin (a * (2 : ℚ) ^ e)) ∧ sumAbs q < 2 ^ p

end Verif.PolarFast
