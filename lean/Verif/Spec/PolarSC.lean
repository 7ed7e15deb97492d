import Verif.Model.PolarSC
import Verif.Spec.Polar

/-! # Specification of successive cancellation decoding -/

namespace Verif.PolarSC
open Verif.Polar

variable {R : Type} {w : Nat}

/-- `g` on three vectors. -/
def zip3 (g : R → R → BitVec w → R) (a b : List R) (x : List (BitVec w)) : List R := List.zipWith (fun a p => g a p.1 p.2) a (b.zip x)

/-- The soft value on which bit `i` of a word of `2^n` bits is decided, from the soft values `y` of the codeword and the bits
`u` before `i` (Arıkan's recursion): the first half of the bits is decided from the sums of the two halves of the codeword; the
second half from both halves, knowing the codeword of the first bits. -/
def soft (F : Fns R w) : Nat → List R → List (BitVec w) → Nat → R
  | 0, y, _, _ => y.headD F.zero
  | n + 1, y, u, i =>
    if i < 2 ^ n then soft F n (List.zipWith F.f (y.take (2 ^ n)) (y.drop (2 ^ n))) u i
    else soft F n (zip3 F.g (y.take (2 ^ n)) (y.drop (2 ^ n)) (polarTransform n (u.take (2 ^ n)))) (u.drop (2 ^ n)) (i - 2 ^ n)

/-- The word `u` is the result of successive cancellation: frozen bits are null, the other ones are decided in order, each
one knowing the previous ones. -/
structure IsSC (F : Fns R w) (n : Nat) (frozen : List Bool) (y : List R) (u : List (BitVec w)) : Prop where
  len : u.length = 2 ^ n
  bit : ∀ i, i < 2 ^ n → u[i]? = some (if frozen[i]? = some false ∧ F.h (soft F n y u i) ≠ 0 then 1 else 0)

/-- The decoders that a history of calls can give: the sizes are those of the sockets. -/
inductive Reach (F : Fns R w) : Dec R w → Prop
  | make {K N : Int} {frozen : List Bool} {d : Dec R w} : Dec.mk? F K N frozen = .ok d → Reach F d
  | frozen {d d' : Dec R w} {fb : List Bool} : Reach F d → d.setFrozen fb = .ok d' → Reach F d'
  | siho {d d' : Dec R w} {k : Kind} {y : List R} {v v' : List (BitVec w)} : Reach F d → y.length = d.N → v.length = d.K →
      d.siho F k y v = .ok (d', v') → Reach F d'
  | sihoCw {d d' : Dec R w} {y : List R} {v v' : List (BitVec w)} : Reach F d → y.length = d.N → v.length = d.N →
      d.sihoCw F y v = .ok (d', v') → Reach F d'
  | hiho {d d' : Dec R w} {k : Kind} {y v v' : List (BitVec w)} : Reach F d → y.length = d.N → v.length = d.K →
      d.hiho F k y v = .ok (d', v') → Reach F d'
  | hihoCw {d d' : Dec R w} {y v v' : List (BitVec w)} : Reach F d → y.length = d.N → v.length = d.N →
      d.hihoCw F y v = .ok (d', v') → Reach F d'

/-- The decoder is the inverse of `Encoder_polar`: whatever its history, soft inputs that vote for the bits of a codeword give
the message and the codeword. -/
def Recovers (F : Fns R w) (Votes : R → BitVec w → Prop) : Prop :=
  ∀ (d : Dec R w) (e : Enc) (m out x : List (BitVec w)) (y : List R) (v vc : List (BitVec w)), Reach F d → Enc.mk? d.K d.N d.frozen = .ok e →
    (∀ b ∈ m, b = 0 ∨ b = 1) → m.length = d.K → out.length = d.N → e.encode m out = .ok x → List.Forall₂ Votes y x → v.length = d.K → vc.length = d.N →
    (∃ d', d.siho F .plain y v = .ok (d', m)) ∧ ∃ d', d.sihoCw F y vc = .ok (d', x)

/-- The same with `Encoder_polar_sys` and the systematic decoder. -/
def RecoversSys (F : Fns R w) (Votes : R → BitVec w → Prop) : Prop :=
  ∀ (d : Dec R w) (e : Enc) (m out x : List (BitVec w)) (y : List R) (v vc : List (BitVec w)), Reach F d → Enc.mk? d.K d.N d.frozen = .ok e → Convex d.frozen →
    (∀ b ∈ m, b = 0 ∨ b = 1) → m.length = d.K → out.length = d.N → e.encodeSys m out = .ok x → List.Forall₂ Votes y x → v.length = d.K → vc.length = d.N →
    (∃ d', d.siho F .sys y v = .ok (d', m)) ∧ ∃ d', d.sihoCw F y vc = .ok (d', x)

/-- The same with hard inputs. -/
def RecoversHard (F : Fns R w) : Prop :=
  ∀ (d : Dec R w) (e : Enc) (m out x : List (BitVec w)) (v vc : List (BitVec w)), Reach F d → Enc.mk? d.K d.N d.frozen = .ok e →
    (∀ b ∈ m, b = 0 ∨ b = 1) → m.length = d.K → out.length = d.N → e.encode m out = .ok x → v.length = d.K → vc.length = d.N →
    (∃ d', d.hiho F .plain x v = .ok (d', m)) ∧ ∃ d', d.hihoCw F x vc = .ok (d', x)

/-- A soft integer of `b` bits votes for a bit: its sign is that of the bit (not null), and it is not the least integer of the
type. -/
def VotesInt (b : Nat) (x : Int) (bit : BitVec w) : Prop :=
  -2 ^ (b - 1) < x ∧ x < 2 ^ (b - 1) ∧ (bit = 0 → 0 < x) ∧ (bit ≠ 0 → x < 0)

/-- A floating point number votes for a bit: its sign is that of the bit, and its magnitude is at least `2^e`. -/
def VotesFl (e : Int) : Float.Fl → BitVec w → Prop
  | .fin q, bit => (bit = 0 → (2 : ℚ) ^ e ≤ q) ∧ (bit ≠ 0 → q ≤ -(2 : ℚ) ^ e)
  | .inf neg, bit => neg = true ↔ bit ≠ 0
  | .nan, _ => False

end Verif.PolarSC
