import Verif.Model.Chase
import Verif.Spec.ML

/-! # Specification of Chase decoding -/

namespace Verif.Chase
open Verif.Float Verif.ML

/-- What `std::partial_sort` promises: a permutation of the positions, of which the first `p` are the least reliable, in order. -/
structure LeastReliable (p N : Nat) (y : List Fl) (l : List Nat) : Prop where
  len : l.length = N
  nodup : l.Nodup
  lt : ∀ i ∈ l, i < N
  sorted : ∀ a b, a < p → a < b → b < N → Fl.lt (y.getD (l.getD b 0) .nan).abs (y.getD (l.getD a 0) .nan).abs = false

/-- The decoders that a history of calls can give: the sizes are those of the sockets, the encoder has the sizes of the decoder, the
inputs are numbers. -/
inductive Reach : Dec → Prop
  | make {K N : Int} {c : Coder} {flips : Nat} {hamming : Bool} {sort : List Fl → List Nat} {d : Dec} : c.K = K → c.N = N → c.Good →
      (∀ y : List Fl, y.length = N.toNat → (∀ b ∈ y, b ≠ .nan) → LeastReliable flips N.toNat y (sort y)) →
      Dec.mk? K N c flips hamming sort = .ok d → Reach d
  | siho {d d' : Dec} {y : List Fl} {v v' : List Int} : Reach d → y.length = d.N → (∀ b ∈ y, b ≠ .nan) → v.length = d.K → d.siho y v = .ok (d', v') → Reach d'
  | sihoCw {d d' : Dec} {y : List Fl} {v v' : List Int} : Reach d → y.length = d.N → (∀ b ∈ y, b ≠ .nan) → v.length = d.N → d.sihoCw y v = .ok (d', v') → Reach d'

/-- The positions that are tested: the `p` least reliable ones. -/
def Dec.tested (d : Dec) (y : List Fl) : List Nat := (d.sort y).take d.flips

/-- The positions of `l` where two words differ. -/
def diff (l : List Nat) (x h : List Int) : List Nat := l.filter fun i => x.getD i 0 ≠ h.getD i 0

/-- A codeword that differs from `h` only at positions of `l`. -/
def Near (isCw : List Int → Bool) (l : List Nat) (h x : List Int) : Prop :=
  IsBits x ∧ x.length = h.length ∧ isCw x = true ∧ ∀ i, i ∉ l → x.getD i 0 = h.getD i 0

/-- Rank of a word in the order of the tests. -/
def rank (l : List Nat) (x h : List Int) : Nat := value (l.map fun i => if x.getD i 0 ≠ h.getD i 0 then 1 else 0)

/-- `x` is a codeword that differs from `h` only at positions of `l`, of least cost, the first one in the order of the tests. -/
def FirstBest {D : Type} (lt : D → D → Prop) (cost : List Nat → D) (isCw : List Int → Bool) (l : List Nat) (h x : List Int) : Prop :=
  Near isCw l h x ∧ ∀ x', Near isCw l h x' →
    ¬ lt (cost (diff l x' h)) (cost (diff l x h)) ∧ (rank l x' h < rank l x h → lt (cost (diff l x h)) (cost (diff l x' h)))

/-- Sum of the reliabilities, with the roundings of `float`. -/
def fcost (y : List Fl) (is : List Nat) : Fl := is.foldl (fun acc i => b32.add acc (y.getD i .nan).abs) (.fin 0)

end Verif.Chase
