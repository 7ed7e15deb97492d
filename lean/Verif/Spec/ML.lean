import Verif.Model.ML

/-! # Specification of maximum likelihood decoding -/

namespace Verif.ML
open Verif.Float

/-- A list of bits. -/
def IsBits (l : List Int) : Prop := ∀ b ∈ l, b = 0 ∨ b = 1

/-- The integer whose bits are those of a list, the first one being the least significant. -/
def value : List Int → Nat
  | [] => 0
  | b :: l => (if b ≠ 0 then 1 else 0) + 2 * value l

/-- Hamming distance. -/
def ham (x y : List Int) : Nat := ((x.zip y).filter fun p => p.1 ≠ p.2).length

/-- Correlation of a word, sent as `+1` for 0 and `-1` for 1, with what is received. -/
def corr (x y : List Int) : Int := (List.zipWith (fun b v => if b ≠ 0 then -v else v) x y).sum

/-- Square of the Euclidean distance, with the roundings of `float`. -/
def fdist (x : List Int) (y : List Fl) : Fl :=
  (x.zip y).foldl (fun acc p =>
    let tmp := b32.add (.fin (if p.1 ≠ 0 then -1 else 1)) p.2.neg
    b32.add acc (b32.mul tmp tmp)) (.fin 0)

/-- Hard decisions: 1 for a negative value. -/
def hard (y : List Fl) : List Int := y.map fun x => if Fl.lt x (.fin 0) then 1 else 0

/-- Integers as floats. -/
def ofInts (y : List Int) : List Fl := y.map fun (v : Int) => Fl.fin (v : ℚ)

/-- What the decoders expect of the encoder: codewords have `N` bits, and the positions of the information bits are `K` positions
of the codeword. -/
structure Coder.Good (c : Coder) : Prop where
  enc : ∀ u, IsBits u → u.length = c.K.toNat → (c.enc u).length = c.N.toNat
  pos : c.infoPos.length = c.K.toNat
  posLt : ∀ p ∈ c.infoPos, p < c.N.toNat

/-- The decoders that a history of calls can give: the sizes are those of the sockets. -/
inductive Reach : Dec → Prop
  | make {kind : Kind} {sz : Nat} {K N : Int} {c : Coder} {hamming : Bool} {d : Dec} : 0 < sz → N < 2 ^ 31 → c.Good →
      Dec.mk? kind sz K N c hamming = .ok d → Reach d
  | hiho {d d' : Dec} {y v v' : List Int} : Reach d → y.length = d.N → v.length = d.K → d.hiho y v = .ok (d', v') → Reach d'
  | hihoCw {d d' : Dec} {y v v' : List Int} : Reach d → y.length = d.N → v.length = d.N → d.hihoCw y v = .ok (d', v') → Reach d'
  | siho {d d' : Dec} {y : List Fl} {v v' : List Int} : Reach d → y.length = d.N → v.length = d.K → d.siho y v = .ok (d', v') → Reach d'
  | sihoCw {d d' : Dec} {y : List Fl} {v v' : List Int} : Reach d → y.length = d.N → v.length = d.N → d.sihoCw y v = .ok (d', v') → Reach d'

/-- The message of a codeword, at the positions of the information bits. -/
def infoOf (c : Coder) (x : List Int) : List Int := c.infoPos.map fun p => x.getD p 0

/-- Among the messages of `K` bits, `u` has the least value of `score` of its codeword, and is the first one with this value in
the order of integers. -/
def FirstLeast {D : Type} (lt : D → D → Prop) (K : Nat) (enc : List Int → List Int) (score : List Int → D) (u : List Int) : Prop :=
  IsBits u ∧ u.length = K ∧ ∀ u', IsBits u' → u'.length = K →
    ¬ lt (score (enc u')) (score (enc u)) ∧ (value u' < value u → lt (score (enc u)) (score (enc u')))

/-- The same among the words of `N` bits that are codewords. -/
def FirstLeastCw {D : Type} (lt : D → D → Prop) (N : Nat) (isCw : List Int → Bool) (score : List Int → D) (x : List Int) : Prop :=
  IsBits x ∧ x.length = N ∧ isCw x = true ∧ ∀ x', IsBits x' → x'.length = N → isCw x' = true →
    ¬ lt (score x') (score x) ∧ (value x' < value x → lt (score x) (score x'))

end Verif.ML
