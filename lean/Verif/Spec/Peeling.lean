import Verif.Model.Peeling
import Verif.Spec.Sparse

/-!
# Specification of the decoding of erasures by peeling

The parity check matrix is a `Conns`: `(v, c)` is in its set when variable `v` is in check `c`.
-/

namespace Verif.Peeling
open Verif.Sparse Verif.Distance

/-- The types with an unknown symbol that is not a bit. -/
def Narrow (ty : BTy) : Prop := ty ≠ .i64

/-- The symbol of a bit. -/
def bit (b : Bool) : Nat := if b then 1 else 0

/-- A word of the size of the matrix whose symbols are bits or unknown. -/
def IsWord (unk : Nat) (A : Conns) (y : List Nat) : Prop := y.length = A.rows ∧ ∀ s ∈ y, s = 0 ∨ s = 1 ∨ s = unk

/-- Symbol `v` is known. -/
def Known (unk : Nat) (y : List Nat) (v : Nat) : Prop := y.getD v unk ≠ unk

/-- The number of erasures of a word. -/
def erasures (unk : Nat) (y : List Nat) : Nat := y.count unk

/-- `x` is a codeword: every check is satisfied. -/
def IsCodeword (A : Conns) (x : Nat → Bool) : Prop := ∀ c, c < A.cols → Satisfied A x c

/-- `y` is `x` with erasures. -/
def Erased (unk : Nat) (A : Conns) (x : Nat → Bool) (y : List Nat) : Prop :=
  y.length = A.rows ∧ ∀ v, v < A.rows → y.getD v unk = unk ∨ y.getD v unk = bit (x v)

/-- Variable `v` is in at least one check. -/
def Checked (A : Conns) (v : Nat) : Prop := ∃ c, (v, c) ∈ A.set

/-- The variables recovered by at most `t` rounds of peeling: in each round, a variable is recovered when all the others of one
of its checks are. -/
def PeeledIn (A : Conns) (known : Nat → Prop) : Nat → Nat → Prop
  | 0, v => known v
  | t + 1, v => PeeledIn A known t v ∨ ∃ c, (v, c) ∈ A.set ∧ ∀ u, (u, c) ∈ A.set → u ≠ v → PeeledIn A known t u

/-- The variables recovered by peeling. -/
def Peeled (A : Conns) (known : Nat → Prop) (v : Nat) : Prop := ∃ t, PeeledIn A known t v

/-- A stopping set: no check has exactly one variable in it. -/
def Stopping (A : Conns) (S : Nat → Prop) : Prop :=
  ∀ v c, S v → (v, c) ∈ A.set → ∃ u, S u ∧ u ≠ v ∧ (u, c) ∈ A.set

/-- The decoders of the code of parity check matrix `A` that a history of calls can give: the sizes are those of the sockets, the
positions of the information bits are positions of the codeword. -/
inductive Reach (A : Conns) : Dec → Prop
  | make {ty : BTy} {K N nIte depth : Int} {H : Mat} {info : List Nat} {syndrome : Bool} {d : Dec} : Represents H A →
      (∀ p ∈ info, p < A.rows) → Dec.mk? ty K N nIte H info syndrome depth = .ok d → Reach A d
  | hiho {d d' : Dec} {y v : List Nat} {r : Res} : Reach A d → y.length = d.N → v.length = d.K → d.hiho y v = .ok (d', r) → Reach A d'
  | hihoCw {d d' : Dec} {y v : List Nat} {r : Res} : Reach A d → y.length = d.N → v.length = d.N → d.hihoCw y v = .ok (d', r) → Reach A d'
  | siho {lanes tau : Nat} {d d' : Dec} {y : List Soft} {v : List Nat} {r : Res} : Reach A d → y.length = d.N → v.length = d.K →
      d.siho lanes tau y v = .ok (d', r) → Reach A d'
  | sihoCw {lanes tau : Nat} {d d' : Dec} {y : List Soft} {v : List Nat} {r : Res} : Reach A d → y.length = d.N → v.length = d.N →
      d.sihoCw lanes tau y v = .ok (d', r) → Reach A d'

/-- The symbols expected of LLRs: unknown for a magnitude of at most `tau`, otherwise 1 for a negative value. -/
def symbols (tau unk : Nat) (y : List Soft) : List Nat := y.map fun a => if a.mag ≤ tau then unk else if a.neg then 1 else 0

end Verif.Peeling
