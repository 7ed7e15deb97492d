import Verif.Spec.Sparse
import Verif.Model.LDPCEnc

/-! # What is expected of an encoder -/

namespace Verif.Sparse
open Exec

/-- Every check of the parity check matrix `A` (variables are rows) is satisfied by the word `c`. -/
def Codeword (A : Conns) (c : List Bool) : Prop := c.length = A.rows ∧ ∀ k, k < A.cols → Satisfied A (fun v => c.getD v false) k

/-- `enc U X`, where `X` is the previous content of the output frame, encodes the `K` message bits into a codeword of `A`,
the message being found at the positions `pos`. -/
def IsEncoder (w : Nat) (A : Conns) (K : Nat) (pos : List Nat)
    (enc : List (BitVec w) → List (BitVec w) → Exec (List (BitVec w))) : Prop :=
  pos.length = K ∧ ∀ (u : List Bool) (X : List (BitVec w)), u.length = K → X.length = A.rows →
    ∃ c, enc (u.map (b2v w)) X = ok (c.map (b2v w)) ∧ Codeword A c ∧ pos.map (fun p => c[p]?) = u.map some

/-- The message, at the first `K` positions, determines the codeword: the only codeword with a null message is null. -/
def Determined (A : Conns) (K : Nat) : Prop :=
  ∀ c, Codeword A c → (∀ v, v < K → c.getD v false = false) → ∀ v, c.getD v false = false

/-- The object holds the matrix `A`, in either direction. -/
def Holds (H : Mat) (A : Conns) : Prop := Represents H A ∨ Represents H A.transpose

/-- The last columns of the parity check matrix form a double diagonal: parity bit `j` is in the checks `j` and `j + 1`. -/
def DoubleDiagonal (A : Conns) (K : Nat) : Prop :=
  ∀ j, j < A.cols → ∀ c, c < A.cols → ((K + j, c) ∈ A.set ↔ j = c ∨ j + 1 = c)

/-! ## DVB-S2 -/

/-- The lines of a table: each is a number of values followed by the values. -/
def Lines (d : DVBS2) (L : List (List Nat)) : Prop := L.length = d.lines ∧ d.enc = (L.map fun l => l.length :: l).flatten

/-- The parity check matrix described by the lines of a table: message bit `v`, which is number `v mod M` of the group of line
`v / M`, is in the checks `(e + (v mod M) Q) mod (N - K)` where `e` ranges over this line, and the parity bits form a double
diagonal. -/
def IsDVBS2 (A : Conns) (d : DVBS2) (L : List (List Nat)) : Prop :=
  A.rows = d.N ∧ A.cols = d.N - d.K ∧ DoubleDiagonal A d.K ∧
  ∀ v, v < d.K → ∀ c, (v, c) ∈ A.set ↔ ∃ e ∈ L.getD (v / d.M) [], c = (e + v % d.M * d.Q) % (d.N - d.K)

/-- The lengths supported by the library. -/
def dvbs2Lengths : List (Nat × Nat) :=
  [(14400, 16200), (13320, 16200), (12600, 16200), (11880, 16200), (10800, 16200), (9720, 16200), (7200, 16200), (6480, 16200),
   (5400, 16200), (3240, 16200), (58320, 64800), (57600, 64800), (54000, 64800), (51840, 64800), (48600, 64800), (43200, 64800),
   (38880, 64800), (32400, 64800), (25920, 64800), (21600, 64800), (16200, 64800)]

end Verif.Sparse
