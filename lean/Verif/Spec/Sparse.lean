import Mathlib.Algebra.Ring.Parity
import Mathlib.Data.Finset.Prod
import Mathlib.Data.Finset.Card
import Mathlib.Data.Finset.Lattice.Fold
import Mathlib.Algebra.Group.Even
import Verif.Model.Sparse

/-!
# What a sparse matrix object stands for

A binary matrix is its size and its set of connections.
-/

namespace Verif.Sparse
open Exec

/-- A binary matrix: its size and the set of positions of its ones. -/
structure Conns where
  rows : Nat
  cols : Nat
  set : Finset (Nat × Nat)

namespace Conns

/-- Number of connections of row `i`. -/
def rowDeg (A : Conns) (i : Nat) : Nat := (A.set.filter fun p => p.1 = i).card

/-- Number of connections of column `j`. -/
def colDeg (A : Conns) (j : Nat) : Nat := (A.set.filter fun p => p.2 = j).card

/-- The matrix of the given size without connections. -/
def empty (n m : Nat) : Conns := ⟨n, m, ∅⟩

/-- The transposed matrix. -/
def transpose (A : Conns) : Conns := ⟨A.cols, A.rows, A.set.image Prod.swap⟩

/-- Does index `a` of a side of length `la` become index `b` of a side of length `lb`, the two sides being aligned at
their beginning or at their end? -/
def moved (atEnd : Bool) (la lb a b : Nat) : Bool := if atEnd then a + lb = b + la else a = b

/-- Is the origin at the bottom? -/
def bottom : Origin → Bool
  | .bottomLeft | .bottomRight => true
  | _ => false

/-- Is the origin at the right? -/
def right : Origin → Bool
  | .topRight | .bottomRight => true
  | _ => false

/-- The matrix cut or filled with zeros to the size `n × m`, the corner `o` staying in place. -/
def resize (A : Conns) (n m : Nat) (o : Origin) : Conns :=
  ⟨n, m, (Finset.range n ×ˢ Finset.range m).filter fun p =>
    ∃ q ∈ A.set, moved (bottom o) A.rows n q.1 p.1 = true ∧ moved (right o) A.cols m q.2 p.2 = true⟩

end Conns

/-- `s` is a consistent representation of the matrix `A`: the row lists and the column lists contain exactly the
connections of `A`, each once, and the counters are the number of connections and the greatest degrees. -/
structure Represents (s : Mat) (A : Conns) : Prop where
  nRows : s.nRows = A.rows
  nCols : s.nCols = A.cols
  r2c_length : s.r2c.length = A.rows
  c2r_length : s.c2r.length = A.cols
  row : ∀ i (h : i < s.r2c.length), s.r2c[i].Nodup ∧ ∀ j, j ∈ s.r2c[i] ↔ (i, j) ∈ A.set
  col : ∀ j (h : j < s.c2r.length), s.c2r[j].Nodup ∧ ∀ i, i ∈ s.c2r[j] ↔ (i, j) ∈ A.set
  range : ∀ p ∈ A.set, p.1 < A.rows ∧ p.2 < A.cols
  count : s.nConn = A.set.card
  rowsMax : s.rowsMax = (Finset.range A.rows).sup A.rowDeg
  colsMax : s.colsMax = (Finset.range A.cols).sup A.colDeg

/-- The operations of the interface that modify the object. -/
inductive Op where
  | add (r c : Nat)
  | rm (r c : Nat)
  | transpose
  | turn (w : Way)
  | resize (n m : Nat) (o : Origin)

/-- The operation performed by the model on the object. -/
def step (s : Mat) : Op → Call
  | .add r c => add s r c
  | .rm r c => rm s r c
  | .transpose => ok (none, transpose s)
  | .turn w => ok (none, turn s w)
  | .resize n m o => resize s n m o >>= fun t => ok (none, t)

/-- Successive operations; the list of the exceptions thrown, if any, is returned. -/
def run (s : Mat) : List Op → Exec (List (Option Exn) × Mat)
  | [] => ok ([], s)
  | o :: os => step s o >>= fun x => run x.2 os >>= fun y => ok (x.1 :: y.1, y.2)

/-- What an operation should throw. -/
def shouldThrow (A : Conns) : Op → Option Exn
  | .add r c => if r < A.rows ∧ c < A.cols then if (r, c) ∈ A.set then some .runtimeError else none else some .invalidArgument
  | .rm r c => if r < A.rows ∧ c < A.cols then none else some .invalidArgument
  | _ => none

/-- What an operation that does not throw should do. -/
def effect (A : Conns) : Op → Conns
  | .add r c => { A with set := insert (r, c) A.set }
  | .rm r c => { A with set := A.set.erase (r, c) }
  | .transpose => A.transpose
  | .turn .vertical => if A.rows < A.cols then A.transpose else A
  | .turn .horizontal => if A.cols < A.rows then A.transpose else A
  | .resize n m o => A.resize n m o

/-- Specification of a sequence of operations: an operation that throws has no effect. -/
def specRun (A : Conns) : List Op → List (Option Exn) × Conns
  | [] => ([], A)
  | o :: os =>
    let B := if shouldThrow A o = none then effect A o else A
    (shouldThrow A o :: (specRun B os).1, (specRun B os).2)

/-- Resizing to a size without rows or without columns is excluded (`C26_resize_empty`). -/
def Allowed : Op → Prop
  | .resize n m _ => 0 < n ∧ 0 < m
  | _ => True

/-- Check `c` of the parity check matrix `A` (rows are variables, columns are checks) is satisfied by the bits `x`: an even
number of the variables connected to `c` are ones. -/
def Satisfied (A : Conns) (x : Nat → Bool) (c : Nat) : Prop :=
  Even ((Finset.range A.rows).filter fun v => (v, c) ∈ A.set ∧ x v = true).card

namespace Conns

/-- Scalar product over GF(2) of row `i` of `A` and row `k` of `B`: is the number of columns where both have a connection
odd? -/
def rowsMeetOdd (A B : Conns) (i k : Nat) : Prop :=
  Odd ((Finset.range A.cols).filter fun v => (i, v) ∈ A.set ∧ (k, v) ∈ B.set).card

/-- The matrix with its longest side horizontal. -/
def wide (A : Conns) : Conns := if A.rows ≤ A.cols then A else A.transpose

end Conns

/-- The parity check matrix of the quasi-cyclic description `base` of `R` rows and `C` columns with lifting size `Z`, stored
with variables as rows and checks as columns: check `r * Z + k` and variable `c * Z + l` are connected iff the base entry
`(r, c)` is a shift `s ≥ 0` and `l = (k + s) mod Z`. -/
def IsLifted (A : Conns) (base : Nat → Nat → Int) (R C Z : Nat) : Prop :=
  A.rows = C * Z ∧ A.cols = R * Z ∧
  ∀ r c k l, r < R → c < C → k < Z → l < Z →
    ((c * Z + l, r * Z + k) ∈ A.set ↔ 0 ≤ base r c ∧ (l : Int) = (k + base r c) % Z)

end Verif.Sparse
