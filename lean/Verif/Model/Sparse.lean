import Verif.Prelude.Loops

/-!
# Sparse binary matrices

Models `src/Tools/Algo/Matrix/Sparse_matrix/Sparse_matrix.cpp`, `include/.../Sparse_matrix.hxx`,
`src/Tools/Algo/Matrix/Matrix.cpp`, `src/Tools/Algo/Matrix/matrix_utils.cpp`,
`include/Tools/Code/LDPC/Syndrome/LDPC_syndrome.hxx`, `src/Tools/Code/LDPC/QC/QC.cpp` and the interleaving functions of
`src/Tools/Code/LDPC/Matrix_handler/LDPC_matrix_handler.cpp`.

A call on a matrix object that can throw is modelled by the exception it throws, if any, together with the state of the
object after the call.  Sizes and indexes are unbounded naturals: the casts to `uint32_t` and `int` are not modelled, except
in the arithmetic of the quasi-cyclic shifts.
-/

namespace Verif.Sparse
open Exec

/-- `class Sparse_matrix : public Matrix`, `Sparse_matrix.hpp`, `Matrix.hpp`. -/
structure Mat where
  nRows : Nat
  nCols : Nat
  rowsMax : Nat
  colsMax : Nat
  nConn : Nat
  r2c : List (List Nat)
  c2r : List (List Nat)
  deriving DecidableEq, Repr

/-- The exception thrown by the call, if any, and the object after the call. -/
abbrev Call := Exec (Option Exn × Mat)

/-- Constructor, `Sparse_matrix.cpp:12-18` and `Matrix.cpp:10-18`; also `zero`, `Sparse_matrix.cpp:324-328`. -/
def new (n m : Nat) : Mat := ⟨n, m, 0, 0, 0, List.replicate n [], List.replicate m []⟩

/-- `Matrix::check_indexes`, `Matrix.cpp:54-72`. -/
def checkIndexes (s : Mat) (r c : Nat) : Option Exn :=
  if c ≥ s.nCols then some .invalidArgument
  else if r ≥ s.nRows then some .invalidArgument
  else none

/-- `at`, `Sparse_matrix.cpp:20-25`. -/
def at' (s : Mat) (r c : Nat) : Exec Bool := rd s.r2c r >>= fun row => ok (row.contains c)

/-- `row_to_cols[r].push_back(c); col_to_rows[c].push_back(r);`, `Sparse_matrix.cpp:40-41` and in `resize`, 156-204. -/
def push (s : Mat) (r c : Nat) : Exec Mat :=
  rd s.r2c r >>= fun row => wr s.r2c r (row ++ [c]) >>= fun r2c =>
  rd s.c2r c >>= fun col => wr s.c2r c (col ++ [r]) >>= fun c2r => ok { s with r2c, c2r }

/-- `add_connection`, lines 40-46, once the checks have passed. -/
def link (s : Mat) (r c : Nat) : Exec Mat :=
  push s r c >>= fun t =>
  rd t.r2c r >>= fun row => rd t.c2r c >>= fun col =>
  ok { t with rowsMax := max t.rowsMax row.length, colsMax := max t.colsMax col.length, nConn := t.nConn + 1 }

/-- `add_connection`, `Sparse_matrix.cpp:27-47`. -/
def add (s : Mat) (r c : Nat) : Call :=
  match checkIndexes s r c with
  | some e => ok (some e, s)
  | none => at' s r c >>= fun b =>
    if b then ok (some .runtimeError, s) else link s r c >>= fun t => ok (none, t)

/-- `rm_connection`, row part, `Sparse_matrix.cpp:54-78`: `std::find` then `erase` removes the first occurrence.  The
comparison with `rows_max_degree - 1` is written without subtraction. -/
def rmRow (s : Mat) (r c : Nat) : Exec (Bool × Mat) :=
  rd s.r2c r >>= fun row =>
  if row.contains c then
    wr s.r2c r (row.erase c) >>= fun r2c =>
    ok (true, { s with r2c, rowsMax :=
      if (row.erase c).length + 1 = s.rowsMax then
        if (r2c.any fun l => l.length = s.rowsMax) then s.rowsMax else s.rowsMax - 1
      else s.rowsMax })
  else ok (false, s)

/-- `rm_connection`, column part, `Sparse_matrix.cpp:80-100`. -/
def rmCol (s : Mat) (r c : Nat) : Exec (Bool × Mat) :=
  rd s.c2r c >>= fun col =>
  if col.contains r then
    wr s.c2r c (col.erase r) >>= fun c2r =>
    ok (true, { s with c2r, colsMax :=
      if (col.erase r).length + 1 = s.colsMax then
        if (c2r.any fun l => l.length = s.colsMax) then s.colsMax else s.colsMax - 1
      else s.colsMax })
  else ok (false, s)

/-- `rm_connection`, `Sparse_matrix.cpp:49-114`. -/
def rm (s : Mat) (r c : Nat) : Call :=
  match checkIndexes s r c with
  | some e => ok (some e, s)
  | none =>
    rmRow s r c >>= fun x => rmCol x.2 r c >>= fun y =>
    if x.1 ≠ y.1 then ok (some .runtimeError, y.2)
    else if x.1 && y.1 then ok (none, { y.2 with nConn := y.2.nConn - 1 })
    else ok (none, y.2)

/-- `std::max_element(l.begin(), l.end(), by size)->size()`, `Sparse_matrix.cpp:122-127`: dereferences `end()` when `l` is
empty. -/
def maxSize (l : List (List Nat)) : Exec Nat :=
  if l = [] then ub else ok (l.foldl (fun m x => max m x.length) 0)

/-- `parse_connections`, `Sparse_matrix.cpp:116-128`. -/
def parse (s : Mat) : Exec Mat :=
  maxSize s.r2c >>= fun rm => maxSize s.c2r >>= fun cm =>
  ok { s with nConn := s.r2c.foldl (fun m x => m + x.length) 0, rowsMax := rm, colsMax := cm }

/-- `Matrix::Origin`. -/
inductive Origin where
  | topLeft | topRight | bottomLeft | bottomRight
  deriving DecidableEq, Repr

/-- Body of the two loops of `resize`, `Sparse_matrix.cpp:148-210`: column `c` and row `row` of the old matrix, `n × m`
the new size.  `col_index` is `size_t`, `row_index` is signed in the two `BOTTOM` cases. -/
def resizeBody (old : Mat) (n m : Nat) (o : Origin) (c row : Nat) (s : Mat) : Exec Mat :=
  match o with
  | .topLeft => if row < n then push s row c else ok s
  | .topRight => if row < n then push s row (m + c - old.nCols) else ok s
  | .bottomLeft =>
    if (n : Int) - old.nRows + row ≥ 0 then push s ((n : Int) - old.nRows + row).toNat c else ok s
  | .bottomRight =>
    if (n : Int) - old.nRows + row ≥ 0 then push s ((n : Int) - old.nRows + row).toNat (m + c - old.nCols) else ok s

/-- First and last column visited by the loops of `resize`, `Sparse_matrix.cpp:141-146, 152, 167, 182, 197`. -/
def resizeCols (old : Mat) (m : Nat) (o : Origin) : Nat × Nat :=
  match o with
  | .topLeft | .bottomLeft => (0, min m old.nCols)
  | .topRight | .bottomRight => (old.nCols - min m old.nCols, old.nCols)

/-- `resize`, `Sparse_matrix.cpp:136-215`; `self_resize` (130-134) assigns the result to the object. -/
def resize (old : Mat) (n m : Nat) (o : Origin) : Exec Mat :=
  forRange (resizeCols old m o).1 (resizeCols old m o).2
    (fun c s => rd old.c2r c >>= fun col => forN col.length (fun k s => rd col k >>= fun row => resizeBody old n m o c row s) s)
    (new n m) >>= parse

/-- `self_transpose`, `Sparse_matrix.cpp:227-233` and `Matrix.cpp:20-25`; `transpose` (217-225) returns the result. -/
def transpose (s : Mat) : Mat :=
  { s with nRows := s.nCols, nCols := s.nRows, rowsMax := s.colsMax, colsMax := s.rowsMax, r2c := s.c2r, c2r := s.r2c }

/-- `Matrix::Way`. -/
inductive Way where
  | horizontal | vertical
  deriving DecidableEq, Repr

/-- `self_turn`, `Matrix.cpp:27-40`; `turn` (`Sparse_matrix.cpp:235-243`) returns the result. -/
def turn (s : Mat) (w : Way) : Mat :=
  match w with
  | .vertical => if s.nCols > s.nRows then transpose s else s
  | .horizontal => if s.nCols < s.nRows then transpose s else s

/-- `get_way`, `Matrix.cpp:42-46`. -/
def way (s : Mat) : Way := if s.nCols ≥ s.nRows then .horizontal else .vertical

/-- `sort_cols_per_density`, `Sparse_matrix.cpp:245-265`.  `std::sort` does not fix the order of columns of equal size:
`sorted` is the value of `col_to_rows` after the sort, any reordering of it that the sort may produce. -/
def sortCols (s : Mat) (sorted : List (List Nat)) : Exec Mat :=
  forN sorted.length (fun i rows => rd sorted i >>= fun col =>
    forN col.length (fun j rows => rd col j >>= fun r => rd rows r >>= fun row => wr rows r (row ++ [i])) rows)
    (s.r2c.map fun _ => []) >>= fun rows => ok { s with c2r := sorted, r2c := rows }

/-- A call whose exception stops the caller, as in loops of `add_connection`. -/
def orThrow (x : Call) : Exec Mat :=
  x >>= fun y => match y.1 with
    | some e => exc e
    | none => ok y.2

/-- `identity`, `Sparse_matrix.cpp:312-322`. -/
def identity (n m : Nat) : Exec Mat := forN (min n m) (fun i s => orThrow (add s i i)) (new n m)

/-- Inner sum of `bgemm`, `matrix_utils.cpp:26-28`: `B.at(c, n)` for each `c` of the row. -/
def dotSum (at'' : Nat → Exec Bool) (row : List Nat) : Exec Nat :=
  forEach row (fun c sum => at'' c >>= fun b => ok (sum + if b then 1 else 0)) 0

/-- Loops of `bgemm` and `bgemmt`, `matrix_utils.cpp:23-32, 57-66`; `entry l n` is the sum of the inner loop. -/
def gemm (L N : Nat) (entry : Nat → Nat → Exec Nat) : Exec Mat :=
  forN L (fun l C => forN N (fun n C => entry l n >>= fun sum =>
    if sum % 2 = 1 then orThrow (add C l n) else ok C) C) (new L N)

/-- `bgemm`, `matrix_utils.cpp:8-35`. -/
def bgemm (A B : Mat) : Exec Mat :=
  if A.nCols ≠ B.nRows then exc .invalidArgument
  else gemm A.nRows B.nCols fun l n => rd A.r2c l >>= dotSum fun c => at' B c n

/-- `bgemmt`, `matrix_utils.cpp:42-69`. -/
def bgemmt (A tB : Mat) : Exec Mat :=
  if A.nCols ≠ tB.nCols then exc .invalidArgument
  else gemm A.nRows tB.nRows fun l n => rd A.r2c l >>= dotSum fun c => at' tB n c

/-- `all_zeros`, `matrix_utils.cpp:71-74`. -/
def allZeros (s : Mat) : Bool := s.nConn = 0

/-- `LDPC_matrix_handler::check_GH` on sparse matrices, `LDPC_matrix_handler.cpp:931-963`. -/
def checkGH (H G : Mat) : Exec Bool :=
  (match way H, way G with
  | .horizontal, .horizontal => bgemmt H G
  | .horizontal, .vertical => bgemm H G
  | .vertical, .horizontal => bgemm G H
  | .vertical, .vertical => exc .runtimeError) >>= fun GH => ok (allZeros GH)

/-- `LDPC_matrix_handler::interleave_matrix`, `LDPC_matrix_handler.cpp:871-892`. -/
def interleave (mat : Mat) (old : List Nat) : Exec Mat :=
  if mat.nCols ≠ old.length then exc .lengthError
  else forN mat.nCols (fun i s => rd old i >>= fun p => rd mat.c2r p >>= fun col =>
    forN col.length (fun j s => rd col j >>= fun r => orThrow (add s r i)) s) (new mat.nRows mat.nCols)

/-- `LDPC_matrix_handler::interleave_info_bits_pos`, `LDPC_matrix_handler.cpp:894-929`; the state is `itl_vec` and `cnt`. -/
def interleaveInfo (info old : List Nat) : Exec (List Nat) :=
  if info.length > old.length then exc .lengthError
  else forN info.length (fun i s => rd info i >>= fun p =>
      if old.contains p then wr s.1 i (old.idxOf p) >>= fun v => ok (v, s.2 + 1) else ok s)
      (List.replicate info.length 0, 0) >>= fun s =>
    if s.2 ≠ s.1.length then exc .runtimeError else ok s.1

/-- `LDPC_syndrome::check_hard` and `check_soft`, `LDPC_syndrome.hxx:8-34, 43-69`: `neg` is the test giving `tmp_sign`
(`bit != 0`, `llr < 0`).  The loop of the code stops at the first unsatisfied check, the model goes on without effect. -/
def checkLoop {α : Type} (neg : α → Bool) (X : List α) (H : Mat) : Exec Bool :=
  forN H.nCols (fun c syndrome =>
    if syndrome then ok true else
    rd H.c2r c >>= fun col =>
    forN col.length (fun v sign => rd col v >>= fun p => rd X p >>= fun x => ok (sign ^^ neg x)) false) false >>=
  fun syndrome => ok (!syndrome)

/-- `check_hard`, `LDPC_syndrome.hxx:8-34`, bits as integers. -/
def checkHard (X : List Int) (H : Mat) : Exec Bool := checkLoop (fun b => b ≠ 0) X H

/-- `check_soft`, `LDPC_syndrome.hxx:43-69`, LLRs in any type with an order test `llr < 0`. -/
def checkSoft {α : Type} (ltZero : α → Bool) (Y : List α) (H : Mat) : Exec Bool := checkLoop ltZero Y H

/-! ## Quasi-cyclic descriptions -/

/-- Conversion of an `int` to `int16_t`, `QC.cpp:59, 77`. -/
def toInt16 (v : Int) : Int := v.bmod 65536

/-- `(k + value) % Z` with `k`, `Z` of type `unsigned` and `value` of type `int16_t`, `QC.cpp:108`. -/
def shiftIdx (k : Nat) (value : Int) (Z : Nat) : Nat := (((k : Int) + value) % 4294967296).toNat % Z

/-- Expansion of one entry, `QC.cpp:91-111`. -/
def expandEntry (value : Int) (i j Z : Nat) (H : Mat) : Exec Mat :=
  if value = -1 then ok H
  else if value = 0 then forN Z (fun k H => orThrow (add H (i * Z + k) (j * Z + k))) H
  else forN Z (fun k H => orThrow (add H (i * Z + k) (j * Z + shiftIdx k value Z))) H

/-- Reading of one line of the base matrix, `QC.cpp:63-79`. -/
def qcLine (lines : List (List Int)) (Nred i : Nat) (Hred : List (List Int)) : Exec (List (List Int)) :=
  match lines[i]? with
  | none => exc .runtimeError
  | some values =>
    if values.length < Nred then exc .runtimeError
    else ok (Hred ++ [(values.take Nred).map toInt16])

/-- `QC::_read`, `QC.cpp:30-115`, on a file already cut into lines of integers: `header` is the first line, `lines` the
next ones.  The numbers of the header are naturals.  A missing line makes `getline` throw. -/
def qcRead' (header : List Nat) (lines : List (List Int)) : Exec Mat :=
  if header.length < 3 then exc .runtimeError
  else
    let Nred := header.getD 0 0
    let Mred := header.getD 1 0
    let Z := header.getD 2 0
    if Nred = 0 ∨ Mred = 0 ∨ Z = 0 then exc .runtimeError
    else
      forN Mred (qcLine lines Nred) [] >>= fun Hred =>
      forN Mred (fun i H => rd Hred i >>= fun row =>
        forN Nred (fun j H => rd row j >>= fun value => expandEntry value i j Z H) H) (new (Mred * Z) (Nred * Z)) >>= fun H =>
      ok (transpose H)

/-- `QC::read`, `QC.cpp:15-28`: any exception becomes a `runtime_error`. -/
def qcRead (header : List Nat) (lines : List (List Int)) : Exec Mat :=
  match qcRead' header lines with
  | exc _ => exc .runtimeError
  | x => x

end Verif.Sparse
