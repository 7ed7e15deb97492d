import Verif.Model.Sparse

/-!
# Dense binary matrices and the transformations of parity check matrices

Models `src/Tools/Algo/Matrix/Full_matrix/Full_matrix.cpp`, `include/Tools/Algo/Matrix/matrix_utils.hxx` and the
decompositions of `src/Tools/Code/LDPC/Matrix_handler/LDPC_matrix_handler.cpp`.

The entries are Booleans: every function of the library writes only 0 and 1.  The loops on vector registers that combine two
rows element by element, followed by a loop on the remaining elements, are modelled by one loop on the elements.
-/

namespace Verif.Sparse
open Exec

/-- `class Full_matrix : public Matrix`, `Full_matrix.hpp`, `Matrix.hpp`. -/
structure FM where
  nRows : Nat
  nCols : Nat
  v : List (List Bool)
  rdeg : List Nat
  cdeg : List Nat
  rowsMax : Nat
  colsMax : Nat
  nConn : Nat
  deriving DecidableEq, Repr

/-- `mat[i][j]`. -/
def rdM (v : List (List Bool)) (i j : Nat) : Exec Bool := rd v i >>= fun row => rd row j

/-- `mat[i][j] = b`. -/
def wrM (v : List (List Bool)) (i j : Nat) (b : Bool) : Exec (List (List Bool)) :=
  rd v i >>= fun row => wr row j b >>= fun row => wr v i row

/-- Constructor, `Full_matrix.cpp:11-19`; also `zero`, 321-326. -/
def fnew (n m : Nat) : FM :=
  ⟨n, m, List.replicate n (List.replicate m false), List.replicate n 0, List.replicate m 0, 0, 0, 0⟩

/-- `at`, `Full_matrix.cpp:21-28` and `Matrix::check_indexes`, `Matrix.cpp:54-72`. -/
def fat (s : FM) (r c : Nat) : Exec Bool :=
  if c ≥ s.nCols then exc .invalidArgument else if r ≥ s.nRows then exc .invalidArgument else rdM s.v r c

/-- `add_connection`, `Full_matrix.cpp:30-50`; when it throws the object has not changed. -/
def fadd (s : FM) (r c : Nat) : Exec FM :=
  fat s r c >>= fun b => if b then exc .runtimeError else
  wrM s.v r c true >>= fun v =>
  rd s.rdeg r >>= fun x => wr s.rdeg r (x + 1) >>= fun rdeg =>
  rd s.cdeg c >>= fun y => wr s.cdeg c (y + 1) >>= fun cdeg =>
  ok { s with v, rdeg, cdeg, rowsMax := max s.rowsMax (x + 1), colsMax := max s.colsMax (y + 1), nConn := s.nConn + 1 }

/-- `*std::max_element(l.begin(), l.end())`: dereferences `end()` when `l` is empty. -/
def maxElement (l : List Nat) : Exec Nat := if l = [] then ub else ok (l.foldl max 0)

/-- Update of a maximum degree by `rm_connection`, `Full_matrix.cpp:65-69`. -/
def lessMax (deg : List Nat) (d M : Nat) : Exec Nat := if d + 1 = M then maxElement deg else ok M

/-- `rm_connection`, `Full_matrix.cpp:52-70`; unsigned subtractions. -/
def frm (s : FM) (r c : Nat) : Exec FM :=
  fat s r c >>= fun b => if !b then ok s else
  wrM s.v r c false >>= fun v =>
  rd s.rdeg r >>= fun x => wr s.rdeg r (x - 1) >>= fun rdeg =>
  rd s.cdeg c >>= fun y => wr s.cdeg c (y - 1) >>= fun cdeg =>
  lessMax rdeg (x - 1) s.rowsMax >>= fun rowsMax =>
  lessMax cdeg (y - 1) s.colsMax >>= fun colsMax =>
  ok { s with v, rdeg, cdeg, rowsMax, colsMax, nConn := s.nConn - 1 }

/-- `std::vector::resize(n, x)`. -/
def resized {α : Type} (l : List α) (n : Nat) (x : α) : List α := l.take n ++ List.replicate (n - l.length) x

/-- `row.erase(row.begin(), row.begin() + k)`: undefined when `k` is larger than the size. -/
def eraseFront {α : Type} (l : List α) (k : Nat) : Exec (List α) := if k ≤ l.length then ok (l.drop k) else ub

/-- `for (r = a; r < b; r++) g((*this)[r])`. -/
def onRows (a b : Nat) (g : List Bool → Exec (List Bool)) (v : List (List Bool)) : Exec (List (List Bool)) :=
  forRange a b (fun r v => rd v r >>= fun row => g row >>= fun row => wr v r row) v

/-- `(*this)[r].resize(n_cols, 0)` for the rows from `a` to `b`. -/
def resizeRows (a b m : Nat) : List (List Bool) → Exec (List (List Bool)) := onRows a b fun row => ok (resized row m false)

/-- Removal or insertion of columns at the left of the rows from `a` to `b`; `m0` is the old number of columns,
`Full_matrix.cpp:90-101, 131-142, 149-160`.  The rows that get smaller and those that get larger are given apart. -/
def alignRight (a b b' m0 m : Nat) (v : List (List Bool)) : Exec (List (List Bool)) :=
  if m < m0 then onRows a b (fun row => eraseFront row (m0 - m)) v
  else onRows a b' (fun row => ok (List.replicate (m - m0) false ++ row)) v

/-- The switch of `self_resize`, `Full_matrix.cpp:76-164`. -/
def resizeV (v : List (List Bool)) (n0 m0 n m : Nat) (o : Origin) : Exec (List (List Bool)) :=
  match o with
  | .topLeft => resizeRows 0 (min n n0) m (resized v n (List.replicate m false))
  | .topRight => alignRight 0 n (min n n0) m0 m (resized v n (List.replicate m false))
  | .bottomLeft =>
    if n < n0 then eraseFront v (n0 - n) >>= fun v => resizeRows 0 (min n n0) m v
    else resizeRows (n - n0) n m (List.replicate (n - n0) (List.replicate m false) ++ v)
  | .bottomRight =>
    if n < n0 then eraseFront v (n0 - n) >>= fun v => alignRight 0 n n m0 m v
    else alignRight (n - n0) n n m0 m (List.replicate (n - n0) (List.replicate m false) ++ v)

/-- `self_resize`, `Full_matrix.cpp:72-170`; `resize` (172-181) returns the result.  The degrees of the columns are resized to
the number of rows. -/
def fresize (s : FM) (n m : Nat) (o : Origin) : Exec FM :=
  resizeV s.v s.nRows s.nCols n m o >>= fun v =>
  ok { s with nRows := n, nCols := m, v, rdeg := resized s.rdeg n 0, cdeg := resized s.cdeg n 0 }

/-- `parse_connections`, `Full_matrix.cpp:183-202`. -/
def fparse (s : FM) : Exec FM :=
  forN s.nRows (fun r s' => forN s.nCols (fun c s' => rdM s.v r c >>= fun b => if b then
      rd s'.rdeg r >>= fun x => wr s'.rdeg r (x + 1) >>= fun rdeg =>
      rd s'.cdeg c >>= fun y => wr s'.cdeg c (y + 1) >>= fun cdeg => ok { s' with rdeg, cdeg, nConn := s'.nConn + 1 }
    else ok s') s')
    { s with rdeg := s.rdeg.map fun _ => 0, cdeg := s.cdeg.map fun _ => 0, nConn := 0 } >>= fun s =>
  maxElement s.rdeg >>= fun rowsMax => maxElement s.cdeg >>= fun colsMax => ok { s with rowsMax, colsMax }

/-- `std::swap((*this)[r][c], (*this)[c][r])`. -/
def swapM (v : List (List Bool)) (r c : Nat) : Exec (List (List Bool)) :=
  rdM v r c >>= fun a => rdM v c r >>= fun b => wrM v r c b >>= fun v => wrM v c r a

/-- The swaps of the leading square, `Full_matrix.cpp:225-227, 240-242`. -/
def swapSquare (k : Nat) (v : List (List Bool)) : Exec (List (List Bool)) :=
  forN k (fun r v => forRange (r + 1) k (fun c v => swapM v r c) v) v

/-- `self_transpose`, `HORIZONTAL` way, `Full_matrix.cpp:222-235`. -/
def transposeH (v : List (List Bool)) (n m : Nat) : Exec (List (List Bool)) :=
  swapSquare n (resized v m (List.replicate n false)) >>= fun v =>
  forRange n m (fun r v => forN n (fun c v => rdM v c r >>= fun b => wrM v r c b) v) v >>= fun v => resizeRows 0 n n v

/-- `self_transpose`, `VERTICAL` way, `Full_matrix.cpp:236-249`. -/
def transposeV (v : List (List Bool)) (n m : Nat) : Exec (List (List Bool)) :=
  resizeRows 0 m n v >>= fun v => swapSquare m v >>= fun v =>
  forRange m n (fun r v => forN m (fun c v => rdM v r c >>= fun b => wrM v c r b) v) v >>= fun v => ok (resized v m [])

/-- `self_transpose`, `Full_matrix.cpp:215-255` and `Matrix.cpp:20-25`; `transpose` (204-213) returns the result. -/
def ftranspose (s : FM) : Exec FM :=
  (if s.nCols ≥ s.nRows then transposeH s.v s.nRows s.nCols else transposeV s.v s.nRows s.nCols) >>= fun v =>
  ok { s with nRows := s.nCols, nCols := s.nRows, v, rowsMax := s.colsMax, colsMax := s.rowsMax, rdeg := s.cdeg,
              cdeg := s.rdeg }

/-- `self_turn`, `Matrix.cpp:27-40`; `turn` (257-266) returns the result. -/
def fturn (s : FM) (w : Way) : Exec FM :=
  match w with
  | .vertical => if s.nCols > s.nRows then ftranspose s else ok s
  | .horizontal => if s.nCols < s.nRows then ftranspose s else ok s

/-- `is_of_way_throw(HORIZONTAL)`, `Matrix.cpp:81-97` and `get_way`, 42-46. -/
def horizontalOrThrow {α : Type} (n m : Nat) (k : Exec α) : Exec α := if m ≥ n then k else exc .invalidArgument

/-- `identity`, `Full_matrix.cpp:308-319`. -/
def fidentity (n m : Nat) : Exec FM := forN (min n m) (fun i s => fadd s i i) (fnew n m)

/-- `erase_row(row_index)`, `Full_matrix.cpp:328-336`. -/
def eraseRow (s : FM) (r : Nat) : Exec FM :=
  if r < s.v.length ∧ r < s.rdeg.length then
    ok { s with nRows := s.nRows - 1, v := s.v.eraseIdx r, rdeg := s.rdeg.eraseIdx r }
  else ub

/-! ## Conversions and products -/

/-- `sparse_to_full`, `matrix_utils.hxx:11-21`. -/
def sparseToFull (s : Mat) : Exec FM :=
  forN s.nRows (fun i f => rd s.r2c i >>= fun row => forN row.length (fun j f => rd row j >>= fun c => fadd f i c) f)
    (fnew s.nRows s.nCols)

/-- `full_to_sparse`, `matrix_utils.hxx:23-34`. -/
def fullToSparse (f : FM) : Exec Mat :=
  forN f.nRows (fun i s => forN f.nCols (fun j s => rdM f.v i j >>= fun b => if b then orThrow (add s i j) else ok s) s)
    (new f.nRows f.nCols)

/-- The loops of `bgemm` and `bgemmt`: `entry l n m` are the two factors. -/
def fgemm (L N M : Nat) (a b : Nat → Nat → Nat → Exec Bool) : Exec FM :=
  forN L (fun l v => forN N (fun n v =>
    forN M (fun m res => a l n m >>= fun x => b l n m >>= fun y => ok (res ^^ (x && y))) false >>= fun res =>
    wrM v l n res) v) (fnew L N).v >>= fun v => ok { fnew L N with v }

/-- `bgemm`, `matrix_utils.hxx:36-64`. -/
def fbgemm (A B : FM) : Exec FM :=
  if A.nCols ≠ B.nRows then exc .invalidArgument
  else fgemm A.nRows B.nCols B.nRows (fun l _ m => rdM A.v l m) (fun _ n m => rdM B.v m n)

/-- `bgemmt`, `matrix_utils.hxx:72-115`: the sum of the lanes of a register of masks modulo 2 is the parity of all the terms. -/
def fbgemmt (A tB : FM) : Exec FM :=
  if A.nCols ≠ tB.nCols then exc .invalidArgument
  else fgemm A.nRows tB.nRows tB.nCols (fun l _ m => rdM A.v l m) (fun _ n m => rdM tB.v n m)

/-- `all_zeros`, `matrix_utils.hxx:117-127`. -/
def fallZeros (s : FM) : Exec Bool :=
  forN s.nRows (fun r z => forN s.nCols (fun c z => rdM s.v r c >>= fun b => ok (z && !b)) z) true

/-- `LDPC_matrix_handler::check_GH` on dense matrices, `LDPC_matrix_handler.cpp:965-997`. -/
def fcheckGH (H G : FM) : Exec Bool :=
  (if H.nCols ≥ H.nRows then if G.nCols ≥ G.nRows then fbgemmt H G else fbgemm H G
   else if G.nCols ≥ G.nRows then fbgemm G H else exc .runtimeError) >>= fallZeros

/-! ## Inversion of the parity part -/

/-- Row `r2` ^= row `r` on `w` columns, `LDPC_matrix_handler.cpp:250-259, 273-282`. -/
def xorRow (w r2 r : Nat) (v : List (List Bool)) : Exec (List (List Bool)) :=
  forN w (fun i v => rdM v r2 i >>= fun a => rdM v r i >>= fun b => wrM v r2 i (a ^^ b)) v

/-- `if (Hinv[r2][r] != 0)` row `r2` ^= row `r`. -/
def clearRow (w r2 r : Nat) (v : List (List Bool)) : Exec (List (List Bool)) :=
  rdM v r2 r >>= fun b => if b then xorRow w r2 r v else ok v

/-- `std::swap(Hinv[r], Hinv[r_swap])`. -/
def swapRows (v : List (List Bool)) (r s : Nat) : Exec (List (List Bool)) :=
  rd v r >>= fun a => rd v s >>= fun b => wr v r b >>= fun v => wr v s a

/-- Search of a row below `r` with a one in column `r`; 0 when there is none, `LDPC_matrix_handler.cpp:225-233`. -/
def findSwap (M r : Nat) (v : List (List Bool)) : Exec Nat :=
  forRange (r + 1) M (fun r2 s => if s ≠ 0 then ok s else rdM v r2 r >>= fun b => ok (if b then r2 else 0)) 0

/-- Choice of the pivot of column `r`, `LDPC_matrix_handler.cpp:223-243`. -/
def pivot (M r : Nat) (v : List (List Bool)) : Exec (List (List Bool)) :=
  rdM v r r >>= fun b => if b then ok v else
  findSwap M r v >>= fun s => if s = 0 then exc .runtimeError else swapRows v r s

/-- Forward elimination, `LDPC_matrix_handler.cpp:220-262`. -/
def forward (M : Nat) (v : List (List Bool)) : Exec (List (List Bool)) :=
  forN M (fun r v => pivot M r v >>= fun v => forRange (r + 1) M (fun r2 v => clearRow (2 * M) r2 r v) v) v

/-- Backward elimination, `LDPC_matrix_handler.cpp:264-285`, for `M ≥ 1`. -/
def backward (M : Nat) (v : List (List Bool)) : Exec (List (List Bool)) :=
  forDown (M - 1) (fun k v => forDown (k + 1) (fun rm1 v => clearRow (2 * M) rm1 (k + 1) v) v) v

/-- `LU_decomp`, `LDPC_matrix_handler.cpp:206-291`.  With no rows the counter `M - 1` of the backward elimination wraps and
the loop reads outside of the matrix. -/
def luDecomp (Hp : FM) : Exec FM :=
  horizontalOrThrow Hp.nRows Hp.nCols <|
  fresize Hp Hp.nRows (2 * Hp.nRows) .topLeft >>= fun Hinv =>
  forN Hp.nRows (fun i v => wrM v i (Hp.nRows + i) true) Hinv.v >>= fun v =>
  forward Hp.nRows v >>= fun v =>
  if Hp.nRows = 0 then ub else
  backward Hp.nRows v >>= fun v => fresize { Hinv with v } Hp.nRows Hp.nRows .topRight

/-- `LU_decomposition` of a sparse matrix, `LDPC_matrix_handler.cpp:421-432`. -/
def luSparse (H : Mat) : Exec FM :=
  resize (turn H .horizontal) (turn H .horizontal).nRows (turn H .horizontal).nRows .topRight >>= fun Ht =>
  sparseToFull Ht >>= luDecomp

/-- `LU_decomposition` of a dense matrix, `LDPC_matrix_handler.cpp:434-443`. -/
def luDense (H : FM) : Exec FM :=
  horizontalOrThrow H.nRows H.nCols <| fresize H H.nRows H.nRows .topRight >>= luDecomp

/-- `transform_H_to_G_decomp_LU` on dense matrices, `LDPC_matrix_handler.cpp:446-486`; returns also `info_bits_pos`. -/
def hToGLU (H : FM) : Exec (FM × List Nat) :=
  luDense H >>= fun Gp =>
  fresize H H.nRows (H.nCols - H.nRows) .topLeft >>= fun Hs =>
  ftranspose Hs >>= fun Hs =>
  fbgemmt Gp Hs >>= fun GH =>
  ftranspose GH >>= fun GH =>
  fresize GH (H.nCols - H.nRows) H.nCols .topRight >>= fun GH =>
  forN (H.nCols - H.nRows) (fun r v => wrM v r r true) GH.v >>= fun v =>
  ok ({ GH with v }, List.range (H.nCols - H.nRows))

/-- `transform_H_to_G_decomp_LU` on sparse matrices, `LDPC_matrix_handler.cpp:174-183`. -/
def hToGLUSparse (H : Mat) : Exec (Mat × List Nat) :=
  horizontalOrThrow H.nRows H.nCols <|
  sparseToFull H >>= fun Hf => hToGLU Hf >>= fun G => fullToSparse G.1 >>= fun G' => ok (G', G.2)

/-! ## Diagonal forms -/

/-- `swap_columns`, `LDPC_matrix_handler.cpp:196-203`. -/
def swapColumns (n i j : Nat) (v : List (List Bool)) : Exec (List (List Bool)) :=
  forN n (fun l tmp => rdM v l i >>= fun b => wr tmp l b) (List.replicate n false) >>= fun tmp =>
  forN n (fun l v => rdM v l j >>= fun b => wrM v l i b) v >>= fun v =>
  forN n (fun l v => rd tmp l >>= fun b => wrM v l j b) v

/-- The first index `k` with `a ≤ k < b` and `p k`, as found by a loop with `break`. -/
def findFirst (a b : Nat) (p : Nat → Exec Bool) : Exec (Option Nat) :=
  forRange a b (fun k s => if s.isSome then ok s else p k >>= fun x => ok (if x then some k else none)) none

/-- `std::transform(mat[i].begin() + a, mat[i].end(), mat[j].begin() + a, mat[j].begin() + a, not_equal_to)`. -/
def xorFrom (a w i j : Nat) (v : List (List Bool)) : Exec (List (List Bool)) :=
  forRange a w (fun k v => rdM v i k >>= fun x => rdM v j k >>= fun y => wrM v j k (x != y)) v

/-- State of the loop of `form_diagonal`: the matrix, `i`, `n_row` and `swapped_cols`. -/
structure FD where
  mat : FM
  i : Nat
  nRow : Nat
  swapped : List (Nat × Nat)

/-- The search of a one for position `(i, i)`, `LDPC_matrix_handler.cpp:582-611`; the Boolean is `found`. -/
def fdFind (nCol : Nat) (s : FD) : Exec (Bool × FD) :=
  rdM s.mat.v s.i s.i >>= fun b => if b then ok (true, s) else
  findFirst (s.i + 1) s.nRow (fun j => rdM s.mat.v j s.i) >>= fun
  | some j => swapRows s.mat.v s.i j >>= fun v => ok (true, { s with mat := { s.mat with v } })
  | none => findFirst (s.i + 1) nCol (fun j => rdM s.mat.v s.i j) >>= fun
    | some j => swapColumns s.mat.nRows s.i j s.mat.v >>= fun v =>
        ok (true, { s with mat := { s.mat with v }, swapped := s.swapped ++ [(s.i, j)] })
    | none => ok (false, s)

/-- One iteration of the loop of `form_diagonal`, origin `TOP_LEFT`, `LDPC_matrix_handler.cpp:580-630`. -/
def fdStep (nCol : Nat) (s : FD) : Exec FD :=
  fdFind nCol s >>= fun x =>
  if x.1 then
    forRange (x.2.i + 1) x.2.nRow (fun j v => rdM v j x.2.i >>= fun b => if b then xorFrom x.2.i nCol x.2.i j v else ok v) x.2.mat.v >>= fun v =>
    ok { x.2 with mat := { x.2.mat with v }, i := x.2.i + 1 }
  else eraseRow x.2.mat x.2.i >>= fun mat => ok { x.2 with mat, nRow := x.2.nRow - 1 }

/-- `form_diagonal`, origin `TOP_LEFT`, `LDPC_matrix_handler.cpp:567-631, 810`: every iteration increments `i` or decrements
`n_row`, the loop ends when they meet. -/
def formDiagonal (mat : FM) : Exec (FM × List (Nat × Nat)) :=
  fturn mat .horizontal >>= fun mat =>
  forN mat.nRows (fun _ s => fdStep mat.nCols s) ⟨mat, 0, mat.nRows, []⟩ >>= fun s => ok (s.mat, s.swapped)

/-- `form_identity`, origin `TOP_LEFT`, `LDPC_matrix_handler.cpp:813-834`: with no rows the counter `n_row - 1` wraps. -/
def formIdentity (mat : FM) : Exec FM :=
  fturn mat .horizontal >>= fun mat =>
  if mat.nRows = 0 then ub else
  forDown (mat.nRows - 1) (fun k v => forDown (k + 1) (fun r v => rdM v r (k + 1) >>= fun b =>
    if b then xorFrom (k + 1) mat.nCols (k + 1) r v else ok v) v) mat.v >>= fun v => ok { mat with v }

/-- `transform_H_to_G_identity` on dense matrices up to line 508, `LDPC_matrix_handler.cpp:489-508`: the vertical matrix before
the reorganisation of its rows. -/
def hToGIdentityV (H : FM) : Exec (FM × List (Nat × Nat)) :=
  horizontalOrThrow H.nRows H.nCols <|
  formDiagonal H >>= fun x =>
  formIdentity x.1 >>= fun G =>
  fresize G H.nCols (H.nCols - H.nRows) .topRight >>= fun G =>
  forRange H.nRows H.nCols (fun i v => wrM v i (i - H.nRows) true) G.v >>= fun v => ok ({ G with v }, x.2)

/-- `std::swap(l[p.first], l[p.second])`. -/
def swapAt {α : Type} (l : List α) (p : Nat × Nat) : Exec (List α) :=
  rd l p.1 >>= fun a => rd l p.2 >>= fun b => wr l p.1 b >>= fun l => wr l p.2 a

/-- `transform_H_to_G_identity` on dense matrices, `LDPC_matrix_handler.cpp:489-526`; returns also `info_bits_pos`. -/
def hToGIdentity (H : FM) : Exec (FM × List Nat) :=
  hToGIdentityV H >>= fun x =>
  forDown x.2.length (fun l v => rd x.2 l >>= fun p => swapAt v p) x.1.v >>= fun v =>
  forN x.2.length (fun l bits => rd x.2 l >>= fun p => swapAt bits p) (List.range H.nCols) >>= fun bits =>
  ok ({ x.1 with v }, bits.drop H.nRows)

/-- `transform_H_to_G_identity` on sparse matrices, `LDPC_matrix_handler.cpp:185-194`. -/
def hToGIdentitySparse (H : Mat) : Exec (Mat × List Nat) :=
  horizontalOrThrow H.nRows H.nCols <|
  sparseToFull H >>= fun Hf => hToGIdentity Hf >>= fun G => fullToSparse G.1 >>= fun G' => ok (G', G.2)

end Verif.Sparse
