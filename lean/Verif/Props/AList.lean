import Verif.Proof.AListThird

/-!
# C119–C120: parity-check matrices in AList files

`Represents t A` (`Verif.Spec.Sparse`) says that the object `t` is a consistent representation of the binary matrix `A`.
-/

namespace Verif.AList
open Exec Sparse

/-- Whatever the padding and whatever follows in the file, reading back the file written for a matrix with at least one
connection gives this matrix. -/
theorem C119_read_write {m : Mat} {A : Conns} (h : Represents m A) (hA : A.set.Nonempty) (hR : A.rows < 2 ^ 31)
    (hC : A.cols < 2 ^ 31) (pad : Bool) (f : File) : (read (write m pad ++ f)).Sat fun t => Represents t A := by
  unfold read
  rcases format1_write h hA hR hC pad f with ⟨t, e, ht⟩ | e
  · rw [e]
    exact ⟨t, rfl, ht⟩
  · obtain ⟨t, e2, ht⟩ := format2_write h hA hR hC pad f
    rw [e, e2]
    exact ⟨t, rfl, ht⟩

/-- A `3 × 4` matrix with rows of different degrees and a row and a column without connections. -/
def exMat : Mat := ⟨3, 4, 2, 1, 3, [[1], [2, 0], []], [[1], [0], [1], []]⟩

/-- The matrix of `exMat`. -/
def exConns : Conns := ⟨3, 4, {(0, 1), (1, 2), (1, 0)}⟩

example : Represents exMat exConns ∧ exConns.set.Nonempty := by
  refine ⟨⟨rfl, rfl, rfl, rfl, ?_, ?_, by decide, rfl, by decide +kernel, by decide +kernel⟩, ⟨(0, 1), by decide⟩⟩
  · intro i hi
    have : i < 3 := hi
    obtain rfl | rfl | rfl : i = 0 ∨ i = 1 ∨ i = 2 := by omega
    all_goals exact ⟨by simp [exMat], fun j => by simp [exMat, exConns]⟩
  · intro i hi
    have : i < 4 := hi
    obtain rfl | rfl | rfl | rfl : i = 0 ∨ i = 1 ∨ i = 2 ∨ i = 3 := by omega
    all_goals exact ⟨by simp [exMat], fun j => by simp [exMat, exConns]⟩

example : read (write exMat true) = ok exMat ∧ read (write exMat false ++ writeInfo [2]) = ok exMat := by decide +kernel

/-- Whatever the file, a matrix that is returned is consistent and has at least one row and one column. -/
theorem C119_sound {f : File} {t : Mat} (h : read f = ok t) : ∃ A, Represents t A ∧ 0 < A.rows ∧ 0 < A.cols := by
  have key : ∃ R C, 0 < R ∧ 0 < C ∧ Rep R C t := by
    unfold read at h
    have h1 := format1_out (f.flatMap Line.toks)
    have h2 := format2_out f
    cases e1 : format1 (f.flatMap Line.toks) with
    | ok a =>
      rw [e1] at h h1
      cases h
      exact h1
    | ub => rw [e1] at h1; exact h1.elim
    | exc e =>
      rw [e1] at h
      simp only [orElse] at h
      cases e2 : format2 f with
      | ok a =>
        rw [e2] at h h2
        cases h
        exact h2
      | ub => rw [e2] at h2; exact h2.elim
      | exc e =>
        rw [e2] at h
        simp only at h
        cases e3 : format3 f with
        | ok a =>
          rw [e3] at h
          cases h
          exact format3_ok e3
        | exc e => rw [e3] at h; cases h
        | ub => rw [e3] at h; cases h
  obtain ⟨R, C, hR, hC, S, hS⟩ := key
  exact ⟨_, hS, hR, hC⟩

/-- Reading has no undefined behaviour when the second line of words has at least as many words as the first number of the
file. -/
theorem C119_no_ub (f : File) (h : ∀ a b l g, skip f = (.num a :: .num b :: l, some g) → u32 a ≤ (skip g).1.length) :
    read f ≠ ub := by
  unfold read
  have h1 := format1_out (f.flatMap Line.toks)
  have h2 := format2_out f
  have h3 := format3_out f h
  cases e1 : format1 (f.flatMap Line.toks) with
  | ok a => simp [orElse]
  | ub => rw [e1] at h1; exact h1.elim
  | exc e =>
    cases e2 : format2 f with
    | ok a => simp [orElse]
    | ub => rw [e2] at h2; exact h2.elim
    | exc e =>
      cases e3 : format3 f with
      | ok a => simp [orElse]
      | exc e => simp [orElse]
      | ub => rw [e3] at h3; exact h3.elim

/-- A line of numbers. -/
def nums (l : List Int) : Line := .words (l.map .num)

/-- A file of the third format: the columns of a `2 × 3` matrix, with comments. -/
def exFile3 : File := [.comment, nums [3, 2], .words [], nums [1, 2, 1], nums [0], nums [1, 0], nums [1]]

example : (∀ a b l g, skip exFile3 = (.num a :: .num b :: l, some g) → u32 a ≤ (skip g).1.length) ∧
    read exFile3 = ok ⟨2, 3, 2, 2, 4, [[0, 1], [1, 2]], [[0], [1, 0], [1]]⟩ := by
  refine ⟨fun a b l g h => ?_, by decide +kernel⟩
  cases h
  decide +kernel

/-- A file of the third format (the numbers of columns and rows, the degrees of the columns, the list of the rows of each column
counted from 0) with at least as many columns as rows is read as the matrix with these columns, although two other readers are
tried before. -/
theorem C119_third {R : Nat} {cols : List (List Nat)} (hC : cols.length < 2 ^ 31) (hR0 : 0 < R) (hR : R ≤ cols.length)
    (hl : ∀ l ∈ cols, l.Nodup ∧ (∀ r ∈ l, r < R) ∧ 0 < l.length) :
    (read (thirdFile R cols)).Sat fun t => ∃ A : Conns, Represents t A ∧ A.rows = R ∧ A.cols = cols.length ∧
      ∀ r c, (r, c) ∈ A.set ↔ ∃ (l : List Nat), cols[c]? = some l ∧ r ∈ l := by
  obtain ⟨t, e3, S, ht, hS⟩ := format3_third hC hR0 hR hl
  have h1 := format1_out ((thirdFile R cols).flatMap Line.toks)
  have h2 := format2_out (thirdFile R cols)
  unfold read
  cases e1 : format1 ((thirdFile R cols).flatMap Line.toks) with
  | ok a => exact (format1_third hC (by omega) hR0 (fun c hc => length_le (hl c hc).1 (hl c hc).2.1) a e1).elim
  | ub => rw [e1] at h1; exact h1.elim
  | exc e =>
    cases e2 : format2 (thirdFile R cols) with
    | ok a => exact (format2_third hC a e2).elim
    | ub => rw [e2] at h2; exact h2.elim
    | exc e =>
      rw [e3]
      exact ⟨t, rfl, _, ht, rfl, rfl, fun r c => hS (r, c)⟩

example : thirdFile 2 [[0], [1, 0], [1]] = [nums [3, 2], nums [1, 2, 1], nums [0], nums [1, 0], nums [1]] ∧
    ∀ l ∈ [[0], [1, 0], [1]], l.Nodup ∧ (∀ r ∈ l, r < 2) ∧ 0 < l.length := by decide +kernel

/-- The positions of the information bits written at the end of a file are read back, for instance behind a matrix. -/
theorem C119_info (f : File) (hf : Line.title ∉ f) (pos : List Nat) (hd : pos.Nodup) (hl : pos.length < 2 ^ 31)
    (hp : ∀ p ∈ pos, p < 2 ^ 31) : readInfo (f ++ writeInfo pos) = ok pos := by
  have key := positions_ok pos [] hd hp
  rw [List.nil_append] at key
  unfold readInfo
  rw [findTitle_append _ _ hf]
  rw [show findTitle (writeInfo pos) = some [.words [.num pos.length], .words (pos.map fun (p : Nat) => Word.num p)] from rfl]
  simp only [next, skip, bind_ok, List.length_singleton, rd, List.getElem?_cons_zero, stoi, u32_nat (show pos.length < 2 ^ 32 by omega)]
  rw [if_neg (by simp)]
  have e : (skip [Line.words (pos.map fun (p : Nat) => Word.num p)]).1 = pos.map fun (p : Nat) => Word.num p := by
    cases pos <;> rfl
  rw [e, List.length_map, if_neg (by simp), key]

/-- The same through the function that checks the number of positions and their range. -/
theorem C119_infoKN (f : File) (hf : Line.title ∉ f) (pos : List Nat) (N : Nat) (hd : pos.Nodup) (hl : pos.length < 2 ^ 31)
    (hN : N < 2 ^ 31) (hp : ∀ p ∈ pos, p < N) : readInfoKN (f ++ writeInfo pos) pos.length N = ok pos := by
  unfold readInfoKN
  rw [C119_info f hf pos hd hl fun p h => Nat.lt_trans (hp p h) hN, bind_ok, u32_nat (show pos.length < 2 ^ 32 by omega),
    if_neg (by simp), u32_nat (show N < 2 ^ 32 by omega), if_neg]
  simp only [List.any_eq_true, decide_eq_true_eq, not_exists, not_and]
  intro p h
  have := hp p h
  omega

theorem title_notMem_write (m : Mat) (pad : Bool) : Line.title ∉ write m pad := by
  simp [write]

example (m : Mat) : readInfoKN (write m true ++ writeInfo [2, 0, 3]) 3 4 = ok [2, 0, 3] :=
  C119_infoKN _ (title_notMem_write m true) [2, 0, 3] 4 (by decide) (by decide) (by decide) (by decide)

/-- Whatever the file, the positions that are returned are `K` distinct positions smaller than `N`. -/
theorem C119_info_sound {f : File} {K N : Nat} (hK : K < 2 ^ 31) (hN : N < 2 ^ 31) {pos : List Nat}
    (h : readInfoKN f K N = ok pos) : pos.length = K ∧ pos.Nodup ∧ ∀ p ∈ pos, p < N := by
  have hpos : ∀ (l : List Word) (acc r : List Nat), acc.Nodup → positions l acc = ok r → r.Nodup := by
    intro l
    induction l with
    | nil => intro acc r ha e; cases e; exact ha
    | cons w l ih =>
      intro acc r ha e
      rw [positions] at e
      obtain ⟨z, -, e⟩ := bind_ok_inv e
      split at e
      · cases e
      · rename_i hz
        refine ih _ _ ?_ e
        rw [List.nodup_append]
        exact ⟨ha, List.nodup_singleton _, fun a h1 b h2 => by rw [List.mem_singleton] at h2; subst h2; exact fun e => hz (e ▸ h1)⟩
  unfold readInfoKN at h
  obtain ⟨q, eq, h⟩ := bind_ok_inv h
  rw [u32_nat (show K < 2 ^ 32 by omega), u32_nat (show N < 2 ^ 32 by omega)] at h
  split at h
  · cases h
  rename_i h1
  split at h
  · cases h
  rename_i h2
  cases h
  refine ⟨by omega, ?_, fun p hp => ?_⟩
  · unfold readInfo at eq
    obtain ⟨v, -, eq⟩ := bind_ok_inv eq
    split at eq
    · cases eq
    obtain ⟨z, -, eq⟩ := bind_ok_inv eq
    obtain ⟨w, -, eq⟩ := bind_ok_inv eq
    split at eq
    · cases eq
    exact hpos _ _ _ List.nodup_nil eq
  · simp only [List.any_eq_true, decide_eq_true_eq, not_exists, not_and] at h2
    have := h2 p hp
    omega

/-! ## Defects -/

/-- The file written for a matrix without connections is never readable. -/
theorem C120_empty_unreadable {m : Mat} {A : Conns} (h : Represents m A) (hA : A.set = ∅) (hR : A.rows < 2 ^ 31)
    (hC : A.cols < 2 ^ 31) (pad : Bool) : read (write m pad) = exc .runtimeError := by
  obtain ⟨-, -, hadj, -, hr, hc⟩ := represents_iff.1 h
  have r0 : m.rowsMax = 0 := by
    rw [h.rowsMax]
    refine Nat.le_zero.1 (Finset.sup_le fun i _ => ?_)
    simp [Conns.rowDeg, hA]
  have c0 : m.colsMax = 0 := by
    rw [h.colsMax]
    refine Nat.le_zero.1 (Finset.sup_le fun i _ => ?_)
    simp [Conns.colDeg, hA]
  have e1 : format1 ((write m pad).flatMap Line.toks) = exc .runtimeError := by
    have := toks_write m pad []
    rw [List.append_nil] at this
    rw [this, r0]
    unfold format1
    simp only [h.nRows, h.nCols, pop_num (show A.rows < 2 ^ 32 by omega), pop_num (show A.cols < 2 ^ 32 by omega),
      pop_num (show 0 < 2 ^ 32 by omega)]
    rw [if_neg (by omega)]
  have t1 := two_ok (a := A.rows) (b := A.cols) (by omega) (by omega)
  have t2 := two_ok (a := 0) (b := 0) (by omega) (by omega)
  have e2 : format2 (write m pad) = exc .runtimeError := by
    unfold format2 write
    simp only [List.cons_append, List.nil_append, next, skip, bind_ok, h.nRows, h.nCols, r0, c0, t1, t2]
    split
    · rfl
    · simp
  have e3 : format3 (write m pad) = exc .runtimeError := by
    unfold format3 write
    simp only [List.cons_append, List.nil_append, next, skip, bind_ok, h.nRows, h.nCols, r0, c0, t1]
    split
    · rfl
    · split
      · rfl
      · obtain ⟨n, hn⟩ : ∃ n, A.rows = n + 1 := ⟨A.rows - 1, by omega⟩
        rw [hn]
        rfl
  unfold read
  rw [e1, e2, e3]
  rfl

example : Represents (new 2 3) (Conns.empty 2 3) ∧ (Conns.empty 2 3).set = ∅ := ⟨represents_new 2 3, rfl⟩

/-- The identity and the exchange matrices of size 2. -/
def exI : Mat := ⟨2, 2, 1, 1, 2, [[0], [1]], [[0], [1]]⟩
def exJ : Mat := ⟨2, 2, 1, 1, 2, [[1], [0]], [[1], [0]]⟩

/-- The lists of the columns are not read: the file with the rows of one matrix and the columns of another one, and a file cut
before the columns, are accepted. -/
theorem C120_columns_ignored :
    read ((write exI true).take 11 ++ (write exJ true).drop 11) = ok exI ∧
    (write exI true).take 11 ++ (write exJ true).drop 11 ≠ write exI true ∧
    read ((write exI true).take 10) = ok exI := by decide +kernel

/-- A file of two lines makes the reader of the third format read past the end of a vector: the number of words of the line of
the column degrees is compared with the number of rows. -/
theorem C120_format3_ub : read [nums [3, 2], nums [1, 2]] = ub := by decide +kernel

/-- For the same reason a well-formed file of the third format of a matrix with more rows than columns is refused: here the
`2 × 1` matrix with two connections; with a word too many in the line of the degrees it is accepted. -/
theorem C120_format3_refused : read [nums [1, 2], nums [2], nums [0, 1]] = exc .runtimeError ∧
    read [nums [1, 2], nums [2, 0], nums [0, 1]] = ok ⟨2, 1, 1, 2, 2, [[0], [0]], [[0, 1]]⟩ := by decide +kernel

end Verif.AList
