import Verif.Proof.SparseQC

/-!
# Sparse parity check matrices (C25, C26, C27, C52)

`Represents H A` (in `Verif/Spec/Sparse.lean`) says that the object `H` stands for the set of connections `A`: both
adjacency lists contain exactly the connections of `A` without duplicates, the counter of connections is the number of
connections, and the maximum degrees are the true maxima.
-/

namespace Verif.Sparse
open Exec

/-! ## C26: bookkeeping -/

/-- C26: a new matrix has no connection; after any sequence of operations (`Allowed`: a resize asks for at least one row and
one column) the exceptions thrown are those of the specification, and the object represents the specified matrix, in which
operations that throw have no effect. -/
theorem C26_ops (n m : Nat) (ops : List Op) (ho : ∀ o ∈ ops, Allowed o) :
    ∃ t, run (new n m) ops = ok ((specRun (Conns.empty n m) ops).1, t) ∧ Represents t (specRun (Conns.empty n m) ops).2 :=
  run_sat (represents_new n m) ops ho

/-- C26: an operation that throws leaves the object unchanged, and operations throw exactly when specified. -/
theorem C26_throw {s : Mat} {A : Conns} (h : Represents s A) (o : Op) (ho : Allowed o) :
    (shouldThrow A o ≠ none → step s o = ok (shouldThrow A o, s)) ∧
    (shouldThrow A o = none → ∃ t, step s o = ok (none, t) ∧ Represents t (effect A o)) := step_sat h ho

/-- C26: the query `at` tells whether the connection is there. -/
theorem C26_at {s : Mat} {A : Conns} (h : Represents s A) {r c : Nat} (hr : r < A.rows) :
    at' s r c = ok (decide ((r, c) ∈ A.set)) := at_eq h hr

example : ∃ t, run (new 2 3) [.add 0 1, .add 1 2, .add 0 1, .transpose, .rm 1 0, .resize 4 3 .bottomRight, .add 9 9] =
    ok ([none, none, some .runtimeError, none, none, none, some .invalidArgument], t) ∧
    t = ⟨4, 3, 1, 1, 1, [[], [], [], [2]], [[], [], [3]]⟩ := ⟨_, rfl, rfl⟩

/-- Sorting the columns: the result represents a matrix of the same size whose columns are those of the original one in
another order, by increasing or decreasing degree according to `R`. -/
theorem C26_sort {s : Mat} {A : Conns} (h : Represents s A) {sorted : List (List Nat)} (hp : sorted.Perm s.c2r)
    (R : Nat → Nat → Prop) (hs : sorted.Pairwise fun x y => R x.length y.length) :
    ∃ t B, sortCols s sorted = ok t ∧ Represents t B ∧ B.rows = A.rows ∧ B.cols = A.cols ∧ t.c2r.Perm s.c2r ∧
      ∀ i j, i < j → j < A.cols → R (B.colDeg i) (B.colDeg j) := by
  obtain ⟨t, e, h1, B, h2, h3, h4⟩ := sortCols_sat h hp
  refine ⟨t, B, e, h4, h2, h3, h1 ▸ hp, fun i j hij hj => ?_⟩
  have hlen := h4.c2r_length
  have hi' : i < t.c2r.length := by omega
  have hj' : j < t.c2r.length := by omega
  have d1 : B.colDeg i = t.c2r[i].length := card_col (h4.col i hi').1 (h4.col i hi').2
  have d2 : B.colDeg j = t.c2r[j].length := card_col (h4.col j hj').1 (h4.col j hj').2
  rw [d1, d2]
  subst h1
  exact List.pairwise_iff_getElem.1 hs i j hi' hj' hij

example : sortCols ⟨2, 2, 2, 2, 3, [[0, 1], [0]], [[0, 1], [0]]⟩ [[0], [0, 1]] =
    ok ⟨2, 2, 2, 2, 3, [[0, 1], [1]], [[0], [0, 1]]⟩ := rfl

/-- Defect next to C26: resizing to a size without rows or without columns reads the past-the-end element returned by
`std::max_element` on an empty list. -/
theorem C26_resize_empty {s : Mat} {A : Conns} (h : Represents s A) (n m : Nat) (o : Origin) (hz : n = 0 ∨ m = 0) :
    resize s n m o = ub := by
  exact resize_empty h o hz

/-! ## C25: syndrome -/

/-- C25: `check_hard` accepts a word iff every check of the parity check matrix (variables are rows) is satisfied, a bit
being a one when it is not null. -/
theorem C25_hard {H : Mat} {A : Conns} (h : Represents H A) {X : List Int} (hX : A.rows ≤ X.length) :
    ∃ b, checkHard X H = ok b ∧ (b = true ↔ ∀ c, c < A.cols → Satisfied A (fun v => decide (X.getD v 0 ≠ 0)) c) := by
  obtain ⟨b, e, hb⟩ := checkLoop_eq (fun b : Int => decide (b ≠ 0)) h hX
  refine ⟨b, e, hb.trans ?_⟩
  refine satisfied_congr (funext fun v => ?_)
  rw [List.getD_eq_getElem?_getD]
  cases X[v]? <;> rfl

/-- C25: `check_soft` accepts a word iff every check is satisfied by the signs, an LLR standing for a one when it is
negative.  `α` is the type of the LLRs, `ltZero` its test against zero. -/
theorem C25_soft {α : Type} (ltZero : α → Bool) {H : Mat} {A : Conns} (h : Represents H A) {Y : List α} (hY : A.rows ≤ Y.length) :
    ∃ b, checkSoft ltZero Y H = ok b ∧
      (b = true ↔ ∀ c, c < A.cols → Satisfied A (fun v => (Y.map ltZero).getD v false) c) := by
  obtain ⟨b, e, hb⟩ := checkLoop_eq ltZero h hY
  refine ⟨b, e, hb.trans ?_⟩
  refine satisfied_congr (funext fun v => ?_)
  rw [List.getD_eq_getElem?_getD, List.getElem?_map]
  cases Y[v]? <;> rfl

/-- The parity check matrix of one check on three variables. -/
example : ∃ H, (add (new 3 1) 0 0 >>= fun x => add x.2 2 0) = ok (none, H) ∧ checkHard [1, 0, 1] H = ok true ∧
    checkHard [1, 1, 0] H = ok false ∧ checkSoft (fun x : Int => decide (x < 0)) [-3, 5, -1] H = ok true := ⟨_, rfl, rfl, rfl, rfl⟩

/-! ## C27: quasi-cyclic descriptions -/

/-- C27: reading a description whose entries are -1 or shifts below 2^15 gives the lifted matrix. -/
theorem C27_lift {header : List Nat} {lines : List (List Int)} (h : QCGood header lines)
    (hv : ∀ l ∈ lines, ∀ v ∈ l, -1 ≤ v ∧ v < 32768) (hZ : header.getD 2 0 < 4294934528) :
    ∃ H A, qcRead header lines = ok H ∧ Represents H A ∧
      IsLifted A (fun r c => (lines.getD r []).getD c 0) (header.getD 1 0) (header.getD 0 0) (header.getD 2 0) := by
  obtain ⟨H, e, hH⟩ := qcRead_good h
  refine ⟨H, _, e, hH, rfl, rfl, fun r c k l hr hc hk hl => ?_⟩
  generalize header.getD 2 0 = Z at *
  rw [mem_transpose, Finset.mem_filter, Finset.mem_product, Finset.mem_range, Finset.mem_range]
  simp only [liftP]
  rw [block_div hk, block_mod hk, block_div hl, block_mod hl]
  have hb : -1 ≤ (lines.getD r []).getD c 0 ∧ (lines.getD r []).getD c 0 < 32768 := by
    rw [List.getD_eq_getElem?_getD, List.getD_eq_getElem?_getD]
    cases e1 : lines[r]? with
    | none => simp
    | some x =>
      simp only [Option.getD_some]
      cases e2 : x[c]? with
      | none => simp
      | some v => exact hv x (List.mem_of_getElem? e1) v (List.mem_of_getElem? e2)
  have e1 : baseOf lines r c = (lines.getD r []).getD c 0 := toInt16_eq hb.1 hb.2
  rw [e1]
  generalize (lines.getD r []).getD c 0 = v at *
  constructor
  · rintro ⟨_, h1, h2⟩
    have hv0 : 0 ≤ v := by omega
    exact ⟨hv0, by rw [h2]; exact colOf_eq hv0 hk (by omega)⟩
  · rintro ⟨h1, h2⟩
    refine ⟨⟨block_lt hr hk, block_lt hc hl⟩, by omega, ?_⟩
    have := colOf_eq h1 hk (by omega)
    omega

example : QCGood [2, 1, 3] [[-1, 2]] := by decide
example : qcRead [2, 1, 3] [[-1, 2]] = ok ⟨6, 3, 1, 1, 3, [[], [], [], [1], [2], [0]], [[5], [3], [4]]⟩ := rfl

/-- C27: a description is accepted iff its header has three non-null numbers and the lines of the base matrix are complete;
every other description makes the reader throw, and an accepted one, whatever its entries, gives a coherent matrix. -/
theorem C27_accept (header : List Nat) (lines : List (List Int)) :
    (¬ QCGood header lines → qcRead header lines = exc .runtimeError) ∧
    (QCGood header lines → ∃ H A, qcRead header lines = ok H ∧ Represents H A) := by
  refine ⟨qcRead_bad, fun h => ?_⟩
  obtain ⟨H, e, hH⟩ := qcRead_good h
  exact ⟨H, _, e, hH⟩

example : ¬ QCGood [2, 2, 3] [[-1, 2]] := by decide

/-- Defect next to C27: entries are stored on 16 bits without check; for every lifting size the shift 65535 is taken for a
null block, whereas it is the shift `65535 mod Z`. -/
theorem C27_narrowing (Z : Nat) (hZ : 0 < Z) : ∃ H, qcRead [1, 1, Z] [[65535]] = ok H ∧ H.nConn = 0 := by
  obtain ⟨H, e, hH⟩ := qcRead_good (header := [1, 1, Z]) (lines := [[65535]])
    ⟨by simp, by simp, by simp, by simp; omega, fun i hi => by
      have : i = 0 := by simpa using hi
      subst this
      exact ⟨_, rfl, by simp⟩⟩
  refine ⟨H, e, ?_⟩
  rw [hH.count, Finset.card_eq_zero, Finset.eq_empty_iff_forall_notMem]
  rintro ⟨y, x⟩ hm
  rw [mem_transpose, Finset.mem_filter, Finset.mem_product, Finset.mem_range, Finset.mem_range] at hm
  obtain ⟨⟨hx, hy⟩, h1, _⟩ := hm
  apply h1
  have hx' : x / Z = 0 := Nat.div_eq_of_lt (by simpa using hx)
  have hy' : y / Z = 0 := Nat.div_eq_of_lt (by simpa using hy)
  simp only [List.getD_cons_succ, List.getD_cons_zero]
  rw [hx', hy']
  rfl

/-- Defect next to C27: an entry below -1 is accepted; the shift is computed modulo 2^32 before the reduction modulo `Z`, and
the block is not a permutation: two checks meet the same variable and one variable has no check. -/
theorem C27_negative : ∃ H, qcRead [1, 1, 3] [[-2]] = ok H ∧ H.r2c = [[1, 2], [], [0]] := ⟨_, rfl, rfl⟩

/-! ## C52: products, orthogonality test, interleaving -/

/-- C52: `bgemmt` is the product by the transpose over GF(2). -/
theorem C52_bgemmt {A B : Mat} {SA SB : Conns} (hA : Represents A SA) (hB : Represents B SB) :
    (SA.cols ≠ SB.cols → bgemmt A B = exc .invalidArgument) ∧
    (SA.cols = SB.cols → ∃ C SC, bgemmt A B = ok C ∧ Represents C SC ∧ SC.rows = SA.rows ∧ SC.cols = SB.rows ∧
      ∀ i k, i < SA.rows → k < SB.rows → ((i, k) ∈ SC.set ↔ Conns.rowsMeetOdd SA SB i k)) := by
  refine ⟨fun h => ?_, fun h => ?_⟩
  · unfold bgemmt
    rw [if_pos (by rw [hA.nCols, hB.nCols]; exact h)]
  · obtain ⟨C, e, hC⟩ := bgemmt_sat hA hB h
    refine ⟨C, _, e, hC, rfl, rfl, fun i k hi hk => ?_⟩
    simp [Conns.rowsMeetOdd, Nat.odd_iff, hi, hk]

/-- C52: `bgemm` is the product over GF(2). -/
theorem C52_bgemm {A B : Mat} {SA SB : Conns} (hA : Represents A SA) (hB : Represents B SB) :
    (SA.cols ≠ SB.rows → bgemm A B = exc .invalidArgument) ∧
    (SA.cols = SB.rows → ∃ C SC, bgemm A B = ok C ∧ Represents C SC ∧ SC.rows = SA.rows ∧ SC.cols = SB.cols ∧
      ∀ i k, i < SA.rows → k < SB.cols → ((i, k) ∈ SC.set ↔ Conns.rowsMeetOdd SA SB.transpose i k)) := by
  refine ⟨fun h => ?_, fun h => ?_⟩
  · unfold bgemm
    rw [if_pos (by rw [hA.nCols, hB.nRows]; exact h)]
  · obtain ⟨C, e, hC⟩ := bgemm_sat hA hB h
    refine ⟨C, _, e, hC, rfl, rfl, fun i k hi hk => ?_⟩
    simp [Conns.rowsMeetOdd, Nat.odd_iff, hi, hk, mem_transpose]

/-- C52: `check_GH` answers whether every row of `G` is orthogonal to every check of `H`, each matrix being taken with its
longest side horizontal; two vertical matrices are rejected. -/
theorem C52_checkGH {H G : Mat} {SH SG : Conns} (hH : Represents H SH) (hG : Represents G SG) :
    ((SH.rows ≤ SH.cols ∨ SG.rows ≤ SG.cols) → SH.wide.cols = SG.wide.cols →
      ∃ b, checkGH H G = ok b ∧
        (b = true ↔ ∀ i k, i < SH.wide.rows → k < SG.wide.rows → ¬ Conns.rowsMeetOdd SH.wide SG.wide i k)) ∧
    (SH.cols < SH.rows → SG.cols < SG.rows → checkGH H G = exc .runtimeError) := by
  refine ⟨fun h1 h2 => checkGH_sat hH hG h1 h2, fun h1 h2 => ?_⟩
  unfold checkGH
  rw [way_eq hH, way_eq hG, if_neg (by omega), if_neg (by omega)]
  rfl

/-- Parity check matrix `[1 1 1]` and generator `[1 1 0; 0 1 1]`. -/
example : checkGH ⟨1, 3, 3, 1, 3, [[0, 1, 2]], [[0], [0], [0]]⟩ ⟨2, 3, 2, 2, 4, [[0, 1], [1, 2]], [[0], [0, 1], [1]]⟩ = ok true := rfl
example : checkGH ⟨1, 3, 3, 1, 3, [[0, 1, 2]], [[0], [0], [0]]⟩ ⟨3, 1, 1, 1, 1, [[0], [], []], [[0]]⟩ = ok false := rfl

/-- C52: `interleave_matrix` puts in column `j` the column `old[j]`. -/
theorem C52_interleave {s : Mat} {A : Conns} (h : Represents s A) {old : List Nat} (hl : old.length = A.cols)
    (hlt : ∀ p ∈ old, p < A.cols) :
    ∃ t B, interleave s old = ok t ∧ Represents t B ∧ B.rows = A.rows ∧ B.cols = A.cols ∧
      ∀ i j (hj : j < old.length), i < A.rows → ((i, j) ∈ B.set ↔ (i, old[j]) ∈ A.set) := by
  obtain ⟨t, e, ht⟩ := interleave_sat h hl hlt
  refine ⟨t, _, e, ht, rfl, rfl, fun i j hj hi => ?_⟩
  simp [hi, ← hl, hj]

/-- C52: interleaving the information positions along with the matrix: the new position of each information bit is the
column where its old column has been put. -/
theorem C52_info {info old : List Nat} (hl : info.length ≤ old.length) (hsub : ∀ p ∈ info, p ∈ old) :
    ∃ v, interleaveInfo info old = ok v ∧ v.length = info.length ∧
      ∀ i (hi : i < info.length), ∃ j, v[i]? = some j ∧ old[j]? = some info[i] := by
  refine ⟨_, interleaveInfo_sat hl hsub, by simp, fun i hi => ⟨_, by rw [List.getElem?_map, List.getElem?_eq_getElem hi]; rfl, ?_⟩⟩
  have hm := hsub _ (List.getElem_mem hi)
  have hlt := List.idxOf_lt_length_of_mem hm
  rw [List.getElem?_eq_getElem hlt, List.getElem_idxOf hlt]

/-- C52: interleaving the columns of `G` and `H` by the same permutation keeps them orthogonal. -/
theorem C52_interleave_orthogonal {A B A' B' : Conns} {old : List Nat} (hp : old.Perm (List.range A.cols))
    (h1 : A'.cols = A.cols) (hAr : A.rows = A'.rows) (hBr : B.rows = B'.rows)
    (hA : ∀ i j (hj : j < old.length), i < A.rows → ((i, j) ∈ A'.set ↔ (i, old[j]) ∈ A.set))
    (hB : ∀ i j (hj : j < old.length), i < B.rows → ((i, j) ∈ B'.set ↔ (i, old[j]) ∈ B.set))
    {i k : Nat} (hi : i < A.rows) (hk : k < B.rows) : Conns.rowsMeetOdd A' B' i k ↔ Conns.rowsMeetOdd A B i k := by
  have hlen : old.length = A.cols := by rw [hp.length_eq, List.length_range]
  unfold Conns.rowsMeetOdd
  rw [h1]
  have : ((Finset.range A.cols).filter fun v => (i, v) ∈ A'.set ∧ (k, v) ∈ B'.set).card =
      ((Finset.range A.cols).filter fun v => (i, v) ∈ A.set ∧ (k, v) ∈ B.set).card := by
    refine Finset.card_bij' (fun v _ => old.getD v 0) (fun v _ => old.idxOf v) ?_ ?_ ?_ ?_
    · intro v hv
      rw [Finset.mem_filter, Finset.mem_range] at hv ⊢
      have hv' : v < old.length := by omega
      rw [getD_lt _ hv']
      exact ⟨by simpa using hp.mem_iff.1 (List.getElem_mem hv'), (hA i v hv' hi).1 hv.2.1, (hB k v hv' hk).1 hv.2.2⟩
    · intro v hv
      rw [Finset.mem_filter, Finset.mem_range] at hv ⊢
      have hm : v ∈ old := hp.mem_iff.2 (List.mem_range.2 hv.1)
      have hlt := List.idxOf_lt_length_of_mem hm
      rw [hA i _ hlt hi, hB k _ hlt hk, List.getElem_idxOf hlt]
      exact ⟨by omega, hv.2⟩
    · intro v hv
      rw [Finset.mem_filter, Finset.mem_range] at hv
      have hv' : v < old.length := by omega
      beta_reduce
      rw [getD_lt _ hv']
      exact (hp.nodup_iff.2 List.nodup_range).idxOf_getElem v hv'
    · intro v hv
      rw [Finset.mem_filter, Finset.mem_range] at hv
      have hm : v ∈ old := hp.mem_iff.2 (List.mem_range.2 hv.1)
      have hlt := List.idxOf_lt_length_of_mem hm
      beta_reduce
      rw [getD_lt _ hlt, List.getElem_idxOf hlt]
  rw [this]

example : interleave ⟨2, 2, 2, 2, 3, [[0, 1], [0]], [[0, 1], [0]]⟩ [1, 0] = ok ⟨2, 2, 2, 2, 3, [[0, 1], [1]], [[0], [0, 1]]⟩ := rfl
example : interleaveInfo [0, 2] [2, 1, 0] = ok [2, 0] := rfl

end Verif.Sparse
