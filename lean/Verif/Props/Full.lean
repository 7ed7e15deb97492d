import Verif.Spec.LDPCEnc
import Verif.Proof.LU
import Verif.Proof.SparseOps

/-! # C53: dense binary matrices -/

namespace Verif.Sparse
open Exec

/-- The dense object holds the matrix `A`. -/
structure Dense (s : FM) (A : Conns) : Prop where
  nRows : s.nRows = A.rows
  nCols : s.nCols = A.cols
  v : s.v = (List.range A.rows).map fun i => (List.range A.cols).map fun j => decide ((i, j) ∈ A.set)
  range : ∀ p ∈ A.set, p.1 < A.rows ∧ p.2 < A.cols

theorem Dense.frep {s : FM} {A : Conns} (h : Dense s A) : FRep s A.rows A.cols fun i j => decide ((i, j) ∈ A.set) :=
  ⟨h.nRows, h.nCols, h.v⟩

theorem FRep.dense {s : FM} {A : Conns} {f : Nat → Nat → Bool} (h : FRep s A.rows A.cols f)
    (hf : ∀ i, i < A.rows → ∀ j, j < A.cols → f i j = decide ((i, j) ∈ A.set)) (hr : ∀ p ∈ A.set, p.1 < A.rows ∧ p.2 < A.cols) : Dense s A :=
  ⟨h.nRows, h.nCols, (h.congr hf).v, hr⟩

/-- C53: conversion of a sparse matrix. -/
theorem C53_of_sparse {s : Mat} {A : Conns} (h : Represents s A) : ∃ t, sparseToFull s = ok t ∧ Dense t A := by
  obtain ⟨t, e, ht⟩ := sparseToFull_sat h
  exact ⟨t, e, ht.dense (fun _ _ _ _ => rfl) h.range⟩

/-- C53: conversion of a dense matrix: the sparse object is consistent, its degrees and counters included. -/
theorem C53_to_sparse {s : FM} {A : Conns} (h : Dense s A) : ∃ t, fullToSparse s = ok t ∧ Represents t A := by
  obtain ⟨t, e, ht⟩ := fullToSparse_sat h.frep
  refine ⟨t, e, ?_⟩
  have hs : (Finset.range A.rows ×ˢ Finset.range A.cols).filter (fun p => decide ((p.1, p.2) ∈ A.set) = true) = A.set := by
    ext ⟨i, j⟩
    simp only [Finset.mem_filter, Finset.mem_product, Finset.mem_range, decide_eq_true_iff]
    exact ⟨fun h => h.2, fun h' => ⟨h.range _ h', h'⟩⟩
  rwa [hs] at ht

example : ∃ t, sparseToFull ⟨2, 3, 2, 2, 3, [[0, 1], [0]], [[0, 1], [0], []]⟩ = ok t ∧ t.v = [[true, true, false], [true, false, false]] ∧
    fullToSparse t = ok ⟨2, 3, 2, 2, 3, [[0, 1], [0]], [[0, 1], [0], []]⟩ := ⟨_, rfl, rfl, rfl⟩

/-- C53: transposition. -/
theorem C53_transpose {s : FM} {A : Conns} (h : Dense s A) : ∃ t, ftranspose s = ok t ∧ Dense t A.transpose := by
  obtain ⟨t, e, ht⟩ := ftranspose_sat h.frep
  refine ⟨t, e, FRep.dense (A := A.transpose) ht (fun i _ j _ => ?_) ?_⟩
  · exact decide_eq_decide.2 mem_transpose.symm
  · rintro ⟨i, j⟩ hp
    have := h.range _ (mem_transpose.1 hp)
    exact ⟨this.2, this.1⟩

/-- C53: resizing with the four origins, except when `TOP_RIGHT` is used with more rows and fewer columns. -/
theorem C53_resize {s : FM} {A : Conns} (h : Dense s A) (n m : Nat) (o : Origin)
    (hok : o = .topRight → n ≤ A.rows ∨ A.cols ≤ m) : ∃ t, fresize s n m o = ok t ∧ Dense t (A.resize n m o) := by
  obtain ⟨t, e, ht⟩ := fresize_sat h.frep (n := n) (m := m) (o := o) hok
  refine ⟨t, e, FRep.dense (A := A.resize n m o) ht (fun i hi j hj => ?_) ?_⟩
  · have hi : i < n := hi
    have hj : j < m := hj
    rw [show resizeF A.rows A.cols n m o (fun i j => decide ((i, j) ∈ A.set)) i j =
      decide (resizeF A.rows A.cols n m o (fun i j => decide ((i, j) ∈ A.set)) i j = true) by simp, decide_eq_decide]
    simp only [Conns.resize, Finset.mem_filter, Finset.mem_product, Finset.mem_range, hi, hj, and_self, true_and, Prod.exists]
    cases o <;> simp only [resizeF, Conns.moved, Conns.bottom, Conns.right, if_true, Bool.false_eq_true, if_false, Bool.and_eq_true,
      decide_eq_true_iff]
    · constructor
      · rintro ⟨_, h'⟩
        exact ⟨i, j, h', rfl, rfl⟩
      · rintro ⟨a, b, h', rfl, rfl⟩
        exact ⟨h.range _ h', h'⟩
    · constructor
      · rintro ⟨_, h'⟩
        exact ⟨_, _, h', rfl, by omega⟩
      · rintro ⟨a, b, h', rfl, h2⟩
        have := h.range _ h'
        rw [show j + A.cols - m = b by omega]
        exact ⟨⟨this.1, by omega⟩, h'⟩
    · constructor
      · rintro ⟨_, h'⟩
        exact ⟨_, _, h', by omega, rfl⟩
      · rintro ⟨a, b, h', h2, rfl⟩
        have := h.range _ h'
        rw [show i + A.rows - n = a by omega]
        exact ⟨⟨by omega, this.2⟩, h'⟩
    · constructor
      · rintro ⟨_, h'⟩
        exact ⟨_, _, h', by omega, by omega⟩
      · rintro ⟨a, b, h', h1, h2⟩
        have := h.range _ h'
        rw [show i + A.rows - n = a by omega, show j + A.cols - m = b by omega]
        exact ⟨⟨by omega, by omega⟩, h'⟩
  · intro p hp
    simp only [Conns.resize, Finset.mem_filter, Finset.mem_product, Finset.mem_range] at hp
    exact hp.1

example : ∃ t, fresize (fnew 2 2) 3 1 .bottomRight = ok t ∧ t.v = [[false], [false], [false]] := ⟨_, rfl, rfl⟩

/-- Defect next to C53: with `TOP_RIGHT`, more rows and fewer columns, the call is undefined as soon as more columns are
removed than kept, because columns are also removed from the rows that have just been added. -/
theorem C53_resize_top_right {s : FM} {A : Conns} (h : Dense s A) {n m : Nat} (hn : A.rows < n) (hm : m < A.cols - m) :
    fresize s n m .topRight = ub := by
  unfold fresize resizeV alignRight onRows
  simp only []
  rw [h.nRows, h.nCols, if_pos (by omega), h.v]
  suffices hs : forRange 0 n (fun r v => rd v r >>= fun row => eraseFront row (A.cols - m) >>= fun row => wr v r row)
      (resized ((List.range A.rows).map fun i => (List.range A.cols).map fun j => decide ((i, j) ∈ A.set)) n (List.replicate m false)) = ub by
    rw [hs]
    rfl
  unfold forRange
  have hn' : n - 0 = A.rows + 1 + (n - (A.rows + 1)) := by omega
  rw [hn', forN_add, forN_succ]
  have hsat : (forN A.rows (fun i v => rd v (0 + i) >>= fun row => eraseFront row (A.cols - m) >>= fun row => wr v (0 + i) row)
      (resized ((List.range A.rows).map fun i => (List.range A.cols).map fun j => decide ((i, j) ∈ A.set)) n (List.replicate m false))).Sat
      fun v => v[A.rows]? = some (List.replicate m false) := by
    refine (forN_inv (fun k (v : List (List Bool)) => v.length = n ∧ v[A.rows]? = some (List.replicate m false) ∧
      ∀ i, k ≤ i → i < A.rows → ∃ row, v[i]? = some row ∧ row.length = A.cols) ?_ ?_).mono fun v hv => hv.2.1
    · refine ⟨by simp [resized]; omega, ?_, fun i _ hi => ⟨(List.range A.cols).map fun j => decide ((i, j) ∈ A.set), ?_, ?_⟩⟩
      · rw [resized, List.getElem?_append_right (by simp only [List.length_take, List.length_map, List.length_range]; omega), List.getElem?_replicate,
          if_pos (by simp only [List.length_take, List.length_map, List.length_range]; omega)]
      · rw [resized, List.getElem?_append_left (by simp only [List.length_take, List.length_map, List.length_range]; omega), List.getElem?_take_of_lt (by omega), getElem?_mapRange, if_pos hi]
      · simp
    · rintro k v hk ⟨g1, g2, g3⟩
      obtain ⟨row, e, hr⟩ := g3 k (Nat.le_refl _) hk
      rw [Nat.zero_add, rd_eq e, bind_ok, eraseFront, if_pos (by omega), bind_ok, wr_lt (by omega), sat_ok]
      refine ⟨by simpa using g1, by rw [List.getElem?_set_ne (by omega)]; exact g2, fun i h1 h2 => ?_⟩
      rw [List.getElem?_set_ne (by omega)]
      exact g3 i (by omega) h2
  obtain ⟨v, e, hv⟩ := hsat
  rw [e, bind_ok]
  beta_reduce
  rw [Nat.zero_add, rd_eq hv, bind_ok, eraseFront, if_neg (by simp; omega)]
  rfl

example : Dense (fnew 1 3) (Conns.empty 1 3) ∧ fresize (fnew 1 3) 2 1 .topRight = ub :=
  ⟨⟨rfl, rfl, rfl, by simp [Conns.empty]⟩, rfl⟩

/-- Defect next to C53: when fewer columns are removed than kept, the added rows are too short: the last column of the new
matrix does not exist in the last row. -/
theorem C53_resize_short : ∃ t, fresize (fnew 1 3) 2 2 .topRight = ok t ∧ t.nCols = 2 ∧ t.v = [[false, false], [false]] ∧
    fat t 1 1 = ub := ⟨_, rfl, rfl, rfl, rfl⟩

/-- Defect next to C53: the vector of the degrees of the columns gets the number of rows as size; in a matrix made wider
than high, adding a connection in a column whose number is not less than the number of rows is undefined. -/
theorem C53_degrees {s : FM} {A : Conns} (h : Dense s A) {n m : Nat} (hn : A.rows ≤ n) {r c : Nat} (hr : r < n) (hc : c < m)
    (hnc : n ≤ c) (hA : A.cols ≤ c) (hrd : s.rdeg.length = A.rows) (hcd : s.cdeg.length = A.cols) :
    (fresize s n m .topLeft >>= fun t => fadd t r c) = ub := by
  obtain ⟨t, e, ht⟩ := C53_resize h n m .topLeft (by simp)
  have hf : t.rdeg.length = n ∧ t.cdeg.length = n := by
    unfold fresize at e
    cases hv : resizeV s.v s.nRows s.nCols n m .topLeft with
    | ok v =>
      rw [hv, bind_ok] at e
      injection e with e
      subst e
      simp only [resized, List.length_append, List.length_take, List.length_replicate]
      omega
    | exc x => rw [hv] at e; cases e
    | ub => rw [hv] at e; cases e
  rw [e, bind_ok]
  unfold fadd fat
  have h1 : t.nRows = n := ht.nRows
  have h2 : t.nCols = m := ht.nCols
  rw [h1, h2, if_neg (by omega), if_neg (by omega)]
  have hv : t.v = mk n m fun i j => decide ((i, j) ∈ (A.resize n m .topLeft).set) := ht.v
  have hz : (r, c) ∉ (A.resize n m .topLeft).set := by
    intro hm
    simp only [Conns.resize, Finset.mem_filter, Conns.moved, Conns.bottom, Conns.right, Bool.false_eq_true, if_false, decide_eq_true_iff] at hm
    obtain ⟨_, q, hq, _, hq2⟩ := hm
    have := (h.range q hq).2
    omega
  rw [hv, rdM_mkR hr hc, bind_ok, if_neg (by simpa using hz), wrM_mkR hr hc, bind_ok, rd_lt (by omega), bind_ok, wr_lt (by omega), bind_ok,
    rd_ge (by omega)]
  rfl

example : (fresize (fnew 1 1) 1 2 .topLeft >>= fun t => fadd t 0 1) = ub := rfl

/-- C53: `bgemm` and `bgemmt` on dense matrices are the products over GF(2). -/
theorem C53_products {A B : FM} {SA SB : Conns} (hA : Dense A SA) (hB : Dense B SB) :
    (SA.cols = SB.cols → ∃ C SC, fbgemmt A B = ok C ∧ Dense C SC ∧ SC.rows = SA.rows ∧ SC.cols = SB.rows ∧
      ∀ i k, i < SA.rows → k < SB.rows → ((i, k) ∈ SC.set ↔ Conns.rowsMeetOdd SA SB i k)) ∧
    (SA.cols = SB.rows → ∃ C SC, fbgemm A B = ok C ∧ Dense C SC ∧ SC.rows = SA.rows ∧ SC.cols = SB.cols ∧
      ∀ i k, i < SA.rows → k < SB.cols → ((i, k) ∈ SC.set ↔ Conns.rowsMeetOdd SA SB.transpose i k)) := by
  constructor
  · intro hc
    have hB' := hB.frep
    rw [← hc] at hB'
    obtain ⟨C, e, hC⟩ := fbgemmt_sat hA.frep hB'
    refine ⟨C, ⟨SA.rows, SB.rows, (Finset.range SA.rows ×ˢ Finset.range SB.rows).filter fun p =>
      (bsum SA.cols fun j => decide ((p.1, j) ∈ SA.set) && decide ((p.2, j) ∈ SB.set)) = true⟩, e, ?_, rfl, rfl, fun i k hi hk => ?_⟩
    · refine FRep.dense (A := ⟨_, _, _⟩) hC (fun i hi j hj => ?_) fun p hp => ?_
      · have hi : i < SA.rows := hi
        have hj : j < SB.rows := hj
        simp [hi, hj]
      · simpa using (Finset.mem_filter.1 hp).1
    · simp only [Finset.mem_filter, Finset.mem_product, Finset.mem_range, hi, hk, and_self, true_and]
      rw [bsum_odd, decide_eq_true_iff, Conns.rowsMeetOdd, Nat.odd_iff]
      simp only [Bool.and_eq_true, decide_eq_true_iff]
  · intro hc
    have hB' := hB.frep
    rw [← hc] at hB'
    obtain ⟨C, e, hC⟩ := fbgemm_sat hA.frep hB'
    refine ⟨C, ⟨SA.rows, SB.cols, (Finset.range SA.rows ×ˢ Finset.range SB.cols).filter fun p =>
      (bsum SA.cols fun j => decide ((p.1, j) ∈ SA.set) && decide ((j, p.2) ∈ SB.set)) = true⟩, e, ?_, rfl, rfl, fun i k hi hk => ?_⟩
    · refine FRep.dense (A := ⟨_, _, _⟩) hC (fun i hi j hj => ?_) fun p hp => ?_
      · have hi : i < SA.rows := hi
        have hj : j < SB.cols := hj
        simp [hi, hj]
      · simpa using (Finset.mem_filter.1 hp).1
    · simp only [Finset.mem_filter, Finset.mem_product, Finset.mem_range, hi, hk, and_self, true_and]
      rw [bsum_odd, decide_eq_true_iff, Conns.rowsMeetOdd, Nat.odd_iff]
      simp only [Bool.and_eq_true, decide_eq_true_iff, mem_transpose]

/-- C53: `LU_decomp` of a square matrix: it returns the inverse matrix over GF(2), or throws when a non-null vector `y` is
sent to zero. -/
theorem C53_inverse {s : FM} {A : Conns} (h : Dense s A) (hM : 0 < A.rows) (hsq : A.cols = A.rows) :
    (∃ t B, luDecomp s = ok t ∧ Dense t B ∧ B.rows = A.rows ∧ B.cols = A.rows ∧
      ∀ i k, i < A.rows → k < A.rows → (Conns.rowsMeetOdd A B.transpose i k ↔ i = k)) ∨
    (luDecomp s = exc .runtimeError ∧ ∃ y : Nat → Bool, (∃ j, j < A.rows ∧ y j = true) ∧
      ∀ i, i < A.rows → Even ((Finset.range A.rows).filter fun j => (i, j) ∈ A.set ∧ y j = true).card) := by
  have hf := h.frep
  rw [hsq] at hf
  have ho := luDecomp_out hM hf
  cases e : luDecomp s with
  | ub => rw [e] at ho; exact ho.elim
  | exc x =>
    rw [e] at ho
    obtain ⟨rfl, y, hy, hs⟩ := ho
    refine Or.inr ⟨rfl, y, hy, fun i hi => ?_⟩
    have := bsum_even.1 (hs i hi)
    simpa only [Bool.and_eq_true, decide_eq_true_iff] using this
  | ok t =>
    rw [e] at ho
    obtain ⟨R, hR, hI⟩ := ho
    refine Or.inl ⟨t, ⟨A.rows, A.rows, (Finset.range A.rows ×ˢ Finset.range A.rows).filter fun p => R p.1 p.2 = true⟩, rfl, ?_, rfl, rfl, ?_⟩
    · refine FRep.dense (A := ⟨_, _, _⟩) hR (fun i hi j hj => ?_) fun p hp => ?_
      · have hi : i < A.rows := hi
        have hj : j < A.rows := hj
        simp [hi, hj]
      · simpa using (Finset.mem_filter.1 hp).1
    · intro i k hi hk
      have := (hI (fun j => R j k) fun i => decide (i = k)).2 (fun i hi => by
        rw [bsum_single hk fun j _ hj => by simp [hj]]
        simp) i hi
      rw [bsum_odd] at this
      rw [Conns.rowsMeetOdd, Nat.odd_iff, hsq]
      have h2 := decide_eq_decide.1 this
      rw [← h2]
      have e3 : ((Finset.range A.rows).filter fun v => (i, v) ∈ A.set ∧ (k, v) ∈ (Conns.transpose ⟨A.rows, A.rows,
          (Finset.range A.rows ×ˢ Finset.range A.rows).filter fun p => R p.1 p.2 = true⟩).set) =
          (Finset.range A.rows).filter fun j => (decide ((i, j) ∈ A.set) && R j k) = true := by
        apply Finset.filter_congr
        intro v hv
        have hv : v < A.rows := Finset.mem_range.1 hv
        rw [mem_transpose, Finset.mem_filter, Bool.and_eq_true, decide_eq_true_iff]
        simp [hv, hk]
      rw [e3]

example : ∃ t, luDecomp { fnew 2 2 with v := [[true, true], [false, true]] } = ok t ∧ t.v = [[true, true], [false, true]] := ⟨_, rfl, rfl⟩
example : luDecomp { fnew 2 2 with v := [[true, true], [true, true]] } = exc .runtimeError := rfl

end Verif.Sparse
