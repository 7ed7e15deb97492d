import Mathlib.Algebra.Ring.Parity
import Verif.Proof.Sparse

/-! # Sparse matrices: resizing, products, interleaving, syndromes -/

namespace Verif.Sparse
open Exec

/-! ## Resizing -/

theorem resizeBody_cases {old : Mat} {n m : Nat} (o : Origin) {c row : Nat} (s : Mat) (hlo : (resizeCols old m o).1 ≤ c)
    (hhi : c < (resizeCols old m o).2) (hrow : row < old.nRows) :
    (resizeBody old n m o c row s = ok s ∧ ∀ i', i' < n → Conns.moved (Conns.bottom o) old.nRows n row i' = false) ∨
    ∃ r' c', r' < n ∧ c' < m ∧ resizeBody old n m o c row s = push s r' c' ∧
      (∀ i', Conns.moved (Conns.bottom o) old.nRows n row i' = true ↔ i' = r') ∧
      (∀ j', Conns.moved (Conns.right o) old.nCols m c j' = true ↔ j' = c') := by
  cases o <;> simp only [resizeCols, resizeBody, Conns.bottom, Conns.right, Conns.moved] at *
  · by_cases h : row < n
    · right
      refine ⟨row, c, h, by omega, by rw [if_pos h], fun i' => ?_, fun j' => ?_⟩
      · simp; omega
      · simp; omega
    · left
      refine ⟨by rw [if_neg h], fun i' hi => ?_⟩
      simp; omega
  · by_cases h : row < n
    · right
      refine ⟨row, m + c - old.nCols, h, by omega, by rw [if_pos h], fun i' => ?_, fun j' => ?_⟩
      · simp; omega
      · simp; omega
    · left
      refine ⟨by rw [if_neg h], fun i' hi => ?_⟩
      simp; omega
  · by_cases h : (n : Int) - old.nRows + row ≥ 0
    · right
      refine ⟨((n : Int) - old.nRows + row).toNat, c, by omega, by omega, by rw [if_pos h], fun i' => ?_, fun j' => ?_⟩
      · simp; omega
      · simp; omega
    · left
      refine ⟨by rw [if_neg h], fun i' hi => ?_⟩
      simp; omega
  · by_cases h : (n : Int) - old.nRows + row ≥ 0
    · right
      refine ⟨((n : Int) - old.nRows + row).toNat, m + c - old.nCols, by omega, by omega, by rw [if_pos h], fun i' => ?_, fun j' => ?_⟩
      · simp; omega
      · simp; omega
    · left
      refine ⟨by rw [if_neg h], fun i' hi => ?_⟩
      simp; omega

/-- Connections of the resized matrix coming from the columns before `c`. -/
def moveUpto (A : Conns) (n m : Nat) (o : Origin) (c : Nat) (i' j' : Nat) : Prop :=
  ∃ i j, (i, j) ∈ A.set ∧ j < c ∧ Conns.moved (Conns.bottom o) A.rows n i i' = true ∧
    Conns.moved (Conns.right o) A.cols m j j' = true ∧ i' < n ∧ j' < m

theorem moved_inj {b : Bool} {la lb a a' x : Nat} (h : Conns.moved b la lb a x = true) (h' : Conns.moved b la lb a' x = true) :
    a = a' := by
  unfold Conns.moved at *
  cases b <;> simp at * <;> omega

theorem resize_col {old : Mat} {A : Conns} (h : Represents old A) {n m : Nat} {o : Origin} {c : Nat} {s : Mat}
    (hlo : (resizeCols old m o).1 ≤ c) (hhi : c < (resizeCols old m o).2) (hs1 : s.nRows = n) (hs2 : s.nCols = m)
    (hs : Adj n m s.r2c s.c2r (moveUpto A n m o c)) :
    (rd old.c2r c >>= fun col => forN col.length (fun k s => rd col k >>= fun row => resizeBody old n m o c row s) s).Sat
      fun t => t.nRows = n ∧ t.nCols = m ∧ Adj n m t.r2c t.c2r (moveUpto A n m o (c + 1)) := by
  have hc : c < old.c2r.length := by
    rw [h.c2r_length, ← h.nCols]
    cases o <;> simp only [resizeCols] at hhi <;> omega
  rw [rd_lt hc, bind_ok, forN_rd]
  obtain ⟨hnd, hmem⟩ := h.col c hc
  refine (forEach_inv (fun p (t : Mat) => t.nRows = n ∧ t.nCols = m ∧ Adj n m t.r2c t.c2r fun i' j' =>
    moveUpto A n m o c i' j' ∨ ∃ i, i ∈ p ∧ Conns.moved (Conns.bottom o) A.rows n i i' = true ∧
      Conns.moved (Conns.right o) A.cols m c j' = true ∧ i' < n ∧ j' < m) ?_ ?_).mono ?_
  · exact ⟨hs1, hs2, hs.congr fun i j => by simp⟩
  · rintro p row q t e ⟨g1, g2, g3⟩
    have hrow : (row, c) ∈ A.set := (hmem row).1 (by rw [e]; simp)
    have hrow' : row < old.nRows := by rw [h.nRows]; exact (h.range _ hrow).1
    have hnp : row ∉ p := by
      rw [e, List.nodup_append] at hnd
      intro hp
      exact hnd.2.2 row hp row (by simp) rfl
    rcases resizeBody_cases (n := n) o t hlo hhi hrow' with ⟨e1, e2⟩ | ⟨r', c', hr', hc', e1, e2, e3⟩
    · rw [e1, sat_ok]
      refine ⟨g1, g2, g3.congr fun i' j' => ?_⟩
      constructor
      · rintro (a | ⟨i, hi, a⟩)
        · exact Or.inl a
        · exact Or.inr ⟨i, by simp [hi], a⟩
      · rintro (a | ⟨i, hi, a, b, d, f⟩)
        · exact Or.inl a
        · rw [List.mem_append, List.mem_singleton] at hi
          rcases hi with hi | rfl
          · exact Or.inr ⟨i, hi, a, b, d, f⟩
          · rw [← h.nRows, e2 i' d] at a
            cases a
    · rw [e1]
      rw [h.nRows] at e2
      rw [h.nCols] at e3
      obtain ⟨x, y, ex, ey, ep, hadj⟩ := push_adj g3 hr' hc' (by
        rintro (⟨i, j, hij, hj, a, b, _⟩ | ⟨i, hi, a, _⟩)
        · have := moved_inj b ((e3 c').2 rfl)
          omega
        · have := moved_inj a ((e2 r').2 rfl)
          subst this
          exact hnp hi)
      rw [ep, sat_ok]
      refine ⟨g1, g2, hadj.congr fun i' j' => ?_⟩
      constructor
      · rintro ((a | ⟨i, hi, a⟩) | ⟨rfl, rfl⟩)
        · exact Or.inl a
        · exact Or.inr ⟨i, by simp [hi], a⟩
        · exact Or.inr ⟨row, by simp, (e2 _).2 rfl, (e3 _).2 rfl, hr', hc'⟩
      · rintro (a | ⟨i, hi, a, b, d, f⟩)
        · exact Or.inl (Or.inl a)
        · rw [List.mem_append, List.mem_singleton] at hi
          rcases hi with hi | rfl
          · exact Or.inl (Or.inr ⟨i, hi, a, b, d, f⟩)
          · exact Or.inr ⟨(e2 _).1 a, (e3 _).1 b⟩
  · rintro t ⟨g1, g2, g3⟩
    refine ⟨g1, g2, g3.congr fun i' j' => ?_⟩
    constructor
    · rintro (⟨i, j, a, b, d⟩ | ⟨i, hi, a⟩)
      · exact ⟨i, j, a, by omega, d⟩
      · exact ⟨i, c, (hmem i).1 hi, by omega, a⟩
    · rintro ⟨i, j, a, b, d⟩
      by_cases hj : j < c
      · exact Or.inl ⟨i, j, a, hj, d⟩
      · have : j = c := by omega
        subst this
        exact Or.inr ⟨i, (hmem i).2 a, d⟩

theorem resize_loop {old : Mat} {A : Conns} (h : Represents old A) {n m : Nat} (o : Origin) :
    (forRange (resizeCols old m o).1 (resizeCols old m o).2
      (fun c s => rd old.c2r c >>= fun col => forN col.length (fun k s => rd col k >>= fun row => resizeBody old n m o c row s) s)
      (new n m)).Sat fun t => t.nRows = n ∧ t.nCols = m ∧ Adj n m t.r2c t.c2r (moveUpto A n m o (resizeCols old m o).2) := by
  refine forRange_inv (fun c (t : Mat) => t.nRows = n ∧ t.nCols = m ∧ Adj n m t.r2c t.c2r (moveUpto A n m o c)) ?_ ?_ ?_
  · cases o <;> simp only [resizeCols] <;> omega
  · refine ⟨rfl, rfl, (adj_new n m).congr fun i' j' => ?_⟩
    simp only [false_iff]
    rintro ⟨i, j, hij, hj, a, b, d, f⟩
    have hjc := (h.range _ hij).2
    simp only [] at hjc
    have hnc := h.nCols
    cases o <;> simp only [resizeCols, Conns.right, Conns.moved, if_true, decide_eq_true_eq] at hj b <;> omega
  · rintro c t h1 h2 ⟨g1, g2, g3⟩
    exact resize_col h h1 h2 g1 g2 g3

theorem resize_sat {old : Mat} {A : Conns} (h : Represents old A) {n m : Nat} (o : Origin) (hn : 0 < n) (hm : 0 < m) :
    (resize old n m o).Sat fun t => Represents t (A.resize n m o) := by
  unfold resize
  refine (resize_loop h o).bind ?_
  · rintro t ⟨g1, g2, g3⟩
    refine parse_sat (A := A.resize n m o) g1 g2 (g3.congr fun i' j' => ?_) hn hm
    simp only [Conns.resize, Finset.mem_filter, Finset.mem_product, Finset.mem_range, Prod.exists]
    constructor
    · rintro ⟨i, j, hij, hj, a, b, d, f⟩
      exact ⟨⟨d, f⟩, i, j, hij, a, b⟩
    · rintro ⟨⟨d, f⟩, i, j, hij, a, b⟩
      refine ⟨i, j, hij, ?_, a, b, d, f⟩
      have hjc := (h.range _ hij).2
      simp only [] at hjc
      have hnc := h.nCols
      cases o <;> simp only [resizeCols, Conns.right, Conns.moved, if_true, decide_eq_true_eq, Bool.false_eq_true, if_false] at b ⊢ <;> omega

theorem resize_empty {old : Mat} {A : Conns} (h : Represents old A) {n m : Nat} (o : Origin) (hz : n = 0 ∨ m = 0) :
    resize old n m o = ub := by
  unfold resize
  obtain ⟨t, e, h1, h2, h3⟩ := resize_loop (n := n) (m := m) h o
  rw [e, bind_ok]
  unfold parse maxSize
  rcases hz with rfl | rfl
  · rw [if_pos (List.length_eq_zero_iff.1 h3.rl)]
    rfl
  · rw [if_pos (List.length_eq_zero_iff.1 h3.cl)]
    split <;> rfl

/-! ## Any sequence of operations -/

theorem step_sat {s : Mat} {A : Conns} (h : Represents s A) {o : Op} (ho : Allowed o) :
    (shouldThrow A o ≠ none → step s o = ok (shouldThrow A o, s)) ∧
    (shouldThrow A o = none → ∃ t, step s o = ok (none, t) ∧ Represents t (effect A o)) := by
  cases o with
  | add r c => exact add_eq h r c
  | rm r c => exact rm_eq h r c
  | transpose => exact ⟨fun h => absurd rfl h, fun _ => ⟨_, rfl, represents_transpose h⟩⟩
  | turn w => exact ⟨fun h => absurd rfl h, fun _ => ⟨_, rfl, represents_turn h w⟩⟩
  | resize n m o =>
    refine ⟨fun h => absurd rfl h, fun _ => ?_⟩
    obtain ⟨t, et, ht⟩ := resize_sat h o ho.1 ho.2
    exact ⟨t, by rw [step, et, bind_ok], ht⟩

theorem run_sat {s : Mat} {A : Conns} (h : Represents s A) (ops : List Op) (ho : ∀ o ∈ ops, Allowed o) :
    ∃ t, run s ops = ok ((specRun A ops).1, t) ∧ Represents t (specRun A ops).2 := by
  induction ops generalizing s A with
  | nil => exact ⟨s, rfl, h⟩
  | cons o os ih =>
    obtain ⟨h1, h2⟩ := step_sat h (ho o (by simp))
    by_cases ht : shouldThrow A o = none
    · obtain ⟨t, et, hr⟩ := h2 ht
      obtain ⟨u, eu, hu⟩ := ih hr fun o' h' => ho o' (by simp [h'])
      refine ⟨u, ?_, ?_⟩
      · rw [run, et, bind_ok, eu, bind_ok]
        simp [specRun, ht]
      · simpa [specRun, ht] using hu
    · obtain ⟨u, eu, hu⟩ := ih h fun o' h' => ho o' (by simp [h'])
      refine ⟨u, ?_, ?_⟩
      · rw [run, h1 ht, bind_ok, eu, bind_ok]
        simp [specRun, ht]
      · simpa [specRun, ht] using hu

/-! ## Parity checks -/

/-- Parity of the number of elements of `l` where `x` holds. -/
def parity (x : Nat → Bool) (l : List Nat) : Bool := l.foldl (fun b v => b ^^ x v) false

theorem parity_append (x : Nat → Bool) (l : List Nat) (a : Nat) : parity x (l ++ [a]) = (parity x l ^^ x a) := by
  simp [parity, List.foldl_append]

theorem parity_countP (x : Nat → Bool) (l : List Nat) : parity x l = decide ((l.countP x) % 2 = 1) := by
  induction l using List.reverseRecOn with
  | nil => rfl
  | append_singleton l a ih =>
    rw [parity_append, ih, List.countP_append]
    cases h : x a
    · simp [h]
    · simp only [h, List.countP_singleton, if_true, Bool.xor_true]
      rw [← decide_not]
      congr 1
      rw [eq_iff_iff]
      omega

/-- The parity over the list of a column is the parity check of the specification. -/
theorem parity_satisfied {A : Conns} {c : Nat} {l : List Nat} (hn : l.Nodup) (h : ∀ i, i ∈ l ↔ (i, c) ∈ A.set)
    (hr : ∀ p ∈ A.set, p.1 < A.rows ∧ p.2 < A.cols) (x : Nat → Bool) : parity x l = false ↔ Satisfied A x c := by
  rw [parity_countP, Satisfied, Nat.even_iff]
  have e : l.countP x = ((Finset.range A.rows).filter fun v => (v, c) ∈ A.set ∧ x v = true).card := by
    rw [List.countP_eq_length_filter, ← List.toFinset_card_of_nodup (hn.filter x)]
    congr 1
    ext v
    rw [List.mem_toFinset, List.mem_filter, Finset.mem_filter, Finset.mem_range, h v]
    constructor
    · rintro ⟨a, b⟩
      exact ⟨(hr _ a).1, a, b⟩
    · rintro ⟨_, a, b⟩
      exact ⟨a, b⟩
  rw [e, decide_eq_false_iff_not]
  omega

theorem col_parity {α : Type} (neg : α → Bool) (X : List α) (col : List Nat) (h : ∀ v ∈ col, v < X.length) :
    forN col.length (fun v sign => rd col v >>= fun p => rd X p >>= fun x => ok (sign ^^ neg x)) false =
      ok (parity (fun v => match X[v]? with | some a => neg a | none => false) col) := by
  rw [forN_rd col (fun p sign => rd X p >>= fun x => ok (sign ^^ neg x))]
  obtain ⟨a, e, ha⟩ := forEach_inv (l := col) (f := fun p sign => rd X p >>= fun x => ok (sign ^^ neg x)) (s := false)
    (fun p (b : Bool) => b = parity (fun v => match X[v]? with | some a => neg a | none => false) p) rfl (by
      rintro p v q s e rfl
      have hv : v < X.length := h v (by rw [e]; simp)
      rw [rd_lt hv, bind_ok, sat_ok, parity_append]
      simp [hv])
  rw [e, ha]

theorem checkLoop_eq {α : Type} (neg : α → Bool) {X : List α} {H : Mat} {A : Conns} (h : Represents H A) (hX : A.rows ≤ X.length) :
    ∃ b, checkLoop neg X H = ok b ∧
      (b = true ↔ ∀ c, c < A.cols → Satisfied A (fun v => match X[v]? with | some a => neg a | none => false) c) := by
  unfold checkLoop
  rw [h.nCols]
  obtain ⟨s, es, hs⟩ := forN_inv (n := A.cols) (s := false) (f := fun c syndrome =>
    if syndrome then ok true else
    rd H.c2r c >>= fun col =>
    forN col.length (fun v sign => rd col v >>= fun p => rd X p >>= fun x => ok (sign ^^ neg x)) false)
    (fun n (s : Bool) => s = false ↔ ∀ c, c < n → Satisfied A (fun v => match X[v]? with | some a => neg a | none => false) c)
    (by simp) (by
      intro c s hc hs
      have hc' : c < H.c2r.length := by rw [h.c2r_length]; exact hc
      obtain ⟨h1, h2⟩ := h.col c hc'
      cases s with
      | true =>
        simp only [if_true, sat_ok]
        simp only [Bool.true_eq_false, false_iff] at hs ⊢
        exact fun h => hs fun c' hc' => h c' (by omega)
      | false =>
        simp only [Bool.false_eq_true, if_false]
        rw [rd_lt hc', bind_ok, col_parity neg X _ fun v hv => lt_of_lt_of_le (h.range _ ((h2 v).1 hv)).1 hX, sat_ok,
          parity_satisfied h1 h2 h.range]
        rw [eq_self, true_iff] at hs
        constructor
        · intro g c' hc''
          by_cases e : c' = c
          · subst e; exact g
          · exact hs c' (by omega)
        · intro g
          exact g c (by omega))
  refine ⟨!s, by rw [es]; rfl, ?_⟩
  rw [← hs]
  cases s <;> simp

theorem satisfied_congr {A : Conns} {f g : Nat → Bool} (h : f = g) :
    (∀ c, c < A.cols → Satisfied A f c) ↔ ∀ c, c < A.cols → Satisfied A g c := by rw [h]

end Verif.Sparse
