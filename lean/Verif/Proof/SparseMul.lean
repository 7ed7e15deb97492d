import Mathlib.Algebra.Ring.Parity
import Verif.Proof.SparseOps

/-! # Sparse matrices: products, interleaving, sorting, quasi-cyclic expansion -/

namespace Verif.Sparse
open Exec

theorem Represents.congr {s : Mat} {A B : Conns} (h : Represents s A) (h1 : A.rows = B.rows) (h2 : A.cols = B.cols)
    (h3 : ∀ i j, (i, j) ∈ A.set ↔ (i, j) ∈ B.set) : Represents s B := by
  have : A = B := by
    cases A; cases B
    simp only [Conns.mk.injEq]
    exact ⟨h1, h2, Finset.ext fun p => h3 p.1 p.2⟩
  exact this ▸ h

/-- Add a connection to a matrix given by a predicate. -/
theorem orThrow_add' {s : Mat} {n m : Nat} {P Q : Nat → Nat → Prop} [DecidablePred fun p : Nat × Nat => P p.1 p.2]
    [DecidablePred fun p : Nat × Nat => Q p.1 p.2]
    (h : Represents s ⟨n, m, (Finset.range n ×ˢ Finset.range m).filter fun p => P p.1 p.2⟩) {r c : Nat} (hr : r < n)
    (hc : c < m) (hn : ¬ P r c) (hQ : ∀ i j, i < n → j < m → (Q i j ↔ P i j ∨ (i = r ∧ j = c))) :
    (orThrow (add s r c)).Sat fun t => Represents t ⟨n, m, (Finset.range n ×ˢ Finset.range m).filter fun p => Q p.1 p.2⟩ := by
  refine (orThrow_add h hr hc (by simp [hn])).mono fun t ht => ht.congr rfl rfl fun i j => ?_
  simp only [Finset.mem_insert, Finset.mem_filter, Finset.mem_product, Finset.mem_range, Prod.mk.injEq]
  constructor
  · rintro (⟨rfl, rfl⟩ | ⟨⟨a, b⟩, d⟩)
    · exact ⟨⟨hr, hc⟩, (hQ _ _ hr hc).2 (Or.inr ⟨rfl, rfl⟩)⟩
    · exact ⟨⟨a, b⟩, (hQ _ _ a b).2 (Or.inl d)⟩
  · rintro ⟨⟨a, b⟩, d⟩
    rcases (hQ _ _ a b).1 d with d | d
    · exact Or.inr ⟨⟨a, b⟩, d⟩
    · exact Or.inl d

theorem represents_weaken {s : Mat} {n m : Nat} {P Q : Nat → Nat → Prop} [DecidablePred fun p : Nat × Nat => P p.1 p.2]
    [DecidablePred fun p : Nat × Nat => Q p.1 p.2]
    (h : Represents s ⟨n, m, (Finset.range n ×ˢ Finset.range m).filter fun p => P p.1 p.2⟩)
    (hQ : ∀ i j, i < n → j < m → (P i j ↔ Q i j)) :
    Represents s ⟨n, m, (Finset.range n ×ˢ Finset.range m).filter fun p => Q p.1 p.2⟩ := by
  refine h.congr rfl rfl fun i j => ?_
  simp only [Finset.mem_filter, Finset.mem_product, Finset.mem_range]
  constructor
  · rintro ⟨⟨a, b⟩, d⟩
    exact ⟨⟨a, b⟩, (hQ _ _ a b).1 d⟩
  · rintro ⟨⟨a, b⟩, d⟩
    exact ⟨⟨a, b⟩, (hQ _ _ a b).2 d⟩

theorem represents_new' (n m : Nat) {P : Nat → Nat → Prop} [DecidablePred fun p : Nat × Nat => P p.1 p.2]
    (hP : ∀ i j, i < n → j < m → ¬ P i j) :
    Represents (new n m) ⟨n, m, (Finset.range n ×ˢ Finset.range m).filter fun p => P p.1 p.2⟩ := by
  refine (represents_new n m).congr rfl rfl fun i j => ?_
  simp only [Conns.empty, Finset.notMem_empty, Finset.mem_filter, Finset.mem_product, Finset.mem_range, false_iff, not_and]
  rintro ⟨a, b⟩
  exact hP i j a b

/-! ## Identity -/

theorem identity_sat (n m : Nat) : (identity n m).Sat fun t =>
    Represents t ⟨n, m, (Finset.range n ×ˢ Finset.range m).filter fun p => p.1 = p.2⟩ := by
  unfold identity
  refine (forN_inv (fun k (t : Mat) => Represents t ⟨n, m, (Finset.range n ×ˢ Finset.range m).filter fun p => p.1 = p.2 ∧ p.1 < k⟩)
    ?_ ?_).mono fun t ht => ?_
  · exact represents_new' n m (P := fun i j => i = j ∧ i < 0) fun i j _ _ => by omega
  · intro k t hk ht
    exact orThrow_add' (P := fun i j => i = j ∧ i < k) (Q := fun i j => i = j ∧ i < k + 1) ht (by omega) (by omega) (by omega)
      fun i j _ _ => by omega
  · exact represents_weaken (P := fun i j => i = j ∧ i < min n m) (Q := fun i j => i = j) ht fun i j _ _ => by omega

/-! ## Products -/

theorem dotSum_eq {f : Nat → Exec Bool} {b : Nat → Bool} {row : List Nat} (h : ∀ c ∈ row, f c = ok (b c)) :
    dotSum f row = ok (row.countP b) := by
  unfold dotSum
  obtain ⟨a, e, ha⟩ := forEach_inv (l := row) (f := fun c sum => f c >>= fun b => ok (sum + if b then 1 else 0)) (s := 0)
    (fun p (n : Nat) => n = p.countP b) rfl (by
      rintro p c q s e rfl
      rw [h c (by rw [e]; simp), bind_ok, sat_ok, List.countP_append, List.countP_singleton])
  rw [e, ha]

theorem gemm_sat {L N : Nat} {entry : Nat → Nat → Exec Nat} {v : Nat → Nat → Nat}
    (h : ∀ l n, l < L → n < N → entry l n = ok (v l n)) : (gemm L N entry).Sat fun t =>
    Represents t ⟨L, N, (Finset.range L ×ˢ Finset.range N).filter fun p => v p.1 p.2 % 2 = 1⟩ := by
  unfold gemm
  refine (forN_inv (fun k (t : Mat) => Represents t ⟨L, N, (Finset.range L ×ˢ Finset.range N).filter fun p =>
    v p.1 p.2 % 2 = 1 ∧ p.1 < k⟩) ?_ ?_).mono fun t ht => ?_
  · exact represents_new' L N (P := fun i j => v i j % 2 = 1 ∧ i < 0) fun i j _ _ => by omega
  · intro l t hl ht
    refine (forN_inv (fun k (t : Mat) => Represents t ⟨L, N, (Finset.range L ×ˢ Finset.range N).filter fun p =>
      v p.1 p.2 % 2 = 1 ∧ (p.1 < l ∨ (p.1 = l ∧ p.2 < k))⟩) ?_ ?_).mono fun t ht => ?_
    · exact represents_weaken (P := fun i j => v i j % 2 = 1 ∧ i < l)
        (Q := fun i j => v i j % 2 = 1 ∧ (i < l ∨ (i = l ∧ j < 0))) ht fun i j _ _ => by simp
    · intro n t hn ht
      rw [h l n hl hn, bind_ok]
      split
      · rename_i hv
        refine orThrow_add' (P := fun i j => v i j % 2 = 1 ∧ (i < l ∨ (i = l ∧ j < n)))
          (Q := fun i j => v i j % 2 = 1 ∧ (i < l ∨ (i = l ∧ j < n + 1))) ht hl hn (by omega) fun i j _ _ => ?_
        constructor
        · rintro ⟨a, b⟩
          by_cases e : i = l ∧ j = n
          · exact Or.inr e
          · exact Or.inl ⟨a, by omega⟩
        · rintro (⟨a, b⟩ | ⟨rfl, rfl⟩)
          · exact ⟨a, by omega⟩
          · exact ⟨hv, by omega⟩
      · rename_i hv
        rw [sat_ok]
        refine represents_weaken (P := fun i j => v i j % 2 = 1 ∧ (i < l ∨ (i = l ∧ j < n)))
          (Q := fun i j => v i j % 2 = 1 ∧ (i < l ∨ (i = l ∧ j < n + 1))) ht fun i j _ _ => ?_
        constructor
        · rintro ⟨a, b⟩; exact ⟨a, by omega⟩
        · rintro ⟨a, b⟩
          refine ⟨a, ?_⟩
          by_cases e : i = l ∧ j = n
          · obtain ⟨rfl, rfl⟩ := e
            exact absurd a hv
          · omega
    · exact represents_weaken (P := fun i j => v i j % 2 = 1 ∧ (i < l ∨ (i = l ∧ j < N)))
        (Q := fun i j => v i j % 2 = 1 ∧ i < l + 1) ht fun i j _ _ => by omega
  · exact represents_weaken (P := fun i j => v i j % 2 = 1 ∧ i < L) (Q := fun i j => v i j % 2 = 1) ht
      fun i j _ _ => by omega

theorem countP_card {A : Conns} {l : Nat} {row : List Nat} (hn : row.Nodup) (h : ∀ j, j ∈ row ↔ (l, j) ∈ A.set)
    (hr : ∀ p ∈ A.set, p.1 < A.rows ∧ p.2 < A.cols) (b : Nat → Bool) :
    row.countP b = ((Finset.range A.cols).filter fun v => (l, v) ∈ A.set ∧ b v = true).card := by
  rw [List.countP_eq_length_filter, ← List.toFinset_card_of_nodup (hn.filter b)]
  congr 1
  ext v
  rw [List.mem_toFinset, List.mem_filter, Finset.mem_filter, Finset.mem_range, h v]
  constructor
  · rintro ⟨a, b⟩
    exact ⟨(hr _ a).2, a, b⟩
  · rintro ⟨_, a, b⟩
    exact ⟨a, b⟩

/-- Common part of the two products: `g k v` tells whether the second factor has the entry multiplied by entry `v` of row
`l` in output column `k`. -/
theorem mul_sat {A : Mat} {SA : Conns} (hA : Represents A SA) {N : Nat} {f : Nat → Nat → Exec Bool} {g : Nat → Nat → Bool}
    (hf : ∀ n c, n < N → c < SA.cols → f n c = ok (g n c)) :
    (gemm A.nRows N fun l n => rd A.r2c l >>= dotSum (f n)).Sat fun t => Represents t ⟨SA.rows, N,
      (Finset.range SA.rows ×ˢ Finset.range N).filter fun p =>
        ((Finset.range SA.cols).filter fun v => (p.1, v) ∈ SA.set ∧ g p.2 v = true).card % 2 = 1⟩ := by
  rw [hA.nRows]
  refine gemm_sat (v := fun l n => ((Finset.range SA.cols).filter fun v => (l, v) ∈ SA.set ∧ g n v = true).card)
    fun l n hl hn => ?_
  have hl' : l < A.r2c.length := by rw [hA.r2c_length]; exact hl
  obtain ⟨h1, h2⟩ := hA.row l hl'
  rw [rd_lt hl', bind_ok, dotSum_eq (b := g n) fun c hc => hf n c hn (hA.range _ ((h2 c).1 hc)).2,
    countP_card h1 h2 hA.range]

theorem bgemmt_sat {A B : Mat} {SA SB : Conns} (hA : Represents A SA) (hB : Represents B SB) (h : SA.cols = SB.cols) :
    (bgemmt A B).Sat fun t => Represents t ⟨SA.rows, SB.rows, (Finset.range SA.rows ×ˢ Finset.range SB.rows).filter fun p =>
      ((Finset.range SA.cols).filter fun v => (p.1, v) ∈ SA.set ∧ (p.2, v) ∈ SB.set).card % 2 = 1⟩ := by
  unfold bgemmt
  rw [if_neg (by rw [hA.nCols, hB.nCols]; simpa using h), hB.nRows]
  refine (mul_sat hA (g := fun n c => decide ((n, c) ∈ SB.set)) fun n c hn hc => at_eq hB hn).mono fun t ht => ht.congr rfl rfl ?_
  intro i j
  simp

theorem bgemm_sat {A B : Mat} {SA SB : Conns} (hA : Represents A SA) (hB : Represents B SB) (h : SA.cols = SB.rows) :
    (bgemm A B).Sat fun t => Represents t ⟨SA.rows, SB.cols, (Finset.range SA.rows ×ˢ Finset.range SB.cols).filter fun p =>
      ((Finset.range SA.cols).filter fun v => (p.1, v) ∈ SA.set ∧ (v, p.2) ∈ SB.set).card % 2 = 1⟩ := by
  unfold bgemm
  rw [if_neg (by rw [hA.nCols, hB.nRows]; simpa using h), hB.nCols]
  refine (mul_sat hA (g := fun n c => decide ((c, n) ∈ SB.set)) fun n c hn hc => at_eq hB (h ▸ hc)).mono fun t ht => ht.congr rfl rfl ?_
  intro i j
  simp

theorem allZeros_iff {s : Mat} {n m : Nat} {P : Nat → Nat → Prop} [DecidablePred fun p : Nat × Nat => P p.1 p.2]
    (h : Represents s ⟨n, m, (Finset.range n ×ˢ Finset.range m).filter fun p => P p.1 p.2⟩) :
    allZeros s = true ↔ ∀ i j, i < n → j < m → ¬ P i j := by
  unfold allZeros
  rw [decide_eq_true_iff, h.count, Finset.card_eq_zero, Finset.filter_eq_empty_iff]
  constructor
  · intro g i j hi hj
    exact g (x := (i, j)) (Finset.mem_product.2 ⟨Finset.mem_range.2 hi, Finset.mem_range.2 hj⟩)
  · rintro g ⟨i, j⟩ hp
    rw [Finset.mem_product, Finset.mem_range, Finset.mem_range] at hp
    exact g i j hp.1 hp.2

theorem way_eq {s : Mat} {A : Conns} (h : Represents s A) : way s = if A.rows ≤ A.cols then .horizontal else .vertical := by
  unfold way
  rw [h.nRows, h.nCols]

theorem mem_transpose {A : Conns} {i j : Nat} : (i, j) ∈ A.transpose.set ↔ (j, i) ∈ A.set := by
  simp only [Conns.transpose, Finset.mem_image, Prod.exists, Prod.swap_prod_mk, Prod.mk.injEq]
  constructor
  · rintro ⟨a, b, h, rfl, rfl⟩; exact h
  · intro h; exact ⟨j, i, h, rfl, rfl⟩

theorem checkGH_sat {H G : Mat} {SH SG : Conns} (hH : Represents H SH) (hG : Represents G SG)
    (hw : SH.rows ≤ SH.cols ∨ SG.rows ≤ SG.cols) (hN : SH.wide.cols = SG.wide.cols) :
    (checkGH H G).Sat fun b => b = true ↔ ∀ i k, i < SH.wide.rows → k < SG.wide.rows → ¬ Conns.rowsMeetOdd SH.wide SG.wide i k := by
  have fin : ∀ {s : Mat} {n m : Nat} {P : Nat → Nat → Prop} [DecidablePred fun p : Nat × Nat => P p.1 p.2] {Q : Prop},
      Represents s ⟨n, m, (Finset.range n ×ˢ Finset.range m).filter fun p => P p.1 p.2⟩ →
      ((∀ i j, i < n → j < m → ¬ P i j) ↔ Q) →
      (ok (allZeros s) : Exec Bool).Sat fun b => b = true ↔ Q := by
    intro s n m P _ Q h hq
    rw [sat_ok, allZeros_iff h]
    exact hq
  unfold checkGH
  rw [way_eq hH, way_eq hG]
  by_cases h1 : SH.rows ≤ SH.cols
  · have e1 : SH.wide = SH := by rw [Conns.wide, if_pos h1]
    by_cases h2 : SG.rows ≤ SG.cols
    · have e2 : SG.wide = SG := by rw [Conns.wide, if_pos h2]
      rw [if_pos h1, if_pos h2]
      rw [e1, e2] at hN ⊢
      refine (bgemmt_sat hH hG hN).bind fun t ht => ?_
      refine fin (P := fun i k => ((Finset.range SH.cols).filter fun v => (i, v) ∈ SH.set ∧ (k, v) ∈ SG.set).card % 2 = 1) ht ?_
      simp only [Conns.rowsMeetOdd, Nat.odd_iff]
    · have e2 : SG.wide = SG.transpose := by rw [Conns.wide, if_neg h2]
      rw [if_pos h1, if_neg h2]
      rw [e1, e2] at hN ⊢
      refine (bgemm_sat hH hG hN).bind fun t ht => ?_
      refine fin (P := fun i k => ((Finset.range SH.cols).filter fun v => (i, v) ∈ SH.set ∧ (v, k) ∈ SG.set).card % 2 = 1) ht ?_
      simp only [Conns.rowsMeetOdd, Nat.odd_iff, mem_transpose]
      rfl
  · have e1 : SH.wide = SH.transpose := by rw [Conns.wide, if_neg h1]
    have h2 : SG.rows ≤ SG.cols := by tauto
    have e2 : SG.wide = SG := by rw [Conns.wide, if_pos h2]
    rw [if_neg h1, if_pos h2]
    rw [e1, e2] at hN ⊢
    refine (bgemm_sat hG hH hN.symm).bind fun t ht => ?_
    refine fin (P := fun i k => ((Finset.range SG.cols).filter fun v => (i, v) ∈ SG.set ∧ (v, k) ∈ SH.set).card % 2 = 1) ht ?_
    simp only [Conns.rowsMeetOdd, Nat.odd_iff, mem_transpose]
    rw [hN]
    constructor
    · intro g i k hi hk
      have := g k i hk hi
      simp only [and_comm] at this ⊢
      exact this
    · intro g i k hi hk
      have := g k i hk hi
      simp only [and_comm] at this ⊢
      exact this

/-! ## Interleaving of the columns -/

theorem interleave_sat {s : Mat} {A : Conns} (h : Represents s A) {old : List Nat} (hl : old.length = A.cols)
    (hlt : ∀ p ∈ old, p < A.cols) : (interleave s old).Sat fun t => Represents t ⟨A.rows, A.cols,
      (Finset.range A.rows ×ˢ Finset.range A.cols).filter fun p => (p.1, old.getD p.2 0) ∈ A.set⟩ := by
  unfold interleave
  rw [if_neg (by rw [h.nCols, hl]; simp), h.nCols, h.nRows]
  refine (forN_inv (fun k (t : Mat) => Represents t ⟨A.rows, A.cols, (Finset.range A.rows ×ˢ Finset.range A.cols).filter fun p =>
    (p.1, old.getD p.2 0) ∈ A.set ∧ p.2 < k⟩) ?_ ?_).mono fun t ht => ?_
  · exact represents_new' _ _ (P := fun i j => (i, old.getD j 0) ∈ A.set ∧ j < 0) fun i j _ _ => by omega
  · intro i t hi ht
    have hio : i < old.length := by omega
    have hp : old[i] < s.c2r.length := by rw [h.c2r_length]; exact hlt _ (List.getElem_mem hio)
    obtain ⟨h1, h2⟩ := h.col old[i] hp
    have hD : old.getD i 0 = old[i] := getD_lt 0 hio
    rw [rd_lt hio, bind_ok, rd_lt hp, bind_ok, forN_rd s.c2r[old[i]] (fun r s => orThrow (add s r i))]
    refine (forEach_inv (fun q (t : Mat) => Represents t ⟨A.rows, A.cols, (Finset.range A.rows ×ˢ Finset.range A.cols).filter fun p =>
      (p.1, old.getD p.2 0) ∈ A.set ∧ (p.2 < i ∨ (p.2 = i ∧ p.1 ∈ q))⟩) ?_ ?_).mono fun t ht => ?_
    · exact represents_weaken (P := fun a j => (a, old.getD j 0) ∈ A.set ∧ j < i)
        (Q := fun a j => (a, old.getD j 0) ∈ A.set ∧ (j < i ∨ (j = i ∧ a ∈ []))) ht fun a j _ _ => by simp
    · intro q r q' t e ht
      have hr : (r, old[i]) ∈ A.set := (h2 r).1 (by rw [e]; simp)
      refine orThrow_add' (P := fun a j => (a, old.getD j 0) ∈ A.set ∧ (j < i ∨ (j = i ∧ a ∈ q)))
        (Q := fun a j => (a, old.getD j 0) ∈ A.set ∧ (j < i ∨ (j = i ∧ a ∈ q ++ [r]))) ht (h.range _ hr).1 hi ?_ ?_
      · rintro ⟨_, (a | ⟨_, a⟩)⟩
        · omega
        · rw [e, List.nodup_append] at h1
          exact h1.2.2 r a r (by simp) rfl
      · intro a j _ _
        rw [List.mem_append, List.mem_singleton]
        constructor
        · rintro ⟨x, (y | ⟨y, (z | z)⟩)⟩
          · exact Or.inl ⟨x, Or.inl y⟩
          · exact Or.inl ⟨x, Or.inr ⟨y, z⟩⟩
          · exact Or.inr ⟨z, y⟩
        · rintro (⟨x, (y | ⟨y, z⟩)⟩ | ⟨rfl, rfl⟩)
          · exact ⟨x, Or.inl y⟩
          · exact ⟨x, Or.inr ⟨y, Or.inl z⟩⟩
          · exact ⟨by rw [hD]; exact hr, Or.inr ⟨rfl, Or.inr rfl⟩⟩
    · refine represents_weaken (P := fun a j => (a, old.getD j 0) ∈ A.set ∧ (j < i ∨ (j = i ∧ a ∈ s.c2r[old[i]])))
        (Q := fun a j => (a, old.getD j 0) ∈ A.set ∧ j < i + 1) ht fun a j _ _ => ?_
      constructor
      · rintro ⟨x, y⟩; exact ⟨x, by omega⟩
      · rintro ⟨x, y⟩
        refine ⟨x, ?_⟩
        by_cases e : j = i
        · subst e
          exact Or.inr ⟨rfl, (h2 a).2 (by rw [← hD]; exact x)⟩
        · left; omega
  · exact represents_weaken (P := fun a j => (a, old.getD j 0) ∈ A.set ∧ j < A.cols)
      (Q := fun a j => (a, old.getD j 0) ∈ A.set) ht fun a j _ hj => by simp [hj]

theorem interleaveInfo_sat {info old : List Nat} (hl : info.length ≤ old.length) (hsub : ∀ p ∈ info, p ∈ old) :
    interleaveInfo info old = ok (info.map fun p => old.idxOf p) := by
  unfold interleaveInfo
  rw [if_neg (by omega)]
  obtain ⟨⟨v, cnt⟩, e, h1, h2, h3⟩ := forN_inv (n := info.length) (s := (List.replicate info.length 0, 0))
    (f := fun i s => rd info i >>= fun p =>
      if old.contains p then wr s.1 i (old.idxOf p) >>= fun v => ok (v, s.2 + 1) else ok s)
    (fun k (s : List Nat × Nat) => s.1.length = info.length ∧ s.2 = k ∧
      ∀ j, j < k → s.1[j]? = (info[j]?).map fun p => old.idxOf p) ⟨by simp, rfl, by omega⟩ (by
    rintro i ⟨v, cnt⟩ hi ⟨h1, h2, h3⟩
    rw [rd_lt hi, bind_ok, if_pos (by simpa using hsub _ (List.getElem_mem hi))]
    simp only [] at h1 h2 h3 ⊢
    rw [wr_lt (by omega), bind_ok, sat_ok]
    refine ⟨by simpa using h1, by simp [h2], fun j hj => ?_⟩
    by_cases e : i = j
    · subst e
      rw [List.getElem?_set_self (by omega)]
      simp [hi]
    · rw [List.getElem?_set_ne e]
      exact h3 j (by omega))
  rw [e, bind_ok]
  simp only [] at h1 h2 h3 ⊢
  rw [if_neg (by omega)]
  congr 1
  apply List.ext_getElem?
  intro j
  rw [List.getElem?_map]
  by_cases hj : j < info.length
  · exact h3 j hj
  · rw [List.getElem?_eq_none (by omega), List.getElem?_eq_none (by omega)]
    rfl

/-! ## Sorting of the columns -/

theorem sortCols_sat {s : Mat} {A : Conns} (h : Represents s A) {sorted : List (List Nat)} (hp : sorted.Perm s.c2r) :
    (sortCols s sorted).Sat fun t => t.c2r = sorted ∧ ∃ B : Conns, B.rows = A.rows ∧ B.cols = A.cols ∧ Represents t B := by
  obtain ⟨g1, g2, ha, g3, g4, g5⟩ := represents_iff.1 h
  have hnd : ∀ l ∈ sorted, l.Nodup ∧ ∀ i ∈ l, i < A.rows := by
    intro l hl
    obtain ⟨k, hk, ek⟩ := List.getElem_of_mem (hp.mem_iff.1 hl)
    obtain ⟨a, b⟩ := h.col k hk
    rw [ek] at a b
    exact ⟨a, fun i hi => (h.range _ ((b i).1 hi)).1⟩
  have hlen : sorted.length = A.cols := by rw [hp.length_eq, h.c2r_length]
  -- the rows rebuilt from the columns
  have hloop : (forN sorted.length (fun i rows => rd sorted i >>= fun col =>
      forN col.length (fun j rows => rd col j >>= fun r => rd rows r >>= fun row => wr rows r (row ++ [i])) rows)
      (s.r2c.map fun _ => [])).Sat fun (rows : List (List Nat)) => rows.length = A.rows ∧
        ∀ (i : Nat) (l : List Nat), rows[i]? = some l → l.Nodup ∧ ∀ j, j ∈ l ↔ ∃ c, sorted[j]? = some c ∧ i ∈ c := by
    refine (forN_inv (fun k (rows : List (List Nat)) => rows.length = A.rows ∧
        ∀ (i : Nat) (l : List Nat), rows[i]? = some l → l.Nodup ∧ ∀ j, j ∈ l ↔ ∃ c, sorted[j]? = some c ∧ i ∈ c ∧ j < k) ?_ ?_).mono ?_
    · refine ⟨by simpa using h.r2c_length, fun i l hi => ?_⟩
      rw [List.getElem?_map] at hi
      cases e : s.r2c[i]? with
      | none => rw [e] at hi; cases hi
      | some x => rw [e] at hi; cases hi; simp
    · rintro k rows hk ⟨r1, r2⟩
      rw [rd_lt hk, bind_ok, forN_rd sorted[k] (fun r rows => rd rows r >>= fun row => wr rows r (row ++ [k]))]
      obtain ⟨n1, n2⟩ := hnd _ (List.getElem_mem hk)
      refine (forEach_inv (fun p (rows : List (List Nat)) => rows.length = A.rows ∧
        ∀ (i : Nat) (l : List Nat), rows[i]? = some l → l.Nodup ∧ ∀ j, j ∈ l ↔ ((∃ c, sorted[j]? = some c ∧ i ∈ c ∧ j < k) ∨ (j = k ∧ i ∈ p))) ?_ ?_).mono ?_
      · exact ⟨r1, fun i l hi => ⟨(r2 i l hi).1, fun j => by rw [(r2 i l hi).2 j]; simp⟩⟩
      · rintro p r q rows e ⟨q1, q2⟩
        have hr : r < rows.length := by rw [q1]; exact n2 r (by rw [e]; simp)
        have hrp : r ∉ p := by
          rw [e, List.nodup_append] at n1
          intro hp
          exact n1.2.2 r hp r (by simp) rfl
        rw [rd_lt hr, bind_ok, wr_lt hr, sat_ok]
        refine ⟨by simpa using q1, fun i l hi => ?_⟩
        obtain ⟨o1, o2⟩ := rows_push (S := fun i j => (∃ c, sorted[j]? = some c ∧ i ∈ c ∧ j < k) ∨ (j = k ∧ i ∈ p))
          (List.getElem?_eq_getElem hr) q2 (by
            rintro (⟨c, _, _, a⟩ | ⟨_, a⟩)
            · omega
            · exact hrp a) i l hi
        refine ⟨o1, fun j => ?_⟩
        rw [o2 j, List.mem_append, List.mem_singleton]
        constructor
        · rintro ((a | ⟨a, b⟩) | ⟨rfl, rfl⟩)
          · exact Or.inl a
          · exact Or.inr ⟨a, Or.inl b⟩
          · exact Or.inr ⟨rfl, Or.inr rfl⟩
        · rintro (a | ⟨rfl, (b | rfl)⟩)
          · exact Or.inl (Or.inl a)
          · exact Or.inl (Or.inr ⟨rfl, b⟩)
          · exact Or.inr ⟨rfl, rfl⟩
      · rintro rows ⟨q1, q2⟩
        refine ⟨q1, fun i l hi => ⟨(q2 i l hi).1, fun j => ?_⟩⟩
        rw [(q2 i l hi).2 j]
        constructor
        · rintro (⟨c, a, b, d⟩ | ⟨rfl, b⟩)
          · exact ⟨c, a, b, by omega⟩
          · exact ⟨_, List.getElem?_eq_getElem hk, b, by omega⟩
        · rintro ⟨c, a, b, d⟩
          by_cases e : j = k
          · subst e
            rw [List.getElem?_eq_getElem hk] at a
            cases a
            exact Or.inr ⟨rfl, b⟩
          · exact Or.inl ⟨c, a, b, by omega⟩
    · rintro rows ⟨q1, q2⟩
      refine ⟨q1, fun i l hi => ⟨(q2 i l hi).1, fun j => ?_⟩⟩
      rw [(q2 i l hi).2 j]
      constructor
      · rintro ⟨c, a, b, d⟩; exact ⟨c, a, b⟩
      · rintro ⟨c, a, b⟩; exact ⟨c, a, b, (List.getElem?_eq_some_iff.1 a).1⟩
  unfold sortCols
  refine hloop.bind fun rows hrows => ?_
  obtain ⟨q1, q2⟩ := hrows
  rw [sat_ok]
  refine ⟨rfl, ⟨A.rows, A.cols, (Finset.range A.rows ×ˢ Finset.range A.cols).filter fun p => p.1 ∈ sorted.getD p.2 []⟩, rfl, rfl, ?_⟩
  have hS : ∀ i j, (i, j) ∈ (Finset.range A.rows ×ˢ Finset.range A.cols).filter (fun p => p.1 ∈ sorted.getD p.2 []) ↔
      ∃ c, sorted[j]? = some c ∧ i ∈ c := by
    intro i j
    simp only [Finset.mem_filter, Finset.mem_product, Finset.mem_range]
    constructor
    · rintro ⟨⟨a, b⟩, d⟩
      have hj : j < sorted.length := by omega
      rw [getD_lt _ hj] at d
      exact ⟨_, List.getElem?_eq_getElem hj, d⟩
    · rintro ⟨c, a, b⟩
      obtain ⟨hj, e⟩ := List.getElem?_eq_some_iff.1 a
      rw [getD_lt _ hj, e]
      exact ⟨⟨(hnd c (List.mem_of_getElem? a)).2 i b, by omega⟩, b⟩
  -- the number of connections and the maxima do not depend on the order of the columns
  have hadj : Adj A.rows A.cols rows sorted fun i j => (i, j) ∈ (Finset.range A.rows ×ˢ Finset.range A.cols).filter
      (fun p => p.1 ∈ sorted.getD p.2 []) := by
    refine ⟨q1, hlen, ?_, ?_, ?_⟩
    · intro i l hi
      exact ⟨(q2 i l hi).1, fun j => by rw [(q2 i l hi).2 j, hS]⟩
    · intro j l hj
      refine ⟨(hnd l (List.mem_of_getElem? hj)).1, fun i => ?_⟩
      rw [hS]
      constructor
      · intro hi; exact ⟨l, hj, hi⟩
      · rintro ⟨c, a, b⟩; rw [hj] at a; cases a; exact b
    · intro i j hij
      rw [Finset.mem_filter, Finset.mem_product, Finset.mem_range, Finset.mem_range] at hij
      exact hij.1
  have hcount : ∀ {A : Conns} {r2c c2r}, Adj A.rows A.cols r2c c2r (fun i j => (i, j) ∈ A.set) →
      A.set.card = (c2r.map List.length).sum := by
    intro A r2c c2r ha
    have e : c2r.map List.length = (List.range A.cols).map A.colDeg := by
      apply List.ext_getElem?
      intro i
      rw [List.getElem?_map, getElem?_mapRange]
      by_cases hi : i < A.cols
      · have hi' : i < c2r.length := by rw [ha.cl]; exact hi
        have ei := List.getElem?_eq_getElem hi'
        rw [ei, if_pos hi]
        exact congrArg some (card_col (ha.col i _ ei).1 (ha.col i _ ei).2).symm
      · rw [if_neg hi, List.getElem?_eq_none (by rw [ha.cl]; omega)]
        rfl
    rw [e, sum_range_map]
    exact Finset.card_eq_sum_card_fiberwise (f := Prod.snd) (t := Finset.range A.cols)
      fun p hp => Finset.mem_coe.2 (Finset.mem_range.2 (ha.range p.1 p.2 hp).2)
  rw [represents_iff]
  refine ⟨g1, g2, hadj, ?_, ?_, ?_⟩
  · show s.nConn = _
    rw [g3, hcount ha, hcount (A := ⟨A.rows, A.cols, _⟩) hadj]
    exact (List.Perm.sum_nat (hp.map List.length)).symm
  · -- the degree of each row is its number of occurrences in the columns
    have hrow : ∀ {l : List Nat} {c2r : List (List Nat)} {i : Nat}, l.Nodup → (∀ c ∈ c2r, c.Nodup) →
        (∀ j, j ∈ l ↔ ∃ c, c2r[j]? = some c ∧ i ∈ c) → l.length = c2r.countP (fun c => c.contains i) := by
      intro l c2r i hl hc hm
      have e : l.Perm ((List.range c2r.length).filter fun j => (c2r.getD j []).contains i) := by
        rw [List.perm_ext_iff_of_nodup hl (List.nodup_range.filter _)]
        intro j
        rw [hm j, List.mem_filter, List.mem_range]
        constructor
        · rintro ⟨c, a, b⟩
          obtain ⟨hj, e⟩ := List.getElem?_eq_some_iff.1 a
          rw [getD_lt _ hj, e]
          exact ⟨hj, by simpa using b⟩
        · rintro ⟨hj, b⟩
          rw [getD_lt _ hj] at b
          exact ⟨_, List.getElem?_eq_getElem hj, by simpa using b⟩
      rw [e.length_eq, ← List.countP_eq_length_filter]
      have e2 : c2r = (List.range c2r.length).map fun j => c2r.getD j [] := by
        apply eq_mapRange rfl
        intro i hi
        rw [getD_lt _ hi, List.getElem?_eq_getElem hi]
      conv_rhs => rw [e2, List.countP_map]
      rfl
    have hmax : ∀ x, x ∈ s.r2c.map List.length ↔ x ∈ rows.map List.length := by
      have e : s.r2c.map List.length = rows.map List.length := by
        apply List.ext_getElem?
        intro i
        rw [List.getElem?_map, List.getElem?_map]
        by_cases hi : i < A.rows
        · have hi1 : i < s.r2c.length := by rw [ha.rl]; exact hi
          have hi2 : i < rows.length := by rw [q1]; exact hi
          rw [List.getElem?_eq_getElem hi1, List.getElem?_eq_getElem hi2]
          have a1 := ha.row i _ (List.getElem?_eq_getElem hi1)
          have a2 := q2 i _ (List.getElem?_eq_getElem hi2)
          simp only [Option.map_some, Option.some.injEq]
          rw [hrow (i := i) (c2r := s.c2r) a1.1 (fun c hc => by
              obtain ⟨k, hk, ek⟩ := List.getElem_of_mem hc
              rw [← ek]; exact (h.col k hk).1) (fun j => by
              rw [a1.2 j]
              constructor
              · intro hij
                have hj : j < s.c2r.length := by rw [ha.cl]; exact (h.range _ hij).2
                exact ⟨_, List.getElem?_eq_getElem hj, ((h.col j hj).2 i).2 hij⟩
              · rintro ⟨c, a, b⟩
                exact ((ha.col j c a).2 i).1 b),
            hrow (i := i) (c2r := sorted) a2.1 (fun c hc => (hnd c hc).1) a2.2]
          exact (hp.countP_eq _).symm
        · rw [List.getElem?_eq_none (by rw [ha.rl]; omega), List.getElem?_eq_none (by rw [q1]; omega)]
      intro x
      rw [e]
    refine ⟨fun x hx => ?_, ?_⟩
    · obtain ⟨y, hy, e⟩ := List.mem_map.1 ((hmax x.length).2 (List.mem_map.2 ⟨x, hx, rfl⟩))
      rw [← e]
      exact g4.1 y hy
    · rcases g4.2 with h0 | ⟨x, hx, e⟩
      · exact Or.inl h0
      · obtain ⟨y, hy, e'⟩ := List.mem_map.1 ((hmax x.length).1 (List.mem_map.2 ⟨x, hx, rfl⟩))
        exact Or.inr ⟨y, hy, by rw [e', e]⟩
  · refine ⟨fun x hx => g5.1 x (hp.mem_iff.1 hx), ?_⟩
    rcases g5.2 with h0 | ⟨x, hx, e⟩
    · exact Or.inl h0
    · exact Or.inr ⟨x, hp.mem_iff.2 hx, e⟩

end Verif.Sparse
