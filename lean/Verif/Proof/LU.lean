import Verif.Prelude.Out
import Verif.Proof.Full

/-! # Conversions, products and inversion of dense matrices -/

namespace Verif.Sparse
open Exec

/-- The object holds the `n × m` matrix `f`. -/
structure FRep (s : FM) (n m : Nat) (f : Nat → Nat → Bool) : Prop where
  nRows : s.nRows = n
  nCols : s.nCols = m
  v : s.v = mk n m f

theorem FRep.congr {s : FM} {n m : Nat} {f g : Nat → Nat → Bool} (h : FRep s n m f) (h' : ∀ i, i < n → ∀ j, j < m → f i j = g i j) :
    FRep s n m g := ⟨h.nRows, h.nCols, by rw [h.v]; exact mk_congr h'⟩

theorem fresize_sat {s : FM} {n0 m0 : Nat} {f : Nat → Nat → Bool} (h : FRep s n0 m0 f) {n m : Nat} {o : Origin}
    (hok : o = .topRight → n ≤ n0 ∨ m0 ≤ m) : (fresize s n m o).Sat fun t => FRep t n m (resizeF n0 m0 n m o f) := by
  unfold fresize
  rw [h.v, h.nRows, h.nCols, resizeV_eq hok, bind_ok, sat_ok]
  exact ⟨rfl, rfl, rfl⟩

theorem ftranspose_sat {s : FM} {n m : Nat} {f : Nat → Nat → Bool} (h : FRep s n m f) :
    (ftranspose s).Sat fun t => FRep t m n fun i j => f j i := by
  unfold ftranspose
  rw [h.v, h.nRows, h.nCols]
  split
  · rename_i h'
    rw [transposeH_eq h', bind_ok, sat_ok]
    exact ⟨rfl, rfl, rfl⟩
  · rename_i h'
    rw [transposeV_eq (by omega), bind_ok, sat_ok]
    exact ⟨rfl, rfl, rfl⟩

/-- With degree vectors of the right size. -/
structure FRepD (s : FM) (n m : Nat) (f : Nat → Nat → Bool) : Prop extends FRep s n m f where
  rdeg : s.rdeg.length = n
  cdeg : s.cdeg.length = m

theorem frepD_new (n m : Nat) : FRepD (fnew n m) n m fun _ _ => false :=
  ⟨⟨rfl, rfl, mkR_zero n m⟩, by simp [fnew], by simp [fnew]⟩

theorem fadd_sat {s : FM} {n m : Nat} {f : Nat → Nat → Bool} (h : FRepD s n m f) {r c : Nat} (hr : r < n) (hc : c < m)
    (hf : f r c = false) : (fadd s r c).Sat fun t => FRepD t n m fun i j => if i = r ∧ j = c then true else f i j := by
  unfold fadd fat
  rw [h.nRows, h.nCols, if_neg (by omega), if_neg (by omega), h.v, rdM_mkR hr hc, bind_ok, hf, if_neg (by simp),
    wrM_mkR hr hc, bind_ok, rd_lt (by rw [h.rdeg]; exact hr), bind_ok, wr_lt (by rw [h.rdeg]; exact hr), bind_ok,
    rd_lt (by rw [h.cdeg]; exact hc), bind_ok, wr_lt (by rw [h.cdeg]; exact hc), bind_ok, sat_ok]
  exact ⟨⟨rfl, rfl, rfl⟩, by simp [h.rdeg], by simp [h.cdeg]⟩

theorem sparseToFull_sat {s : Mat} {A : Conns} (h : Represents s A) :
    (sparseToFull s).Sat fun t => FRep t A.rows A.cols fun i j => decide ((i, j) ∈ A.set) := by
  unfold sparseToFull
  rw [h.nRows, h.nCols]
  refine (forN_inv (fun k (t : FM) => FRepD t A.rows A.cols fun i j => decide (i < k ∧ (i, j) ∈ A.set)) ?_ ?_).mono ?_
  · have := frepD_new A.rows A.cols
    refine { this with toFRep := this.toFRep.congr fun i _ j _ => ?_ }
    simp
  · intro i t hi ht
    obtain ⟨hn, hmem⟩ := h.row i (by rw [h.r2c_length]; exact hi)
    rw [rd_lt (by rw [h.r2c_length]; exact hi), bind_ok]
    generalize s.r2c[i]'(by rw [h.r2c_length]; exact hi) = row at hn hmem
    refine (forN_inv (fun q (t : FM) => FRepD t A.rows A.cols fun a b => decide (a < i ∧ (a, b) ∈ A.set) || decide (a = i ∧ b ∈ row.take q)) ?_ ?_).mono ?_
    · exact { ht with toFRep := ht.toFRep.congr fun a _ b _ => by simp }
    · intro q t hq ht
      have hmq : (i, row[q]) ∈ A.set := (hmem _).1 (List.getElem_mem hq)
      have hlt := h.range _ hmq
      simp only [] at hlt
      rw [rd_lt hq, bind_ok]
      refine (fadd_sat ht hi hlt.2 ?_).mono fun t ht => { ht with toFRep := ht.toFRep.congr fun a _ b _ => ?_ }
      · rw [Bool.or_eq_false_iff, decide_eq_false_iff_not, decide_eq_false_iff_not]
        refine ⟨by omega, ?_⟩
        rintro ⟨_, hm⟩
        obtain ⟨k, hk, ek⟩ := List.getElem_of_mem hm
        rw [List.getElem_take] at ek
        rw [List.length_take] at hk
        have := (hn.getElem_inj_iff).1 ek
        omega
      · rw [List.take_succ, List.getElem?_eq_getElem hq]
        simp only [Option.toList_some, List.mem_append, List.mem_singleton]
        by_cases ea : a = i
        · subst ea
          by_cases eb : b = row[q]
          · simp [eb]
          · simp [eb]
        · simp [ea]
    · intro t ht
      refine { ht with toFRep := ht.toFRep.congr fun a _ b _ => ?_ }
      rw [List.take_length]
      by_cases ea : a = i
      · subst ea
        simp [hmem]
      · simp only [ea, false_and, decide_false, Bool.or_false]
        rw [decide_eq_decide]
        have : a < i ↔ a < i + 1 := by omega
        rw [this]
  · intro t ht
    refine ht.toFRep.congr fun a ha b _ => ?_
    simp [ha]

theorem fullToSparse_sat {f : FM} {n m : Nat} {g : Nat → Nat → Bool} (h : FRep f n m g) :
    (fullToSparse f).Sat fun t => Represents t ⟨n, m, (Finset.range n ×ˢ Finset.range m).filter fun p => g p.1 p.2 = true⟩ := by
  unfold fullToSparse
  rw [h.nRows, h.nCols]
  refine (forN_inv (fun k (t : Mat) => Represents t ⟨n, m, (Finset.range n ×ˢ Finset.range m).filter fun p => g p.1 p.2 = true ∧ p.1 < k⟩)
    (represents_new' n m (P := fun i j => g i j = true ∧ i < 0) fun i j _ _ => by simp) ?_).mono ?_
  · intro i t hi ht
    refine (forN_inv (fun q (t : Mat) => Represents t ⟨n, m, (Finset.range n ×ˢ Finset.range m).filter fun p =>
      g p.1 p.2 = true ∧ (p.1 < i ∨ (p.1 = i ∧ p.2 < q))⟩) ?_ ?_).mono ?_
    · exact represents_weaken (P := fun a b => g a b = true ∧ a < i) (Q := fun a b => g a b = true ∧ (a < i ∨ (a = i ∧ b < 0))) ht
        fun a b _ _ => by simp
    · intro q t hq ht
      rw [h.v, rdM_mkR hi hq, bind_ok]
      split
      · rename_i hg
        refine orThrow_add' (P := fun a b => g a b = true ∧ (a < i ∨ (a = i ∧ b < q)))
          (Q := fun a b => g a b = true ∧ (a < i ∨ (a = i ∧ b < q + 1))) ht hi hq (by omega) fun a b _ _ => ?_
        constructor
        · rintro ⟨x, y⟩
          by_cases e : a = i ∧ b = q
          · exact Or.inr e
          · exact Or.inl ⟨x, by omega⟩
        · rintro (⟨x, y⟩ | ⟨rfl, rfl⟩)
          · exact ⟨x, by omega⟩
          · exact ⟨hg, by omega⟩
      · rename_i hg
        rw [sat_ok]
        refine represents_weaken (P := fun a b => g a b = true ∧ (a < i ∨ (a = i ∧ b < q)))
          (Q := fun a b => g a b = true ∧ (a < i ∨ (a = i ∧ b < q + 1))) ht fun a b _ _ => ?_
        constructor
        · rintro ⟨x, y⟩; exact ⟨x, by omega⟩
        · rintro ⟨x, y⟩
          refine ⟨x, ?_⟩
          by_cases e : a = i ∧ b = q
          · obtain ⟨rfl, rfl⟩ := e
            exact absurd x hg
          · omega
    · intro t ht
      exact represents_weaken (P := fun a b => g a b = true ∧ (a < i ∨ (a = i ∧ b < m))) (Q := fun a b => g a b = true ∧ a < i + 1) ht
        fun a b _ hb => and_congr_right fun _ => by omega
  · intro t ht
    exact represents_weaken (P := fun a b => g a b = true ∧ a < n) (Q := fun a b => g a b = true) ht fun a b ha _ => by simp [ha]

theorem fgemm_sat {L N M : Nat} {a b : Nat → Nat → Nat → Exec Bool} {x y : Nat → Nat → Nat → Bool}
    (ha : ∀ l n m, l < L → n < N → m < M → a l n m = ok (x l n m)) (hb : ∀ l n m, l < L → n < N → m < M → b l n m = ok (y l n m)) :
    (fgemm L N M a b).Sat fun t => FRep t L N fun l n => bsum M fun m => x l n m && y l n m := by
  unfold fgemm
  refine Sat.bind (P := fun v => v = mk L N fun l n => bsum M fun m => x l n m && y l n m) ?_ fun v hv => ?_
  · refine (forN_inv (fun k (v : List (List Bool)) => v = mk L N fun l n => if l < k then bsum M fun m => x l n m && y l n m else false) ?_ ?_).mono ?_
    · rw [show (fnew L N).v = mk L N fun _ _ => false from mkR_zero L N]
      exact mk_congr fun i _ j _ => by simp
    · rintro l v hl rfl
      refine (forN_inv (fun k (v : List (List Bool)) => v = mk L N fun i j => if i < l ∨ (i = l ∧ j < k) then bsum M fun m => x i j m && y i j m
        else false) ?_ ?_).mono ?_
      · exact mk_congr fun i _ j _ => by simp
      · rintro n v hn rfl
        obtain ⟨r, e, hr⟩ := forN_inv (n := M) (s := false)
          (f := fun m res => a l n m >>= fun x => b l n m >>= fun y => ok (res ^^ (x && y)))
          (fun k (r : Bool) => r = bsum k fun m => x l n m && y l n m) rfl (by
            rintro m r hm rfl
            rw [ha l n m hl hn hm, bind_ok, hb l n m hl hn hm, bind_ok, sat_ok]
            rfl)
        rw [e, bind_ok, wrM_mkR hl hn, sat_ok, hr]
        refine mk_congr fun i _ j _ => ?_
        by_cases e : i = l ∧ j = n
        · rw [if_pos e, if_pos (by omega), e.1, e.2]
        · rw [if_neg e]
          by_cases e' : i < l ∨ i = l ∧ j < n
          · rw [if_pos e', if_pos (by omega)]
          · rw [if_neg e', if_neg (by omega)]
      · rintro v rfl
        refine mk_congr fun i _ j hj => ?_
        by_cases e' : i < l + 1
        · rw [if_pos e', if_pos (by omega)]
        · rw [if_neg e', if_neg (by omega)]
    · rintro v rfl
      exact mk_congr fun i hi j _ => if_pos hi
  · rw [sat_ok]
    exact ⟨rfl, rfl, hv⟩

theorem fbgemmt_sat {A B : FM} {l n m : Nat} {f g : Nat → Nat → Bool} (hA : FRep A l m f) (hB : FRep B n m g) :
    (fbgemmt A B).Sat fun t => FRep t l n fun i k => bsum m fun j => f i j && g k j := by
  unfold fbgemmt
  rw [hA.nCols, hB.nCols, if_neg (by simp), hA.nRows, hB.nRows, hA.v, hB.v]
  exact fgemm_sat (fun l n m hl _ hm => rdM_mkR hl hm) (fun l n m _ hn hm => rdM_mkR hn hm)

theorem fbgemm_sat {A B : FM} {l n m : Nat} {f g : Nat → Nat → Bool} (hA : FRep A l m f) (hB : FRep B m n g) :
    (fbgemm A B).Sat fun t => FRep t l n fun i k => bsum m fun j => f i j && g j k := by
  unfold fbgemm
  rw [hA.nCols, hB.nRows, if_neg (by simp), hA.nRows, hB.nCols, hA.v, hB.v]
  exact fgemm_sat (fun l n m hl _ hm => rdM_mkR hl hm) (fun l n m _ hn hm => rdM_mkR hm hn)

theorem fallZeros_sat {A : FM} {n m : Nat} {f : Nat → Nat → Bool} (hA : FRep A n m f) :
    (fallZeros A).Sat fun z => z = true ↔ ∀ i j, i < n → j < m → f i j = false := by
  unfold fallZeros
  rw [hA.nRows, hA.nCols, hA.v]
  refine (forN_inv (fun k z => z = true ↔ ∀ i j, i < k → j < m → f i j = false) (by simp) ?_).mono fun z h => h
  intro r z hr hz
  refine (forN_inv (fun k z => z = true ↔ (∀ i j, i < r → j < m → f i j = false) ∧ ∀ j, j < k → f r j = false) (by simpa using hz) ?_).mono ?_
  · intro c z hc hz
    rw [rdM_mkR hr hc, bind_ok, sat_ok, Bool.and_eq_true, hz, Bool.not_eq_true']
    constructor
    · rintro ⟨⟨a, b⟩, d⟩
      refine ⟨a, fun j hj => ?_⟩
      by_cases e : j = c
      · subst e; exact d
      · exact b j (by omega)
    · rintro ⟨a, b⟩
      exact ⟨⟨a, fun j hj => b j (by omega)⟩, b c (by omega)⟩
  · intro z hz
    rw [hz]
    constructor
    · rintro ⟨a, b⟩ i j hi hj
      by_cases e : i = r
      · subst e; exact b j hj
      · exact a i j (by omega) hj
    · intro a
      exact ⟨fun i j hi hj => a i j (by omega) hj, fun j hj => a r j (by omega) hj⟩

/-! ## Row operations -/

theorem xorRow_mk {n w r2 r : Nat} (h2 : r2 < n) (h1 : r < n) (hne : r2 ≠ r) (f : Nat → Nat → Bool) :
    xorRow w r2 r (mk n w f) = ok (mk n w fun i j => if i = r2 then f r2 j ^^ f r j else f i j) := by
  obtain ⟨v, e, hv⟩ := forN_inv (n := w) (s := mk n w f)
    (f := fun i v => rdM v r2 i >>= fun a => rdM v r i >>= fun b => wrM v r2 i (a ^^ b))
    (fun k (v : List (List Bool)) => v = mk n w fun i j => if i = r2 ∧ j < k then f r2 j ^^ f r j else f i j)
    (mk_congr fun i _ j _ => by simp)
    (by
      rintro k v hk rfl
      rw [rdM_mkR h2 hk, bind_ok, rdM_mkR h1 hk, bind_ok, wrM_mkR h2 hk, sat_ok, if_neg (by omega), if_neg (by omega)]
      refine mk_congr fun i _ j _ => ?_
      by_cases e : i = r2 ∧ j = k
      · rw [if_pos e, if_pos (by omega), e.2]
      · rw [if_neg e]
        by_cases e' : i = r2 ∧ j < k
        · rw [if_pos e', if_pos (by omega)]
        · rw [if_neg e', if_neg (by omega)])
  rw [xorRow, e, hv]
  congr 1
  refine mk_congr fun i _ j hj => ?_
  by_cases e' : i = r2
  · rw [if_pos e', if_pos ⟨e', hj⟩]
  · rw [if_neg e', if_neg (by omega)]

/-- Adding `b` times row `r` to row `r2`. -/
def addRow (f : Nat → Nat → Bool) (r2 r : Nat) (b : Bool) (i j : Nat) : Bool := if i = r2 then f r2 j ^^ (b && f r j) else f i j

theorem clearRow_mk {n w r2 r : Nat} (h2 : r2 < n) (h1 : r < n) (hw : r < w) (hne : r2 ≠ r) (f : Nat → Nat → Bool) :
    clearRow w r2 r (mk n w f) = ok (mk n w (addRow f r2 r (f r2 r))) := by
  rw [clearRow, rdM_mkR h2 hw, bind_ok]
  cases hb : f r2 r with
  | true =>
    rw [if_pos rfl, xorRow_mk h2 h1 hne]
    exact congrArg ok (mk_congr fun i _ j _ => by simp [addRow])
  | false =>
    rw [if_neg (by simp)]
    congr 1
    refine mk_congr fun i _ j _ => ?_
    simp only [addRow, Bool.false_and, Bool.xor_false]
    split
    · rename_i e; rw [e]
    · rfl

/-- Exchange of two rows. -/
def exRow (f : Nat → Nat → Bool) (r s : Nat) (i j : Nat) : Bool := f (if i = r then s else if i = s then r else i) j

theorem swapRows_mk {n w r s : Nat} (hr : r < n) (hs : s < n) (f : Nat → Nat → Bool) :
    swapRows (mk n w f) r s = ok (mk n w (exRow f r s)) := by
  rw [swapRows, mk, rd_mkR hr, bind_ok, rd_mkR hs, bind_ok, wr_mkR hr, bind_ok, wr_mkR hs]
  congr 1
  refine mkR_congr (fun i _ => ?_) fun i _ j _ => ?_
  · split <;> simp
  · simp only [exRow]
    by_cases e1 : i = s
    · by_cases e2 : i = r
      · subst e1; subst e2; simp
      · rw [if_pos e1, if_neg e2, if_pos e1]
    · rw [if_neg e1, if_neg e1]
      split <;> rfl

/-- The vectors of length `w` orthogonal to the `M` rows. -/
def Ker (M w : Nat) (f : Nat → Nat → Bool) (x : Nat → Bool) : Prop := ∀ i, i < M → bsum w (fun j => f i j && x j) = false

theorem ker_addRow {M w r2 r : Nat} (h1 : r < M) (hne : r2 ≠ r) (f : Nat → Nat → Bool) (b : Bool) (x : Nat → Bool) :
    Ker M w (addRow f r2 r b) x ↔ Ker M w f x := by
  have key : bsum w (fun j => (f r2 j ^^ (b && f r j)) && x j) =
      (bsum w (fun j => f r2 j && x j) ^^ (b && bsum w (fun j => f r j && x j))) := by
    rw [← bsum_and_left, ← bsum_xor]
    apply bsum_congr
    intro j _
    cases f r2 j <;> cases b <;> cases f r j <;> cases x j <;> rfl
  constructor
  · intro h i hi
    by_cases e : i = r2
    · subst e
      have h2 := h r h1
      simp only [addRow, if_neg (Ne.symm hne)] at h2
      have h3 := h i hi
      simp only [addRow, if_pos] at h3
      rw [key, h2] at h3
      simpa using h3
    · have := h i hi
      simpa only [addRow, if_neg e] using this
  · intro h i hi
    by_cases e : i = r2
    · subst e
      simp only [addRow, if_pos]
      rw [key, h i hi, h r h1]
      simp
    · simp only [addRow, if_neg e]
      exact h i hi

theorem ker_exRow {M w r s : Nat} (hr : r < M) (hs : s < M) (f : Nat → Nat → Bool) (x : Nat → Bool) : Ker M w (exRow f r s) x ↔ Ker M w f x := by
  constructor
  · intro h i hi
    have := h (if i = r then s else if i = s then r else i) (by split <;> [skip; split] <;> omega)
    simp only [exRow] at this
    by_cases e1 : i = r
    · subst e1
      rw [if_pos rfl] at this
      by_cases e2 : s = i
      · subst e2; simpa using this
      · simpa [e2] using this
    · by_cases e2 : i = s
      · subst e2
        simpa [e1] using this
      · simpa [e1, e2] using this
  · intro h i hi
    simp only [exRow]
    exact h _ (by split <;> [skip; split] <;> omega)

theorem findSwap_sat {M w r : Nat} (hr : r < M) (hw : r < w) (f : Nat → Nat → Bool) :
    (findSwap M r (mk M w f)).Sat fun s => (s = 0 ∧ ∀ k, r < k → k < M → f k r = false) ∨ (r < s ∧ s < M ∧ f s r = true) := by
  unfold findSwap
  refine (forRange_inv (fun b s => (s = 0 ∧ ∀ k, r < k → k < b → f k r = false) ∨ (r < s ∧ s < M ∧ f s r = true)) (by omega)
    (Or.inl ⟨rfl, fun k _ _ => by omega⟩) ?_).mono fun s h => h
  intro k s h1 h2 hs
  split
  · rename_i hne
    rw [sat_ok]
    exact Or.inr (hs.resolve_left fun h => hne h.1)
  · rename_i hne
    have hs' : s = 0 ∧ _ := hs.resolve_right fun h => by omega
    rw [rdM_mkR h2 hw, bind_ok, sat_ok]
    cases hb : f k r with
    | true => rw [if_pos rfl]; exact Or.inr ⟨by omega, h2, hb⟩
    | false =>
      rw [if_neg (by simp)]
      refine Or.inl ⟨rfl, fun q h3 h4 => ?_⟩
      by_cases e : q = k
      · subst e; exact hb
      · exact hs'.2 q h3 (by omega)

/-- The first `r` columns are those of a unit upper triangular matrix. -/
def Upper (M r : Nat) (f : Nat → Nat → Bool) : Prop := ∀ c, c < r → f c c = true ∧ ∀ i, c < i → i < M → f i c = false

/-- A triangular system has a solution. -/
theorem upper_solve {r : Nat} {f : Nat → Nat → Bool} (h : Upper r r f) (g : Nat → Bool) :
    ∃ y : Nat → Bool, ∀ i, i < r → bsum r (fun j => f i j && y j) = g i := by
  induction r generalizing g with
  | zero => exact ⟨fun _ => false, fun i hi => by omega⟩
  | succ r ih =>
    obtain ⟨y, hy⟩ := ih (fun c hc => ⟨(h c (by omega)).1, fun i h1 h2 => (h c (by omega)).2 i h1 (by omega)⟩) fun i => g i ^^ (f i r && g r)
    refine ⟨fun j => if j = r then g r else y j, fun i hi => ?_⟩
    rw [bsum_succ]
    beta_reduce
    rw [if_pos rfl]
    have hc : bsum r (fun j => f i j && if j = r then g r else y j) = bsum r fun j => f i j && y j :=
      bsum_congr fun j hj => by rw [if_neg (by omega)]
    rw [hc]
    by_cases e : i = r
    · subst e
      rw [bsum_zero (g := fun j => f i j && y j) (fun j hj => by rw [(h j (by omega)).2 i hj (by omega)]; rfl), (h i (by omega)).1]
      simp
    · rw [hy i (by omega)]
      simp

/-- The matrix `[h | I]`. -/
def augment (M : Nat) (h : Nat → Nat → Bool) (i j : Nat) : Bool := if j < M then h i j else decide (j = M + i)

theorem ker_augment {M : Nat} (h : Nat → Nat → Bool) (y z : Nat → Bool) :
    Ker M (2 * M) (augment M h) (fun j => if j < M then y j else z (j - M)) ↔ ∀ i, i < M → bsum M (fun j => h i j && y j) = z i := by
  unfold Ker
  refine forall_congr' fun i => forall_congr' fun hi => ?_
  rw [Nat.two_mul, bsum_add]
  have h1 : bsum M (fun j => augment M h i j && if j < M then y j else z (j - M)) = bsum M fun j => h i j && y j :=
    bsum_congr fun j hj => by rw [augment, if_pos hj, if_pos hj]
  have h2 : bsum M (fun j => augment M h i (M + j) && if M + j < M then y (M + j) else z (M + j - M)) = z i := by
    rw [bsum_single hi]
    · simp [augment]
    · intro j hj hne
      rw [augment, if_neg (by omega), show decide (M + j = M + i) = false by rw [decide_eq_false_iff_not]; omega, Bool.false_and]
  rw [h1, h2]
  cases bsum M (fun j => h i j && y j) <;> cases z i <;> simp

/-- `h` has a non-trivial combination of its columns equal to zero. -/
def Singular (M : Nat) (h : Nat → Nat → Bool) : Prop := ∃ y : Nat → Bool, (∃ j, j < M ∧ y j = true) ∧ ∀ i, i < M → bsum M (fun j => h i j && y j) = false

theorem singular_of_stuck {M r : Nat} (hr : r < M) {f h : Nat → Nat → Bool} (hU : Upper M r f)
    (hker : ∀ x, Ker M (2 * M) f x ↔ Ker M (2 * M) (augment M h) x) (hcol : ∀ k, r ≤ k → k < M → f k r = false) : Singular M h := by
  obtain ⟨y, hy⟩ := upper_solve (r := r) (f := f) (fun c hc => ⟨(hU c hc).1, fun i h1 h2 => (hU c hc).2 i h1 (by omega)⟩) fun i => f i r
  refine ⟨fun j => if j < r then y j else decide (j = r), ⟨r, hr, by simp⟩, ?_⟩
  have key : Ker M (2 * M) f fun j => if j < M then (if j < r then y j else decide (j = r)) else false := by
    intro i hi
    rw [show 2 * M = r + (1 + (2 * M - r - 1)) by omega, bsum_add, bsum_add]
    rw [bsum_zero (g := fun j => f i (r + (1 + j)) && if r + (1 + j) < M then (if r + (1 + j) < r then y (r + (1 + j)) else decide (r + (1 + j) = r)) else false)
      (fun j _ => by
        split
        · rw [if_neg (by omega), show decide (r + (1 + j) = r) = false by rw [decide_eq_false_iff_not]; omega, Bool.and_false]
        · exact Bool.and_false _)]
    have h1 : bsum r (fun j => f i j && if j < M then (if j < r then y j else decide (j = r)) else false) = bsum r fun j => f i j && y j :=
      bsum_congr fun j hj => by rw [if_pos (by omega), if_pos hj]
    rw [h1, bsum_succ]
    simp only [bsum, Nat.add_zero, if_pos hr, Nat.lt_irrefl, if_false, decide_true, Bool.and_true, Bool.false_xor, Bool.xor_false]
    by_cases e : i < r
    · rw [hy i e, Bool.xor_self]
    · rw [bsum_zero (g := fun j => f i j && y j) (fun j hj => by rw [(hU j hj).2 i (by omega) hi]; rfl), hcol i (by omega) hi]
      rfl
  have := (ker_augment h _ (fun _ => false)).1 ((hker _).1 key)
  exact this

theorem forward_out {M : Nat} (h : Nat → Nat → Bool) :
    Out (forward M (mk M (2 * M) (augment M h)))
      (fun v => ∃ f, v = mk M (2 * M) f ∧ Upper M M f ∧ ∀ x, Ker M (2 * M) f x ↔ Ker M (2 * M) (augment M h) x)
      (fun e => e = .runtimeError ∧ Singular M h) := by
  unfold forward
  refine forN_out (fun r v => ∃ f, v = mk M (2 * M) f ∧ Upper M r f ∧ ∀ x, Ker M (2 * M) f x ↔ Ker M (2 * M) (augment M h) x)
    ⟨_, rfl, fun c hc => by omega, fun x => Iff.rfl⟩ ?_
  rintro r v hr ⟨f, rfl, hU, hK⟩
  refine Out.bind (P := fun v => ∃ f, v = mk M (2 * M) f ∧ Upper M r f ∧ f r r = true ∧ ∀ x, Ker M (2 * M) f x ↔ Ker M (2 * M) (augment M h) x) ?_ ?_
  · unfold pivot
    rw [rdM_mkR hr (by omega), bind_ok]
    split
    · rename_i hb
      exact ⟨f, rfl, hU, hb, hK⟩
    · rename_i hb
      obtain ⟨s, e, hs⟩ := findSwap_sat (w := 2 * M) hr (by omega) f
      rw [e, bind_ok]
      split
      · rename_i h0
        refine ⟨rfl, singular_of_stuck hr hU hK fun k h1 h2 => ?_⟩
        by_cases e : k = r
        · subst e; simpa using hb
        · exact (hs.resolve_right fun h => by omega).2 k (by omega) h2
      · rename_i h0
        obtain ⟨h1, h2, h3⟩ := hs.resolve_left fun h => h0 h.1
        rw [swapRows_mk hr h2]
        refine ⟨exRow f r s, rfl, fun c hc => ⟨?_, fun i h4 h5 => ?_⟩, ?_, fun x => ?_⟩
        · simp only [exRow]
          rw [if_neg (by omega), if_neg (by omega)]
          exact (hU c hc).1
        · simp only [exRow]
          exact (hU c hc).2 _ (by split <;> [skip; split] <;> omega) (by split <;> [skip; split] <;> omega)
        · simp [exRow, h3]
        · rw [ker_exRow hr h2, hK]
  · rintro v ⟨f, rfl, hU, hd, hK⟩
    apply Sat.out
    refine (forRange_inv (fun q v => ∃ f, v = mk M (2 * M) f ∧ Upper M r f ∧ f r r = true ∧ (∀ i, r < i → i < q → f i r = false) ∧
      ∀ x, Ker M (2 * M) f x ↔ Ker M (2 * M) (augment M h) x) (by omega) ⟨f, rfl, hU, hd, fun i _ _ => by omega, hK⟩ ?_).mono ?_
    · rintro q v h1 h2 ⟨f, rfl, hU, hd, hc, hK⟩
      rw [clearRow_mk h2 hr (by omega) (by omega), sat_ok]
      refine ⟨_, rfl, fun c hc' => ⟨?_, fun i h3 h4 => ?_⟩, ?_, fun i h3 h4 => ?_, fun x => ?_⟩
      · simp only [addRow]
        rw [if_neg (by omega)]
        exact (hU c hc').1
      · simp only [addRow]
        split
        · rename_i e
          subst e
          rw [(hU c hc').2 i h3 h4, (hU c hc').2 r hc' hr]
          simp
        · exact (hU c hc').2 i h3 h4
      · simp only [addRow]
        rw [if_neg (by omega)]
        exact hd
      · simp only [addRow]
        split
        · rename_i e
          subst e
          rw [hd]
          simp
        · exact hc i h3 (by omega)
      · rw [ker_addRow hr (by omega), hK]
    · rintro v ⟨f, rfl, hU, hd, hc, hK⟩
      refine ⟨f, rfl, fun c hc' => ?_, hK⟩
      by_cases e : c = r
      · subst e; exact ⟨hd, hc⟩
      · exact hU c (by omega)

theorem backward_sat {M : Nat} (hM : 0 < M) {f0 : Nat → Nat → Bool} (hU0 : Upper M M f0) :
    (backward M (mk M (2 * M) f0)).Sat fun v => ∃ f, v = mk M (2 * M) f ∧ (∀ i j, i < M → j < M → f i j = decide (i = j)) ∧
      ∀ x, Ker M (2 * M) f x ↔ Ker M (2 * M) f0 x := by
  unfold backward
  refine (forDown_inv (fun k v => ∃ f, v = mk M (2 * M) f ∧ Upper M M f ∧ (∀ c, k < c → c < M → ∀ i, i < c → f i c = false) ∧
    ∀ x, Ker M (2 * M) f x ↔ Ker M (2 * M) f0 x) ⟨f0, rfl, hU0, fun c _ _ => by omega, fun x => Iff.rfl⟩ ?_).mono ?_
  · rintro k v hk ⟨f, rfl, hU, hc, hK⟩
    refine (forDown_inv (fun q v => ∃ f, v = mk M (2 * M) f ∧ Upper M M f ∧ (∀ c, k + 1 < c → c < M → ∀ i, i < c → f i c = false) ∧
      (∀ i, q ≤ i → i < k + 1 → f i (k + 1) = false) ∧ ∀ x, Ker M (2 * M) f x ↔ Ker M (2 * M) f0 x)
      ⟨f, rfl, hU, hc, fun i _ _ => by omega, hK⟩ ?_).mono ?_
    · rintro q v hq ⟨f, rfl, hU, hc, hq', hK⟩
      rw [clearRow_mk (by omega) (by omega) (by omega) (by omega), sat_ok]
      refine ⟨_, rfl, fun c hc' => ⟨?_, fun i h3 h4 => ?_⟩, fun c h1 h2 i h3 => ?_, fun i h3 h4 => ?_, fun x => ?_⟩
      · simp only [addRow]
        split
        · rename_i e
          subst e
          rw [(hU c hc').1, (hU c hc').2 (k + 1) (by omega) (by omega)]
          simp
        · exact (hU c hc').1
      · simp only [addRow]
        split
        · rename_i e
          subst e
          rw [(hU c hc').2 i h3 h4, (hU c hc').2 (k + 1) (by omega) (by omega)]
          simp
        · exact (hU c hc').2 i h3 h4
      · simp only [addRow]
        split
        · rename_i e
          subst e
          rw [hc c h1 h2 i h3, hc c h1 h2 (k + 1) h1]
          simp
        · exact hc c h1 h2 i h3
      · simp only [addRow]
        split
        · rename_i e
          subst e
          rw [(hU (k + 1) (by omega)).1]
          simp
        · exact hq' i (by omega) h4
      · rw [ker_addRow (by omega) (by omega), hK]
    · rintro v ⟨f, rfl, hU, hc, hq', hK⟩
      refine ⟨f, rfl, hU, fun c h1 h2 i h3 => ?_, hK⟩
      by_cases e : c = k + 1
      · subst e; exact hq' i (by omega) h3
      · exact hc c (by omega) h2 i h3
  · rintro v ⟨f, rfl, hU, hc, hK⟩
    refine ⟨f, rfl, fun i j hi hj => ?_, hK⟩
    by_cases e : i = j
    · subst e; simpa using (hU i hi).1
    · rw [show decide (i = j) = false by simpa using e]
      by_cases h' : i < j
      · exact hc j (by omega) hj i h'
      · exact (hU j hj).2 i (by omega) hi

theorem ker_identity {M : Nat} {f : Nat → Nat → Bool} (hI : ∀ i j, i < M → j < M → f i j = decide (i = j)) (y z : Nat → Bool) :
    Ker M (2 * M) f (fun j => if j < M then y j else z (j - M)) ↔ ∀ i, i < M → y i = bsum M fun j => f i (M + j) && z j := by
  unfold Ker
  refine forall_congr' fun i => forall_congr' fun hi => ?_
  rw [Nat.two_mul, bsum_add]
  have h1 : bsum M (fun j => f i j && if j < M then y j else z (j - M)) = y i := by
    rw [bsum_single hi]
    · simp [hI i i hi hi, hi]
    · intro j hj hne
      rw [hI i j hi hj, show decide (i = j) = false by simpa using Ne.symm hne, Bool.false_and]
  have h2 : bsum M (fun j => f i (M + j) && if M + j < M then y (M + j) else z (M + j - M)) = bsum M fun j => f i (M + j) && z j :=
    bsum_congr fun j hj => by rw [if_neg (by omega), Nat.add_sub_cancel_left]
  rw [h1, h2]
  cases y i <;> cases bsum M (fun j => f i (M + j) && z j) <;> simp

/-- `LU_decomp` returns the inverse matrix or throws when there is none. -/
theorem luDecomp_out {s : FM} {M : Nat} (hM : 0 < M) {h : Nat → Nat → Bool} (hs : FRep s M M h) :
    Out (luDecomp s) (fun t => ∃ R, FRep t M M R ∧
        ∀ y z : Nat → Bool, (∀ i, i < M → bsum M (fun j => h i j && y j) = z i) ↔ ∀ i, i < M → y i = bsum M fun j => R i j && z j)
      (fun e => e = .runtimeError ∧ Singular M h) := by
  unfold luDecomp horizontalOrThrow
  rw [hs.nRows, hs.nCols, if_pos (Nat.le_refl _)]
  refine Out.bind (P := fun t => FRep t M (2 * M) _) (fresize_sat hs (by simp)).out fun Hinv hH => ?_
  refine Out.bind (P := fun v => v = mk M (2 * M) (augment M h)) (Sat.out ?_) ?_
  · rw [hH.v]
    refine (forN_inv (fun k (v : List (List Bool)) => v = mk M (2 * M) fun i j => if j < M then h i j else decide (j = M + i ∧ i < k)) ?_ ?_).mono ?_
    · refine mk_congr fun i hi j hj => ?_
      simp only [resizeF]
      by_cases e : j < M
      · rw [if_pos e]; simp [hi, e]
      · rw [if_neg e]; simp [e]
    · rintro k v hk rfl
      rw [wrM_mkR hk (by omega), sat_ok]
      refine mk_congr fun i _ j _ => ?_
      by_cases e : i = k ∧ j = M + k
      · rw [if_pos e, if_neg (by omega)]
        symm
        rw [decide_eq_true_iff]
        omega
      · rw [if_neg e]
        split
        · rfl
        · rw [decide_eq_decide]
          omega
    · rintro v rfl
      refine mk_congr fun i hi j _ => ?_
      simp only [augment]
      split
      · rfl
      · rw [decide_eq_decide]
        omega
  · rintro v rfl
    refine (forward_out h).bind ?_
    rintro v ⟨f, rfl, hU, hK⟩
    rw [if_neg (by omega)]
    refine Sat.out ((backward_sat hM hU).bind ?_)
    rintro v ⟨g, rfl, hI, hK'⟩
    refine (fresize_sat (s := { Hinv with v := mk M (2 * M) g }) (n0 := M) (m0 := 2 * M) (f := g) (n := M) (m := M) (o := .topRight)
      ⟨hH.nRows, hH.nCols, rfl⟩ fun _ => Or.inl (Nat.le_refl _)).mono fun t ht => ?_
    refine ⟨fun i j => g i (M + j), ht.congr fun i hi j hj => ?_, fun y z => ?_⟩
    · simp only [resizeF]
      rw [show (decide (i < M ∧ M ≤ j + 2 * M)) = true by rw [decide_eq_true_iff]; omega, Bool.true_and,
        show j + 2 * M - M = M + j by omega]
    · rw [← ker_augment h y z, ← hK, ← hK', ker_identity hI]

end Verif.Sparse
