import Verif.Model.LDPCEnc
import Verif.Proof.SparseQC
import Verif.Proof.BSum

/-! # LDPC encoders -/

namespace Verif.Sparse
open Exec

/-- The frame of the bits `f 0, …, f (n - 1)`. -/
def frame (w n : Nat) (f : Nat → Bool) : List (BitVec w) := (List.range n).map fun i => b2v w (f i)

theorem frame_length (w n : Nat) (f : Nat → Bool) : (frame w n f).length = n := by simp [frame]

theorem frame_get {w n : Nat} (f : Nat → Bool) {i : Nat} (h : i < n) : (frame w n f)[i]? = some (b2v w (f i)) := by
  rw [frame, getElem?_mapRange, if_pos h]

theorem rd_frame {w n : Nat} (f : Nat → Bool) {i : Nat} (h : i < n) : rd (frame w n f) i = ok (b2v w (f i)) :=
  rd_eq (frame_get f h)

theorem wr_frame {w n : Nat} (f : Nat → Bool) {i : Nat} (h : i < n) (b : Bool) :
    wr (frame w n f) i (b2v w b) = ok (frame w n fun j => if j = i then b else f j) := by
  rw [wr_lt (by rw [frame_length]; exact h)]
  congr 1
  apply eq_mapRange (by rw [List.length_set, frame_length])
  intro j hj
  rw [List.getElem?_set]
  split
  · rename_i e
    subst e
    rw [frame_length, if_pos h]
    simp
  · rename_i e
    beta_reduce
    rw [frame_get f hj, if_neg (Ne.symm e)]

theorem frame_congr {w n : Nat} {f g : Nat → Bool} (h : ∀ i, i < n → f i = g i) : frame w n f = frame w n g := by
  apply List.map_congr_left
  intro i hi
  rw [h i (List.mem_range.1 hi)]

theorem b2v_xor (w : Nat) (a b : Bool) : b2v w a ^^^ b2v w b = b2v w (a ^^ b) := by
  cases a <;> cases b <;> simp [b2v]

theorem b2v_false (w : Nat) : b2v w false = 0#w := rfl

theorem b2v_eq_one {w : Nat} (hw : 0 < w) (b : Bool) : b2v w b = 1#w ↔ b = true := by
  cases b
  · simp only [b2v, Bool.false_eq_true, if_false, iff_false]
    intro h
    have := congrArg BitVec.toNat h
    rw [BitVec.toNat_ofNat, BitVec.toNat_ofNat, Nat.zero_mod, Nat.mod_eq_of_lt (Nat.one_lt_two_pow (by omega))] at this
    omega
  · simp [b2v]

/-- Parity over the list of a column, as a sum over all rows. -/
theorem parity_bsum {n c : Nat} {S : Finset (Nat × Nat)} {l : List Nat} (hn : l.Nodup) (h : ∀ i, i ∈ l ↔ (i, c) ∈ S)
    (hr : ∀ i, (i, c) ∈ S → i < n) (x : Nat → Bool) : parity x l = bsum n fun v => decide ((v, c) ∈ S) && x v := by
  rw [parity_countP, bsum_odd, List.countP_eq_length_filter, ← List.toFinset_card_of_nodup (hn.filter x)]
  congr 4
  ext v
  rw [List.mem_toFinset, List.mem_filter, Finset.mem_filter, Finset.mem_range, h v, Bool.and_eq_true, decide_eq_true_iff]
  constructor
  · rintro ⟨a, b⟩
    exact ⟨hr _ a, a, b⟩
  · rintro ⟨_, a, b⟩
    exact ⟨a, b⟩

theorem satisfied_bsum {A : Conns} {x : Nat → Bool} {c : Nat} :
    Satisfied A x c ↔ bsum A.rows (fun v => decide ((v, c) ∈ A.set) && x v) = false := by
  rw [bsum_even, Satisfied]
  simp only [Bool.and_eq_true, decide_eq_true_iff]

/-! ## Generator matrix -/

theorem and_one {w : Nat} (x : BitVec w) : x &&& 1#w = b2v w (x.toNat % 2 = 1) := by
  apply BitVec.eq_of_toNat_eq
  rw [BitVec.toNat_and, BitVec.toNat_ofNat]
  cases w with
  | zero => simp [b2v, BitVec.toNat_ofNat, Nat.mod_one, apply_ite]
  | succ w =>
    rw [Nat.mod_eq_of_lt (Nat.one_lt_two_pow (by omega)), Nat.and_one_is_mod]
    rcases Nat.mod_two_eq_zero_or_one x.toNat with h | h
    · simp [h, b2v]
    · simp only [h, b2v, decide_true, if_true, BitVec.toNat_ofNat]
      rw [Nat.mod_eq_of_lt (Nat.one_lt_two_pow (by omega))]

theorem add_parity {w : Nat} (x : BitVec (w + 1)) (b : Bool) :
    decide ((x + b2v (w + 1) b).toNat % 2 = 1) = (decide (x.toNat % 2 = 1) ^^ b) := by
  have h2 : (2 : Nat) ∣ 2 ^ (w + 1) := ⟨2 ^ w, by rw [Nat.pow_succ, Nat.mul_comm]⟩
  have hb : (b2v (w + 1) b).toNat = if b then 1 else 0 := by
    cases b
    · simp [b2v]
    · simp only [b2v, if_true, BitVec.toNat_ofNat]
      exact Nat.mod_eq_of_lt (Nat.one_lt_two_pow (by omega))
  rw [BitVec.toNat_add, Nat.mod_mod_of_dvd _ h2, hb]
  cases b
  · simp
  · rw [if_pos rfl, Bool.xor_true, ← decide_not]
    congr 1
    rw [eq_iff_iff]
    omega

theorem b2v_zero (a b : Bool) : b2v 0 a = b2v 0 b := Subsingleton.elim _ _

theorem encG_eq {w : Nat} {G : Mat} {A : Conns} (h : Represents G A) (u : Nat → Bool) {X : List (BitVec w)}
    (hX : X.length = A.rows) :
    encG G A.rows (frame w A.cols u) X = ok (frame w A.rows fun i => bsum A.cols fun j => decide ((i, j) ∈ A.set) && u j) := by
  unfold encG
  obtain ⟨Y, e, h1, h2⟩ := forN_inv (n := A.rows) (s := X)
    (f := fun i X => rd G.r2c i >>= fun links =>
      forN links.length (fun j x => rd links j >>= fun l => rd (frame w A.cols u) l >>= fun u => ok (x + u)) 0#w >>= fun x =>
      wr X i (x &&& 1#w))
    (fun k (Y : List (BitVec w)) => Y.length = A.rows ∧ ∀ i, i < k → Y[i]? =
      some (b2v w (bsum A.cols fun j => decide ((i, j) ∈ A.set) && u j))) ⟨hX, by omega⟩ (by
    rintro i Y hi ⟨h1, h2⟩
    have hi' : i < G.r2c.length := by rw [h.r2c_length]; exact hi
    obtain ⟨hn, hm⟩ := h.row i hi'
    rw [rd_lt hi', bind_ok, forN_rd G.r2c[i] (fun l x => rd (frame w A.cols u) l >>= fun u => ok (x + u))]
    obtain ⟨x, ex, hx⟩ := forEach_inv (l := G.r2c[i]) (f := fun l x => rd (frame w A.cols u) l >>= fun u => ok (x + u)) (s := 0#w)
      (fun p (x : BitVec w) => b2v w (decide (x.toNat % 2 = 1)) = b2v w (parity u p)) (by simp [parity]) (by
        intro p l q x e hx
        have hl : l < A.cols := (h.range _ ((hm l).1 (by rw [e]; simp))).2
        rw [rd_frame u hl, bind_ok, sat_ok, parity_append]
        cases w with
        | zero => exact b2v_zero _ _
        | succ w =>
          rw [add_parity, ← b2v_xor, hx, b2v_xor])
    rw [ex, bind_ok, wr_lt (by omega), sat_ok]
    refine ⟨by simpa using h1, fun j hj => ?_⟩
    rw [List.getElem?_set]
    split
    · rename_i e
      subst e
      rw [if_pos (by omega), and_one, hx]
      congr 2
      have := parity_bsum (n := A.cols) (c := i) (S := A.set.map ⟨Prod.swap, Prod.swap_injective⟩) hn (fun j => by
        rw [hm j]
        simp only [Finset.mem_map, Function.Embedding.coeFn_mk, Prod.exists, Prod.swap_prod_mk, Prod.mk.injEq]
        constructor
        · intro h; exact ⟨i, j, h, rfl, rfl⟩
        · rintro ⟨a, b, h, rfl, rfl⟩; exact h) (fun j hj => by
        simp only [Finset.mem_map, Function.Embedding.coeFn_mk, Prod.exists, Prod.swap_prod_mk, Prod.mk.injEq] at hj
        obtain ⟨a, b, h', rfl, rfl⟩ := hj
        exact (h.range _ h').2) u
      rw [this]
      apply bsum_congr
      intro j _
      congr 2
      simp only [Finset.mem_map, Function.Embedding.coeFn_mk, Prod.exists, Prod.swap_prod_mk, Prod.mk.injEq, eq_iff_iff]
      constructor
      · rintro ⟨a, b, h, rfl, rfl⟩; exact h
      · intro h; exact ⟨i, j, h, rfl, rfl⟩
    · rename_i e
      exact h2 j (by omega))
  rw [e]
  congr 1
  exact eq_mapRange h1 h2

/-- A generator orthogonal to the checks gives words satisfying the checks. -/
theorem gen_satisfied {A B : Conns} (hrows : A.rows = B.rows) {u : Nat → Bool} {c : Nat}
    (horth : ∀ k, k < A.cols → Even ((Finset.range A.rows).filter fun v => (v, k) ∈ A.set ∧ (v, c) ∈ B.set).card) :
    Satisfied B (fun i => bsum A.cols fun j => decide ((i, j) ∈ A.set) && u j) c := by
  rw [satisfied_bsum, ← hrows]
  have e : ∀ v, v < A.rows → (decide ((v, c) ∈ B.set) && bsum A.cols fun j => decide ((v, j) ∈ A.set) && u j) =
      bsum A.cols fun j => (decide ((v, j) ∈ A.set) && decide ((v, c) ∈ B.set)) && u j := by
    intro v _
    rw [← bsum_and_left]
    apply bsum_congr
    intro j _
    cases decide ((v, c) ∈ B.set) <;> cases decide ((v, j) ∈ A.set) <;> cases u j <;> rfl
  rw [bsum_congr e, bsum_comm]
  apply bsum_zero
  intro k hk
  rw [bsum_and_right]
  have : bsum A.rows (fun v => decide ((v, k) ∈ A.set) && decide ((v, c) ∈ B.set)) = false := by
    rw [bsum_even]
    simpa only [Bool.and_eq_true, decide_eq_true_iff] using horth k hk
  rw [this, Bool.false_and]

/-! ## Accumulator -/

/-- Message followed by the running sums of `s`. -/
def accWord (K : Nat) (u s : Nat → Bool) (v : Nat) : Bool := if v < K then u v else bsum (v - K + 1) s

/-- With a dual diagonal parity part, the running sums satisfy the checks. -/
theorem acc_satisfied {A : Conns} {K M : Nat} (hrows : A.rows = K + M) {u : Nat → Bool}
    {c : Nat} (hc : c < M) (hd : ∀ j, j < M → ((K + j, c) ∈ A.set ↔ j = c ∨ j + 1 = c)) {s : Nat → Bool}
    (hs : s c = bsum K fun v => decide ((v, c) ∈ A.set) && u v) :
    Satisfied A (accWord K u s) c := by
  rw [satisfied_bsum, hrows, bsum_add]
  have e1 : bsum K (fun v => decide ((v, c) ∈ A.set) && accWord K u s v) = s c := by
    rw [hs]
    apply bsum_congr
    intro v hv
    rw [accWord, if_pos hv]
  have e2 : bsum M (fun j => decide ((K + j, c) ∈ A.set) && accWord K u s (K + j)) = s c := by
    have h1 : ∀ j, j < M → (decide ((K + j, c) ∈ A.set) && accWord K u s (K + j)) =
        ((decide (j = c) && bsum (c + 1) s) ^^ (decide (j = c - 1) && (decide (c ≠ 0) && bsum c s))) := by
      intro j hj
      rw [accWord, if_neg (by omega), show K + j - K = j by omega]
      have := hd j hj
      by_cases h1 : j = c
      · subst h1
        have : (K + j, j) ∈ A.set := this.2 (Or.inl rfl)
        by_cases h0 : j = 0
        · subst h0
          rw [Nat.add_zero] at this
          simp [this]
        · simp only [this, decide_true, Bool.true_and]
          rw [show decide (j = j - 1) = false by simp; omega]
          simp
      · by_cases h2 : j + 1 = c
        · subst h2
          have : (K + j, j + 1) ∈ A.set := this.2 (Or.inr rfl)
          simp [this]
        · have : (K + j, c) ∉ A.set := by rw [this]; omega
          have h3 : (decide (j = c - 1) && (decide (c ≠ 0) && bsum c s)) = false := by
            by_cases h0 : c = 0
            · simp [h0]
            · rw [show decide (j = c - 1) = false by simp; omega]; rfl
          rw [h3]
          simp [this, h1]
    rw [bsum_congr h1, bsum_xor, bsum_indicator hc, bsum_indicator (by omega), bsum_succ]
    by_cases h0 : c = 0
    · subst h0; simp [bsum]
    · simp only [h0, ne_eq, not_false_eq_true, decide_true, Bool.true_and]
      cases bsum c s <;> cases s c <;> rfl
  rw [e1, e2, Bool.xor_self]

/-! ## IRA -/

theorem xorCol_eq {w : Nat} {H : Mat} {A : Conns} (h : Represents H A) {K i : Nat} (hK : K ≤ A.rows) (hi : i < A.cols)
    (u : Nat → Bool) (a : Bool) : xorCol H K i (frame w K u) (b2v w a) =
      ok (b2v w (a ^^ bsum K fun v => decide ((v, i) ∈ A.set) && u v)) := by
  have hi' : i < H.c2r.length := by rw [h.c2r_length]; exact hi
  obtain ⟨hn, hm⟩ := h.col i hi'
  unfold xorCol
  rw [rd_lt hi', bind_ok]
  obtain ⟨x, ex, hx⟩ := forEach_inv (l := H.c2r[i]) (s := b2v w a)
    (f := fun l acc => if l < K then rd (frame w K u) l >>= fun u => ok (acc ^^^ u) else ok acc)
    (fun p (x : BitVec w) => x = b2v w (a ^^ parity (fun v => decide (v < K) && u v) p)) (by simp [parity]) (by
      rintro p l q x e rfl
      rw [parity_append]
      by_cases hl : l < K
      · rw [if_pos hl, rd_frame u hl, bind_ok, sat_ok, b2v_xor]
        simp [hl]
      · rw [if_neg hl, sat_ok]
        simp [hl])
  rw [ex, hx, parity_bsum (n := A.rows) hn hm fun i hi => (h.range _ hi).1]
  congr 3
  have e : A.rows = K + (A.rows - K) := by omega
  rw [e, bsum_add, bsum_zero (n := A.rows - K), Bool.xor_false]
  · apply bsum_congr
    intro v hv
    simp [hv]
  · intro j _
    simp

theorem copy_frame {w K n : Nat} (u : Nat → Bool) {X : List (BitVec w)} (hX : X.length = n) (hK : K ≤ n) :
    (copyTo (frame w K u) 0 K X 0).Sat fun Y => Y.length = n ∧ ∀ i, i < K → Y[i]? = some (b2v w (u i)) := by
  refine (copyTo_sat (by rw [frame_length]; omega) (by omega)).mono ?_
  rintro Y ⟨h1, h2⟩
  refine ⟨by omega, fun i hi => ?_⟩
  rw [h2, if_pos (by omega), Nat.sub_zero, Nat.zero_add, frame_get u hi]

theorem encIRA_eq {w : Nat} {H : Mat} {A : Conns} (h : Represents H A) {K M : Nat} (hrows : A.rows = K + M) (hcols : A.cols = M)
    (hM : 0 < M) (u : Nat → Bool) {X : List (BitVec w)} (hX : X.length = K + M) :
    encIRA H K (K + M) (frame w K u) X =
      ok (frame w (K + M) (accWord K u fun t => bsum K fun v => decide ((v, t) ∈ A.set) && u v)) := by
  set s : Nat → Bool := fun t => bsum K fun v => decide ((v, t) ∈ A.set) && u v with hs
  unfold encIRA
  rw [show K + M - K = M by omega]
  obtain ⟨X1, e1, h1, h1'⟩ := copy_frame u hX (Nat.le_add_right K M)
  rw [e1, bind_ok]
  obtain ⟨X2, e2, h2, h2', h2''⟩ := forN_inv (n := M) (s := X1) (f := fun i X => wr X (K + i) 0#w)
    (fun k (Y : List (BitVec w)) => Y.length = K + M ∧ (∀ i, i < K → Y[i]? = some (b2v w (u i))) ∧
      ∀ i, i < k → Y[K + i]? = some (b2v w false)) ⟨h1, h1', by omega⟩ (by
      rintro i Y hi ⟨g1, g2, g3⟩
      rw [wr_lt (by omega), sat_ok]
      refine ⟨by simpa using g1, fun j hj => ?_, fun j hj => ?_⟩
      · rw [List.getElem?_set_ne (by omega)]
        exact g2 j hj
      · by_cases e : j = i
        · subst e
          rw [List.getElem?_set_self (by omega)]
          rfl
        · rw [List.getElem?_set_ne (by omega)]
          exact g3 j (by omega))
  rw [e2, bind_ok, rd_eq (by simpa using h2'' 0 hM), bind_ok, xorCol_eq h (by omega) (by omega) u, bind_ok, wr_lt (by omega),
    bind_ok]
  obtain ⟨Y, e, g1, g2, g3⟩ := forRange_inv (a := 1) (b := M)
    (s := X2.set K (b2v w (false ^^ bsum K fun v => decide ((v, 0) ∈ A.set) && u v)))
    (f := fun i X => rd X (K + i - 1) >>= fun p => xorCol H K i (frame w K u) p >>= fun x => wr X (K + i) x)
    (fun k (Y : List (BitVec w)) => Y.length = K + M ∧ (∀ i, i < K → Y[i]? = some (b2v w (u i))) ∧
      ∀ i, i < k → Y[K + i]? = some (b2v w (bsum (i + 1) s))) (by omega)
    (by
      refine ⟨by simpa using h2, fun i hi => ?_, fun i hi => ?_⟩
      · rw [List.getElem?_set_ne (by omega)]
        exact h2' i hi
      · have : i = 0 := by omega
        subst this
        rw [Nat.add_zero, List.getElem?_set_self (by omega)]
        rfl)
    (by
      rintro i Y hi1 hi2 ⟨g1, g2, g3⟩
      rw [rd_eq (by rw [show K + i - 1 = K + (i - 1) by omega]; exact g3 (i - 1) (by omega)), bind_ok,
        xorCol_eq h (by omega) (by omega) u, bind_ok, wr_lt (by omega), sat_ok]
      refine ⟨by simpa using g1, fun j hj => ?_, fun j hj => ?_⟩
      · rw [List.getElem?_set_ne (by omega)]
        exact g2 j hj
      · by_cases e : j = i
        · subst e
          rw [List.getElem?_set_self (by omega), show j - 1 + 1 = j by omega, bsum_succ]
        · rw [List.getElem?_set_ne (by omega)]
          exact g3 j (by omega))
  rw [e]
  congr 1
  apply eq_mapRange g1
  intro i hi
  unfold accWord
  split
  · exact g2 i (by assumption)
  · rename_i hk
    have := g3 (i - K) (by omega)
    rwa [show K + (i - K) = i by omega] at this

end Verif.Sparse
