import Verif.Model.Full
import Verif.Proof.SparseQC
import Verif.Proof.BSum

/-! # Dense matrices: canonical form, access, resizing, transposition, products -/

namespace Verif.Sparse
open Exec

/-- `n` rows, row `i` has `len i` entries `f i j`. -/
def mkR (n : Nat) (len : Nat → Nat) (f : Nat → Nat → Bool) : List (List Bool) := (List.range n).map fun i => (List.range (len i)).map (f i)

/-- `n` rows of `m` entries. -/
abbrev mk (n m : Nat) (f : Nat → Nat → Bool) : List (List Bool) := mkR n (fun _ => m) f

theorem map_range_congr {α : Type} {n m : Nat} {f g : Nat → α} (h : n = m) (h' : ∀ i, i < n → f i = g i) :
    (List.range n).map f = (List.range m).map g := by
  subst h
  apply List.map_congr_left
  intro i hi
  exact h' i (List.mem_range.1 hi)

theorem mkR_congr {n : Nat} {len len' : Nat → Nat} {f g : Nat → Nat → Bool} (h1 : ∀ i, i < n → len i = len' i)
    (h2 : ∀ i, i < n → ∀ j, j < len i → f i j = g i j) : mkR n len f = mkR n len' g :=
  map_range_congr rfl fun i hi => map_range_congr (h1 i hi) (h2 i hi)

theorem mk_congr {n m : Nat} {f g : Nat → Nat → Bool} (h : ∀ i, i < n → ∀ j, j < m → f i j = g i j) : mk n m f = mk n m g :=
  mkR_congr (fun _ _ => rfl) h

theorem mk_inj {n m : Nat} {f g : Nat → Nat → Bool} (h : mk n m f = mk n m g) {i j : Nat} (hi : i < n) (hj : j < m) : f i j = g i j := by
  have h1 := congrArg (fun l : List (List Bool) => l[i]?) h
  simp only [mk, mkR, getElem?_mapRange, if_pos hi, Option.some.injEq] at h1
  have h2 := congrArg (fun l : List Bool => l[j]?) h1
  simpa only [getElem?_mapRange, if_pos hj, Option.some.injEq] using h2

theorem rd_mkR {n : Nat} {len : Nat → Nat} {f : Nat → Nat → Bool} {i : Nat} (hi : i < n) :
    rd (mkR n len f) i = ok ((List.range (len i)).map (f i)) := rd_eq (by rw [mkR, getElem?_mapRange, if_pos hi])

theorem rd_range {α : Type} {n : Nat} {f : Nat → α} {i : Nat} (hi : i < n) : rd ((List.range n).map f) i = ok (f i) :=
  rd_eq (by rw [getElem?_mapRange, if_pos hi])

theorem rdM_mkR {n : Nat} {len : Nat → Nat} {f : Nat → Nat → Bool} {i j : Nat} (hi : i < n) (hj : j < len i) :
    rdM (mkR n len f) i j = ok (f i j) := by
  rw [rdM, rd_mkR hi, bind_ok, rd_range hj]

theorem wr_range {α : Type} {n : Nat} {f : Nat → α} {i : Nat} (hi : i < n) (x : α) :
    wr ((List.range n).map f) i x = ok ((List.range n).map fun j => if j = i then x else f j) := by
  rw [wr_lt (by simpa using hi)]
  congr 1
  apply eq_mapRange (by simp)
  intro j hj
  rw [List.getElem?_set]
  split
  · rename_i e
    subst e
    simp [hi]
  · rename_i e
    beta_reduce
    rw [getElem?_mapRange, if_pos hj, if_neg (Ne.symm e)]

theorem wr_mkR {n : Nat} {len : Nat → Nat} {f : Nat → Nat → Bool} {i : Nat} (hi : i < n) (k : Nat) (g : Nat → Bool) :
    wr (mkR n len f) i ((List.range k).map g) = ok (mkR n (fun a => if a = i then k else len a) fun a b => if a = i then g b else f a b) := by
  rw [mkR, wr_range hi]
  congr 1
  apply map_range_congr rfl
  intro a _
  beta_reduce
  split
  · rename_i e; subst e; rfl
  · rfl

theorem wrM_mkR {n : Nat} {len : Nat → Nat} {f : Nat → Nat → Bool} {i j : Nat} (hi : i < n) (hj : j < len i) (x : Bool) :
    wrM (mkR n len f) i j x = ok (mkR n len fun a b => if a = i ∧ b = j then x else f a b) := by
  rw [wrM, rd_mkR hi, bind_ok, wr_range hj, bind_ok, wr_mkR hi]
  congr 1
  refine mkR_congr (fun a _ => ?_) (fun a _ b _ => ?_)
  · split
    · rename_i e; rw [e]
    · rfl
  · by_cases e : a = i
    · subst e; simp
    · simp [e]

theorem replicate_range {α : Type} (n : Nat) (x : α) : List.replicate n x = (List.range n).map fun _ => x := by
  apply eq_mapRange (by simp)
  intro i hi
  rw [List.getElem?_replicate, if_pos hi]

theorem mkR_zero (n m : Nat) : List.replicate n (List.replicate m false) = mk n m fun _ _ => false := by
  rw [replicate_range m, replicate_range n]
  rfl

theorem resized_range {α : Type} (n k : Nat) (f : Nat → α) (x : α) :
    resized ((List.range n).map f) k x = (List.range k).map fun i => if i < n then f i else x := by
  apply eq_mapRange
  · simp [resized]; omega
  · intro i hi
    rw [resized, List.getElem?_append]
    simp only [List.length_take, List.length_map, List.length_range]
    split
    · rename_i h
      rw [List.getElem?_take, if_pos hi, getElem?_mapRange, if_pos (by omega), if_pos (by omega)]
    · rename_i h
      rw [List.getElem?_replicate, if_pos (by omega), if_neg (by omega)]

theorem resized_mkR (n k m : Nat) (len : Nat → Nat) (f : Nat → Nat → Bool) :
    resized (mkR n len f) k (List.replicate m false) =
      mkR k (fun i => if i < n then len i else m) fun i j => if i < n then f i j else false := by
  rw [mkR, resized_range]
  apply map_range_congr rfl
  intro i _
  split
  · rename_i h
    exact map_range_congr (if_pos h).symm fun j _ => (if_pos h).symm
  · rename_i h
    rw [replicate_range]
    exact map_range_congr (if_neg h).symm fun j _ => (if_neg h).symm

theorem resized_mkR' {n k : Nat} (h : k ≤ n) (x : List Bool) (len : Nat → Nat) (f : Nat → Nat → Bool) :
    resized (mkR n len f) k x = mkR k len f := by
  rw [mkR, resized_range]
  apply map_range_congr rfl
  intro i hi
  rw [if_pos (by omega)]

theorem drop_range {α : Type} (n k : Nat) (f : Nat → α) : ((List.range n).map f).drop k = (List.range (n - k)).map fun j => f (j + k) := by
  apply eq_mapRange (by simp)
  intro i hi
  rw [List.getElem?_drop, getElem?_mapRange, if_pos (by omega), Nat.add_comm]

theorem insert_range {α : Type} (n k : Nat) (x : α) (f : Nat → α) :
    List.replicate k x ++ (List.range n).map f = (List.range (k + n)).map fun j => if j < k then x else f (j - k) := by
  apply eq_mapRange (by simp)
  intro i hi
  rw [List.getElem?_append, List.length_replicate]
  split
  · rename_i h; rw [List.getElem?_replicate, if_pos h]
  · rename_i h; rw [getElem?_mapRange, if_pos (by omega)]

theorem onRows_mkR {n a b : Nat} {len len' : Nat → Nat} {f f' : Nat → Nat → Bool} {g : List Bool → Exec (List Bool)} (hab : a ≤ b) (hb : b ≤ n)
    (h : ∀ i, a ≤ i → i < b → g ((List.range (len i)).map (f i)) = ok ((List.range (len' i)).map (f' i))) :
    onRows a b g (mkR n len f) =
      ok (mkR n (fun i => if a ≤ i ∧ i < b then len' i else len i) fun i j => if a ≤ i ∧ i < b then f' i j else f i j) := by
  obtain ⟨v, e, hv⟩ := forRange_inv (a := a) (b := b) (s := mkR n len f)
    (f := fun r v => rd v r >>= fun row => g row >>= fun row => wr v r row)
    (fun k (v : List (List Bool)) => v = mkR n (fun i => if a ≤ i ∧ i < k then len' i else len i) fun i j => if a ≤ i ∧ i < k then f' i j else f i j) hab
    (by
      refine mkR_congr (fun i _ => ?_) (fun i _ j _ => ?_) <;> rw [if_neg (by omega)])
    (by
      rintro k v h1 h2 rfl
      rw [rd_mkR (by omega), bind_ok]
      rw [show ((List.range (if a ≤ k ∧ k < k then len' k else len k)).map fun j => if a ≤ k ∧ k < k then f' k j else f k j) =
        (List.range (len k)).map (f k) from map_range_congr (if_neg (by omega)) fun j _ => if_neg (by omega)]
      rw [h k h1 h2, bind_ok, wr_mkR (by omega), sat_ok]
      refine mkR_congr (fun i _ => ?_) (fun i _ j _ => ?_)
      · by_cases e : i = k
        · subst e; rw [if_pos rfl, if_pos (by omega)]
        · rw [if_neg e]
          by_cases e' : a ≤ i ∧ i < k
          · rw [if_pos e', if_pos (by omega)]
          · rw [if_neg e', if_neg (by omega)]
      · by_cases e : i = k
        · subst e; rw [if_pos rfl, if_pos (by omega)]
        · rw [if_neg e]
          by_cases e' : a ≤ i ∧ i < k
          · rw [if_pos e', if_pos (by omega)]
          · rw [if_neg e', if_neg (by omega)])
  rw [onRows, e, hv]

theorem resizeRows_mkR {n a b m : Nat} {len : Nat → Nat} {f : Nat → Nat → Bool} (hab : a ≤ b) (hb : b ≤ n) :
    resizeRows a b m (mkR n len f) = ok (mkR n (fun i => if a ≤ i ∧ i < b then m else len i)
      fun i j => if a ≤ i ∧ i < b then (if j < len i then f i j else false) else f i j) := by
  rw [resizeRows]
  exact onRows_mkR (len' := fun _ => m) (f' := fun i j => if j < len i then f i j else false) hab hb fun i _ _ => by rw [resized_range]

/-! ## Resizing -/

/-- Entry `(i, j)` of the matrix resized to `n × m`, the corner `o` staying in place. -/
def resizeF (n0 m0 n m : Nat) (o : Origin) (f : Nat → Nat → Bool) (i j : Nat) : Bool :=
  match o with
  | .topLeft => decide (i < n0 ∧ j < m0) && f i j
  | .topRight => decide (i < n0 ∧ m ≤ j + m0) && f i (j + m0 - m)
  | .bottomLeft => decide (n ≤ i + n0 ∧ j < m0) && f (i + n0 - n) j
  | .bottomRight => decide (n ≤ i + n0 ∧ m ≤ j + m0) && f (i + n0 - n) (j + m0 - m)

theorem resizeV_topLeft (n0 m0 n m : Nat) (f : Nat → Nat → Bool) :
    resizeV (mk n0 m0 f) n0 m0 n m .topLeft = ok (mk n m (resizeF n0 m0 n m .topLeft f)) := by
  simp only [resizeV]
  rw [mk, resized_mkR, resizeRows_mkR (Nat.zero_le _) (Nat.min_le_left _ _)]
  congr 1
  refine mkR_congr (fun i hi => ?_) (fun i hi j hj => ?_)
  · by_cases h : i < n0
    · rw [if_pos (by omega)]
    · rw [if_neg (by omega), if_neg h]
  · simp only [resizeF]
    by_cases h : i < n0
    · rw [if_pos (by omega), if_pos h, if_pos h]
      by_cases h' : j < m0 <;> simp [h, h']
    · rw [if_neg (by omega), if_neg h]
      simp [h]

/-- `TOP_RIGHT`, unless rows are added while columns are removed. -/
theorem resizeV_topRight {n0 m0 n m : Nat} (hok : n ≤ n0 ∨ m0 ≤ m) (f : Nat → Nat → Bool) :
    resizeV (mk n0 m0 f) n0 m0 n m .topRight = ok (mk n m (resizeF n0 m0 n m .topRight f)) := by
  simp only [resizeV, alignRight]
  rw [mk, resized_mkR]
  split
  · rename_i hm
    rw [onRows_mkR (len' := fun _ => m) (f' := fun i j => f i (j + (m0 - m))) (Nat.zero_le _) (Nat.le_refl _)]
    · congr 1
      refine mkR_congr (fun i hi => if_pos (by omega)) (fun i hi j hj => ?_)
      rw [if_pos (by omega)] at hj ⊢
      simp only [resizeF]
      rw [show (decide (i < n0 ∧ m ≤ j + m0)) = true by rw [decide_eq_true_iff]; omega, Bool.true_and,
        show j + m0 - m = j + (m0 - m) by omega]
    · intro i _ hi
      rw [if_pos (by omega), eraseFront, if_pos (by simp), drop_range]
      congr 1
      refine map_range_congr (by omega) fun j _ => ?_
      rw [if_pos (by omega)]
  · rename_i hm
    rw [onRows_mkR (len' := fun _ => m) (f' := fun i j => if j < m - m0 then false else f i (j - (m - m0))) (Nat.zero_le _)
      (Nat.min_le_left _ _)]
    · congr 1
      refine mkR_congr (fun i hi => ?_) (fun i hi j hj => ?_)
      · by_cases h : i < n0
        · rw [if_pos (by omega)]
        · rw [if_neg (by omega), if_neg h]
      · simp only [resizeF]
        by_cases h : i < n0
        · rw [if_pos (by omega)]
          by_cases h' : j < m - m0
          · rw [if_pos h', show (decide (i < n0 ∧ m ≤ j + m0)) = false by rw [decide_eq_false_iff_not]; omega, Bool.false_and]
          · rw [if_neg h', show (decide (i < n0 ∧ m ≤ j + m0)) = true by rw [decide_eq_true_iff]; omega, Bool.true_and,
              show j + m0 - m = j - (m - m0) by omega]
        · rw [if_neg (by omega), if_neg h]
          simp [h]
    · intro i _ hi
      rw [if_pos (by omega), insert_range]
      congr 1
      refine map_range_congr (by omega) fun j _ => ?_
      rw [if_pos (show i < n0 by omega)]

theorem eraseFront_mkR {n k : Nat} (h : k ≤ n) (len : Nat → Nat) (f : Nat → Nat → Bool) :
    eraseFront (mkR n len f) k = ok (mkR (n - k) (fun i => len (i + k)) fun i => f (i + k)) := by
  rw [eraseFront, if_pos (by simpa [mkR] using h), mkR, drop_range]
  rfl

theorem insert_mkR (n m m' k : Nat) (f : Nat → Nat → Bool) :
    List.replicate k (List.replicate m false) ++ mk n m' f =
      mkR (k + n) (fun i => if i < k then m else m') fun i j => if i < k then false else f (i - k) j := by
  rw [mk, mkR, insert_range]
  apply map_range_congr rfl
  intro i _
  split
  · rename_i h
    rw [replicate_range]
    exact map_range_congr (if_pos h).symm fun j _ => (if_pos h).symm
  · rename_i h
    exact map_range_congr (if_neg h).symm fun j _ => (if_neg h).symm

theorem resizeV_bottomLeft (n0 m0 n m : Nat) (f : Nat → Nat → Bool) :
    resizeV (mk n0 m0 f) n0 m0 n m .bottomLeft = ok (mk n m (resizeF n0 m0 n m .bottomLeft f)) := by
  simp only [resizeV]
  split
  · rename_i h
    rw [mk, eraseFront_mkR (by omega), bind_ok, resizeRows_mkR (Nat.zero_le _) (by omega), show n0 - (n0 - n) = n by omega]
    congr 1
    refine mkR_congr (fun i hi => if_pos (by omega)) (fun i hi j hj => ?_)
    simp only [resizeF]
    rw [if_pos (by omega), show i + n0 - n = i + (n0 - n) by omega]
    by_cases h' : j < m0
    · rw [if_pos h', show (decide (n ≤ i + n0 ∧ j < m0)) = true by rw [decide_eq_true_iff]; omega, Bool.true_and]
    · rw [if_neg h', show (decide (n ≤ i + n0 ∧ j < m0)) = false by rw [decide_eq_false_iff_not]; omega, Bool.false_and]
  · rename_i h
    rw [insert_mkR, resizeRows_mkR (by omega) (by omega), show n - n0 + n0 = n by omega]
    congr 1
    refine mkR_congr (fun i hi => ?_) (fun i hi j hj => ?_)
    · by_cases h' : n - n0 ≤ i
      · rw [if_pos (by omega)]
      · rw [if_neg (by omega), if_pos (by omega)]
    · simp only [resizeF]
      by_cases h' : n - n0 ≤ i
      · rw [if_pos (by omega), if_neg (show ¬ i < n - n0 by omega)]
        by_cases h'' : j < m0
        · rw [if_pos h'', if_neg (by omega), show (decide (n ≤ i + n0 ∧ j < m0)) = true by rw [decide_eq_true_iff]; omega, Bool.true_and,
            show i + n0 - n = i - (n - n0) by omega]
        · rw [if_neg h'', show (decide (n ≤ i + n0 ∧ j < m0)) = false by rw [decide_eq_false_iff_not]; omega, Bool.false_and]
      · rw [if_neg (by omega), if_pos (by omega),
          show (decide (n ≤ i + n0 ∧ j < m0)) = false by rw [decide_eq_false_iff_not]; omega, Bool.false_and]

/-- Right alignment of some rows. -/
theorem alignRight_mkR {a n m0 m : Nat} {len : Nat → Nat} {f : Nat → Nat → Bool} (ha : a ≤ n) (hlen : ∀ i, a ≤ i → i < n → len i = m0) :
    alignRight a n n m0 m (mkR n len f) = ok (mkR n (fun i => if a ≤ i ∧ i < n then m else len i) fun i j => if a ≤ i ∧ i < n then
      decide (m ≤ j + m0) && f i (j + m0 - m) else f i j) := by
  rw [alignRight]
  split
  · rename_i hm
    refine onRows_mkR (len' := fun _ => m) (f' := fun i j => decide (m ≤ j + m0) && f i (j + m0 - m)) ha (Nat.le_refl _) fun i h1 h2 => ?_
    rw [hlen i h1 h2, eraseFront, if_pos (by simp), drop_range]
    congr 1
    refine map_range_congr (by omega) fun j _ => ?_
    rw [show (decide (m ≤ j + m0)) = true by rw [decide_eq_true_iff]; omega, Bool.true_and, show j + m0 - m = j + (m0 - m) by omega]
  · rename_i hm
    refine onRows_mkR (len' := fun _ => m) (f' := fun i j => decide (m ≤ j + m0) && f i (j + m0 - m)) ha (Nat.le_refl _) fun i h1 h2 => ?_
    rw [hlen i h1 h2, insert_range]
    congr 1
    refine map_range_congr (by omega) fun j _ => ?_
    split
    · rw [show (decide (m ≤ j + m0)) = false by rw [decide_eq_false_iff_not]; omega, Bool.false_and]
    · rw [show (decide (m ≤ j + m0)) = true by rw [decide_eq_true_iff]; omega, Bool.true_and, show j + m0 - m = j - (m - m0) by omega]

theorem resizeV_bottomRight (n0 m0 n m : Nat) (f : Nat → Nat → Bool) :
    resizeV (mk n0 m0 f) n0 m0 n m .bottomRight = ok (mk n m (resizeF n0 m0 n m .bottomRight f)) := by
  simp only [resizeV]
  split
  · rename_i h
    rw [mk, eraseFront_mkR (by omega), bind_ok, show n0 - (n0 - n) = n by omega, alignRight_mkR (Nat.zero_le _) (fun _ _ _ => rfl)]
    congr 1
    refine mkR_congr (fun i hi => if_pos (by omega)) (fun i hi j hj => ?_)
    simp only [resizeF]
    rw [if_pos (by omega), show i + n0 - n = i + (n0 - n) by omega, show decide (n ≤ i + n0 ∧ m ≤ j + m0) = decide (m ≤ j + m0) from
      decide_eq_decide.2 (by omega)]
  · rename_i h
    rw [insert_mkR, show n - n0 + n0 = n by omega, alignRight_mkR (by omega) (fun i h1 _ => if_neg (by omega))]
    congr 1
    refine mkR_congr (fun i hi => ?_) (fun i hi j hj => ?_)
    · by_cases h' : n - n0 ≤ i
      · rw [if_pos (by omega)]
      · rw [if_neg (by omega), if_pos (by omega)]
    · simp only [resizeF]
      by_cases h' : n - n0 ≤ i
      · rw [if_pos (by omega), if_neg (by omega), show i + n0 - n = i - (n - n0) by omega,
          show decide (n ≤ i + n0 ∧ m ≤ j + m0) = decide (m ≤ j + m0) from
            decide_eq_decide.2 (by omega)]
      · rw [if_neg (by omega), if_pos (by omega),
          show (decide (n ≤ i + n0 ∧ m ≤ j + m0)) = false by rw [decide_eq_false_iff_not]; omega, Bool.false_and]

theorem resizeV_eq {n0 m0 n m : Nat} {o : Origin} (hok : o = .topRight → n ≤ n0 ∨ m0 ≤ m) (f : Nat → Nat → Bool) :
    resizeV (mk n0 m0 f) n0 m0 n m o = ok (mk n m (resizeF n0 m0 n m o f)) := by
  cases o
  · exact resizeV_topLeft _ _ _ _ _
  · exact resizeV_topRight (hok rfl) _
  · exact resizeV_bottomLeft _ _ _ _ _
  · exact resizeV_bottomRight _ _ _ _ _

/-! ## Transposition -/

theorem swapM_mkR {n : Nat} {len : Nat → Nat} {f : Nat → Nat → Bool} {r c : Nat} (hr : r < n) (hc : c < n) (h1 : c < len r) (h2 : r < len c) :
    swapM (mkR n len f) r c = ok (mkR n len fun i j => if i = r ∧ j = c then f c r else if i = c ∧ j = r then f r c else f i j) := by
  rw [swapM, rdM_mkR hr h1, bind_ok, rdM_mkR hc h2, bind_ok, wrM_mkR hr h1, bind_ok, wrM_mkR hc h2]
  congr 1
  refine mkR_congr (fun _ _ => rfl) fun i _ j _ => ?_
  by_cases e1 : i = r ∧ j = c
  · by_cases e2 : i = c ∧ j = r
    · obtain ⟨rfl, rfl⟩ := e1
      obtain ⟨e, _⟩ := e2
      subst e
      simp
    · simp [e1, e2]
      intro a b
      exact absurd ⟨e1.1.trans a, e1.2.trans b⟩ e2
  · simp [e1]

theorem swapSquare_mkR {n k : Nat} {len : Nat → Nat} {f : Nat → Nat → Bool} (hk : k ≤ n) (hlen : ∀ i, i < k → k ≤ len i) :
    swapSquare k (mkR n len f) = ok (mkR n len fun i j => if i < k ∧ j < k then f j i else f i j) := by
  obtain ⟨v, e, hv⟩ := forN_inv (n := k) (s := mkR n len f) (f := fun r v => forRange (r + 1) k (fun c v => swapM v r c) v)
    (fun r (v : List (List Bool)) => v = mkR n len fun i j => if i < k ∧ j < k ∧ (i < r ∨ j < r) then f j i else f i j)
    (mkR_congr (fun _ _ => rfl) fun i _ j _ => by rw [if_neg (by omega)])
    (by
      rintro r v hr rfl
      refine (forRange_inv (fun c (v : List (List Bool)) => v = mkR n len fun i j => if i < k ∧ j < k ∧ (i < r ∨ j < r ∨ (i = r ∧ j < c) ∨
        (j = r ∧ i < c)) then f j i else f i j) (by omega) ?_ ?_).mono ?_
      · refine mkR_congr (fun _ _ => rfl) fun i _ j _ => ?_
        by_cases h : i < k ∧ j < k ∧ (i < r ∨ j < r)
        · rw [if_pos h, if_pos (by omega)]
        · rw [if_neg h]
          by_cases h' : i = r ∧ j = r
          · obtain ⟨rfl, rfl⟩ := h'
            simp
          · rw [if_neg (by omega)]
      · rintro c v h1 h2 rfl
        rw [swapM_mkR (by omega) (by omega) (by have := hlen r hr; omega) (by have := hlen c h2; omega), sat_ok]
        refine mkR_congr (fun _ _ => rfl) fun i _ j _ => ?_
        by_cases e1 : i = r ∧ j = c
        · obtain ⟨rfl, rfl⟩ := e1
          rw [if_pos ⟨rfl, rfl⟩, if_neg (by omega), if_pos (by omega)]
        · rw [if_neg e1]
          by_cases e2 : i = c ∧ j = r
          · obtain ⟨rfl, rfl⟩ := e2
            rw [if_pos ⟨rfl, rfl⟩, if_neg (by omega), if_pos (by omega)]
          · rw [if_neg e2]
            by_cases h : i < k ∧ j < k ∧ (i < r ∨ j < r ∨ (i = r ∧ j < c) ∨ (j = r ∧ i < c))
            · rw [if_pos h, if_pos (by omega)]
            · rw [if_neg h, if_neg (by omega)]
      · rintro v rfl
        refine mkR_congr (fun _ _ => rfl) fun i _ j _ => ?_
        by_cases h : i < k ∧ j < k ∧ (i < r + 1 ∨ j < r + 1)
        · rw [if_pos h, if_pos (by omega)]
        · rw [if_neg h, if_neg (by omega)])
  rw [swapSquare, e, hv]
  congr 1
  refine mkR_congr (fun _ _ => rfl) fun i _ j _ => ?_
  by_cases h : i < k ∧ j < k
  · rw [if_pos h, if_pos (by omega)]
  · rw [if_neg h, if_neg (by omega)]

theorem transposeH_eq {n m : Nat} (h : n ≤ m) (f : Nat → Nat → Bool) : transposeH (mk n m f) n m = ok (mk m n fun i j => f j i) := by
  rw [transposeH, mk, resized_mkR, swapSquare_mkR h (fun i hi => by rw [if_pos hi]; exact h), bind_ok]
  obtain ⟨v, e, hv⟩ := forRange_inv (a := n) (b := m)
    (s := mkR m (fun i => if i < n then m else n) fun i j => if i < n ∧ j < n then (if j < n then f j i else false) else if i < n then f i j else false)
    (f := fun r v => forN n (fun c v => rdM v c r >>= fun b => wrM v r c b) v)
    (fun r (v : List (List Bool)) => v = mkR m (fun i => if i < n then m else n) fun i j =>
      if i < n ∧ n ≤ j then f i j else if i < r then f j i else false) h
    (by
      refine mkR_congr (fun _ _ => rfl) fun i _ j hj => ?_
      by_cases h1 : i < n
      · by_cases h2 : j < n
        · rw [if_pos ⟨h1, h2⟩, if_pos h2, if_neg (by omega), if_pos h1]
        · rw [if_neg (by omega), if_pos h1, if_pos (by omega)]
      · rw [if_neg h1] at hj
        rw [if_neg (by omega), if_neg h1, if_neg (by omega), if_neg (by omega)])
    (by
      rintro r v h1 h2 rfl
      refine (forN_inv (fun c (v : List (List Bool)) => v = mkR m (fun i => if i < n then m else n) fun i j =>
        if i < n ∧ n ≤ j then f i j else if i < r ∨ (i = r ∧ j < c) then f j i else false) ?_ ?_).mono ?_
      · refine mkR_congr (fun _ _ => rfl) fun i _ j _ => ?_
        by_cases h' : i < r
        · rw [if_pos h', if_pos (by omega : i < r ∨ _)]
        · rw [if_neg h', if_neg (by omega : ¬ (i < r ∨ _))]
      · rintro c v hc rfl
        rw [rdM_mkR (by omega) (by rw [if_pos hc]; exact h2), bind_ok, if_pos (by omega), wrM_mkR h2 (by rw [if_neg (by omega)]; exact hc), sat_ok]
        refine mkR_congr (fun _ _ => rfl) fun i _ j _ => ?_
        by_cases e : i = r ∧ j = c
        · rw [if_pos e, if_neg (by omega), if_pos (by omega), e.1, e.2]
        · rw [if_neg e]
          by_cases h' : i < n ∧ n ≤ j
          · rw [if_pos h', if_pos h']
          · rw [if_neg h', if_neg h']
            by_cases h'' : i < r ∨ i = r ∧ j < c
            · rw [if_pos h'', if_pos (by omega)]
            · rw [if_neg h'', if_neg (by omega)]
      · rintro v rfl
        refine mkR_congr (fun _ _ => rfl) fun i _ j hj => ?_
        by_cases h' : i < n ∧ n ≤ j
        · rw [if_pos h', if_pos h']
        · rw [if_neg h', if_neg h']
          by_cases h'' : i < r + 1
          · rw [if_pos h'']
            split at hj <;> rw [if_pos (by omega)]
          · rw [if_neg h'', if_neg (by omega)])
  rw [e, bind_ok, hv, resizeRows_mkR (Nat.zero_le _) h]
  congr 1
  refine mkR_congr (fun i _ => ?_) fun i hi j hj => ?_
  · by_cases h' : i < n
    · rw [if_pos (by omega)]
    · rw [if_neg (by omega), if_neg h']
  · by_cases h' : i < n
    · rw [if_pos (by omega)] at hj ⊢
      rw [if_pos (by rw [if_pos h']; omega), if_neg (by omega), if_pos hi]
    · rw [if_neg (by omega), if_neg (by omega), if_pos hi]

theorem transposeV_eq {n m : Nat} (h : m ≤ n) (f : Nat → Nat → Bool) : transposeV (mk n m f) n m = ok (mk m n fun i j => f j i) := by
  rw [transposeV, mk, resizeRows_mkR (Nat.zero_le _) h, bind_ok, swapSquare_mkR h (fun i hi => by rw [if_pos (by omega)]; exact h), bind_ok]
  obtain ⟨v, e, hv⟩ := forRange_inv (a := m) (b := n)
    (s := mkR n (fun i => if 0 ≤ i ∧ i < m then n else m) fun i j => if i < m ∧ j < m then
      (if 0 ≤ j ∧ j < m then (if i < m then f j i else false) else f j i) else if 0 ≤ i ∧ i < m then (if j < m then f i j else false) else f i j)
    (f := fun r v => forN m (fun c v => rdM v r c >>= fun b => wrM v c r b) v)
    (fun r (v : List (List Bool)) => v = mkR n (fun i => if i < m then n else m) fun i j =>
      if i < m then (if j < r then f j i else false) else f i j) h
    (by
      refine mkR_congr (fun i _ => ?_) fun i _ j hj => ?_
      · by_cases h1 : i < m
        · rw [if_pos (by omega), if_pos h1]
        · rw [if_neg (by omega), if_neg h1]
      by_cases h1 : i < m
      · by_cases h2 : j < m
        · rw [if_pos ⟨h1, h2⟩, if_pos (by omega), if_pos h1, if_pos h1, if_pos h2]
        · rw [if_neg (by omega), if_pos (by omega), if_neg h2, if_pos h1, if_neg (by omega)]
      · rw [if_neg (by omega), if_neg (by omega), if_neg h1])
    (by
      rintro r v h1 h2 rfl
      refine (forN_inv (fun c (v : List (List Bool)) => v = mkR n (fun i => if i < m then n else m) fun i j =>
        if i < m then (if j < r ∨ (j = r ∧ i < c) then f j i else false) else f i j) ?_ ?_).mono ?_
      · refine mkR_congr (fun _ _ => rfl) fun i _ j _ => ?_
        by_cases h' : i < m
        · rw [if_pos h', if_pos h']
          by_cases h'' : j < r
          · rw [if_pos h'', if_pos (by omega : j < r ∨ _)]
          · rw [if_neg h'', if_neg (by omega : ¬ (j < r ∨ _))]
        · rw [if_neg h', if_neg h']
      · rintro c v hc rfl
        rw [rdM_mkR h2 (by rw [if_neg (by omega)]; exact hc), bind_ok, if_neg (by omega), wrM_mkR (by omega) (by rw [if_pos hc]; exact h2), sat_ok]
        refine mkR_congr (fun _ _ => rfl) fun i _ j _ => ?_
        by_cases e : i = c ∧ j = r
        · rw [if_pos e, if_pos (by omega), if_pos (by omega), e.1, e.2]
        · rw [if_neg e]
          by_cases h' : i < m
          · rw [if_pos h', if_pos h']
            by_cases h'' : j < r ∨ j = r ∧ i < c
            · rw [if_pos h'', if_pos (by omega)]
            · rw [if_neg h'', if_neg (by omega)]
          · rw [if_neg h', if_neg h']
      · rintro v rfl
        refine mkR_congr (fun _ _ => rfl) fun i _ j hj => ?_
        by_cases h' : i < m
        · rw [if_pos h', if_pos h']
          by_cases h'' : j < r + 1
          · rw [if_pos h'', if_pos (by omega)]
          · rw [if_neg h'', if_neg (by omega)]
        · rw [if_neg h', if_neg h'])
  rw [e, bind_ok, hv, resized_mkR' h]
  congr 1
  refine mkR_congr (fun i hi => if_pos hi) fun i hi j hj => ?_
  rw [if_pos hi] at hj ⊢
  rw [if_pos hj]

end Verif.Sparse
