import Verif.Model.AList
import Verif.Prelude.Out
import Verif.Proof.Sparse

/-! # Lemmas on the AList reader and writer -/

namespace Verif.AList
open Exec Sparse

theorem u32_nat {n : Nat} (h : n < 2 ^ 32) : u32 (n : Int) = n := by
  unfold u32
  omega

theorem pop_num {n : Nat} (h : n < 2 ^ 32) (s : List Word) : pop (.num (n : Int) :: s) = (n, s) := by
  simp only [pop, u32_nat h]

theorem pop_zero (s : List Word) : pop (.num 0 :: s) = (0, s) := pop_num (n := 0) (by decide) s

theorem pop_succ {n : Nat} (h : n < 2 ^ 31) (s : List Word) : pop (.num ((n : Int) + 1) :: s) = (n + 1, s) := by
  have := pop_num (n := n + 1) (by omega) s
  push_cast at this
  exact this

/-- The word written for index `c`. -/
abbrev tok (c : Nat) : Word := .num ((c : Int) + 1)

/-- The connections of row `i` to the columns `l` added to `S`. -/
def put (i : Nat) : List Nat → Finset (Nat × Nat) → Finset (Nat × Nat)
  | [], S => S
  | c :: l, S => put i l (insert (i, c) S)

theorem mem_put {i : Nat} {l : List Nat} {S : Finset (Nat × Nat)} {p : Nat × Nat} :
    p ∈ put i l S ↔ p ∈ S ∨ (p.1 = i ∧ p.2 ∈ l) := by
  induction l generalizing S with
  | nil => simp [put]
  | cons c l ih =>
    rw [put, ih, Finset.mem_insert, List.mem_cons, Prod.ext_iff]
    tauto

/-- The rows `ls` added to `S` from row `i` on. -/
def putRows : Nat → List (List Nat) → Finset (Nat × Nat) → Finset (Nat × Nat)
  | _, [], S => S
  | i, l :: ls, S => putRows (i + 1) ls (put i l S)

theorem mem_putRows {i : Nat} {ls : List (List Nat)} {S : Finset (Nat × Nat)} {p : Nat × Nat} :
    p ∈ putRows i ls S ↔ p ∈ S ∨ ∃ (k : Nat) (l : List Nat), ls[k]? = some l ∧ p.1 = i + k ∧ p.2 ∈ l := by
  induction ls generalizing i S with
  | nil => simp [putRows]
  | cons l ls ih =>
    rw [putRows, ih, mem_put]
    constructor
    · rintro ((h | ⟨h1, h2⟩) | ⟨k, l', h1, h2, h3⟩)
      · exact Or.inl h
      · exact Or.inr ⟨0, l, rfl, h1, h2⟩
      · exact Or.inr ⟨k + 1, l', by simpa using h1, by omega, h3⟩
    · rintro (h | ⟨k, l', h1, h2, h3⟩)
      · exact Or.inl (Or.inl h)
      · cases k with
        | zero => simp only [List.getElem?_cons_zero, Option.some.injEq] at h1; subst h1; exact Or.inl (Or.inr ⟨h2, h3⟩)
        | succ k => exact Or.inr ⟨k, l', by simpa using h1, by omega, h3⟩

/-! ## Format 1 -/

theorem row1_zeros (i deg : Nat) (n j : Nat) (hj : deg ≤ j) (m : Mat) (s : List Word) :
    row1 i deg n j m (List.replicate n (.num 0) ++ s) = ok (m, s) := by
  induction n generalizing j with
  | zero => rfl
  | succ n ih =>
    rw [List.replicate_succ, List.cons_append, row1]
    simp only [pop_zero]
    rw [if_pos (Or.inr ⟨trivial, hj⟩), if_neg (by simp), bind_ok]
    exact ih (j + 1) (by omega)

theorem row1_step {R C i deg n j c : Nat} {m : Mat} {S : Finset (Nat × Nat)} {s : List Word} (h : Represents m ⟨R, C, S⟩)
    (hi : i < R) (hc : c < C) (hC : C < 2 ^ 31) (hn : (i, c) ∉ S) (hj : j < deg) :
    ∃ t, Represents t ⟨R, C, insert (i, c) S⟩ ∧ row1 i deg (n + 1) j m (tok c :: s) = row1 i deg n (j + 1) t s := by
  obtain ⟨t, et, ht⟩ := orThrow_add h (r := i) (c := c) hi hc hn
  refine ⟨t, ht, ?_⟩
  rw [row1]
  simp only [tok, pop_succ (show c < 2 ^ 31 by omega)]
  rw [if_pos (Or.inl ⟨by omega, hj⟩), if_pos (by omega), Nat.add_sub_cancel, et, bind_ok]

theorem row1_run {R C i deg n : Nat} (l : List Nat) {j : Nat} {m : Mat} {S : Finset (Nat × Nat)} {s : List Word}
    (h : Represents m ⟨R, C, S⟩) (hi : i < R) (hl : ∀ c ∈ l, c < C) (hd : l.Nodup) (hn : ∀ c ∈ l, (i, c) ∉ S)
    (hC : C < 2 ^ 31) (hdeg : deg = j + l.length) :
    ∃ t, Represents t ⟨R, C, put i l S⟩ ∧ row1 i deg (l.length + n) j m (l.map tok ++ s) = row1 i deg n deg t s := by
  induction l generalizing j m S with
  | nil => exact ⟨m, h, by simp [hdeg]⟩
  | cons c l ih =>
    rw [List.length_cons] at hdeg ⊢
    obtain ⟨t, ht, e⟩ := row1_step (s := l.map tok ++ s) (n := l.length + n) (j := j) (deg := deg) h hi
      (hl c List.mem_cons_self) hC (hn c List.mem_cons_self) (by omega)
    obtain ⟨u, hu, e'⟩ := ih (j := j + 1) ht (fun c' hc' => hl c' (List.mem_cons_of_mem _ hc')) (List.nodup_cons.1 hd).2
      (fun c' hc' => by
        rw [Finset.mem_insert, not_or, Prod.mk.injEq]
        exact ⟨fun e => (List.nodup_cons.1 hd).1 (e.2 ▸ hc'), hn c' (List.mem_cons_of_mem _ hc')⟩) (by omega)
    refine ⟨u, hu, ?_⟩
    rw [show l.length + 1 + n = (l.length + n) + 1 by omega, List.map_cons, List.cons_append, e, e']

theorem wline_full {mx : Nat} {pad : Bool} {l : List Nat} (h : pad = true ∨ (l.length = mx ∧ 0 < mx)) :
    wline mx pad l = l.map tok ++ List.replicate (mx - l.length) (.num 0) := by
  unfold wline
  cases pad with
  | true => rfl
  | false =>
    obtain ⟨h1, h2⟩ := h.resolve_left (by simp)
    simp [h1, show mx ≠ 0 by omega]

theorem wline_short {mx : Nat} {l : List Nat} (h : 0 < l.length) : wline mx false l = l.map tok := by
  unfold wline
  simp [show l.length ≠ 0 by omega]

theorem rows1_ok {R C mx : Nat} {pad : Bool} (hC : C < 2 ^ 31) (ls : List (List Nat)) {i : Nat} {m : Mat}
    {S : Finset (Nat × Nat)} {s : List Word} (h : Represents m ⟨R, C, S⟩) (hi : i + ls.length ≤ R) (hS : ∀ p ∈ S, p.1 < i)
    (hl : ∀ l ∈ ls, l.Nodup ∧ (∀ c ∈ l, c < C) ∧ l.length ≤ mx ∧ (pad = true ∨ (l.length = mx ∧ 0 < mx))) :
    (rows1 mx (ls.map List.length) i m (ls.flatMap (wline mx pad) ++ s)).Sat fun q => Represents q.1 ⟨R, C, putRows i ls S⟩ := by
  induction ls generalizing i m S with
  | nil => exact ⟨_, rfl, h⟩
  | cons l ls ih =>
    obtain ⟨h1, h2, h3, h4⟩ := hl l List.mem_cons_self
    rw [List.length_cons] at hi
    obtain ⟨t, ht, e⟩ := row1_run (n := mx - l.length) (j := 0) (deg := l.length)
      (s := List.replicate (mx - l.length) (.num 0) ++ (ls.flatMap (wline mx pad) ++ s)) l h (show i < R by omega) h2 h1
      (fun c _ hc => Nat.lt_irrefl _ (hS _ hc)) hC (by omega)
    rw [List.map_cons, List.flatMap_cons, rows1, wline_full h4, List.append_assoc, List.append_assoc]
    rw [Nat.add_sub_cancel' h3] at e
    rw [e, row1_zeros _ _ _ _ (Nat.le_refl _), bind_ok]
    refine ih ht (by omega) (fun p hp => ?_) (fun l' hl' => hl l' (List.mem_cons_of_mem _ hl'))
    rcases mem_put.1 hp with hp | ⟨hp, -⟩
    · exact Nat.lt_succ_of_lt (hS p hp)
    · omega

theorem row1_bad (i deg n : Nat) (m : Mat) (k : Nat) (hk : k < 2 ^ 31) (s : List Word) :
    row1 i deg (n + 1) deg m (tok k :: s) = exc .runtimeError := by
  rw [row1]
  simp only [tok, pop_succ hk]
  rw [if_neg (by omega)]

theorem rows1_bad {R C mx k : Nat} (hC : C < 2 ^ 31) (hk : k < 2 ^ 31) (ls : List (List Nat)) {i : Nat} {m : Mat}
    {S : Finset (Nat × Nat)} {s : List Word} (h : Represents m ⟨R, C, S⟩) (hi : i + ls.length ≤ R) (hS : ∀ p ∈ S, p.1 < i)
    (hl : ∀ l ∈ ls, l.Nodup ∧ (∀ c ∈ l, c < C) ∧ l.length ≤ mx ∧ 0 < l.length) (hx : ∃ l ∈ ls, l.length < mx) :
    rows1 mx (ls.map List.length) i m (ls.flatMap (wline mx false) ++ tok k :: s) = exc .runtimeError := by
  induction ls generalizing i m S with
  | nil => simp at hx
  | cons l ls ih =>
    obtain ⟨h1, h2, h3, h4⟩ := hl l List.mem_cons_self
    rw [List.length_cons] at hi
    rw [List.map_cons, List.flatMap_cons, rows1, wline_short h4, List.append_assoc]
    obtain ⟨t, ht, e⟩ := row1_run (n := mx - l.length) (j := 0) (deg := l.length)
      (s := ls.flatMap (wline mx false) ++ tok k :: s) l h (show i < R by omega) h2 h1
      (fun c _ hc => Nat.lt_irrefl _ (hS _ hc)) hC (by omega)
    rw [Nat.add_sub_cancel' h3] at e
    rw [e]
    rcases Nat.lt_or_ge l.length mx with hlt | hge
    · obtain ⟨n, hn⟩ : ∃ n, mx - l.length = n + 1 := ⟨mx - l.length - 1, by omega⟩
      rw [hn]
      cases ls with
      | nil =>
        rw [List.flatMap_nil, List.nil_append, row1_bad _ _ _ _ _ hk, bind_exc]
      | cons l' ls =>
        obtain ⟨-, h6, -, h5⟩ := hl l' (List.mem_cons_of_mem _ List.mem_cons_self)
        rw [List.flatMap_cons, wline_short h5]
        cases l' with
        | nil => simp at h5
        | cons c l' =>
          rw [List.map_cons, List.cons_append, List.cons_append,
            row1_bad _ _ _ _ _ (Nat.lt_trans (h6 c List.mem_cons_self) hC), bind_exc]
    · have e0 : mx - l.length = 0 := by omega
      rw [e0, row1, bind_ok]
      refine ih ht (by omega) (fun p hp => ?_) (fun l' hl' => hl l' (List.mem_cons_of_mem _ hl')) ?_
      · rcases mem_put.1 hp with hp | ⟨hp, -⟩
        · exact Nat.lt_succ_of_lt (hS p hp)
        · omega
      · obtain ⟨l', hl', hlt⟩ := hx
        rcases List.mem_cons.1 hl' with rfl | hl'
        · omega
        · exact ⟨l', hl', hlt⟩

theorem degs1_ok {mx : Nat} (hmx : mx < 2 ^ 32) (ds : List Nat) (s : List Word) (h : ∀ d ∈ ds, 0 < d ∧ d ≤ mx) :
    degs1 mx ds.length (ds.map (fun (d : Nat) => Word.num d) ++ s) = ok (ds, s) := by
  induction ds with
  | nil => rfl
  | cons d ds ih =>
    have := h d List.mem_cons_self
    rw [List.length_cons, List.map_cons, List.cons_append, degs1]
    simp only [pop_num (show d < 2 ^ 32 by omega)]
    rw [if_neg (by omega), ih fun d' hd' => h d' (List.mem_cons_of_mem _ hd')]
    rfl

theorem degs1_bad {mx : Nat} (hmx : mx < 2 ^ 32) (ds : List Nat) (s : List Word) (h : ∀ d ∈ ds, d ≤ mx) (h0 : 0 ∈ ds) :
    degs1 mx ds.length (ds.map (fun (d : Nat) => Word.num d) ++ s) = exc .runtimeError := by
  induction ds with
  | nil => simp at h0
  | cons d ds ih =>
    have := h d List.mem_cons_self
    rw [List.length_cons, List.map_cons, List.cons_append, degs1]
    simp only [pop_num (show d < 2 ^ 32 by omega)]
    rcases Nat.eq_zero_or_pos d with rfl | hd
    · rw [if_pos (Or.inl rfl)]
    · rw [if_neg (by omega), ih (fun d' hd' => h d' (List.mem_cons_of_mem _ hd'))
        (by rcases List.mem_cons.1 h0 with h0 | h0; · omega
            · exact h0)]
      rfl

/-! ## Format 2 -/

theorem rd_of {α : Type} {l : List α} {j : Nat} {w : α} (h : l[j]? = some w) : rd l j = ok w := by
  simp [rd, h]

theorem degs_ok {mx : Nat} (hmx : mx < 2 ^ 32) (ds pre : List Nat) (h : ∀ d ∈ ds, d ≤ mx) :
    degs 0 mx ((pre ++ ds).map (fun (d : Nat) => Word.num d)) ds.length pre.length = ok ds := by
  induction ds generalizing pre with
  | nil => rfl
  | cons d ds ih =>
    have hd := h d List.mem_cons_self
    have e : ((pre ++ d :: ds).map (fun (d : Nat) => Word.num d))[pre.length]? = some (.num d) := by simp
    rw [List.length_cons, degs, rd_of e, bind_ok, stoi, bind_ok, u32_nat (by omega), if_pos ⟨Nat.zero_le _, hd⟩]
    have := ih (pre ++ [d]) fun d' hd' => h d' (List.mem_cons_of_mem _ hd')
    rw [List.append_assoc, List.singleton_append, List.length_append, List.length_singleton] at this
    rw [this, bind_ok]

theorem row2_zeros (i deg : Nat) (l : List Word) (n j : Nat) (hj : deg ≤ j) (m : Mat)
    (h : ∀ (k : Nat) (w : Word), j ≤ k → l[k]? = some w → w = .num 0) : row2 i deg l n j m = ok m := by
  induction n generalizing j with
  | zero => rfl
  | succ n ih =>
    have e : (if j < l.length then rd l j >>= stoi else ok 0) = ok 0 := by
      split
      · rename_i hlt
        have := h j _ (Nat.le_refl _) (List.getElem?_eq_getElem hlt)
        rw [rd_of (List.getElem?_eq_getElem hlt), bind_ok, this]
        rfl
      · rfl
    rw [row2, e, bind_ok, if_pos (Or.inr ⟨by omega, hj⟩), if_neg (by omega), if_neg (by simp), bind_ok]
    exact ih (j + 1) (by omega) fun k w hk => h k w (by omega)

theorem row2_ok {R C i : Nat} (z : Nat) (l pre : List Nat) (n : Nat) {m : Mat} {S : Finset (Nat × Nat)}
    (h : Represents m ⟨R, C, S⟩) (hi : i < R) (hl : ∀ c ∈ l, c < C) (hd : l.Nodup) (hn : ∀ c ∈ l, (i, c) ∉ S) :
    (row2 i (pre.length + l.length) ((pre ++ l).map tok ++ List.replicate z (.num 0)) (l.length + n) pre.length m).Sat
      fun t => Represents t ⟨R, C, put i l S⟩ := by
  induction l generalizing pre m S with
  | nil =>
    refine ⟨m, row2_zeros _ _ _ _ _ (by simp) _ fun k w hk hw => ?_, h⟩
    rw [List.getElem?_append_right (by simpa using hk), List.getElem?_replicate] at hw
    split at hw
    · exact (Option.some.inj hw).symm
    · cases hw
  | cons c l ih =>
    have hlen : pre.length < ((pre ++ c :: l).map tok ++ List.replicate z (Word.num 0)).length := by simp
    have e : ((pre ++ c :: l).map tok ++ List.replicate z (.num 0))[pre.length]? = some (tok c) := by
      rw [List.getElem?_append_left (by simp), List.getElem?_map]
      simp
    rw [List.length_cons, show l.length + 1 + n = (l.length + n) + 1 by omega, row2, if_pos hlen, rd_of e, bind_ok, tok, stoi,
      bind_ok, if_pos (Or.inl ⟨by omega, by omega⟩), if_neg (by omega), if_pos (by omega),
      show ((c : Int) + 1 - 1).toNat = c by omega]
    refine (orThrow_add h (r := i) (c := c) hi (hl c List.mem_cons_self) (hn c List.mem_cons_self)).bind fun t ht => ?_
    have := ih (pre ++ [c]) ht (fun c' hc' => hl c' (List.mem_cons_of_mem _ hc')) (List.nodup_cons.1 hd).2
      (fun c' hc' => by
        rw [Finset.mem_insert, not_or, Prod.mk.injEq]
        exact ⟨fun e => (List.nodup_cons.1 hd).1 (e.2 ▸ hc'), hn c' (List.mem_cons_of_mem _ hc')⟩)
    rw [List.append_assoc, List.singleton_append, List.length_append, List.length_singleton] at this
    rw [show pre.length + (l.length + 1) = pre.length + 1 + l.length by omega]
    exact this

theorem wline_eq (mx : Nat) (pad : Bool) (l : List Nat) :
    ∃ z, wline mx pad l = l.map tok ++ List.replicate z (.num 0) ∧ (0 < mx → 0 < l.length + z) := by
  unfold wline
  cases pad with
  | true => exact ⟨mx - l.length, rfl, by omega⟩
  | false =>
    by_cases h : l.length = 0
    · exact ⟨1, by simp [h], by omega⟩
    · exact ⟨0, by simp [h], by omega⟩

theorem skip_words {l : List Word} (h : 0 < l.length) (f : File) : skip (.words l :: f) = (l, some f) := by
  cases l with
  | nil => simp at h
  | cons w l => rfl

theorem rows2_ok {R C mx : Nat} {pad : Bool} (hmx : 0 < mx) (ls : List (List Nat)) {i : Nat} {m : Mat}
    {S : Finset (Nat × Nat)} {f : File} (h : Represents m ⟨R, C, S⟩) (hi : i + ls.length ≤ R) (hS : ∀ p ∈ S, p.1 < i)
    (hl : ∀ l ∈ ls, l.Nodup ∧ (∀ c ∈ l, c < C) ∧ l.length ≤ mx) :
    (rows2 mx (ls.map List.length) i m (some ((ls.map fun l => Line.words (wline mx pad l)) ++ f))).Sat
      fun t => Represents t ⟨R, C, putRows i ls S⟩ := by
  induction ls generalizing i m S with
  | nil => exact ⟨_, rfl, h⟩
  | cons l ls ih =>
    obtain ⟨h1, h2, h3⟩ := hl l List.mem_cons_self
    rw [List.length_cons] at hi
    obtain ⟨z, ez, hz⟩ := wline_eq mx pad l
    rw [List.map_cons, List.map_cons, List.cons_append, rows2, next,
      skip_words (by rw [ez]; simpa using hz hmx), bind_ok]
    dsimp only
    rw [if_neg (by rw [ez]; simp), ez]
    have := row2_ok z l [] (mx - l.length) h (show i < R by omega) h2 h1 (fun c _ hc => Nat.lt_irrefl _ (hS _ hc))
    rw [List.length_nil, Nat.zero_add, List.nil_append, Nat.add_sub_cancel' h3] at this
    refine this.bind fun t ht => ih ht (by omega) (fun p hp => ?_) (fun l' hl' => hl l' (List.mem_cons_of_mem _ hl'))
    rcases mem_put.1 hp with hp | ⟨hp, -⟩
    · exact Nat.lt_succ_of_lt (hS p hp)
    · omega

theorem rows2_blank (mx : Nat) (ds : List Nat) (i : Nat) (m : Mat) (f : File) :
    rows2 mx ds i m (some (Line.words [] :: f)) = rows2 mx ds i m (some f) := by
  cases ds <;> rfl

/-! ## The whole file -/

theorem length_le {l : List Nat} {n : Nat} (hd : l.Nodup) (h : ∀ c ∈ l, c < n) : l.length ≤ n := by
  have := (List.subperm_of_subset hd (l₂ := List.range n) fun c hc => List.mem_range.2 (h c hc)).length_le
  rwa [List.length_range] at this

theorem two_ok {a b : Nat} (ha : a < 2 ^ 32) (hb : b < 2 ^ 32) : two [.num a, .num b] = ok (a, b) := by
  show ok (u32 a, u32 b) = _
  rw [u32_nat ha, u32_nat hb]

/-- What is known of a consistent matrix with a connection. -/
theorem facts {m : Mat} {A : Conns} (h : Represents m A) (hA : A.set.Nonempty) :
    (0 < A.rows ∧ 0 < A.cols ∧ 0 < m.rowsMax ∧ 0 < m.colsMax ∧ m.rowsMax ≤ A.cols ∧ m.colsMax ≤ A.rows) ∧
    (∀ l ∈ m.r2c, l.Nodup ∧ (∀ c ∈ l, c < A.cols) ∧ l.length ≤ m.rowsMax) ∧
    (∀ l ∈ m.c2r, (∀ c ∈ l, c < A.rows) ∧ l.length ≤ m.colsMax) ∧
    putRows 0 m.r2c ∅ = A.set := by
  obtain ⟨-, -, hadj, -, hr, hc⟩ := represents_iff.1 h
  obtain ⟨p, hp⟩ := hA
  obtain ⟨p1, p2⟩ := h.range p hp
  have hx : p.1 < m.r2c.length := by rw [h.r2c_length]; exact p1
  have hy : p.2 < m.c2r.length := by rw [h.c2r_length]; exact p2
  have l1 := List.length_pos_of_mem (((h.row p.1 hx).2 p.2).2 hp)
  have l2 := List.length_pos_of_mem (((h.col p.2 hy).2 p.1).2 hp)
  have l3 := hr.1 _ (List.getElem_mem hx)
  have l4 := hc.1 _ (List.getElem_mem hy)
  refine ⟨⟨by omega, by omega, by omega, by omega, ?_, ?_⟩, fun l hl => ?_, fun l hl => ?_, ?_⟩
  · rcases hr.2 with h0 | ⟨x, hx, e⟩
    · omega
    · obtain ⟨i, hi, rfl⟩ := List.getElem_of_mem hx
      rw [← e]
      exact length_le (h.row i hi).1 fun c hc => (h.range _ (((h.row i hi).2 c).1 hc)).2
  · rcases hc.2 with h0 | ⟨x, hx, e⟩
    · omega
    · obtain ⟨i, hi, rfl⟩ := List.getElem_of_mem hx
      rw [← e]
      exact length_le (h.col i hi).1 fun c hc => (h.range _ (((h.col i hi).2 c).1 hc)).1
  · obtain ⟨i, hi, rfl⟩ := List.getElem_of_mem hl
    exact ⟨(h.row i hi).1, fun c hc => (h.range _ (((h.row i hi).2 c).1 hc)).2, hr.1 _ hl⟩
  · obtain ⟨i, hi, rfl⟩ := List.getElem_of_mem hl
    exact ⟨fun c hc => (h.range _ (((h.col i hi).2 c).1 hc)).1, hc.1 _ hl⟩
  · ext q
    rw [mem_putRows]
    constructor
    · rintro (h' | ⟨k, l, h1, h2, h3⟩)
      · simp at h'
      · obtain ⟨hk, rfl⟩ := List.getElem?_eq_some_iff.1 h1
        have := ((h.row k hk).2 q.2).1 h3
        rwa [show k = q.1 by omega] at this
    · intro hq
      have hk : q.1 < m.r2c.length := by rw [h.r2c_length]; exact (h.range q hq).1
      exact Or.inr ⟨q.1, _, List.getElem?_eq_getElem hk, by omega, ((h.row q.1 hk).2 q.2).2 hq⟩

theorem toks_write (m : Mat) (pad : Bool) (f : File) : (write m pad ++ f).flatMap Line.toks =
    .num m.nRows :: .num m.nCols :: .num m.rowsMax :: .num m.colsMax ::
      ((m.r2c.map List.length).map (fun (d : Nat) => Word.num d) ++ ((m.c2r.map List.length).map (fun (d : Nat) => Word.num d) ++
        (m.r2c.flatMap (wline m.rowsMax pad) ++ (m.c2r.flatMap (wline m.colsMax pad) ++ f.flatMap Line.toks)))) := by
  have e : ∀ (k : Nat) (ls : List (List Nat)), (ls.map fun l => Line.words (wline k pad l)).flatMap Line.toks =
      ls.flatMap (wline k pad) := by
    intro k ls
    rw [List.flatMap_map]
    rfl
  simp only [write, List.flatMap_append, e, List.flatMap_cons, List.flatMap_nil, Line.toks, List.map_map, List.append_assoc,
    List.nil_append, List.cons_append, Function.comp_def, List.append_nil]

theorem format2_write {m : Mat} {A : Conns} (h : Represents m A) (hA : A.set.Nonempty) (hR : A.rows < 2 ^ 31)
    (hC : A.cols < 2 ^ 31) (pad : Bool) (f : File) : (format2 (write m pad ++ f)).Sat fun t => Represents t A := by
  obtain ⟨⟨a1, a2, a3, a4, a5, a6⟩, b1, b2, b3⟩ := facts h hA
  have d1 := degs_ok (mx := m.rowsMax) (by omega) (m.r2c.map List.length) [] (fun d hd => by
    obtain ⟨l, hl, rfl⟩ := List.mem_map.1 hd
    exact (b1 l hl).2.2)
  have d2 := degs_ok (mx := m.colsMax) (by omega) (m.c2r.map List.length) [] (fun d hd => by
    obtain ⟨l, hl, rfl⟩ := List.mem_map.1 hd
    exact (b2 l hl).2)
  rw [List.length_map, List.nil_append, List.map_map, h.r2c_length] at d1
  rw [List.length_map, List.nil_append, List.map_map, h.c2r_length] at d2
  have e1 : 0 < (m.r2c.map fun l => Word.num (l.length : Int)).length := by rw [List.length_map, h.r2c_length]; exact a1
  have e2 : 0 < (m.c2r.map fun l => Word.num (l.length : Int)).length := by rw [List.length_map, h.c2r_length]; exact a2
  have e3 := two_ok (a := A.rows) (b := A.cols) (by omega) (by omega)
  have e4 := two_ok (a := m.rowsMax) (b := m.colsMax) (by omega) (by omega)
  unfold format2 write
  simp only [List.cons_append, List.nil_append, next, skip, skip_words e1, skip_words e2, bind_ok, e3, e4, List.append_assoc,
    List.length_map, h.nRows, h.nCols, h.r2c_length, h.c2r_length, Nat.lt_irrefl, if_false]
  rw [if_neg (by omega), if_neg (by omega)]
  erw [d1]
  rw [bind_ok]
  erw [d2]
  rw [bind_ok]
  have := rows2_ok (pad := pad) (mx := m.rowsMax) (i := 0) (f := Line.words [] :: ((m.c2r.map fun c => Line.words (wline m.colsMax pad c)) ++ f))
    a3 m.r2c (represents_new A.rows A.cols)
    (by rw [h.r2c_length]; show 0 + A.rows ≤ A.rows; omega) (fun p hp => by simp [Conns.empty] at hp) b1
  rw [b3] at this
  rw [rows2_blank]
  exact this

theorem format1_write {m : Mat} {A : Conns} (h : Represents m A) (hA : A.set.Nonempty) (hR : A.rows < 2 ^ 31)
    (hC : A.cols < 2 ^ 31) (pad : Bool) (f : File) :
    ((format1 ((write m pad ++ f).flatMap Line.toks)).Sat fun t => Represents t A) ∨
      format1 ((write m pad ++ f).flatMap Line.toks) = exc .runtimeError := by
  obtain ⟨⟨a1, a2, a3, a4, a5, a6⟩, b1, b2, b3⟩ := facts h hA
  rw [toks_write]
  unfold format1
  simp only [pop_num (show A.rows < 2 ^ 32 by omega), pop_num (show A.cols < 2 ^ 32 by omega),
    pop_num (show m.rowsMax < 2 ^ 32 by omega), pop_num (show m.colsMax < 2 ^ 32 by omega), h.nRows, h.nCols]
  rw [if_pos ⟨a1, a2, a3, a4⟩]
  have g1 : ∀ d ∈ m.r2c.map List.length, d ≤ m.rowsMax := fun d hd => by
    obtain ⟨l, hl, rfl⟩ := List.mem_map.1 hd
    exact (b1 l hl).2.2
  have g2 : ∀ d ∈ m.c2r.map List.length, d ≤ m.colsMax := fun d hd => by
    obtain ⟨l, hl, rfl⟩ := List.mem_map.1 hd
    exact (b2 l hl).2
  have r1 : (m.r2c.map List.length).length = A.rows := by rw [List.length_map, h.r2c_length]
  have r2 : (m.c2r.map List.length).length = A.cols := by rw [List.length_map, h.c2r_length]
  by_cases z1 : 0 ∈ m.r2c.map List.length
  · have := degs1_bad (mx := m.rowsMax) (by omega) _ ((m.c2r.map List.length).map (fun (d : Nat) => Word.num d) ++
      (m.r2c.flatMap (wline m.rowsMax pad) ++ (m.c2r.flatMap (wline m.colsMax pad) ++ f.flatMap Line.toks))) g1 z1
    rw [r1] at this
    exact Or.inr (by rw [this, bind_exc])
  have := degs1_ok (mx := m.rowsMax) (by omega) _ ((m.c2r.map List.length).map (fun (d : Nat) => Word.num d) ++
    (m.r2c.flatMap (wline m.rowsMax pad) ++ (m.c2r.flatMap (wline m.colsMax pad) ++ f.flatMap Line.toks)))
    fun d hd => ⟨Nat.pos_of_ne_zero fun e => z1 (e ▸ hd), g1 d hd⟩
  rw [r1] at this
  rw [this, bind_ok]
  clear this
  dsimp only
  by_cases z2 : 0 ∈ m.c2r.map List.length
  · have := degs1_bad (mx := m.colsMax) (by omega) _
      (m.r2c.flatMap (wline m.rowsMax pad) ++ (m.c2r.flatMap (wline m.colsMax pad) ++ f.flatMap Line.toks)) g2 z2
    rw [r2] at this
    exact Or.inr (by rw [this, bind_exc])
  have := degs1_ok (mx := m.colsMax) (by omega) _
    (m.r2c.flatMap (wline m.rowsMax pad) ++ (m.c2r.flatMap (wline m.colsMax pad) ++ f.flatMap Line.toks))
    fun d hd => ⟨Nat.pos_of_ne_zero fun e => z2 (e ▸ hd), g2 d hd⟩
  rw [r2] at this
  rw [this, bind_ok]
  clear this
  dsimp only
  have pos1 : ∀ l ∈ m.r2c, 0 < l.length := fun l hl =>
    Nat.pos_of_ne_zero fun e => z1 (List.mem_map.2 ⟨l, hl, e⟩)
  have pos2 : ∀ l ∈ m.c2r, 0 < l.length := fun l hl =>
    Nat.pos_of_ne_zero fun e => z2 (List.mem_map.2 ⟨l, hl, e⟩)
  have hlen : 0 + m.r2c.length ≤ (Conns.empty A.rows A.cols).rows := by rw [h.r2c_length]; show 0 + A.rows ≤ A.rows; omega
  by_cases hx : pad = false ∧ ∃ l ∈ m.r2c, l.length < m.rowsMax
  · obtain ⟨rfl, hx⟩ := hx
    refine Or.inr ?_
    obtain ⟨c, ls, ec⟩ := List.exists_cons_of_ne_nil (l := m.c2r) (by
      intro e
      have := h.c2r_length
      rw [e] at this
      simp at this
      omega)
    obtain ⟨k, l, el⟩ := List.exists_cons_of_ne_nil (l := c) (by
      intro e
      have := pos2 c (by rw [ec]; exact List.mem_cons_self)
      rw [e] at this
      simp at this)
    have hk : k < 2 ^ 31 := by
      have := (b2 c (by rw [ec]; exact List.mem_cons_self)).1 k (by rw [el]; exact List.mem_cons_self)
      omega
    have := rows1_bad (mx := m.rowsMax) (i := 0) (s := l.map tok ++ (ls.flatMap (wline m.colsMax false) ++ f.flatMap Line.toks)) hC hk m.r2c
      (represents_new A.rows A.cols) hlen (fun p hp => by simp [Conns.empty] at hp)
      (fun l hl => ⟨(b1 l hl).1, (b1 l hl).2.1, (b1 l hl).2.2, pos1 l hl⟩) hx
    rw [ec, List.flatMap_cons, el, wline_short (by simp), List.map_cons, List.cons_append, List.cons_append,
      List.append_assoc, this, bind_exc]
  · have := rows1_ok (mx := m.rowsMax) (pad := pad) (i := 0) (s := m.c2r.flatMap (wline m.colsMax pad) ++ f.flatMap Line.toks) hC m.r2c
      (represents_new A.rows A.cols) hlen (fun p hp => by simp [Conns.empty] at hp)
      (fun l hl => ⟨(b1 l hl).1, (b1 l hl).2.1, (b1 l hl).2.2, by
        cases pad with
        | true => exact Or.inl rfl
        | false =>
          have : ¬ l.length < m.rowsMax := fun hlt => hx ⟨rfl, l, hl, hlt⟩
          exact Or.inr ⟨Nat.le_antisymm (b1 l hl).2.2 (by omega), a3⟩⟩)
    refine Or.inl (this.bind fun q hq => ?_)
    rw [b3] at hq
    exact ⟨_, rfl, hq⟩

/-! ## The matrices read from any file -/

/-- A consistent matrix of the given size. -/
def Rep (R C : Nat) (t : Mat) : Prop := ∃ S, Represents t ⟨R, C, S⟩

theorem rep_new (R C : Nat) : Rep R C (new R C) := ⟨_, represents_new R C⟩

theorem add_out {R C : Nat} {m : Mat} (h : Rep R C m) (r c : Nat) : Out (orThrow (add m r c)) (Rep R C) fun _ => True := by
  obtain ⟨S, hS⟩ := h
  obtain ⟨h1, h2⟩ := add_eq hS r c
  by_cases e : shouldThrow ⟨R, C, S⟩ (.add r c) = none
  · obtain ⟨t, et, ht⟩ := h2 e
    rw [orThrow, et]
    exact ⟨_, ht⟩
  · rw [orThrow, h1 e, bind_ok]
    obtain ⟨x, ex⟩ := Option.ne_none_iff_exists'.1 e
    rw [ex]
    trivial

theorem bind_ok_inv {α β : Type} {x : Exec α} {f : α → Exec β} {b : β} (h : (x >>= f) = ok b) : ∃ a, x = ok a ∧ f a = ok b := by
  cases x with
  | ok a => exact ⟨a, rfl, h⟩
  | exc e => cases h
  | ub => cases h

theorem stoi_out (w : Word) : Out (stoi w) (fun _ => True) fun _ => True := by cases w <;> trivial

theorem rd_out {α : Type} {l : List α} {j : Nat} (h : j < l.length) : Out (rd l j) (fun _ => True) fun _ => True := by
  rw [rd_of (List.getElem?_eq_getElem h)]
  trivial

theorem next_out (f : Option File) : Out (next f) (fun v => ∃ g, f = some g ∧ v = skip g) fun _ => True := by
  cases f with
  | none => trivial
  | some g => exact ⟨g, rfl, rfl⟩

theorem degs1_out (mx n : Nat) (s : List Word) : Out (degs1 mx n s) (fun r => r.1.length = n) fun _ => True := by
  induction n generalizing s with
  | zero => rfl
  | succ n ih =>
    rw [degs1]
    split
    · trivial
    · exact (ih _).bind fun r hr => by
        show _ + 1 = _
        rw [hr]

theorem row1_out {R C : Nat} (i deg n j : Nat) {m : Mat} (h : Rep R C m) (s : List Word) :
    Out (row1 i deg n j m s) (fun q => Rep R C q.1) fun _ => True := by
  induction n generalizing j m s with
  | zero => exact h
  | succ n ih =>
    rw [row1]
    split
    · refine Out.bind (P := Rep R C) ?_ fun t ht => ih _ ht _
      split
      · exact add_out h _ _
      · exact h
    · trivial

theorem rows1_out {R C : Nat} (mx : Nat) (ds : List Nat) (i : Nat) {m : Mat} (h : Rep R C m) (s : List Word) :
    Out (rows1 mx ds i m s) (fun q => Rep R C q.1) fun _ => True := by
  induction ds generalizing i m s with
  | nil => exact h
  | cons d ds ih => exact (row1_out _ _ _ _ h _).bind fun q hq => ih _ hq _

theorem format1_out (s : List Word) : Out (format1 s) (fun t => ∃ R C, 0 < R ∧ 0 < C ∧ Rep R C t) fun _ => True := by
  unfold format1
  dsimp only
  split
  · rename_i hp
    exact (degs1_out _ _ _).bind fun r _ => (degs1_out _ _ _).bind fun q _ =>
      (rows1_out _ _ _ (rep_new _ _) _).bind fun t ht => ⟨_, _, hp.1, hp.2.1, ht⟩
  · trivial

theorem two_out (l : List Word) : Out (two l) (fun r => ∃ a b x, l = .num a :: .num b :: x ∧ r = (u32 a, u32 b)) fun _ => True := by
  unfold two
  split
  · trivial
  · match l with
    | .num a :: .num b :: x => exact ⟨a, b, x, rfl, rfl⟩
    | .junk :: _ :: _ => trivial
    | .num _ :: .junk :: _ => trivial
    | [] => simp at *
    | [_] => simp at *

theorem degs_out (lo mx : Nat) (l : List Word) (n i : Nat) (h : i + n ≤ l.length) :
    Out (degs lo mx l n i) (fun r => r.length = n) fun _ => True := by
  induction n generalizing i with
  | zero => rfl
  | succ n ih =>
    rw [degs, bind_assoc']
    refine (rd_out (show i < l.length by omega)).bind fun w _ => (stoi_out w).bind fun z _ => ?_
    split
    · exact (ih (i + 1) (by omega)).bind fun r hr => by
        show _ + 1 = _
        rw [hr]
    · trivial

theorem row2_out {R C : Nat} (i deg : Nat) (l : List Word) (n j : Nat) {m : Mat} (h : Rep R C m) :
    Out (row2 i deg l n j m) (Rep R C) fun _ => True := by
  induction n generalizing j m with
  | zero => exact h
  | succ n ih =>
    rw [row2]
    refine Out.bind (P := fun _ => True) ?_ fun z _ => ?_
    · split
      · rename_i hj
        exact (rd_out hj).bind fun w _ => stoi_out w
      · trivial
    · split
      · refine Out.bind (P := Rep R C) ?_ fun t ht => ih _ ht
        split
        · trivial
        · split
          · exact add_out h _ _
          · exact h
      · trivial

theorem rows2_out {R C : Nat} (mx : Nat) (ds : List Nat) (i : Nat) {m : Mat} (h : Rep R C m) (f : Option File) :
    Out (rows2 mx ds i m f) (Rep R C) fun _ => True := by
  induction ds generalizing i m f with
  | nil => exact h
  | cons d ds ih =>
    rw [rows2]
    refine (next_out f).bind fun v _ => ?_
    split
    · trivial
    · exact (row2_out _ _ _ _ _ h).bind fun t ht => ih _ ht _

theorem format2_out (f : File) : Out (format2 f) (fun t => ∃ R C, 0 < R ∧ 0 < C ∧ Rep R C t) fun _ => True := by
  unfold format2
  refine (next_out _).bind fun v1 _ => (two_out _).bind fun s _ => ?_
  split
  · trivial
  refine (next_out _).bind fun v2 _ => (two_out _).bind fun d _ => ?_
  split
  · trivial
  refine (next_out _).bind fun v3 _ => ?_
  split
  · trivial
  refine (degs_out _ _ _ _ _ (by omega)).bind fun r _ => (next_out _).bind fun v4 _ => ?_
  split
  · trivial
  refine (degs_out _ _ _ _ _ (by omega)).bind fun _ _ => (rows2_out _ _ _ (rep_new _ _) _).mono (fun t ht => ?_) fun _ h => h
  exact ⟨_, _, by omega, by omega, ht⟩

theorem col3_out {R C : Nat} (i : Nat) (l : List Word) (n j : Nat) (hl : j + n ≤ l.length) {m : Mat} (h : Rep R C m) :
    Out (col3 i l n j m) (Rep R C) fun _ => True := by
  induction n generalizing j m with
  | zero => exact h
  | succ n ih =>
    rw [col3, bind_assoc']
    exact (rd_out (show j < l.length by omega)).bind fun w _ => (stoi_out w).bind fun z _ =>
      (add_out h _ _).bind fun t ht => ih _ (by omega) ht

theorem cols3_out {R C : Nat} (ds : List Nat) (i : Nat) {m : Mat} (h : Rep R C m) (f : Option File) :
    Out (cols3 ds i m f) (Rep R C) fun _ => True := by
  induction ds generalizing i m f with
  | nil => exact h
  | cons d ds ih =>
    rw [cols3]
    refine (next_out f).bind fun v _ => ?_
    split
    · trivial
    · exact (col3_out _ _ _ _ (by omega) h).bind fun t ht => ih _ ht _

theorem format3_out (f : File) (h : ∀ a b l g, skip f = (.num a :: .num b :: l, some g) → u32 a ≤ (skip g).1.length) :
    Out (format3 f) (fun t => ∃ R C, 0 < R ∧ 0 < C ∧ Rep R C t) fun _ => True := by
  unfold format3
  refine (next_out _).bind fun v1 h1 => (two_out _).bind fun s h2 => ?_
  split
  · trivial
  refine (next_out _).bind fun v2 h3 => ?_
  split
  · trivial
  obtain ⟨g, e, rfl⟩ := h1
  cases e
  obtain ⟨a, b, x, ea, rfl⟩ := h2
  obtain ⟨g', eg, rfl⟩ := h3
  have := h a b x g' (by rw [← ea, ← eg])
  refine (degs_out _ _ _ _ _ (by simpa using this)).bind fun _ _ =>
    (cols3_out _ _ (rep_new _ _) _).mono (fun t ht => ?_) fun _ h => h
  exact ⟨_, _, by omega, by omega, ht⟩

theorem format3_ok {f : File} {t : Mat} (h : format3 f = ok t) : ∃ R C, 0 < R ∧ 0 < C ∧ Rep R C t := by
  unfold format3 at h
  obtain ⟨v1, -, h⟩ := bind_ok_inv h
  obtain ⟨s, -, h⟩ := bind_ok_inv h
  split at h
  · cases h
  obtain ⟨v2, -, h⟩ := bind_ok_inv h
  split at h
  · cases h
  obtain ⟨cd, -, h⟩ := bind_ok_inv h
  have := cols3_out cd 0 (rep_new s.2 s.1) v2.2
  rw [h] at this
  exact ⟨_, _, by omega, by omega, this⟩

/-! ## The positions of the information bits -/

theorem findTitle_append (f g : File) (h : Line.title ∉ f) : findTitle (f ++ g) = findTitle g := by
  induction f with
  | nil => rfl
  | cons l f ih =>
    have := ih fun h' => h (List.mem_cons_of_mem _ h')
    cases l with
    | title => exact (h List.mem_cons_self).elim
    | comment => exact this
    | words l => exact this

theorem positions_ok (pos acc : List Nat) (h : (acc ++ pos).Nodup) (hb : ∀ p ∈ pos, p < 2 ^ 31) :
    positions (pos.map fun (p : Nat) => Word.num p) acc = ok (acc ++ pos) := by
  induction pos generalizing acc with
  | nil => simp [positions]
  | cons p pos ih =>
    have hp := hb p List.mem_cons_self
    have hn : p ∉ acc := fun hp' => (List.disjoint_of_nodup_append h) hp' List.mem_cons_self
    rw [List.map_cons, positions, stoi, bind_ok, u32_nat (by omega), if_neg hn,
      ih (acc ++ [p]) (by rw [List.append_assoc]; exact h) fun q hq => hb q (List.mem_cons_of_mem _ hq), List.append_assoc]
    rfl

end Verif.AList
