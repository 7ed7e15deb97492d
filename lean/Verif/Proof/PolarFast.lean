import Verif.Model.PolarFast
import Verif.Proof.PolarSCUse
import Verif.Proof.BCJRDec

/-! # The fast decoder computes a function of the pattern tree -/

namespace Verif.PolarFast
open Exec Verif.PolarSC Verif.Polar

variable {R : Type} {w : Nat}

/-! ## Slices -/

/-- `n` elements from `a`. -/
def sl {α : Type} (l : List α) (a n : Nat) : List α := (l.drop a).take n

/-- `v` written at `c`. -/
def splice {α : Type} (l : List α) (c : Nat) (v : List α) : List α := l.take c ++ v ++ l.drop (c + v.length)

theorem splice_length {α : Type} {l v : List α} {c : Nat} (h : c + v.length ≤ l.length) : (splice l c v).length = l.length := by
  unfold splice; simp; omega

theorem splice_get {α : Type} {l v : List α} {c : Nat} (h : c + v.length ≤ l.length) (j : Nat) :
    (splice l c v)[j]? = if c ≤ j ∧ j < c + v.length then v[j - c]? else l[j]? := by
  unfold splice
  have hc : (l.take c).length = c := by rw [List.length_take]; omega
  by_cases h1 : j < c
  · rw [if_neg (by omega), List.append_assoc, List.getElem?_append_left (by omega), List.getElem?_take, if_pos h1]
  · rw [List.append_assoc, List.getElem?_append_right (by omega), hc]
    by_cases h2 : j < c + v.length
    · rw [if_pos ⟨by omega, h2⟩, List.getElem?_append_left (by omega)]
    · rw [if_neg (by omega), List.getElem?_append_right (by omega), List.getElem?_drop]
      congr 1; omega

theorem sl_length {α : Type} {l : List α} {a n : Nat} (h : a + n ≤ l.length) : (sl l a n).length = n := by
  unfold sl; rw [List.length_take, List.length_drop]; omega

theorem sl_get {α : Type} {l : List α} {a n i : Nat} : (sl l a n)[i]? = if i < n then l[a + i]? else none := by
  unfold sl; rw [List.getElem?_take]; split
  · rw [List.getElem?_drop]
  · rfl

theorem sl_congr {α : Type} {l l' : List α} {a n : Nat} (h : ∀ j, a ≤ j → j < a + n → l'[j]? = l[j]?) : sl l' a n = sl l a n := by
  apply List.ext_getElem?
  intro i
  rw [sl_get, sl_get]
  split
  · exact h _ (by omega) (by omega)
  · rfl

theorem sl_splice {α : Type} {l v : List α} {c n : Nat} (h : c + v.length ≤ l.length) (hn : v.length = n) : sl (splice l c v) c n = v := by
  subst hn
  apply List.ext_getElem?
  intro i
  rw [sl_get, splice_get h]
  split
  · rw [if_pos (by omega)]; congr 1; omega
  · rw [List.getElem?_eq_none (by omega)]

theorem sl_take {α : Type} {l : List α} {a h : Nat} : (sl l a (h + h)).take h = sl l a h := by
  unfold sl; rw [List.take_take]; congr 1; omega

theorem sl_drop {α : Type} {l : List α} {a h : Nat} : (sl l a (h + h)).drop h = sl l (a + h) h := by
  unfold sl; rw [List.drop_take, List.drop_drop]; congr 1; omega

theorem rd_sl {α : Type} {l : List α} {a n i : Nat} {x : α} (hx : (sl l a n)[i]? = some x) : rd l (a + i) = ok x := by
  rw [sl_get] at hx
  split at hx
  · obtain ⟨h1, h2⟩ := List.getElem?_eq_some_iff.1 hx
    rw [rd_lt h1, h2]
  · cases hx

theorem set_splice {α : Type} {l v : List α} {c : Nat} {x : α} (h : c + v.length < l.length) :
    (splice l c v).set (c + v.length) x = splice l c (v ++ [x]) := by
  apply List.ext_getElem?
  intro j
  rw [List.getElem?_set, splice_length (by omega), splice_get (by omega), splice_get (by simp; omega)]
  simp only [List.length_append, List.length_singleton]
  by_cases h1 : c + v.length = j
  · rw [if_pos h1, if_pos (by omega), if_pos (by omega), List.getElem?_append_right (by omega)]
    have : j - c - v.length = 0 := by omega
    rw [this]; rfl
  · rw [if_neg h1]
    by_cases h2 : c ≤ j ∧ j < c + v.length
    · rw [if_pos h2, if_pos (by omega), List.getElem?_append_left (by omega)]
    · rw [if_neg h2, if_neg (by omega)]

/-- A loop that writes consecutive elements. -/
theorem forN_splice {α : Type} {n c : Nat} {l vals : List α} {body : Nat → List α → Exec (List α)} (hv : vals.length = n) (hc : c + n ≤ l.length)
    (hb : ∀ i l' v, vals[i]? = some v → l'.length = l.length → (∀ j, j < c ∨ c + i ≤ j → l'[j]? = l[j]?) → body i l' = wr l' (c + i) v) :
    forN n body l = ok (splice l c vals) := by
  suffices ∀ k, k ≤ n → forN k body l = ok (splice l c (vals.take k)) by
    rw [this n (Nat.le_refl _), List.take_of_length_le (by omega)]
  intro k
  induction k with
  | zero => intro _; simp [forN, splice]
  | succ k ih =>
    intro hk
    have hk' : k < vals.length := by omega
    have hl : (vals.take k).length = k := by rw [List.length_take]; omega
    rw [forN_succ, ih (by omega), bind_ok, hb k _ vals[k] (List.getElem?_eq_getElem hk') (splice_length (by omega)) ?_, wr_lt (by rw [splice_length (by omega)]; omega)]
    · have := set_splice (l := l) (v := vals.take k) (c := c) (x := vals[k]) (by omega)
      rw [hl] at this
      rw [this, List.take_append_getElem hk']
    · intro j hj
      rw [splice_get (by omega), if_neg (by omega)]

theorem splice_nil {α : Type} {l : List α} {c : Nat} : splice l c [] = l := by simp [splice]

theorem splice_splice {α : Type} {l a b : List α} {c : Nat} (h : c + a.length + b.length ≤ l.length) :
    splice (splice l c a) (c + a.length) b = splice l c (a ++ b) := by
  apply List.ext_getElem?
  intro j
  rw [splice_get (by rw [splice_length (by omega)]; omega), splice_get (by omega), splice_get (by simp; omega), List.length_append]
  by_cases h1 : c + a.length ≤ j ∧ j < c + a.length + b.length
  · rw [if_pos h1, if_pos (by omega), List.getElem?_append_right (by omega)]; congr 1; omega
  · rw [if_neg h1]
    by_cases h2 : c ≤ j ∧ j < c + a.length
    · rw [if_pos h2, if_pos (by omega), List.getElem?_append_left (by omega)]
    · rw [if_neg h2, if_neg (by omega)]

theorem splice_over {α : Type} {l a b : List α} {c : Nat} (h : c + a.length ≤ l.length) (hab : b.length = a.length) :
    splice (splice l c a) c b = splice l c b := by
  apply List.ext_getElem?
  intro j
  rw [splice_get (by rw [splice_length (by omega)]; omega), splice_get (by omega), splice_get (by omega)]
  split
  · rfl
  · rw [if_neg (by omega)]

theorem splice_fst {α : Type} {l a b a' : List α} {c : Nat} (h : c + a.length + b.length ≤ l.length) (hab : a'.length = a.length) :
    splice (splice l c (a ++ b)) c a' = splice l c (a' ++ b) := by
  apply List.ext_getElem?
  intro j
  have h1 : (a ++ b).length = a.length + b.length := List.length_append
  have h2 : (a' ++ b).length = a.length + b.length := by rw [List.length_append]; omega
  rw [splice_get (by rw [splice_length (by omega)]; omega), splice_get (by omega), splice_get (by omega)]
  by_cases h3 : c ≤ j ∧ j < c + a'.length
  · rw [if_pos h3, if_pos (by omega), List.getElem?_append_left (by omega)]
  · rw [if_neg h3]
    by_cases h4 : c ≤ j ∧ j < c + (a ++ b).length
    · rw [if_pos h4, if_pos (by omega), List.getElem?_append_right (by omega), List.getElem?_append_right (by omega)]; congr 1; omega
    · rw [if_neg h4, if_neg (by omega)]

/-! ## The result of a node -/

/-- One step of the search of the least magnitude. -/
def spcStep (A : Api R w) (p : R × Option Nat × Bool) (x : R × Nat) : R × Option Nat × Bool :=
  let neg := decide (A.fns.h x.1 ≠ 0)
  let m := A.smul neg x.1
  if A.gt p.1 m then (m, some x.2, p.2.2 ^^ neg) else (p.1, p.2.1, p.2.2 ^^ neg)

/-- The least magnitude, its position, the parity. -/
def spcScan (A : Api R w) (y : List R) : R × Option Nat × Bool := y.zipIdx.foldl (spcStep A) (A.top, none, false)

/-- The bit decided otherwise. -/
def flip (b : BitVec w) : BitVec w := if b = 0 then bitInit w else 0

/-- The result of a terminal node. -/
def term (A : Api R w) (t : NT) (y : List R) : Option (List (BitVec w)) :=
  match t with
  | .r0 => some (List.replicate y.length 0)
  | .r1 => some (y.map A.fns.h)
  | .rep => some (List.replicate y.length (A.fns.h (y.foldl A.acc A.fns.zero)))
  | .spc =>
    if (spcScan A y).2.2 then (spcScan A y).2.1.map fun p => (y.map A.fns.h).modify p flip
    else some (y.map A.fns.h)
  | _ => none

/-- The result of a node: the bits of its codeword, from its soft values. -/
def dec (A : Api R w) : Nat → Bin (NT × Nat) → List R → Option (List (BitVec w))
  | _, .leaf _ c, y => term A c.1 y
  | 0, .node _ _ _ _, _ => none
  | k + 1, .node _ c l r, y =>
    let a := y.take (2 ^ k)
    let b := y.drop (2 ^ k)
    match c.1 with
    | .std => (dec A k l (List.zipWith A.fns.f a b)).bind fun xl =>
        (dec A k r (zip3 A.fns.g a b xl)).bind fun xr => some (List.zipWith (· ^^^ ·) xl xr ++ xr)
    | .r0l => (dec A k r (List.zipWith A.g0 a b)).bind fun xr => some (xr ++ xr)
    | .repl => (dec A k l (List.zipWith A.fns.f a b)).bind fun xl =>
        (dec A k r (List.zipWith (fun a b => A.fns.g a b (xl.headD 0)) a b)).bind fun xr => some (List.zipWith (· ^^^ ·) xl xr ++ xr)
    | _ => none

/-- The trees that the parser builds. -/
def Tree : Nat → Bin (NT × Nat) → Prop
  | k, .leaf _ c => c.1.terminal = true ∧ (k = 0 → c.1 = .r0 ∨ c.1 = .r1)
  | 0, .node _ _ _ _ => False
  | k + 1, .node _ c l r => c.1.terminal = false ∧ (c.1 = .r0l → l.c.1 = .r0) ∧ Tree k l ∧ Tree k r

theorem spcScan_snoc (A : Api R w) (y : List R) (x : R) : spcScan A (y ++ [x]) = spcStep A (spcScan A y) (x, y.length) := by
  unfold spcScan; rw [List.zipIdx_append, List.foldl_append]; simp [List.zipIdx_cons]

theorem spcScan_pos (A : Api R w) : ∀ (y : List R) {p : Nat}, (spcScan A y).2.1 = some p → p < y.length := by
  intro y
  induction y using List.reverseRecOn with
  | nil => intro p h; simp [spcScan] at h
  | append_singleton y x ih =>
    intro p h
    rw [spcScan_snoc] at h
    unfold spcStep at h
    simp only at h
    rw [List.length_append, List.length_singleton]
    split at h
    · simp only [Option.some.injEq] at h; omega
    · have := ih h; omega

theorem term_length (A : Api R w) {t : NT} {y : List R} {x : List (BitVec w)} (h : term A t y = some x) : x.length = y.length := by
  unfold term at h
  split at h
  · cases h; simp
  · cases h; simp
  · cases h; simp
  · split at h
    · rw [Option.map_eq_some_iff] at h
      obtain ⟨p, _, rfl⟩ := h
      simp
    · cases h; simp
  · cases h

theorem zip3_length {g : R → R → BitVec w → R} {a b : List R} {x : List (BitVec w)} {n : Nat} (ha : a.length = n) (hb : b.length = n) (hx : x.length = n) :
    (zip3 g a b x).length = n := by unfold zip3; simp; omega

theorem dec_length (A : Api R w) : ∀ {k : Nat} {t : Bin (NT × Nat)} {y : List R} {x : List (BitVec w)}, y.length = 2 ^ k → dec A k t y = some x → x.length = 2 ^ k
  | k, .leaf _ c, y, x, hy, h => by
    have h : term A c.1 y = some x := by cases k <;> exact h
    rw [term_length A h, hy]
  | 0, .node _ _ _ _, _, _, _, h => by cases h
  | k + 1, .node _ c l r, y, x, hy, h => by
    have hp : 2 ^ (k + 1) = 2 ^ k + 2 ^ k := by rw [Nat.pow_succ]; omega
    have ha : (y.take (2 ^ k)).length = 2 ^ k := by rw [List.length_take]; omega
    have hb : (y.drop (2 ^ k)).length = 2 ^ k := by rw [List.length_drop]; omega
    unfold dec at h
    simp only at h
    split at h
    · obtain ⟨xl, e1, h⟩ := Option.bind_eq_some_iff.1 h
      obtain ⟨xr, e2, h⟩ := Option.bind_eq_some_iff.1 h
      have h1 := dec_length A (by simp [hp]; omega) e1
      have h2 := dec_length A (zip3_length ha hb h1) e2
      cases h
      rw [List.length_append, List.length_zipWith]; omega
    · obtain ⟨xr, e2, h⟩ := Option.bind_eq_some_iff.1 h
      have h2 := dec_length A (by rw [List.length_zipWith]; omega) e2
      cases h
      rw [List.length_append]; omega
    · obtain ⟨xl, e1, h⟩ := Option.bind_eq_some_iff.1 h
      obtain ⟨xr, e2, h⟩ := Option.bind_eq_some_iff.1 h
      have h1 := dec_length A (by simp [hp]; omega) e1
      have h2 := dec_length A (by rw [List.length_zipWith]; omega) e2
      cases h
      rw [List.length_append, List.length_zipWith]; omega
    · cases h

/-! ## Loops -/

section
variable (A : Api R w) {l : List R} {s : List (BitVec w)} {a o c n : Nat}

theorem fAt_eq {b : Nat} (hb : b + n ≤ c) (ha : a + n ≤ c) (hc : c + n ≤ l.length) :
    fAt A l a b c n = ok (splice l c (List.zipWith A.fns.f (sl l a n) (sl l b n))) := by
  have h1 := sl_length (l := l) (a := a) (n := n) (by omega)
  have h2 := sl_length (l := l) (a := b) (n := n) (by omega)
  refine forN_splice (by rw [List.length_zipWith]; omega) hc fun i l' v hv hl hj => ?_
  rw [List.getElem?_zipWith_eq_some] at hv
  obtain ⟨x, y, hx, hy, rfl⟩ := hv
  have hi : i < n := by have := (List.getElem?_eq_some_iff.1 hx).1; omega
  have e1 : rd l' (a + i) = ok x := by
    rw [sl_get, if_pos hi, ← hj _ (by omega)] at hx
    obtain ⟨h1, h2⟩ := List.getElem?_eq_some_iff.1 hx
    rw [rd_lt h1, h2]
  have e2 : rd l' (b + i) = ok y := by
    rw [sl_get, if_pos hi, ← hj _ (by omega)] at hy
    obtain ⟨h1, h2⟩ := List.getElem?_eq_some_iff.1 hy
    rw [rd_lt h1, h2]
  simp only [e1, e2, bind_ok]

theorem g0At_eq {b : Nat} (hb : b + n ≤ c) (ha : a + n ≤ c) (hc : c + n ≤ l.length) :
    g0At A l a b c n = ok (splice l c (List.zipWith A.g0 (sl l a n) (sl l b n))) :=
  fAt_eq (w := w) ⟨⟨A.g0, A.fns.g, A.fns.h, A.fns.zero, A.fns.one, A.fns.mone⟩, A.g0, A.acc, A.smul, A.gt, A.top⟩ hb ha hc

theorem grAt_eq {b : Nat} {u : BitVec w} (hu : s[o]? = some u) (hb : b + n ≤ c) (ha : a + n ≤ c) (hc : c + n ≤ l.length) :
    grAt A s l a b o c n = ok (splice l c (List.zipWith (fun a b => A.fns.g a b u) (sl l a n) (sl l b n))) := by
  unfold grAt
  obtain ⟨h1, h2⟩ := List.getElem?_eq_some_iff.1 hu
  rw [rd_lt h1, h2, bind_ok]
  exact fAt_eq (w := w) ⟨⟨fun a b => A.fns.g a b u, A.fns.g, A.fns.h, A.fns.zero, A.fns.one, A.fns.mone⟩, A.g0, A.acc, A.smul, A.gt, A.top⟩ hb ha hc

theorem gAt_eq {b : Nat} (hb : b + n ≤ c) (ha : a + n ≤ c) (hc : c + n ≤ l.length) (ho : o + n ≤ s.length) :
    gAt A s l a b o c n = ok (splice l c (zip3 A.fns.g (sl l a n) (sl l b n) (sl s o n))) := by
  have h1 := sl_length (l := l) (a := a) (n := n) (by omega)
  have h2 := sl_length (l := l) (a := b) (n := n) (by omega)
  have h3 := sl_length (l := s) (a := o) (n := n) (by omega)
  refine forN_splice (zip3_length h1 h2 h3) hc fun i l' v hv hl hj => ?_
  unfold zip3 at hv
  rw [List.getElem?_zipWith_eq_some] at hv
  obtain ⟨x, ⟨y, u⟩, hx, hy, rfl⟩ := hv
  have hi : i < n := by have := (List.getElem?_eq_some_iff.1 hx).1; omega
  rw [List.zip_eq_zipWith, List.getElem?_zipWith_eq_some] at hy
  obtain ⟨y', u', hy, hu, e⟩ := hy
  cases e
  have e1 : rd l' (a + i) = ok x := by
    rw [sl_get, if_pos hi, ← hj _ (by omega)] at hx
    obtain ⟨h1, h2⟩ := List.getElem?_eq_some_iff.1 hx
    rw [rd_lt h1, h2]
  have e2 : rd l' (b + i) = ok y := by
    rw [sl_get, if_pos hi, ← hj _ (by omega)] at hy
    obtain ⟨h1, h2⟩ := List.getElem?_eq_some_iff.1 hy
    rw [rd_lt h1, h2]
  simp only [e1, e2, rd_sl hu, bind_ok]

theorem h0At_eq (ho : o + n ≤ s.length) : h0At s o n = ok (splice s o (List.replicate n 0)) := by
  refine forN_splice (by simp) ho fun i l' v hv hl hj => ?_
  rw [List.getElem?_replicate] at hv
  split at hv <;> cases hv
  rfl

theorem hAt_eq (ha : a + n ≤ l.length) (ho : o + n ≤ s.length) : hAt A l a s o n = ok (splice s o ((sl l a n).map A.fns.h)) := by
  have h1 := sl_length (l := l) (a := a) (n := n) ha
  refine forN_splice (by simp [h1]) ho fun i l' v hv hl hj => ?_
  rw [List.getElem?_map, Option.map_eq_some_iff] at hv
  obtain ⟨x, hx, rfl⟩ := hv
  simp only [rd_sl hx, bind_ok]

theorem repSum_eq (ha : a + n ≤ l.length) : forN n (fun i z => do let x ← rd l (a + i); ok (A.acc z x)) A.fns.zero = ok ((sl l a n).foldl A.acc A.fns.zero) := by
  have h1 := sl_length (l := l) (a := a) (n := n) ha
  suffices ∀ k, k ≤ n → forN k (fun i z => do let x ← rd l (a + i); ok (A.acc z x)) A.fns.zero = ok (((sl l a n).take k).foldl A.acc A.fns.zero) by
    rw [this n (Nat.le_refl _), List.take_of_length_le (by omega)]
  intro k
  induction k with
  | zero => intro _; rfl
  | succ k ih =>
    intro hk
    have hk' : k < (sl l a n).length := by omega
    rw [forN_succ, ih (by omega), bind_ok]
    simp only [rd_sl (List.getElem?_eq_getElem hk'), bind_ok]
    rw [← List.take_append_getElem hk', List.foldl_append]
    rfl

theorem repAt_eq (ha : a + n ≤ l.length) (ho : o + n ≤ s.length) :
    repAt A l a s o n = ok (splice s o (List.replicate n (A.fns.h ((sl l a n).foldl A.acc A.fns.zero)))) := by
  unfold repAt
  rw [repSum_eq A ha, bind_ok]
  refine forN_splice (by simp) ho fun i l' v hv hl hj => ?_
  rw [List.getElem?_replicate] at hv
  split at hv <;> cases hv
  rfl

theorem spcLoop_eq (ha : a + n ≤ l.length) (ho : o + n ≤ s.length) : ∀ k, k ≤ n →
    forN k (spcBody A l a o) ⟨s, A.top, none, false⟩ =
      ok ⟨splice s o (((sl l a n).take k).map A.fns.h), (spcScan A ((sl l a n).take k)).1, (spcScan A ((sl l a n).take k)).2.1, (spcScan A ((sl l a n).take k)).2.2⟩ := by
  have h1 := sl_length (l := l) (a := a) (n := n) ha
  intro k
  induction k with
  | zero => intro _; simp [forN, splice, spcScan]
  | succ k ih =>
    intro hk
    have hk' : k < (sl l a n).length := by omega
    have hl : ((sl l a n).take k).length = k := by rw [List.length_take]; omega
    rw [forN_succ, ih (by omega), bind_ok]
    unfold spcBody
    have hml : (((sl l a n).take k).map A.fns.h).length = k := by rw [List.length_map, hl]
    simp only [rd_sl (List.getElem?_eq_getElem hk'), bind_ok]
    rw [wr_lt (by rw [splice_length (by omega)]; omega), bind_ok]
    have := set_splice (l := s) (v := ((sl l a n).take k).map A.fns.h) (c := o) (x := A.fns.h (sl l a n)[k]) (by omega)
    rw [hml] at this
    rw [this, ← List.take_append_getElem hk', spcScan_snoc, List.map_append, hl]
    unfold spcStep
    simp only [List.map_cons, List.map_nil]
    split <;> rfl

theorem spcAt_eq (ha : a + n ≤ l.length) (ho : o + n ≤ s.length) {x : List (BitVec w)} (hx : term A .spc (sl l a n) = some x) :
    spcAt A l a s o n = ok (splice s o x) := by
  have h1 := sl_length (l := l) (a := a) (n := n) ha
  have h2 := spcLoop_eq A ha ho n (Nat.le_refl _)
  rw [List.take_of_length_le (by omega)] at h2
  unfold spcAt
  rw [h2, bind_ok]
  unfold term at hx
  simp only at hx ⊢
  split at hx
  · rename_i hodd
    rw [if_pos hodd]
    rw [Option.map_eq_some_iff] at hx
    obtain ⟨p, hp, rfl⟩ := hx
    have hlt := spcScan_pos A _ hp
    rw [hp]
    simp only
    have hm : ((sl l a n).map A.fns.h).length = n := by rw [List.length_map, h1]
    have hlt' : p < ((sl l a n).map A.fns.h).length := by omega
    have hg : (splice s o ((sl l a n).map A.fns.h))[o + p]? = some ((sl l a n).map A.fns.h)[p] := by
      rw [splice_get (by omega), if_pos (by omega)]
      rw [show o + p - o = p by omega, List.getElem?_eq_getElem hlt']
    obtain ⟨g1, g2⟩ := List.getElem?_eq_some_iff.1 hg
    rw [rd_lt g1, g2, bind_ok, wr_lt g1]
    congr 1
    apply List.ext_getElem?
    intro j
    rw [splice_get (by rw [List.length_modify]; omega), List.length_modify, List.getElem?_modify, List.getElem?_set]
    by_cases h3 : o + p = j
    · have hj : j - o = p := by omega
      have hc : o ≤ j ∧ j < o + ((sl l a n).map A.fns.h).length := by omega
      rw [if_pos h3, if_pos g1, if_pos hc, hj, List.getElem?_eq_getElem hlt']
      simp [flip]
    · rw [if_neg h3, splice_get (by omega)]
      have hj : o ≤ j → ¬ p = j - o := by omega
      split
      · rename_i h4
        simp only [if_neg (hj h4.1)]
        simp
      · rfl
  · rename_i hodd
    cases hx
    rw [if_neg hodd]

theorem xoAt_eq {b : Nat} (hb : a + n ≤ b) (hs : b + n ≤ s.length) : xoAt s a b n = ok (splice s a (List.zipWith (· ^^^ ·) (sl s a n) (sl s b n))) := by
  have h1 := sl_length (l := s) (a := a) (n := n) (by omega)
  have h2 := sl_length (l := s) (a := b) (n := n) (by omega)
  refine forN_splice (by rw [List.length_zipWith]; omega) (by omega) fun i l' v hv hl hj => ?_
  rw [List.getElem?_zipWith_eq_some] at hv
  obtain ⟨x, y, hx, hy, rfl⟩ := hv
  have hi : i < n := by have := (List.getElem?_eq_some_iff.1 hx).1; omega
  have e1 : rd l' (a + i) = ok x := by
    rw [sl_get, if_pos hi, ← hj _ (by omega)] at hx
    obtain ⟨h1, h2⟩ := List.getElem?_eq_some_iff.1 hx
    rw [rd_lt h1, h2]
  have e2 : rd l' (b + i) = ok y := by
    rw [sl_get, if_pos hi, ← hj _ (by omega)] at hy
    obtain ⟨h1, h2⟩ := List.getElem?_eq_some_iff.1 hy
    rw [rd_lt h1, h2]
  simp only [e1, e2, bind_ok]

theorem xo0At_eq {b : Nat} (hb : a + n ≤ b) (hs : b + n ≤ s.length) : xo0At s b a n = ok (splice s a (sl s b n)) := by
  have h2 := sl_length (l := s) (a := b) (n := n) (by omega)
  refine forN_splice h2 (by omega) fun i l' v hv hl hj => ?_
  have hi : i < n := by have := (List.getElem?_eq_some_iff.1 hv).1; omega
  have e2 : rd l' (b + i) = ok v := by
    rw [sl_get, if_pos hi, ← hj _ (by omega)] at hv
    obtain ⟨h1, h2⟩ := List.getElem?_eq_some_iff.1 hv
    rw [rd_lt h1, h2]
  simp only [e2, bind_ok]

theorem terminalNode_eq {t : NT} (ha : a + n ≤ l.length) (ho : o + n ≤ s.length) {x : List (BitVec w)} (hx : term A t (sl l a n) = some x) :
    terminalNode A t l s a o n = ok (splice s o x) := by
  have h1 := sl_length (l := l) (a := a) (n := n) ha
  cases t <;> unfold terminalNode <;> simp only
  case r0 => unfold term at hx; cases hx; rw [h0At_eq ho, h1]
  case r1 => unfold term at hx; cases hx; exact hAt_eq A ha ho
  case rep => unfold term at hx; cases hx; rw [repAt_eq A ha ho, h1]
  case spc => exact spcAt_eq A ha ho hx
  all_goals (unfold term at hx; cases hx)

end

/-- The types of a subtree begin with its own. -/
theorem types_head : ∀ (t : Bin (NT × Nat)), ∃ r, types t = t.c.1 :: r
  | .leaf _ _ => ⟨[], rfl⟩
  | .node _ _ _ _ => ⟨_, rfl⟩

theorem rd_drop {α : Type} {l : List α} {i : Nat} {x : α} {r : List α} (h : l.drop i = x :: r) : rd l i = ok x := by
  have : l[i]? = some x := by
    have h1 : (l.drop i)[0]? = some x := by rw [h]; rfl
    rw [List.getElem?_drop] at h1
    simpa using h1
  obtain ⟨h1, h2⟩ := List.getElem?_eq_some_iff.1 this
  rw [rd_lt h1, h2]

/-- `recursive_decode` computes `dec` on the soft values of the node. -/
theorem decodeRec_eq (A : Api R w) {ty : List NT} : ∀ {k : Nat} {t : Bin (NT × Nat)} {a o id : Nat} {l : List R} {s x : List (BitVec w)} {post : List NT},
    Tree k t → ty.drop id = types t ++ post → a + 2 ^ (k + 1) ≤ l.length → o + 2 ^ k ≤ s.length → dec A k t (sl l a (2 ^ k)) = some x →
    ∃ l', decodeRec A ty k a o (l, s, id) = ok (l', splice s o x, id + (types t).length - 1) ∧ l'.length = l.length ∧ ∀ j, j < a + 2 ^ k → l'[j]? = l[j]?
  | 0, .leaf lane c, a, o, id, l, s, x, post, ht, hty, hl, hs, hx => by
    have hty : ty.drop id = c.1 :: post := hty
    refine ⟨l, ?_, rfl, fun _ _ => rfl⟩
    unfold decodeRec
    simp only [Nat.pow_zero, Nat.zero_add, Nat.pow_one] at hl hs hx ⊢
    rw [rd_drop hty, bind_ok, terminalNode_eq A (by omega) hs hx, bind_ok]
    rfl
  | 0, .node _ _ _ _, _, _, _, _, _, _, _, ht, _, _, _, _ => ht.elim
  | k + 1, .leaf lane c, a, o, id, l, s, x, post, ht, hty, hl, hs, hx => by
    have hty : ty.drop id = c.1 :: post := hty
    refine ⟨l, ?_, rfl, fun _ _ => rfl⟩
    unfold decodeRec
    have hp : 2 ^ (k + 1 + 1) = 2 ^ (k + 1) + 2 ^ (k + 1) := by rw [Nat.pow_succ]; omega
    have hpos : 0 < 2 ^ (k + 1) := Nat.two_pow_pos _
    rw [rd_drop hty, bind_ok, if_pos ht.1, terminalNode_eq A (by omega) hs hx, bind_ok]
    rfl
  | k + 1, .node lane c tl tr, a, o, id, l, s, x, post, ht, hty, hl, hs, hx => by
    obtain ⟨t1, t2, t3, t4⟩ := ht
    have hp : 2 ^ (k + 1 + 1) = 2 ^ (k + 1) + 2 ^ (k + 1) := by rw [Nat.pow_succ]; omega
    have hp' : 2 ^ (k + 1) = 2 ^ k + 2 ^ k := by rw [Nat.pow_succ]; omega
    have hty : ty.drop id = c.1 :: (types tl ++ types tr ++ post) := hty
    have hty1 : ty.drop (id + 1) = types tl ++ (types tr ++ post) := by
      rw [← List.drop_drop, hty, List.drop_one, List.tail_cons, List.append_assoc]
    obtain ⟨rl, el⟩ := types_head tl
    obtain ⟨rr, er⟩ := types_head tr
    have pl : 0 < (types tl).length := by rw [el]; simp
    have pr : 0 < (types tr).length := by rw [er]; simp
    have hty2 : ty.drop (id + 1 + (types tl).length - 1 + 1) = types tr ++ post := by
      rw [show id + 1 + (types tl).length - 1 + 1 = (id + 1) + (types tl).length by omega, ← List.drop_drop, hty1, List.drop_left]
    have hid : id + 1 + (types tl).length - 1 + 1 + (types tr).length - 1 = id + (types (Bin.node lane c tl tr)).length - 1 := by
      simp only [types, List.length_cons, List.length_append]; omega
    unfold decodeRec
    rw [rd_drop hty, bind_ok, if_neg (by rw [t1]; simp)]
    unfold dec at hx
    simp only [hp', sl_take, sl_drop] at hx
    have hpos : 0 < 2 ^ k := Nat.two_pow_pos k
    have la := sl_length (l := l) (a := a) (n := 2 ^ k) (by omega)
    have lb := sl_length (l := l) (a := a + 2 ^ k) (n := 2 ^ k) (by omega)
    -- the two children
    have left : ∀ {l1 : List R} {xl : List (BitVec w)}, l1.length = l.length → (∀ j, j < a + 2 ^ (k + 1) → l1[j]? = l[j]?) → dec A k tl (sl l1 (a + 2 ^ (k + 1)) (2 ^ k)) = some xl →
        ∃ l2, decodeRec A ty k (a + 2 ^ (k + 1)) o (l1, s, id + 1) = ok (l2, splice s o xl, id + 1 + (types tl).length - 1) ∧ l2.length = l.length ∧
          (∀ j, j < a + 2 ^ (k + 1) → l2[j]? = l[j]?) ∧ xl.length = 2 ^ k := by
      intro l1 xl h1 h2 h3
      obtain ⟨l2, e, e1, e2⟩ := decodeRec_eq A (a := a + 2 ^ (k + 1)) (o := o) (s := s) t3 hty1 (by omega) (by omega) h3
      exact ⟨l2, e, by omega, fun j hj => by rw [e2 j (by omega), h2 j hj], dec_length A (sl_length (by omega)) h3⟩
    have right : ∀ {l1 : List R} {s1 xr : List (BitVec w)}, l1.length = l.length → (∀ j, j < a + 2 ^ (k + 1) → l1[j]? = l[j]?) → s1.length = s.length →
        dec A k tr (sl l1 (a + 2 ^ (k + 1)) (2 ^ k)) = some xr →
        ∃ l2, decodeRec A ty k (a + 2 ^ (k + 1)) (o + 2 ^ k) (l1, s1, id + 1 + (types tl).length - 1 + 1) =
            ok (l2, splice s1 (o + 2 ^ k) xr, id + (types (Bin.node lane c tl tr)).length - 1) ∧ l2.length = l.length ∧
          (∀ j, j < a + 2 ^ (k + 1) → l2[j]? = l[j]?) ∧ xr.length = 2 ^ k := by
      intro l1 s1 xr h1 h2 h3 h4
      obtain ⟨l2, e, e1, e2⟩ := decodeRec_eq A (a := a + 2 ^ (k + 1)) (o := o + 2 ^ k) (s := s1) t4 hty2 (by omega) (by omega) h4
      rw [hid] at e
      exact ⟨l2, e, by omega, fun j hj => by rw [e2 j (by omega), h2 j hj], dec_length A (sl_length (by omega)) h4⟩
    have keep : ∀ {l1 v : List R}, l1.length = l.length → (∀ j, j < a + 2 ^ (k + 1) → l1[j]? = l[j]?) → v.length = 2 ^ k →
        (splice l1 (a + 2 ^ (k + 1)) v).length = l.length ∧ (∀ j, j < a + 2 ^ (k + 1) → (splice l1 (a + 2 ^ (k + 1)) v)[j]? = l[j]?) ∧
          sl (splice l1 (a + 2 ^ (k + 1)) v) (a + 2 ^ (k + 1)) (2 ^ k) = v := by
      intro l1 v h1 h2 h3
      exact ⟨by rw [splice_length (by omega), h1], fun j hj => by rw [splice_get (by omega), if_neg (by omega), h2 j hj], sl_splice (by omega) h3⟩
    have same : ∀ {l1 : List R}, (∀ j, j < a + 2 ^ (k + 1) → l1[j]? = l[j]?) → sl l1 a (2 ^ k) = sl l a (2 ^ k) ∧ sl l1 (a + 2 ^ k) (2 ^ k) = sl l (a + 2 ^ k) (2 ^ k) :=
      fun h => ⟨sl_congr fun j _ h2 => h j (by omega), sl_congr fun j _ h2 => h j (by omega)⟩
    have final : ∀ {xl xr : List (BitVec w)}, xl.length = 2 ^ k → xr.length = 2 ^ k →
        sl (splice (splice s o xl) (o + 2 ^ k) xr) o (2 ^ k) = xl ∧ sl (splice (splice s o xl) (o + 2 ^ k) xr) (o + 2 ^ k) (2 ^ k) = xr ∧
          (splice (splice s o xl) (o + 2 ^ k) xr).length = s.length ∧
          ∀ z : List (BitVec w), z.length = 2 ^ k → splice (splice (splice s o xl) (o + 2 ^ k) xr) o z = splice s o (z ++ xr) := by
      intro xl xr h1 h2
      have e : splice (splice s o xl) (o + 2 ^ k) xr = splice s o (xl ++ xr) := by rw [← h1]; exact splice_splice (by omega)
      have hl' : (splice s o xl).length = s.length := splice_length (by omega)
      refine ⟨?_, sl_splice (by omega) h2, by rw [splice_length (by omega), hl'], fun z hz => ?_⟩
      · rw [sl_congr (l := splice s o xl) fun j _ hj => by rw [splice_get (by omega), if_neg (by omega)]]
        exact sl_splice (by omega) h1
      · rw [e]; exact splice_fst (by omega) (by omega)
    split at hx
    · rename_i hc
      rw [hc]
      obtain ⟨xl, e1, hx⟩ := Option.bind_eq_some_iff.1 hx
      obtain ⟨xr, e2, hx⟩ := Option.bind_eq_some_iff.1 hx
      cases hx
      simp only [beforeLeft, beforeRight, afterRight]
      rw [fAt_eq A (by omega) (by omega) (by omega), bind_ok]
      obtain ⟨k1, k2, k3⟩ := keep rfl (fun _ _ => rfl) (v := List.zipWith A.fns.f (sl l a (2 ^ k)) (sl l (a + 2 ^ k) (2 ^ k))) (by rw [List.length_zipWith]; omega)
      obtain ⟨l2, f1, f2, f3, f4⟩ := left k1 k2 (by rw [k3]; exact e1)
      rw [f1, bind_ok]
      obtain ⟨s1, s2⟩ := same f3
      dsimp only
      rw [gAt_eq A (by omega) (by omega) (by omega) (by rw [splice_length (by omega)]; omega), bind_ok, s1, s2, sl_splice (by omega) f4]
      obtain ⟨m1, m2, m3⟩ := keep f2 f3 (zip3_length la lb f4 (g := A.fns.g))
      obtain ⟨l3, g1, g2, g3, g4⟩ := right m1 m2 (s1 := splice s o xl) (splice_length (by omega)) (by rw [m3]; exact e2)
      rw [g1, bind_ok]
      obtain ⟨q1, q2, q3, q4⟩ := final f4 g4
      refine ⟨l3, ?_, g2, fun j hj => g3 j hj⟩
      rw [xoAt_eq (by omega) (by rw [q3]; omega), q1, q2, q4 _ (by rw [List.length_zipWith]; omega)]
      rfl
    · rename_i hc
      rw [hc]
      obtain ⟨xr, e2, hx⟩ := Option.bind_eq_some_iff.1 hx
      cases hx
      simp only [beforeLeft, beforeRight, afterRight, bind_ok]
      have hz : dec A k tl (sl l (a + 2 ^ (k + 1)) (2 ^ k)) = some (List.replicate (2 ^ k) 0) := by
        have h0 := t2 hc
        cases tl with
        | leaf ln cl =>
          have : dec A k (.leaf ln cl) (sl l (a + 2 ^ (k + 1)) (2 ^ k)) = term A cl.1 (sl l (a + 2 ^ (k + 1)) (2 ^ k)) := by cases k <;> rfl
          rw [this, show cl.1 = .r0 from h0]
          simp only [term]
          rw [sl_length (by omega)]
        | node ln cl a b =>
          cases k with
          | zero => exact t3.elim
          | succ k => have := t3.1; rw [show cl.1 = .r0 from h0] at this; cases this
      obtain ⟨l2, f1, f2, f3, f4⟩ := left rfl (fun _ _ => rfl) hz
      rw [f1, bind_ok]
      obtain ⟨s1, s2⟩ := same f3
      dsimp only
      rw [g0At_eq A (by omega) (by omega) (by omega), bind_ok, s1, s2]
      obtain ⟨m1, m2, m3⟩ := keep f2 f3 (v := List.zipWith A.g0 (sl l a (2 ^ k)) (sl l (a + 2 ^ k) (2 ^ k))) (by rw [List.length_zipWith]; omega)
      obtain ⟨l3, g1, g2, g3, g4⟩ := right m1 m2 (s1 := splice s o (List.replicate (2 ^ k) 0)) (splice_length (by omega)) (by rw [m3]; exact e2)
      rw [g1, bind_ok]
      obtain ⟨q1, q2, q3, q4⟩ := final f4 g4
      refine ⟨l3, ?_, g2, fun j hj => g3 j hj⟩
      rw [xo0At_eq (by omega) (by rw [q3]; omega), q2, q4 _ g4]
      rfl
    · rename_i hc
      rw [hc]
      obtain ⟨xl, e1, hx⟩ := Option.bind_eq_some_iff.1 hx
      obtain ⟨xr, e2, hx⟩ := Option.bind_eq_some_iff.1 hx
      cases hx
      simp only [beforeLeft, beforeRight, afterRight]
      rw [fAt_eq A (by omega) (by omega) (by omega), bind_ok]
      obtain ⟨k1, k2, k3⟩ := keep rfl (fun _ _ => rfl) (v := List.zipWith A.fns.f (sl l a (2 ^ k)) (sl l (a + 2 ^ k) (2 ^ k))) (by rw [List.length_zipWith]; omega)
      obtain ⟨l2, f1, f2, f3, f4⟩ := left k1 k2 (by rw [k3]; exact e1)
      rw [f1, bind_ok]
      obtain ⟨s1, s2⟩ := same f3
      dsimp only
      have hu : (splice s o xl)[o]? = some (xl.headD 0) := by
        rw [splice_get (by omega), if_pos (by omega), Nat.sub_self]
        cases xl with
        | nil => simp at f4; omega
        | cons z xl => rfl
      rw [grAt_eq A hu (by omega) (by omega) (by omega), bind_ok, s1, s2]
      obtain ⟨m1, m2, m3⟩ := keep f2 f3 (v := List.zipWith (fun a b => A.fns.g a b (xl.headD 0)) (sl l a (2 ^ k)) (sl l (a + 2 ^ k) (2 ^ k))) (by rw [List.length_zipWith]; omega)
      obtain ⟨l3, g1, g2, g3, g4⟩ := right m1 m2 (s1 := splice s o xl) (splice_length (by omega)) (by rw [m3]; exact e2)
      rw [g1, bind_ok]
      obtain ⟨q1, q2, q3, q4⟩ := final f4 g4
      refine ⟨l3, ?_, g2, fun j hj => g3 j hj⟩
      rw [xoAt_eq (by omega) (by rw [q3]; omega), q1, q2, q4 _ (by rw [List.length_zipWith]; omega)]
      rfl
    · cases hx

end Verif.PolarFast
