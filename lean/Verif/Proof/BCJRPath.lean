import Mathlib.Tactic.Linarith
import Mathlib.Tactic.Ring
import Mathlib.Algebra.Order.Group.Unbundled.Int
import Mathlib.Order.Bounds.Basic

/-! # Weighted paths in a time-indexed graph, and the best ones

`e t p q w`: at time `t` there is an edge from `p` to `q` of weight `w`. -/

namespace Verif.BCJR

/-- `Steps e a p n q z`: a path of `n` edges from state `p` at time `a` to state `q`, of total weight `z`. -/
inductive Steps (e : Nat → Nat → Nat → Int → Prop) (a p : Nat) : Nat → Nat → Int → Prop
  | nil : Steps e a p 0 p 0
  | snoc {n r q : Nat} {z w : Int} : Steps e a p n r z → e (a + n) r q w → Steps e a p (n + 1) q (z + w)

section
variable {e e' : Nat → Nat → Nat → Int → Prop}

theorem Steps.zero_inv {a p q : Nat} {z : Int} (h : Steps e a p 0 q z) : q = p ∧ z = 0 := by
  cases h; exact ⟨rfl, rfl⟩

theorem Steps.succ_inv {a p n q : Nat} {z : Int} (h : Steps e a p (n + 1) q z) :
    ∃ r y w, Steps e a p n r y ∧ e (a + n) r q w ∧ z = y + w := by
  cases h with
  | snoc h1 h2 => exact ⟨_, _, _, h1, h2, rfl⟩

theorem Steps.congr {a p n q : Nat} {z : Int} (hc : ∀ t r s w, t < n → e (a + t) r s w → e' (a + t) r s w)
    (h : Steps e a p n q z) : Steps e' a p n q z := by
  induction h with
  | nil => exact .nil
  | snoc h1 h2 ih =>
    exact .snoc (ih fun t r s w ht => hc t r s w (by omega)) (hc _ _ _ _ (by omega) h2)

theorem Steps.append {a p n q m r : Nat} {z y : Int} (h : Steps e a p n q z) (h' : Steps e (a + n) q m r y) :
    Steps e a p (n + m) r (z + y) := by
  induction h' with
  | nil => simpa using h
  | @snoc n' r' q' z' w' h1 h2 ih =>
    rw [← Int.add_assoc]
    have h3 : e (a + (n + n')) r' q' w' := by rw [← Nat.add_assoc]; exact h2
    exact .snoc ih h3

theorem Steps.split {a p n m r : Nat} {z : Int} (h : Steps e a p (n + m) r z) :
    ∃ q x y, Steps e a p n q x ∧ Steps e (a + n) q m r y ∧ z = x + y := by
  induction m generalizing r z with
  | zero => exact ⟨r, z, 0, h, .nil, by omega⟩
  | succ m ih =>
    obtain ⟨s, y, w, h1, h2, rfl⟩ := Steps.succ_inv (n := n + m) h
    obtain ⟨q, x, y', h3, h4, rfl⟩ := ih h1
    exact ⟨q, x, y' + w, h3, .snoc h4 (by rw [Nat.add_assoc]; exact h2), by omega⟩

/-- Reversal of time over `L` edges. -/
def rev (L : Nat) (e : Nat → Nat → Nat → Int → Prop) : Nat → Nat → Nat → Int → Prop :=
  fun k p q w => k < L ∧ e (L - 1 - k) q p w

theorem Steps.one {a p q : Nat} {w : Int} (h : e a p q w) : Steps e a p 1 q w := by
  have := Steps.snoc (.nil : Steps e a p 0 p 0) h
  simpa using this

theorem Steps.rev {L a p n q : Nat} {z : Int} (hn : a + n ≤ L) (h : Steps (rev L e) a p n q z) :
    Steps e (L - a - n) q n p z := by
  induction h with
  | nil => exact .nil
  | @snoc n r q z w h1 h2 ih =>
    have h3 := Steps.append (n := 1) (m := n) (Steps.one h2.2)
      (by rw [show L - 1 - (a + n) + 1 = L - a - n by omega]; exact ih (by omega))
    rw [show L - a - (n + 1) = L - 1 - (a + n) by omega, Nat.add_comm n 1, Int.add_comm z w]
    exact h3

theorem Steps.of_rev {L a p n q : Nat} {z : Int} (hn : a + n ≤ L) (h : Steps e (L - a - n) q n p z) :
    Steps (BCJR.rev L e) a p n q z := by
  induction n generalizing q z with
  | zero => obtain ⟨rfl, rfl⟩ := h.zero_inv; exact .nil
  | succ n ih =>
    rw [Nat.add_comm n 1] at h
    obtain ⟨r, x, y, h1, h2, rfl⟩ := h.split
    obtain ⟨r', y', w, h3, h4, rfl⟩ := Steps.succ_inv (n := 0) h1
    obtain ⟨rfl, rfl⟩ := h3.zero_inv
    rw [show L - a - (1 + n) + 1 = L - a - n by omega] at h2
    have h5 := Steps.snoc (ih (by omega) h2) (show BCJR.rev L e (a + n) r r' w from
      ⟨by omega, by rw [show L - 1 - (a + n) = L - a - (1 + n) + 0 by omega]; exact h4⟩)
    rw [Int.zero_add, Int.add_comm w y]
    exact h5

/-- Weights of the paths from state 0 at time 0 to state `q` at time `k`. -/
def Val (e : Nat → Nat → Nat → Int → Prop) (k q : Nat) : Set Int := {z | Steps e 0 0 k q z}

theorem val_succ {k q : Nat} {z : Int} : z ∈ Val e (k + 1) q ↔ ∃ r y w, y ∈ Val e k r ∧ e k r q w ∧ z = y + w := by
  constructor
  · intro h
    obtain ⟨r, y, w, h1, h2, h3⟩ := Steps.succ_inv h
    rw [Nat.zero_add] at h2
    exact ⟨r, y, w, h1, h2, h3⟩
  · rintro ⟨r, y, w, h1, h2, rfl⟩
    exact .snoc h1 (by rw [Nat.zero_add]; exact h2)

/-- What is used of the trellis: bounded weights, a loop on state 0, and every state within `m` edges of any other. -/
structure Graph (e : Nat → Nat → Nat → Int → Prop) (S L m : Nat) (M : Int) : Prop where
  pos : 0 < S
  wt : ∀ k p q w, e k p q w → |w| ≤ M
  src : ∀ k p q w, e k p q w → p < S ∧ q < S
  loop : ∀ k, k < L → ∃ w, e k 0 0 w
  conn : ∀ a p q, p < S → q < S → a + m ≤ L → ∃ z, Steps e a p m q z

variable {S L m : Nat} {M : Int}

theorem Steps.bound (h : Graph e S L m M) {a p n q : Nat} {z : Int} (hs : Steps e a p n q z) : |z| ≤ n * M := by
  induction hs with
  | nil => simp
  | snoc h1 h2 ih =>
    have hw := h.wt _ _ _ _ h2
    refine le_trans (abs_add_le _ _) ?_
    push_cast
    linarith

theorem Graph.nonneg (h : Graph e S L m M) (hL : 0 < L) : 0 ≤ M := by
  obtain ⟨w, hw⟩ := h.loop 0 hL
  exact le_trans (abs_nonneg w) (h.wt _ _ _ _ hw)

theorem Steps.lt (h : Graph e S L m M) {a p n q : Nat} {z : Int} (hp : p < S) (hs : Steps e a p n q z) : q < S := by
  cases hs with
  | nil => exact hp
  | snoc h1 h2 => exact (h.src _ _ _ _ h2).2

theorem loops (h : Graph e S L m M) (a n : Nat) (hn : a + n ≤ L) : ∃ z, Steps e a 0 n 0 z := by
  induction n with
  | zero => exact ⟨0, .nil⟩
  | succ n ih =>
    obtain ⟨z, hz⟩ := ih (by omega)
    obtain ⟨w, hw⟩ := h.loop (a + n) (by omega)
    exact ⟨z + w, .snoc hz hw⟩

/-- From any state, `n ≥ m` edges reach any state. -/
theorem reach (h : Graph e S L m M) {a p q n : Nat} (hp : p < S) (hq : q < S) (hm : m ≤ n) (hn : a + n ≤ L) :
    ∃ z, Steps e a p n q z := by
  induction n, hm using Nat.le_induction generalizing a p with
  | base => exact h.conn a p q hp hq hn
  | succ n hm ih =>
    by_cases h0 : m = 0
    · subst h0
      obtain ⟨z, hz⟩ := h.conn a p q hp hq (by omega)
      obtain ⟨z', hz'⟩ := h.conn a p 0 hp h.pos (by omega)
      obtain ⟨z'', hz''⟩ := loops h a (n + 1) (by omega)
      obtain ⟨rfl, rfl⟩ := hz.zero_inv
      obtain ⟨rfl, rfl⟩ := hz'.zero_inv
      exact ⟨_, hz''⟩
    · -- the first edge of a connection
      obtain ⟨z, hz⟩ := h.conn a p q hp hq (by omega)
      rw [show m = 1 + (m - 1) by omega] at hz
      obtain ⟨r, x, y, h1, h2, -⟩ := hz.split
      obtain ⟨z', hz'⟩ := ih (a := a + 1) (p := r) (h1.lt h hp) (by omega)
      have := h1.append hz'
      rw [Nat.add_comm 1 n] at this
      exact ⟨_, this⟩

theorem val_nonempty (h : Graph e S L m M) {k q : Nat} (hq : q < S) (hm : m ≤ k) (hk : k ≤ L) : (Val e k q).Nonempty :=
  reach h h.pos hq hm (by omega)

theorem val0_nonempty (h : Graph e S L m M) {k : Nat} (hk : k ≤ L) : (Val e k 0).Nonempty := loops h 0 k (by omega)

/-- Between the best paths to two states. -/
theorem best_le (h : Graph e S L m M) (hL : 0 < L) {k k' q : Nat} (hkk : k' ≤ k) (hk : k ≤ L) {z c : Int}
    (hz : z ∈ Val e k q) (hc : c ∈ upperBounds (Val e k' 0)) : z - c ≤ (2 * m + (k - k' : Nat)) * M := by
  have hM := h.nonneg hL
  have hz' : Steps e 0 0 ((k' - m) + (k - (k' - m))) q z := by rw [show k' - m + (k - (k' - m)) = k by omega]; exact hz
  obtain ⟨r, x, y, h1, h2, rfl⟩ := hz'.split
  have hb2 := (abs_le.1 (h2.bound h)).2
  have hr := h1.lt h h.pos
  have : ∃ u, Steps e 0 0 k' 0 u ∧ x - u ≤ m * M := by
    by_cases hm : m ≤ k'
    · obtain ⟨v, hv⟩ := h.conn (0 + (k' - m)) r 0 hr h.pos (by omega)
      have hb := (abs_le.1 (hv.bound h)).1
      have := h1.append hv
      rw [show k' - m + m = k' by omega] at this
      exact ⟨_, this, by linarith⟩
    · obtain ⟨u, hu⟩ := loops h 0 k' (by omega)
      have hb := (abs_le.1 (hu.bound h)).1
      rw [show k' - m = 0 by omega] at h1
      obtain ⟨rfl, rfl⟩ := h1.zero_inv
      refine ⟨u, hu, ?_⟩
      have : (k' : Int) * M ≤ m * M := by gcongr; omega
      linarith
  obtain ⟨u, hu, hxu⟩ := this
  have hcu := hc hu
  have h3 : ((k - (k' - m) : Nat) : Int) * M ≤ ((m + (k - k') : Nat) : Int) * M := by gcongr; omega
  push_cast at h3 ⊢
  linarith

theorem best_ge (h : Graph e S L m M) (hL : 0 < L) {k k' q : Nat} (hkk : k' ≤ k) (hk : k ≤ L) (hq : q < S) {z c : Int}
    (hz : IsGreatest (Val e k q) z) (hc : c ∈ Val e k' 0) : -((2 * m + (k - k' : Nat)) * M) ≤ z - c := by
  have hM := h.nonneg hL
  by_cases hm : m ≤ k
  · -- follow the path to `(k', 0)` until time `min k' (k - m)`, then go to `q`
    have hc' : Steps e 0 0 (min k' (k - m) + (k' - min k' (k - m))) 0 c := by
      rw [show min k' (k - m) + (k' - min k' (k - m)) = k' by omega]; exact hc
    obtain ⟨r, x, y, h1, h2, rfl⟩ := hc'.split
    have hb2 := (abs_le.1 (h2.bound h)).2
    have hr := h1.lt h h.pos
    obtain ⟨v, hv⟩ := reach h (a := 0 + min k' (k - m)) (p := r) (q := q) (n := k - min k' (k - m)) hr hq (by omega) (by omega)
    have hb := (abs_le.1 (hv.bound h)).1
    have h3 := h1.append hv
    rw [show min k' (k - m) + (k - min k' (k - m)) = k by omega] at h3
    have h4 := hz.2 h3
    have h5 : ((k' - min k' (k - m) : Nat) : Int) * M + ((k - min k' (k - m) : Nat) : Int) * M ≤ ((2 * m + (k - k') : Nat) : Int) * M := by
      rw [← add_mul]
      gcongr
      omega
    push_cast at h5 ⊢
    linarith
  · have hb1 := (abs_le.1 ((show Steps e 0 0 k q z from hz.1).bound h)).1
    have hb2 := (abs_le.1 ((show Steps e 0 0 k' 0 c from hc).bound h)).2
    have h5 : ((k : Nat) : Int) * M + ((k' : Nat) : Int) * M ≤ ((2 * m + (k - k') : Nat) : Int) * M := by
      rw [← add_mul]
      gcongr
      omega
    push_cast at h5 ⊢
    linarith

theorem Graph.rev (h : Graph e S L m M) : Graph (rev L e) S L m M where
  pos := h.pos
  wt k p q w hw := h.wt _ _ _ _ hw.2
  src k p q w hw := (h.src _ _ _ _ hw.2).symm
  loop k hk := by
    obtain ⟨w, hw⟩ := h.loop (L - 1 - k) (by omega)
    exact ⟨w, hk, hw⟩
  conn a p q hp hq ha := by
    obtain ⟨z, hz⟩ := h.conn (L - a - m) q p hq hp (by omega)
    exact ⟨z, Steps.of_rev ha hz⟩

/-- Each state has two incoming edges at each time. -/
def Two (e : Nat → Nat → Nat → Int → Prop) (S L : Nat) (pr : Bool → Nat → Nat) (w : Nat → Bool → Nat → Int) : Prop :=
  ∀ k p q v, k < L → q < S → (e k p q v ↔ ∃ c, p = pr c q ∧ v = w k c q)

variable {pr : Bool → Nat → Nat} {w : Nat → Bool → Nat → Int}

theorem Two.lt (ht : Two e S L pr w) (h : Graph e S L m M) {k q : Nat} (hk : k < L) (hq : q < S) (c : Bool) : pr c q < S :=
  (h.src k _ q _ ((ht k _ q _ hk hq).2 ⟨c, rfl, rfl⟩)).1

theorem Two.wt (ht : Two e S L pr w) (h : Graph e S L m M) {k q : Nat} (hk : k < L) (hq : q < S) (c : Bool) : |w k c q| ≤ M :=
  h.wt k _ q _ ((ht k _ q _ hk hq).2 ⟨c, rfl, rfl⟩)

theorem Two.val (ht : Two e S L pr w) {k q : Nat} (hk : k < L) (hq : q < S) {z : Int} :
    z ∈ Val e (k + 1) q ↔ ∃ c, ∃ y ∈ Val e k (pr c q), z = y + w k c q := by
  rw [val_succ]
  constructor
  · rintro ⟨r, y, v, h1, h2, h3⟩
    obtain ⟨c, rfl, rfl⟩ := (ht _ _ _ _ hk hq).1 h2
    exact ⟨c, y, h1, h3⟩
  · rintro ⟨c, y, h1, h3⟩
    exact ⟨_, y, _, h1, (ht _ _ _ _ hk hq).2 ⟨c, rfl, rfl⟩, h3⟩

end

end Verif.BCJR
