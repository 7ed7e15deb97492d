import Verif.Spec.Sorter
import Verif.Model.Sorter
import Mathlib.Data.List.Nodup
import Mathlib.Tactic.Ring
import Mathlib.Order.WithBot
import Mathlib.Tactic.ByContra

/-! # Proofs about the partial sort -/

namespace Verif.Sorter
open Exec
variable {α : Type} [LinearOrder α]

/-- The winner of the node `j` of the level `i`. -/
def win (v : Nat → α) : Nat → Nat → Nat
  | 0, j => j
  | i + 1, j => if v (win v i (2 * j)) < v (win v i (2 * j + 1)) then win v i (2 * j) else win v i (2 * j + 1)

theorem win_div (v : Nat → α) : ∀ i j, win v i j / 2 ^ i = j
  | 0, j => by simp [win]
  | i + 1, j => by
    have h1 := win_div v i (2 * j)
    have h2 := win_div v i (2 * j + 1)
    rw [win, pow_succ, ← Nat.div_div_eq_div_mul]
    split <;> omega

theorem win_min (v : Nat → α) : ∀ i j x, x / 2 ^ i = j → v (win v i j) ≤ v x
  | 0, j, x, h => by simp only [pow_zero, Nat.div_one] at h; rw [h]; exact le_refl _
  | i + 1, j, x, h => by
    rw [pow_succ, ← Nat.div_div_eq_div_mul] at h
    have hx : x / 2 ^ i = 2 * j ∨ x / 2 ^ i = 2 * j + 1 := by omega
    rw [win]
    split
    · rename_i hl
      rcases hx with hx | hx
      · exact win_min v i _ x hx
      · exact le_trans hl.le (win_min v i _ x hx)
    · rename_i hl
      rcases hx with hx | hx
      · exact le_trans (not_lt.1 hl) (win_min v i _ x hx)
      · exact win_min v i _ x hx

theorem win_congr {v w : Nat → α} : ∀ i j, (∀ x, x / 2 ^ i = j → v x = w x) → win v i j = win w i j
  | 0, j, _ => rfl
  | i + 1, j, h => by
    have hd : ∀ x, x / 2 ^ (i + 1) = x / 2 ^ i / 2 := fun x => by rw [pow_succ, Nat.div_div_eq_div_mul]
    rw [win, win, win_congr (w := w) i (2 * j) fun x hx => h x (by rw [hd]; omega),
      win_congr (w := w) i (2 * j + 1) fun x hx => h x (by rw [hd]; omega)]
    rw [h (win w i (2 * j)) (by rw [hd, win_div]; omega), h (win w i (2 * j + 1)) (by rw [hd, win_div]; omega)]

/-! ## Addresses -/

/-- Address of the first node of a level. -/
def off (max d : Nat) : Nat → Nat
  | 0 => 0
  | 1 => max
  | i + 2 => off max d (i + 1) + 2 ^ (d - (i + 1))

theorem off_step {max d : Nat} (h : 2 ^ d ≤ max) : ∀ i, off max d i + 2 ^ (d - i) ≤ off max d (i + 1)
  | 0 => by simpa [off] using h
  | i + 1 => Nat.le_refl _

theorem off_lt {max d : Nat} (h : 2 ^ d ≤ max) {i k : Nat} (hik : i < k) : off max d i + 2 ^ (d - i) ≤ off max d k := by
  induction k with
  | zero => omega
  | succ k ih =>
    rcases Nat.lt_or_ge i k with h' | h'
    · have h1 := off_step h k
      have h2 := ih h'
      have h3 := Nat.two_pow_pos (d - k)
      exact Nat.le_trans h2 (Nat.le_trans (Nat.le_add_right _ _) h1)
    · have : i = k := by omega
      subst this
      exact off_step h i

theorem off_end {max d : Nat} : ∀ i, i + 1 ≤ d → off max d (i + 1) + 2 ^ (d - i) = max + 2 ^ d
  | 0, _ => by simp [off]
  | i + 1, h => by
    have := off_end (max := max) (d := d) i (by omega)
    have e : 2 ^ (d - i) = 2 ^ (d - (i + 1)) + 2 ^ (d - (i + 1)) := by
      rw [show d - i = d - (i + 1) + 1 by omega, pow_succ]; omega
    show off max d (i + 1) + 2 ^ (d - (i + 1)) + 2 ^ (d - (i + 1)) = _
    omega

theorem off_bound {max d : Nat} (h : 2 ^ d ≤ max) {i j : Nat} (hi : 1 ≤ i) (hid : i ≤ d) (hj : j < 2 ^ (d - i)) :
    max ≤ off max d i + j ∧ off max d i + j < 2 * max - 1 := by
  obtain ⟨i, rfl⟩ : ∃ k, i = k + 1 := ⟨i - 1, by omega⟩
  have h1 := off_end (max := max) (d := d) i hid
  have e : 2 ^ (d - i) = 2 ^ (d - (i + 1)) + 2 ^ (d - (i + 1)) := by
    rw [show d - i = d - (i + 1) + 1 by omega, pow_succ]; omega
  have h3 : 1 ≤ 2 ^ (d - (i + 1)) := Nat.one_le_two_pow
  have h0 : max ≤ off max d (i + 1) := by
    have := Nat.pow_le_pow_right (n := 2) (by omega) (by omega : d - i ≤ d)
    omega
  omega

theorem off_inj {max d : Nat} (h : 2 ^ d ≤ max) {i j i' j' : Nat} (hj : j < 2 ^ (d - i)) (hj' : j' < 2 ^ (d - i'))
    (e : off max d i + j = off max d i' + j') : i = i' ∧ j = j' := by
  rcases Nat.lt_trichotomy i i' with hl | hl | hl
  · have := off_lt h hl; omega
  · subst hl; omega
  · have := off_lt h hl; omega

/-! ## The tree -/

/-- The leaves are the identity, and the nodes in `S` hold `w`. -/
structure Ent (max d : Nat) (w : Nat → Nat → Nat) (S : Nat → Nat → Prop) (t : List Nat) : Prop where
  length : t.length = 2 * max - 1
  leaf : ∀ j, j < max → t[j]? = some j
  node : ∀ i j, i ≤ d → j < 2 ^ (d - i) → S i j → t[off max d i + j]? = some (w i j)

theorem Ent.mono {max d : Nat} {w w' : Nat → Nat → Nat} {S S' : Nat → Nat → Prop} {t : List Nat} (h : Ent max d w S t)
    (hS : ∀ i j, i ≤ d → j < 2 ^ (d - i) → S' i j → S i j ∧ w i j = w' i j) : Ent max d w' S' t :=
  ⟨h.length, h.leaf, fun i j hi hj hs => by rw [h.node i j hi hj (hS i j hi hj hs).1, (hS i j hi hj hs).2]⟩

theorem node_lt {d i j : Nat} (hi : i + 1 ≤ d) (hj : j < 2 ^ (d - (i + 1))) : 2 * j + 1 < 2 ^ (d - i) := by
  have e : 2 ^ (d - i) = 2 ^ (d - (i + 1)) + 2 ^ (d - (i + 1)) := by
    rw [show d - i = d - (i + 1) + 1 by omega, pow_succ]; omega
  omega

theorem Ent.write {max d : Nat} (hm : 2 ^ d ≤ max) {w w' : Nat → Nat → Nat} {S : Nat → Nat → Prop} {t : List Nat} (h : Ent max d w S t)
    {i j : Nat} (hi : i + 1 ≤ d) (hj : j < 2 ^ (d - (i + 1)))
    (hw : ∀ i' j', i' ≤ d → j' < 2 ^ (d - i') → (i', j') ≠ (i + 1, j) → S i' j' → w i' j' = w' i' j') :
    ∃ t', wr t (off max d (i + 1) + j) (w' (i + 1) j) = ok t' ∧ Ent max d w' (fun i' j' => S i' j' ∨ (i', j') = (i + 1, j)) t' := by
  have hb := off_bound hm (by omega : 1 ≤ i + 1) hi hj
  have hl := h.length
  refine ⟨_, wr_lt (by omega), ?_⟩
  refine ⟨by rw [List.length_set]; exact hl, fun k hk => ?_, fun i' j' hi' hj' hs => ?_⟩
  · rw [List.getElem?_set_ne (by omega)]; exact h.leaf k hk
  · by_cases he : (i', j') = (i + 1, j)
    · obtain ⟨rfl, rfl⟩ := Prod.mk.inj he
      rw [List.getElem?_set_self (by omega)]
    · have hne : off max d (i + 1) + j ≠ off max d i' + j' := fun e => by
        obtain ⟨h1, h2⟩ := off_inj hm hj hj' e
        exact he (by rw [h1, h2])
      have hs' : S i' j' := by
        rcases hs with hs | hs
        · exact hs
        · exact absurd hs he
      rw [List.getElem?_set_ne hne, h.node i' j' hi' hj' hs', hw i' j' hi' hj' he hs']

theorem Ent.play {max d : Nat} (hm : 2 ^ d ≤ max) {w w' : Nat → Nat → Nat} {S : Nat → Nat → Prop} {t : List Nat} (h : Ent max d w S t)
    {vals : List α} {v : Nat → α} (hv : ∀ x, x < 2 ^ d → vals[x]? = some (v x)) {i j : Nat} (hi : i + 1 ≤ d) (hj : j < 2 ^ (d - (i + 1)))
    (h1 : S i (2 * j)) (h2 : S i (2 * j + 1)) (b1 : w i (2 * j) < 2 ^ d) (b2 : w i (2 * j + 1) < 2 ^ d)
    (hw : ∀ i' j', i' ≤ d → j' < 2 ^ (d - i') → (i', j') ≠ (i + 1, j) → S i' j' → w i' j' = w' i' j')
    (hw' : w' (i + 1) j = if v (w i (2 * j)) < v (w i (2 * j + 1)) then w i (2 * j) else w i (2 * j + 1)) :
    ∃ t', Sorter.play vals (off max d i + 2 * j) (off max d (i + 1) + j) t = ok t' ∧
      Ent max d w' (fun i' j' => S i' j' ∨ (i', j') = (i + 1, j)) t' := by
  have hn := node_lt hi hj
  unfold Sorter.play
  rw [(rd_ok_iff).2 (h.node i (2 * j) (by omega) (by omega) h1), bind_ok, Nat.add_assoc,
    (rd_ok_iff).2 (h.node i (2 * j + 1) (by omega) hn h2), bind_ok, (rd_ok_iff).2 (hv _ b1), bind_ok, (rd_ok_iff).2 (hv _ b2), bind_ok]
  rw [← hw']
  exact h.write hm hi hj hw

theorem win_lt {v : Nat → α} {d i j : Nat} (hi : i ≤ d) (hj : j < 2 ^ (d - i)) : win v i j < 2 ^ d := by
  have h := win_div v i j
  have e : 2 ^ d = 2 ^ (d - i) * 2 ^ i := by rw [← pow_add]; congr 1; omega
  rw [e]
  exact (Nat.div_lt_iff_lt_mul (Nat.two_pow_pos i)).1 (by omega)

/-- One level. -/
theorem level_spec {max d : Nat} (hm : 2 ^ d ≤ max) {vals : List α} {v : Nat → α} (hv : ∀ x, x < 2 ^ d → vals[x]? = some (v x))
    {i : Nat} (hi : i + 1 ≤ d) {t : List Nat} (h : Ent max d (win v) (fun k _ => k ≤ i) t) (m : Nat) (hmm : m ≤ 2 ^ (d - (i + 1))) :
    ∃ t', forN m (fun j t => Sorter.play vals (off max d i + 2 * j) (off max d (i + 1) + j) t) t = ok t' ∧
      Ent max d (win v) (fun k j => k ≤ i ∨ (k = i + 1 ∧ j < m)) t' := by
  induction m with
  | zero => exact ⟨t, rfl, h.mono fun k j _ _ hs => ⟨by omega, rfl⟩⟩
  | succ m ih =>
    obtain ⟨t1, e1, h1⟩ := ih (by omega)
    have hn := node_lt hi (show m < 2 ^ (d - (i + 1)) by omega)
    obtain ⟨t2, e2, h2⟩ := h1.play hm hv (w' := win v) hi (show m < 2 ^ (d - (i + 1)) by omega) (Or.inl (Nat.le_refl i)) (Or.inl (Nat.le_refl i))
      (win_lt (by omega) (by omega)) (win_lt (by omega) hn) (fun _ _ _ _ _ _ => rfl) rfl
    refine ⟨t2, by rw [forN_succ, e1, bind_ok, e2], h2.mono fun k j _ _ hs => ⟨?_, rfl⟩⟩
    rcases hs with hs | ⟨hs, hl⟩
    · exact Or.inl (Or.inl hs)
    · rcases Nat.lt_or_ge j m with h | h
      · exact Or.inl (Or.inr ⟨hs, h⟩)
      · right; rw [hs, show j = m by omega]

theorem step1_spec {max d : Nat} (hm : 2 ^ d ≤ max) (hd : 1 ≤ d) {vals : List α} {v : Nat → α} (hv : ∀ x, x < 2 ^ d → vals[x]? = some (v x))
    {t : List Nat} (hl : t.length = 2 * max - 1) (hleaf : ∀ j, j < max → t[j]? = some j) :
    ∃ t', step1 vals (2 ^ d) d max t = ok (off max d d, t') ∧ Ent max d (win v) (fun _ _ => True) t' := by
  have h0 : Ent max d (win v) (fun k _ => k ≤ 0) t := by
    refine ⟨hl, hleaf, fun i j hi hj hs => ?_⟩
    obtain rfl : i = 0 := by omega
    show t[0 + j]? = some j
    rw [Nat.zero_add]
    exact hleaf j (by simp only [Nat.sub_zero] at hj; omega)
  have hhalf : 2 ^ d / 2 = 2 ^ (d - 1) := by
    rw [show d = d - 1 + 1 by omega, pow_succ]; simp
  obtain ⟨t1, e1, h1⟩ := level_spec hm hv (i := 0) hd h0 (2 ^ (d - 1)) (Nat.le_refl _)
  have e1' : forN (2 ^ d / 2) (fun j t => Sorter.play vals (2 * j) (max + j) t) t = ok t1 := by
    rw [hhalf, ← e1]
    refine forN_congr fun j t _ => ?_
    show _ = Sorter.play vals (0 + 2 * j) (max + j) t
    rw [Nat.zero_add]
  have h1' : Ent max d (win v) (fun k _ => k ≤ 1) t1 := h1.mono fun k j _ hj hs => ⟨by
    rcases Nat.eq_zero_or_pos k with h | h
    · left; omega
    · right
      obtain rfl : k = 1 := by omega
      exact ⟨rfl, hj⟩, rfl⟩
  unfold step1 guardDepth
  rw [e1', bind_ok, if_neg (by omega), bind_ok]
  have key : ∀ m, m ≤ d - 1 → ∃ t', forN m (fun i (x : Nat × List Nat) =>
      forN (2 ^ (d - 1 - i) / 2) (fun j t => Sorter.play vals (x.1 + 2 * j) (x.1 + 2 ^ (d - 1 - i) + j) t) x.2 >>= fun t =>
        ok (x.1 + 2 ^ (d - 1 - i), t)) (max, t1) = ok (off max d (m + 1), t') ∧ Ent max d (win v) (fun k _ => k ≤ m + 1) t' := by
    intro m
    induction m with
    | zero => intro _; exact ⟨t1, rfl, h1'⟩
    | succ m ih =>
      intro hmd
      obtain ⟨t2, e2, h2⟩ := ih (by omega)
      obtain ⟨t3, e3, h3⟩ := level_spec hm hv (i := m + 1) (by omega) h2 (2 ^ (d - (m + 2))) (Nat.le_refl _)
      have hoff : off max d (m + 2) = off max d (m + 1) + 2 ^ (d - 1 - m) := by
        show off max d (m + 1) + 2 ^ (d - (m + 1)) = _
        congr 2
        omega
      have hh : 2 ^ (d - 1 - m) / 2 = 2 ^ (d - (m + 2)) := by
        rw [show d - 1 - m = d - (m + 2) + 1 by omega, pow_succ]; simp
      refine ⟨t3, ?_, h3.mono fun k j _ hj hs => ⟨?_, rfl⟩⟩
      · rw [forN_succ, e2, bind_ok]
        simp only []
        rw [hh, ← hoff]
        have : forN (2 ^ (d - (m + 2))) (fun j t => Sorter.play vals (off max d (m + 1) + 2 * j) (off max d (m + 2) + j) t) t2 = ok t3 := e3
        rw [this, bind_ok]
      · rcases Nat.lt_or_ge k (m + 2) with h | h
        · left; omega
        · right
          obtain rfl : k = m + 2 := by omega
          exact ⟨rfl, hj⟩
  obtain ⟨t', e', h'⟩ := key (d - 1) (Nat.le_refl _)
  rw [show d - 1 + 1 = d by omega] at e' h'
  exact ⟨t', e', h'.mono fun k j hk _ _ => ⟨hk, rfl⟩⟩

/-! ## A branch -/

theorem anc_div (p i : Nat) : p / 2 ^ (i + 1) = p / 2 ^ i / 2 := by rw [pow_succ, Nat.div_div_eq_div_mul]

theorem anc_lt {p d i : Nat} (hp : p < 2 ^ d) (hi : i ≤ d) : p / 2 ^ i < 2 ^ (d - i) := by
  rw [Nat.div_lt_iff_lt_mul (Nat.two_pow_pos i), ← pow_add]
  rwa [show d - i + i = d by omega]

/-- The tree is right for `v` except on the nodes above `p` at levels greater than `i`. -/
def OffBranch (p i : Nat) (k j : Nat) : Prop := k ≤ i ∨ j ≠ p / 2 ^ k

theorem branch_step {max d : Nat} (hm : 2 ^ d ≤ max) {vals : List α} {v : Nat → α} (hv : ∀ x, x < 2 ^ d → vals[x]? = some (v x))
    {w : Nat → Nat → Nat} {p : Nat} (hp : p < 2 ^ d) {i : Nat} (hi : i + 1 ≤ d)
    (hb : ∀ j, j < 2 ^ (d - i) → w i j < 2 ^ d)
    (hw : ∀ j, j < 2 ^ (d - (i + 1)) → w (i + 1) j = if v (w i (2 * j)) < v (w i (2 * j + 1)) then w i (2 * j) else w i (2 * j + 1))
    {t : List Nat} (h : Ent max d w (OffBranch p i) t) :
    ∃ t', Sorter.play vals (off max d i + 2 * (p / 2 ^ (i + 1))) (off max d (i + 1) + p / 2 ^ (i + 1)) t = ok t' ∧
      Ent max d w (OffBranch p (i + 1)) t' := by
  have hj := anc_lt hp hi
  have hn := node_lt hi hj
  obtain ⟨t', e, h'⟩ := h.play hm hv (w' := w) hi hj (Or.inl (Nat.le_refl i)) (Or.inl (Nat.le_refl i))
    (hb _ (by omega)) (hb _ hn) (fun _ _ _ _ _ _ => rfl) (hw _ hj)
  refine ⟨t', e, h'.mono fun k j _ _ hs => ⟨?_, rfl⟩⟩
  by_cases hk : k = i + 1 ∧ j = p / 2 ^ (i + 1)
  · right; rw [hk.1, hk.2]
  · left
    unfold OffBranch at hs ⊢
    rcases hs with hs | hs
    · rcases Nat.lt_or_ge i k with h | h
      · obtain rfl : k = i + 1 := by omega
        exact Or.inr fun e => hk ⟨rfl, e⟩
      · exact Or.inl h
    · exact Or.inr hs

/-- The loop of `branch` and of `step2two`. -/
def climb (vals : List α) (p depth m : Nat) (x : Nat × List Nat) : Exec (Nat × List Nat) :=
  forN m (fun i (x : Nat × List Nat) =>
    Sorter.play vals (x.1 + 2 * (p / 2 ^ (i + 2))) (x.1 + 2 ^ (depth - 1 - i) + p / 2 ^ (i + 2)) x.2 >>= fun t =>
      ok (x.1 + 2 ^ (depth - 1 - i), t)) x

theorem climb_spec {max d : Nat} (hm : 2 ^ d ≤ max) {vals : List α} {v : Nat → α} (hv : ∀ x, x < 2 ^ d → vals[x]? = some (v x))
    {w : Nat → Nat → Nat} {p : Nat} (hp : p < 2 ^ d) (hb : ∀ i j, i ≤ d → j < 2 ^ (d - i) → w i j < 2 ^ d)
    (hw : ∀ i j, 1 ≤ i → i + 1 ≤ d → j < 2 ^ (d - (i + 1)) →
      w (i + 1) j = if v (w i (2 * j)) < v (w i (2 * j + 1)) then w i (2 * j) else w i (2 * j + 1))
    {t : List Nat} (h : Ent max d w (OffBranch p 1) t) (hd : 1 ≤ d) :
    ∃ t', climb vals p d (d - 1) (max, t) = ok (off max d d, t') ∧ Ent max d w (fun _ _ => True) t' := by
  have key : ∀ m, m ≤ d - 1 → ∃ t', climb vals p d m (max, t) = ok (off max d (m + 1), t') ∧ Ent max d w (OffBranch p (m + 1)) t' := by
    intro m
    induction m with
    | zero => intro _; exact ⟨t, rfl, h⟩
    | succ m ih =>
      intro hmd
      obtain ⟨t2, e2, h2⟩ := ih (by omega)
      obtain ⟨t3, e3, h3⟩ := branch_step hm hv hp (i := m + 1) (by omega) (fun j => hb _ j (by omega))
        (fun j => hw _ j (by omega) (by omega)) h2
      have hoff : off max d (m + 2) = off max d (m + 1) + 2 ^ (d - 1 - m) := by
        show off max d (m + 1) + 2 ^ (d - (m + 1)) = _
        congr 2
        omega
      refine ⟨t3, ?_, h3⟩
      unfold climb at e2 ⊢
      rw [forN_succ, e2, bind_ok]
      simp only []
      rw [← hoff]
      have : Sorter.play vals (off max d (m + 1) + 2 * (p / 2 ^ (m + 2))) (off max d (m + 2) + p / 2 ^ (m + 2)) t2 = ok t3 := e3
      rw [this, bind_ok]
  obtain ⟨t', e', h'⟩ := key (d - 1) (Nat.le_refl _)
  rw [show d - 1 + 1 = d by omega] at e' h'
  exact ⟨t', e', h'.mono fun k j hk _ _ => ⟨Or.inl hk, rfl⟩⟩

theorem branch_eq (vals : List α) (p depth max : Nat) (t : List Nat) :
    branch vals p depth max t = play vals (2 * (p / 2)) (max + p / 2) t >>= fun t => climb vals p depth (depth - 1) (max, t) := by
  unfold branch climb
  simp only [← pow_succ]

theorem step2two_eq (vals : List α) (depth max : Nat) (pos t : List Nat) :
    step2two vals depth max pos t = rd pos 0 >>= fun p =>
      wr t (max + p / 2) (if p % 2 ≠ 0 then p - 1 else p + 1) >>= fun t => climb vals p depth (depth - 1) (max, t) >>= fun x =>
      rd x.2 x.1 >>= fun r => wr pos 1 r >>= fun pos => ok (pos, x.2) := rfl

/-- Only one value differs: the tree is updated. -/
theorem branch_spec {max d : Nat} (hm : 2 ^ d ≤ max) (hd : 1 ≤ d) {vals : List α} {v v' : Nat → α} {p : Nat}
    (hv : ∀ x, x < 2 ^ d → vals[x]? = some (v' x)) (he : ∀ x, x ≠ p → v' x = v x) (hp : p < 2 ^ d) {t : List Nat}
    (h : Ent max d (win v) (fun _ _ => True) t) :
    ∃ t', branch vals p d max t = ok (off max d d, t') ∧ Ent max d (win v') (fun _ _ => True) t' := by
  have h0 : Ent max d (win v') (OffBranch p 0) t := h.mono fun k j _ _ hs => ⟨trivial, by
    rcases Nat.eq_zero_or_pos k with hk | hk
    · subst hk; rfl
    · refine win_congr k j fun x hx => (he x ?_).symm
      rintro rfl
      rcases hs with hs | hs
      · omega
      · exact hs hx.symm⟩
  obtain ⟨t1, e1, h1⟩ := branch_step hm hv (w := win v') hp (i := 0) (by omega) (fun j hj => win_lt (Nat.zero_le d) hj) (fun j _ => rfl) h0
  have e1' : play vals (2 * (p / 2)) (max + p / 2) t = ok t1 := by
    rw [← e1]
    show _ = play vals (0 + 2 * (p / 2 ^ 1)) (max + p / 2 ^ 1) t
    rw [Nat.zero_add, pow_one]
  obtain ⟨t2, e2, h2⟩ := climb_spec hm hv (w := win v') hp (fun i j hi hj => win_lt hi hj) (fun i j _ _ _ => rfl) h1 hd
  exact ⟨t2, by rw [branch_eq, e1', bind_ok, e2], h2⟩

theorem Ent.root {max d : Nat} {w : Nat → Nat → Nat} {t : List Nat} (h : Ent max d w (fun _ _ => True) t) :
    rd t (off max d d) = ok (w d 0) :=
  (rd_ok_iff).2 (h.node d 0 (Nat.le_refl d) (by simp) trivial)

/-! ## The second smallest without replacement -/

/-- The values with the value at `p` removed. -/
def without (v : Nat → α) (p : Nat) : Nat → WithTop α := fun x => if x = p then ⊤ else (v x : WithTop α)

theorem win_coe (v : Nat → α) : ∀ i j, win (fun x => (v x : WithTop α)) i j = win v i j
  | 0, _ => rfl
  | i + 1, j => by
    rw [win, win, win_coe v i, win_coe v i]
    simp only [WithTop.coe_lt_coe]

theorem win_without_ne (v : Nat → α) (p i j : Nat) (hi : 1 ≤ i) : win (without v p) i j ≠ p := by
  intro he
  have hd := win_div (without v p) i j
  rw [he] at hd
  have hx : ∃ x, x ≠ p ∧ x / 2 ^ i = j := by
    obtain ⟨k, rfl⟩ : ∃ k, i = k + 1 := ⟨i - 1, by omega⟩
    have hd' : ∀ x, x / 2 ^ (k + 1) = x / 2 / 2 ^ k := fun x => by rw [pow_succ, Nat.mul_comm, Nat.div_div_eq_div_mul]
    refine ⟨if p % 2 = 0 then p + 1 else p - 1, by split <;> omega, ?_⟩
    rw [hd', ← hd, hd']
    congr 1
    split <;> omega
  obtain ⟨x, hne, hx⟩ := hx
  have hmin := win_min (without v p) i j x hx
  rw [he] at hmin
  unfold without at hmin
  rw [if_pos rfl, if_neg hne] at hmin
  exact absurd (top_le_iff.1 hmin) (WithTop.coe_ne_top)

theorem step2two_spec {max d : Nat} (hm : 2 ^ d ≤ max) (hd : 1 ≤ d) {vals : List α} {v : Nat → α}
    (hv : ∀ x, x < 2 ^ d → vals[x]? = some (v x)) {p : Nat} (hp : p < 2 ^ d) {pos : List Nat} (h0 : pos[0]? = some p) (hl : 2 ≤ pos.length)
    {t : List Nat} (h : Ent max d (win v) (fun _ _ => True) t) :
    ∃ t', step2two vals d max pos t = ok (pos.set 1 (win (without v p) d 0), t') ∧
      Ent max d (win (without v p)) (fun _ _ => True) t' := by
  have hj := anc_lt hp hd
  rw [pow_one] at hj
  have hsib : win (without v p) 1 (p / 2) = if p % 2 ≠ 0 then p - 1 else p + 1 := by
    have h1 := win_without_ne v p 1 (p / 2) (Nat.le_refl 1)
    have h2 := win_div (without v p) 1 (p / 2)
    rw [pow_one] at h2
    split <;> omega
  obtain ⟨t1, e1, h1⟩ := h.write hm (i := 0) (j := p / 2) (w' := fun i j => if (i, j) = (1, p / 2) then win (without v p) 1 (p / 2) else win v i j) hd hj
    (fun i j _ _ hne _ => by rw [if_neg hne])
  have h1' : Ent max d (win (without v p)) (OffBranch p 1) t1 := h1.mono fun k j _ _ hs => ⟨Or.inl trivial, by
    by_cases hk : (k, j) = (1, p / 2)
    · rw [if_pos hk]
      obtain ⟨rfl, rfl⟩ := Prod.mk.inj hk
      rfl
    · rw [if_neg hk, ← win_coe]
      rcases Nat.eq_zero_or_pos k with h0 | h0
      · subst h0; rfl
      · refine win_congr k j fun x hx => ?_
        unfold without
        rw [if_neg]
        rintro rfl
        rcases hs with hs | hs
        · obtain rfl : k = 1 := by omega
          rw [pow_one] at hx
          exact hk (by rw [hx])
        · exact hs hx.symm⟩
  have e1' : wr t (max + p / 2) (if p % 2 ≠ 0 then p - 1 else p + 1) = ok t1 := by
    rw [← hsib, ← e1, if_pos rfl]
    rfl
  obtain ⟨t2, e2, h2⟩ := climb_spec hm hv (w := win (without v p)) hp (fun i j hi hj => win_lt hi hj) (fun i j hi _ _ => by
    rw [win]
    have n1 := win_without_ne v p i (2 * j) hi
    have n2 := win_without_ne v p i (2 * j + 1) hi
    have l : (without v p (win (without v p) i (2 * j)) < without v p (win (without v p) i (2 * j + 1))) ↔
        v (win (without v p) i (2 * j)) < v (win (without v p) i (2 * j + 1)) := by
      generalize win (without v p) i (2 * j) = a at *
      generalize win (without v p) i (2 * j + 1) = b at *
      unfold without
      rw [if_neg n1, if_neg n2, WithTop.coe_lt_coe]
    simp only [l]) h1' hd
  refine ⟨t2, ?_, h2⟩
  rw [step2two_eq, (rd_ok_iff).2 h0, bind_ok, e1', bind_ok, e2, bind_ok]
  simp only []
  rw [h2.root, bind_ok, wr_lt (by omega), bind_ok]

/-! ## Sequences of minima -/

theorem Smallest.snoc {f : Nat → α} {n k : Nat} {l : List Nat} (h : Smallest f n k l) {p : Nat} (hp : p < n) (hn : p ∉ l)
    (hmin : ∀ x, x < n → x ∉ l → f p ≤ f x) : Smallest f n (k + 1) (l ++ [p]) := by
  refine ⟨by rw [List.length_append, h.length]; rfl, ?_, ?_, ?_, ?_⟩
  · rw [List.nodup_append]
    refine ⟨h.nodup, List.nodup_singleton p, ?_⟩
    intro a ha b hb e
    rw [List.mem_singleton] at hb
    exact hn (by rw [← hb, ← e]; exact ha)
  · intro q hq
    rcases List.mem_append.1 hq with hq | hq
    · exact h.lt q hq
    · rw [List.mem_singleton.1 hq]; exact hp
  · rw [List.pairwise_append]
    refine ⟨h.sorted, List.pairwise_singleton _ _, fun a ha b hb => ?_⟩
    rw [List.mem_singleton.1 hb]
    exact h.least a ha p hp hn
  · intro q hq x hx hnx
    rw [List.mem_append, List.mem_singleton, not_or] at hnx
    rcases List.mem_append.1 hq with hq | hq
    · exact h.least q hq x hx hnx.1
    · rw [List.mem_singleton.1 hq]; exact hmin x hx hnx.1

theorem Smallest.nil (f : Nat → α) (n : Nat) : Smallest f n 0 [] :=
  ⟨rfl, List.nodup_nil, by simp, List.Pairwise.nil, by simp⟩

/-- The values with the ones at the positions of `l` replaced. -/
def repl (f : Nat → α) (top : α) (l : List Nat) : Nat → α := fun x => if x ∈ l then top else f x

theorem exists_free {n : Nat} {l : List Nat} (h : l.length < n) : ∃ x, x < n ∧ x ∉ l := by
  by_contra hc
  have hs : List.range n ⊆ l := fun x hx => by
    by_contra hn
    exact hc ⟨x, List.mem_range.1 hx, hn⟩
  have := (List.nodup_range (n := n)).length_le_of_subset hs
  rw [List.length_range] at this
  omega

theorem win_root {f : Nat → α} {top : α} {d : Nat} {l : List Nat} (hl : l.length < 2 ^ d) (ht : l = [] ∨ ∀ x, x < 2 ^ d → f x < top) :
    win (repl f top l) d 0 < 2 ^ d ∧ win (repl f top l) d 0 ∉ l ∧ ∀ x, x < 2 ^ d → x ∉ l → f (win (repl f top l) d 0) ≤ f x := by
  have hb : win (repl f top l) d 0 < 2 ^ d := win_lt (Nat.le_refl d) (by simp)
  have hmin : ∀ x, x < 2 ^ d → repl f top l (win (repl f top l) d 0) ≤ repl f top l x := fun x hx =>
    win_min _ d 0 x (Nat.div_eq_of_lt hx)
  generalize win (repl f top l) d 0 = p at *
  have hn : p ∉ l := by
    rcases ht with ht | ht
    · subst ht; simp
    · intro hp
      obtain ⟨x, hx, hxl⟩ := exists_free hl
      have := hmin x hx
      unfold repl at this
      rw [if_pos hp, if_neg hxl] at this
      exact absurd (ht x hx) (not_lt.2 this)
  refine ⟨hb, hn, fun x hx hxl => ?_⟩
  have := hmin x hx
  unfold repl at this
  rwa [if_neg hn, if_neg hxl] at this

theorem take_set {pos : List Nat} {k r : Nat} (h : k < pos.length) : (pos.set k r).take (k + 1) = pos.take k ++ [r] := by
  rw [List.take_set, List.take_succ_eq_append_getElem h, List.set_append_right _ _ (by simp)]
  simp [Nat.min_eq_left h.le]

theorem step2_spec {max d : Nat} (hm : 2 ^ d ≤ max) (hd : 1 ≤ d) {f : Nat → α} {top : α} {vals : List α}
    (hv : ∀ x, x < 2 ^ d → vals[x]? = some (f x)) {K : Nat} (hK1 : 1 ≤ K) (hK : K ≤ 2 ^ d) (ht : K = 1 ∨ ∀ x, x < 2 ^ d → f x < top)
    {pos : List Nat} (hpl : K ≤ pos.length) (h0 : pos[0]? = some (win f d 0)) {t : List Nat} (h : Ent max d (win f) (fun _ _ => True) t) :
    ∃ vals' pos' t', step2 top K d max (vals, pos, t) = ok (vals', pos', t') ∧ pos'.length = pos.length ∧ pos'.drop K = pos.drop K ∧
      Smallest f (2 ^ d) K (pos'.take K) ∧ vals'.length = vals.length ∧ Replaced top (pos'.take (K - 1)) vals vals' ∧
      t'.length = 2 * max - 1 ∧ ∀ j, j < max → t'[j]? = some j := by
  have hvl : 2 ^ d ≤ vals.length := by
    by_contra hc
    have h1 := hv (2 ^ d - 1) (by have := Nat.two_pow_pos d; omega)
    rw [List.getElem?_eq_none (by omega)] at h1
    exact absurd h1 (by simp)
  have key : ∀ m, m ≤ K - 1 → ∃ vals' pos' t' l p, forN m (fun k (s : List α × List Nat × List Nat) =>
      rd s.2.1 k >>= fun p => wr s.1 p top >>= fun v => branch v p d max s.2.2 >>= fun x =>
        rd x.2 x.1 >>= fun r => wr s.2.1 (k + 1) r >>= fun pos => ok (v, pos, x.2)) (vals, pos, t) = ok (vals', pos', t') ∧
      pos'.length = pos.length ∧ pos'.drop (m + 1) = pos.drop (m + 1) ∧ pos'.take (m + 1) = l ++ [p] ∧ l.length = m ∧
      p = win (repl f top l) d 0 ∧ Smallest f (2 ^ d) m l ∧
      vals'.length = vals.length ∧ Replaced top l vals vals' ∧ Ent max d (win (repl f top l)) (fun _ _ => True) t' := by
    intro m
    induction m with
    | zero =>
      intro _
      have hr : repl f top [] = f := by funext x; simp [repl]
      refine ⟨vals, pos, t, [], win f d 0, rfl, rfl, rfl, ?_, rfl, by rw [hr], Smallest.nil _ _, rfl, fun x => by simp, by rw [hr]; exact h⟩
      cases pos with
      | nil => simp at h0
      | cons a as => simp at h0; simp [h0]
    | succ m ih =>
      intro hmk
      obtain ⟨v1, p1, t1, l, p, e1, hl1, hd1, htk, hll, hp, hs, hvl1, hr1, ht1⟩ := ih (by omega)
      have htop : ∀ x, x < 2 ^ d → f x < top := by
        rcases ht with ht | ht
        · omega
        · exact ht
      obtain ⟨hpb, hpn, hpm⟩ := win_root (f := f) (top := top) (d := d) (l := l) (by omega) (Or.inr htop)
      rw [← hp] at hpb hpn hpm
      have hs' := hs.snoc hpb hpn hpm
      have hpm0 : p1[m]? = some p := by
        have : (p1.take (m + 1))[m]? = some p := by rw [htk, List.getElem?_append_right (by omega), hll]; simp
        rwa [List.getElem?_take_of_lt (by omega)] at this
      have hv2 : ∀ x, x < 2 ^ d → (v1.set p top)[x]? = some (repl f top (l ++ [p]) x) := by
        intro x hx
        unfold repl
        by_cases hxp : x = p
        · subst hxp
          rw [List.getElem?_set_self (by omega), if_pos (by simp)]
        · rw [List.getElem?_set_ne (Ne.symm hxp), hr1 x, hv x hx]
          by_cases hxl : x ∈ l
          · rw [if_pos ⟨hxl, by omega⟩, if_pos (by simp [hxl])]
          · rw [if_neg (fun h => hxl h.1), if_neg (by simp [hxl, hxp])]
      obtain ⟨t2, e2, ht2⟩ := branch_spec hm hd hv2 (v := repl f top l) (fun x hx => by
        unfold repl; simp only [List.mem_append, List.mem_singleton, hx, or_false]) hpb ht1
      refine ⟨v1.set p top, p1.set (m + 1) (win (repl f top (l ++ [p])) d 0), t2, l ++ [p], _, ?_, by rw [List.length_set]; exact hl1, ?_, ?_,
        by rw [List.length_append, hll]; rfl, rfl, hs', by rw [List.length_set]; exact hvl1, ?_, ht2⟩
      · rw [forN_succ, e1, bind_ok]
        simp only []
        rw [(rd_ok_iff).2 hpm0, bind_ok, wr_lt (by omega), bind_ok, e2, bind_ok]
        simp only []
        rw [ht2.root, bind_ok, wr_lt (by omega), bind_ok]
      · rw [List.drop_set_of_lt (by omega)]
        have := congrArg (List.drop 1) hd1
        rwa [List.drop_drop, List.drop_drop] at this
      · rw [take_set (by omega), htk]
      · intro x
        by_cases hxp : x = p
        · subst hxp
          rw [List.getElem?_set_self (by omega), if_pos ⟨by simp, by omega⟩]
        · rw [List.getElem?_set_ne (Ne.symm hxp), hr1 x]
          simp only [List.mem_append, List.mem_singleton, hxp, or_false]
  obtain ⟨v1, p1, t1, l, p, e1, hl1, hd1, htk, hll, hp, hs, hvl1, hr1, ht1⟩ := key (K - 1) (Nat.le_refl _)
  rw [show K - 1 + 1 = K by omega] at hd1 htk
  obtain ⟨hpb, hpn, hpm⟩ := win_root (f := f) (top := top) (d := d) (l := l) (by omega) (by
    rcases ht with ht | ht
    · left; exact List.eq_nil_of_length_eq_zero (by omega)
    · exact Or.inr ht)
  rw [← hp] at hpb hpn hpm
  refine ⟨v1, p1, t1, e1, hl1, hd1, ?_, hvl1, ?_, ht1.length, ht1.leaf⟩
  · rw [htk]
    have := hs.snoc hpb hpn hpm
    rwa [show K - 1 + 1 = K by omega] at this
  · have : p1.take (K - 1) = l := by
      have := congrArg (List.take (K - 1)) htk
      rw [List.take_take, Nat.min_eq_left (by omega), List.take_append_of_le_length (by omega)] at this
      rw [this, List.take_of_length_le (by omega)]
    rw [this]
    exact hr1

/-! ## The sorter -/

theorem make_wf (zero : α) {max : Nat} (h : 1 ≤ max) : ∃ s, make zero max = ok s ∧ s.WF ∧ s.max = max := by
  refine ⟨_, by unfold make; rw [if_neg (by omega)], ⟨h, ?_, ?_, ?_⟩, rfl⟩
  · simp only [List.length_append, List.length_range, List.length_replicate]; omega
  · intro j hj
    simp only [] at hj ⊢
    rw [List.getElem?_append_left (by rw [List.length_range]; exact hj), List.getElem?_range hj]
  · simp only [List.length_replicate]; omega

theorem grow_wf (zero : α) {s : Sorter α} (h : s.WF) (n : Nat) : (grow zero s n).WF ∧ n ≤ (grow zero s n).max := by
  obtain ⟨h1, h2, h3, h4⟩ := h
  unfold grow
  split
  · rename_i hn
    refine ⟨⟨by simp only []; omega, ?_, ?_, ?_⟩, Nat.le_refl n⟩
    · simp only [List.length_append, List.length_range, List.length_drop, List.length_replicate, h2]; omega
    · intro j hj
      simp only [] at hj ⊢
      rw [List.getElem?_append_left (by rw [List.length_range]; exact hj), List.getElem?_range hj]
    · simp only [List.length_take, List.length_append, List.length_replicate]; omega
  · exact ⟨⟨h1, h2, h3, h4⟩, by omega⟩

theorem two_spec {max d : Nat} (hm : 2 ^ d ≤ max) (hd : 1 ≤ d) {f : Nat → α} {vals : List α}
    (hv : ∀ x, x < 2 ^ d → vals[x]? = some (f x)) {pos : List Nat} (hpl : 2 ≤ pos.length) (h0 : pos[0]? = some (win f d 0))
    {t : List Nat} (h : Ent max d (win f) (fun _ _ => True) t) :
    ∃ pos' t', step2two vals d max pos t = ok (pos', t') ∧ pos'.length = pos.length ∧ pos'.drop 2 = pos.drop 2 ∧
      Smallest f (2 ^ d) 2 (pos'.take 2) ∧ t'.length = 2 * max - 1 ∧ ∀ j, j < max → t'[j]? = some j := by
  have hpb : win f d 0 < 2 ^ d := win_lt (Nat.le_refl d) (by simp)
  have hmin : ∀ x, x < 2 ^ d → f (win f d 0) ≤ f x := fun x hx => win_min f d 0 x (Nat.div_eq_of_lt hx)
  obtain ⟨t', e, ht⟩ := step2two_spec hm hd hv hpb h0 hpl h
  have hqb : win (without f (win f d 0)) d 0 < 2 ^ d := win_lt (Nat.le_refl d) (by simp)
  have hqn := win_without_ne f (win f d 0) d 0 hd
  have hqm : ∀ x, x < 2 ^ d → without f (win f d 0) (win (without f (win f d 0)) d 0) ≤ without f (win f d 0) x :=
    fun x hx => win_min _ d 0 x (Nat.div_eq_of_lt hx)
  generalize win (without f (win f d 0)) d 0 = q at *
  generalize win f d 0 = p at *
  refine ⟨_, t', e, List.length_set, List.drop_set_of_lt (by omega), ?_, ht.length, ht.leaf⟩
  have hs := ((Smallest.nil f (2 ^ d)).snoc hpb (by simp) (fun x hx _ => hmin x hx)).snoc hqb (by simpa using hqn) (fun x hx hxl => by
    have hxp : x ≠ p := by simpa using hxl
    have := hqm x hx
    unfold without at this
    rw [if_neg hqn, if_neg hxp] at this
    exact WithTop.coe_le_coe.1 this)
  have : (pos.set 1 q).take 2 = [] ++ [p] ++ [q] := by
    rw [take_set (by omega)]
    cases pos with
    | nil => simp at h0
    | cons a as => simp at h0; simp [h0]
  rw [this]
  exact hs

theorem copy_spec {f : Nat → α} {values : List α} : ∀ (n : Nat), (∀ x, x < n → values[x]? = some (f x)) → ∀ (v : List α), n ≤ v.length →
    ∃ v', forN n (fun i v => rd values i >>= fun a => wr v i a) v = ok v' ∧ v'.length = v.length ∧ ∀ x, x < n → v'[x]? = some (f x)
  | 0, _, v, _ => ⟨v, rfl, rfl, fun x hx => absurd hx (Nat.not_lt_zero x)⟩
  | n + 1, hv, v, hl => by
    obtain ⟨v1, e1, l1, h1⟩ := copy_spec n (fun x hx => hv x (by omega)) v (by omega)
    refine ⟨v1.set n (f n), by rw [forN_succ, e1, bind_ok, (rd_ok_iff).2 (hv n (by omega)), bind_ok, wr_lt (by omega)],
      by rw [List.length_set]; exact l1, fun x hx => ?_⟩
    by_cases hx' : x = n
    · subst hx'; rw [List.getElem?_set_self (by omega)]
    · rw [List.getElem?_set_ne (Ne.symm hx')]; exact h1 x (by omega)

theorem args {n K : Nat} (hn : 1 ≤ n) (hK : 1 ≤ K) (s : Sorter α) (pos : List Nat) : argK (K : Int) pos = K ∧ argN (n : Int) s = n := by
  unfold argK argN
  rw [if_neg (by omega), if_neg (by omega)]
  exact ⟨Int.toNat_natCast K, Int.toNat_natCast n⟩

theorem getElem?_set_zero {pos : List Nat} (h : 1 ≤ pos.length) (r : Nat) : (pos.set 0 r)[0]? = some r := by
  rw [List.getElem?_set_self (by omega)]

theorem partialSort_spec (zero top : α) {s : Sorter α} (hs : s.WF) {f : Nat → α} {values : List α} {d K : Nat} (hd : 1 ≤ d)
    (hv : ∀ x, x < 2 ^ d → values[x]? = some (f x)) (hK1 : 1 ≤ K) (hK : K ≤ 2 ^ d) (ht : 2 < K → ∀ x, x < 2 ^ d → f x < top)
    {pos : List Nat} (hpl : K ≤ pos.length) :
    ∃ s' pos', partialSort zero top s values pos (2 ^ d : Nat) K = ok (s', pos') ∧ s'.WF ∧ pos'.length = pos.length ∧
      pos'.drop K = pos.drop K ∧ Smallest f (2 ^ d) K (pos'.take K) := by
  obtain ⟨ha, hb⟩ := args (n := 2 ^ d) Nat.one_le_two_pow hK1 s pos
  obtain ⟨hg, hgm⟩ := grow_wf zero hs (2 ^ d)
  unfold partialSort
  simp only [ha, hb]
  generalize hgs : grow zero s (2 ^ d) = g at *
  obtain ⟨g1, g2, g3, g4⟩ := hg
  obtain ⟨t1, e1, h1⟩ := step1_spec hgm hd hv g2 g3
  rw [Nat.log2_two_pow, e1, bind_ok]
  simp only []
  rw [h1.root, bind_ok, wr_lt (by omega), bind_ok]
  by_cases hK2 : K = 2
  · subst hK2
    rw [if_pos rfl]
    obtain ⟨p', t', e, hl, hdr, hsm, htl, htf⟩ := two_spec hgm hd hv (pos := pos.set 0 (win f d 0)) (by rw [List.length_set]; exact hpl)
      (getElem?_set_zero (by omega) _) h1
    rw [List.length_set] at hl
    rw [List.drop_set_of_lt (by omega)] at hdr
    rw [e, bind_ok]
    exact ⟨_, p', rfl, ⟨g1, htl, htf, g4⟩, hl, hdr, hsm⟩
  · rw [if_neg hK2]
    obtain ⟨v1, e2, l2, hv2⟩ := copy_spec (2 ^ d) hv g.vals (by omega)
    obtain ⟨v', p', t', e, hl, hdr, hsm, hvl, _, htl, htf⟩ := step2_spec (top := top) hgm hd hv2 hK1 hK (by
      rcases Nat.lt_or_ge 2 K with h | h
      · exact Or.inr (ht h)
      · left; omega) (pos := pos.set 0 (win f d 0)) (by rw [List.length_set]; exact hpl) (getElem?_set_zero (by omega) _) h1
    rw [List.length_set] at hl
    rw [List.drop_set_of_lt (by omega)] at hdr
    rw [e2, bind_ok, e, bind_ok]
    exact ⟨_, p', rfl, ⟨g1, htl, htf, by simp only []; omega⟩, hl, hdr, hsm⟩

theorem destructive_spec (zero top : α) {s : Sorter α} (hs : s.WF) {f : Nat → α} {values : List α} {d K : Nat} (hd : 1 ≤ d)
    (hv : ∀ x, x < 2 ^ d → values[x]? = some (f x)) (hK1 : 1 ≤ K) (hK : K ≤ 2 ^ d) (ht : 2 < K → ∀ x, x < 2 ^ d → f x < top)
    {pos : List Nat} (hpl : K ≤ pos.length) :
    ∃ s' values' pos', partialSortDestructive zero top s values pos (2 ^ d : Nat) K = ok (s', values', pos') ∧ s'.WF ∧
      pos'.length = pos.length ∧ pos'.drop K = pos.drop K ∧ Smallest f (2 ^ d) K (pos'.take K) ∧
      ((K = 2 ∧ values' = values) ∨ (K ≠ 2 ∧ Replaced top (pos'.take (K - 1)) values values')) := by
  obtain ⟨ha, hb⟩ := args (n := 2 ^ d) Nat.one_le_two_pow hK1 s pos
  obtain ⟨hg, hgm⟩ := grow_wf zero hs (2 ^ d)
  unfold partialSortDestructive
  simp only [ha, hb]
  generalize hgs : grow zero s (2 ^ d) = g at *
  obtain ⟨g1, g2, g3, g4⟩ := hg
  obtain ⟨t1, e1, h1⟩ := step1_spec hgm hd hv g2 g3
  rw [Nat.log2_two_pow, e1, bind_ok]
  simp only []
  rw [h1.root, bind_ok, wr_lt (by omega), bind_ok]
  by_cases hK2 : K = 2
  · subst hK2
    rw [if_pos rfl]
    obtain ⟨p', t', e, hl, hdr, hsm, htl, htf⟩ := two_spec hgm hd hv (pos := pos.set 0 (win f d 0)) (by rw [List.length_set]; exact hpl)
      (getElem?_set_zero (by omega) _) h1
    rw [List.length_set] at hl
    rw [List.drop_set_of_lt (by omega)] at hdr
    rw [e, bind_ok]
    exact ⟨_, _, p', rfl, ⟨g1, htl, htf, g4⟩, hl, hdr, hsm, Or.inl ⟨rfl, rfl⟩⟩
  · rw [if_neg hK2]
    obtain ⟨v', p', t', e, hl, hdr, hsm, hvl, hr, htl, htf⟩ := step2_spec (top := top) hgm hd hv hK1 hK (by
      rcases Nat.lt_or_ge 2 K with h | h
      · exact Or.inr (ht h)
      · left; omega) (pos := pos.set 0 (win f d 0)) (by rw [List.length_set]; exact hpl) (getElem?_set_zero (by omega) _) h1
    rw [List.length_set] at hl
    rw [List.drop_set_of_lt (by omega)] at hdr
    rw [e, bind_ok]
    exact ⟨_, v', p', rfl, ⟨g1, htl, htf, g4⟩, hl, hdr, hsm, Or.inr ⟨hK2, hr⟩⟩

end Verif.Sorter
