import Verif.Spec.PolarSCL
import Verif.Proof.PolarSC

/-! # The trees of the list decoder -/

namespace Verif.PolarSCL
open Exec Verif.Polar
open Verif.PolarSC (Fns fLoop gLoop sLoop fLoop_eq gLoop_eq sLoop_eq zip3 transform_halves)

variable {R : Type} {w : Nat}

/-- The bits of a block. -/
def seg (u : List Bool) (a n : Nat) : List Bool := (u.drop a).take n

/-- The codeword of the bits of a node. -/
def blk (w m d l : Nat) (u : List Bool) : List (BitVec w) := polarTransform (m - d) (word w (seg u (l * 2 ^ (m - d)) (2 ^ (m - d))))

/-- The soft values of a node. -/
def node (F : Fns R w) (m : Nat) (y : List R) (u : List Bool) : Nat → Nat → List R
  | 0, _ => y
  | d + 1, l =>
    let v := node F m y u d (l / 2)
    if l % 2 = 0 then List.zipWith F.f (v.take (2 ^ (m - (d + 1)))) (v.drop (2 ^ (m - (d + 1))))
    else zip3 F.g (v.take (2 ^ (m - (d + 1)))) (v.drop (2 ^ (m - (d + 1)))) (blk w m (d + 1) (l - 1) u)

theorem pow_split {m d : Nat} (h : d < m) : 2 ^ (m - d) = 2 ^ (m - (d + 1)) + 2 ^ (m - (d + 1)) := by
  rw [show m - d = m - (d + 1) + 1 by omega, Nat.pow_succ]; omega

theorem div_half {m d : Nat} (h : d < m) (i : Nat) : i / 2 ^ (m - (d + 1)) / 2 = i / 2 ^ (m - d) := by
  rw [Nat.div_div_eq_div_mul, show m - d = m - (d + 1) + 1 by omega, Nat.pow_succ]

theorem blk_length (m d l : Nat) (u : List Bool) : (blk w m d l u).length = 2 ^ (m - d) := polarTransform_length _ _

theorem node_length (F : Fns R w) {m : Nat} {y : List R} (hy : y.length = 2 ^ m) (u : List Bool) : ∀ {d : Nat} (_ : d ≤ m) (l : Nat), (node F m y u d l).length = 2 ^ (m - d)
  | 0, _, _ => by simpa [node] using hy
  | d + 1, h, l => by
    have ih := node_length F hy u (d := d) (by omega) (l / 2)
    have hp := pow_split (m := m) (d := d) (by omega)
    unfold node
    dsimp only
    split
    · simp [ih]; omega
    · simp [zip3, ih, blk_length]; omega

theorem blk_congr {m d l : Nat} {u v : List Bool} (h : u.take ((l + 1) * 2 ^ (m - d)) = v.take ((l + 1) * 2 ^ (m - d))) : blk w m d l u = blk w m d l v := by
  unfold blk seg
  congr 2
  rw [Nat.succ_mul] at h
  have e := congrArg (List.drop (l * 2 ^ (m - d))) h
  rw [List.drop_take, List.drop_take, Nat.add_sub_cancel_left] at e
  exact e

theorem take_of_le {u v : List Bool} {a b : Nat} (h : u.take b = v.take b) (hab : a ≤ b) : u.take a = v.take a := by
  have := congrArg (List.take a) h
  rwa [List.take_take, List.take_take, Nat.min_eq_left hab] at this

theorem node_congr (F : Fns R w) {m : Nat} {y : List R} {u v : List Bool} : ∀ {d l : Nat}, d ≤ m → u.take (l * 2 ^ (m - d)) = v.take (l * 2 ^ (m - d)) → node F m y u d l = node F m y v d l
  | 0, _, _, _ => rfl
  | d + 1, l, hd, h => by
    have hp := pow_split (m := m) (d := d) (by omega)
    have ih : node F m y u d (l / 2) = node F m y v d (l / 2) := by
      refine node_congr F (by omega) (take_of_le h ?_)
      rw [hp, ← Nat.mul_two, Nat.mul_comm (2 ^ _) 2, ← Nat.mul_assoc]
      exact Nat.mul_le_mul_right _ (by omega)
    unfold node
    dsimp only
    rw [ih]
    split
    · rfl
    · rename_i h2
      rw [blk_congr (u := u) (v := v)]
      rwa [show l - 1 + 1 = l by omega]

/-- All the vectors have their sizes. -/
def Sized (m : Nat) (t : Tree R w) : Prop := ∀ d, d ≤ m → ∀ l, (t.lam d l).length = 2 ^ (m - d) ∧ (t.s d l).length = 2 ^ (m - d)

/-- What the decoder needs of the bits of the nodes before the leaf `i`. -/
def SOk (m : Nat) (u : List Bool) (i : Nat) (t : Tree R w) : Prop :=
  ∀ d, d ≤ m → i / 2 ^ (m - d) % 2 = 1 → t.s d (i / 2 ^ (m - d) - 1) = blk w m d (i / 2 ^ (m - d) - 1) u

/-- The tree of a path of bits `u`, before the next leaf. -/
structure TInv (F : Fns R w) (m : Nat) (y : List R) (u : List Bool) (t : Tree R w) : Prop where
  size : Sized m t
  root : t.lam 0 0 = y
  leaf : ∀ (j : Nat) b, u[j]? = some b → t.s m j = [if b then bitInit w else 0]
  lam : ∀ d, d ≤ m → u.length % 2 ^ (m - d) ≠ 0 → t.lam d (u.length / 2 ^ (m - d)) = node F m y u d (u.length / 2 ^ (m - d))
  s : SOk m u u.length t
  rootS : u.length = 2 ^ m → t.s 0 0 = polarTransform m (word w u)

/-- The tree when the LLR of the next leaf is computed. -/
structure AInv (F : Fns R w) (m : Nat) (y : List R) (u : List Bool) (t : Tree R w) : Prop where
  size : Sized m t
  root : t.lam 0 0 = y
  leaf : ∀ (j : Nat) b, u[j]? = some b → t.s m j = [if b then bitInit w else 0]
  lam : ∀ d, d ≤ m → t.lam d (u.length / 2 ^ (m - d)) = node F m y u d (u.length / 2 ^ (m - d))
  s : SOk m u u.length t

/-- The tree when the bit of the leaf is decided. -/
structure BInv (F : Fns R w) (m : Nat) (y : List R) (u : List Bool) (b : Bool) (t : Tree R w) : Prop where
  size : Sized m t
  root : t.lam 0 0 = y
  leaf : ∀ (j : Nat) c, (u ++ [b])[j]? = some c → t.s m j = [if c then bitInit w else 0]
  lam : ∀ d, d ≤ m → (u.length + 1) % 2 ^ (m - d) ≠ 0 → t.lam d (u.length / 2 ^ (m - d)) = node F m y u d (u.length / 2 ^ (m - d))
  s : SOk m u u.length t

theorem put_same {α : Type} (f : Nat → Nat → α) (d l : Nat) (v : α) : put f d l v d l = v := by simp [put]

theorem put_ne {α : Type} (f : Nat → Nat → α) {d l d' l' : Nat} (v : α) (h : ¬ (d' = d ∧ l' = l)) : put f d l v d' l' = f d' l' := if_neg h

/-! ## The soft values -/

theorem sized_put_lam {m : Nat} {t : Tree R w} (h : Sized m t) {d l : Nat} {v : List R} (hv : v.length = 2 ^ (m - d)) : Sized m { t with lam := put t.lam d l v } := by
  intro d' hd l'
  refine ⟨?_, (h d' hd l').2⟩
  show (put t.lam d l v d' l').length = _
  unfold put
  split
  · rename_i e; rw [e.1, hv]
  · exact (h d' hd l').1

theorem sized_put_s {m : Nat} {t : Tree R w} (h : Sized m t) {d l : Nat} {v : List (BitVec w)} (hv : v.length = 2 ^ (m - d)) : Sized m { t with s := put t.s d l v } := by
  intro d' hd l'
  refine ⟨(h d' hd l').1, ?_⟩
  show (put t.s d l v d' l').length = _
  unfold put
  split
  · rename_i e; rw [e.1, hv]
  · exact (h d' hd l').2

/-- One node. -/
theorem applyNode_eq (F : Fns R w) {m : Nat} {y : List R} {u : List Bool} {i : Nat} {t : Tree R w} (hsz : Sized m t) (hs : SOk m u i t) {d : Nat} (hd : d < m)
    (hl : t.lam d (i / 2 ^ (m - d)) = node F m y u d (i / 2 ^ (m - d))) :
    applyNode F (d + 1) (i / 2 ^ (m - (d + 1))) t =
      ok { t with lam := put t.lam (d + 1) (i / 2 ^ (m - (d + 1))) (node F m y u (d + 1) (i / 2 ^ (m - (d + 1)))) } := by
  have hp := pow_split hd
  have hh := div_half hd i
  have e1 := (hsz d (by omega) (i / 2 ^ (m - d))).1
  have e2 : (t.lam d (i / 2 ^ (m - d))).length / 2 = 2 ^ (m - (d + 1)) := by omega
  have hsd := hsz (d + 1) hd (i / 2 ^ (m - (d + 1)))
  have hso := hs (d + 1) hd
  generalize i / 2 ^ (m - (d + 1)) = q at *
  generalize i / 2 ^ (m - d) = r at *
  unfold applyNode node
  dsimp only
  rw [hh]
  by_cases h0 : q % 2 = 0
  · rw [if_pos h0, if_pos h0]
    unfold applyF
    rw [e2, show 2 * r = q by omega, fLoop_eq F (by omega) hsd.1, ← hl]
    rfl
  · rw [if_neg h0, if_neg h0]
    unfold applyG
    rw [show 2 * r + 1 = q by omega, show 2 * r = q - 1 by omega, hso (by omega), e2, gLoop_eq F (by omega) (blk_length _ _ _ _) hsd.1, ← hl]
    rfl

theorem computeLlr_eq (F : Fns R w) {m : Nat} {y : List R} {u : List Bool} {i : Nat} : ∀ {k d : Nat} {t : Tree R w}, d ≤ m → k < d → Sized m t → SOk m u i t → y.length = 2 ^ m →
    (∀ d', d' < d - k → t.lam d' (i / 2 ^ (m - d')) = node F m y u d' (i / 2 ^ (m - d'))) → t.lam 0 0 = y →
    (computeLlr F k d (i / 2 ^ (m - d)) t).Sat fun t' => Sized m t' ∧ t'.s = t.s ∧ t'.lam 0 0 = y ∧ ∀ d', d' ≤ d → t'.lam d' (i / 2 ^ (m - d')) = node F m y u d' (i / 2 ^ (m - d'))
  | 0, d, t, hd, hk, hsz, hs, hy, hl, hr => by
    obtain ⟨d, rfl⟩ : ∃ e, d = e + 1 := ⟨d - 1, by omega⟩
    refine ⟨_, by unfold computeLlr; exact applyNode_eq F hsz hs (by omega) (hl d (by omega)), sized_put_lam hsz (node_length F hy u hd _), rfl, ?_, fun d' hd' => ?_⟩
    · dsimp only
      rw [put_ne _ _ (fun e => absurd e.1 (by omega))]
      exact hr
    · dsimp only
      by_cases e : d' = d + 1
      · subst e; rw [put_same]
      · rw [put_ne _ _ (by omega)]; exact hl d' (by omega)
  | k + 1, d, t, hd, hk, hsz, hs, hy, hl, hr => by
    obtain ⟨d, rfl⟩ : ∃ e, d = e + 1 := ⟨d - 1, by omega⟩
    unfold computeLlr
    dsimp only
    rw [div_half (by omega)]
    refine (computeLlr_eq F (by omega) (by omega) hsz hs hy (fun d' hd' => hl d' (by omega)) hr).bind fun t' ⟨g1, g2, g3, g4⟩ => ?_
    have hs' : SOk m u i t' := by unfold SOk; rw [g2]; exact hs
    refine ⟨_, applyNode_eq F g1 hs' (by omega) (g4 d (by omega)), sized_put_lam g1 (node_length F hy u hd _), g2, ?_, fun d' hd' => ?_⟩
    · dsimp only
      rw [put_ne _ _ (fun e => absurd e.1 (by omega))]
      exact g3
    · dsimp only
      by_cases e : d' = d + 1
      · subst e; rw [put_same]
      · rw [put_ne _ _ (by omega)]; exact g4 d' (by omega)

theorem depthLoop_spec : ∀ {m i : Nat}, 0 < i → i < 2 ^ m → depthLoop m i < m ∧ i % 2 ^ depthLoop m i = 0 ∧ i % 2 ^ (depthLoop m i + 1) ≠ 0
  | 0, i, h0, h1 => by simp at h1; omega
  | m + 1, i, h0, h1 => by
    unfold depthLoop
    split
    · rename_i h; exact ⟨by omega, by simp [Nat.mod_one], by simp; omega⟩
    · rename_i h
      obtain ⟨g1, g2, g3⟩ := depthLoop_spec (m := m) (i := i / 2) (by omega) (by rw [Nat.pow_succ] at h1; omega)
      have key : ∀ c, i % 2 ^ (c + 1) = 2 * (i / 2 % 2 ^ c) := by
        intro c
        rw [Nat.pow_succ, Nat.mul_comm, Nat.mod_mul]; omega
      refine ⟨by omega, ?_, ?_⟩
      · rw [key, g2]
      · rw [key]; omega

theorem llr_ok (F : Fns R w) {m : Nat} {y : List R} (hy : y.length = 2 ^ m) {u : List Bool} (hm : 0 < m) (hu : u.length < 2 ^ m) {t : Tree R w} (h : TInv F m y u t) :
    (llrLeaf F m u.length t).Sat (AInv F m y u) := by
  have fin : ∀ k, k < m → (∀ d', d' < m - k → t.lam d' (u.length / 2 ^ (m - d')) = node F m y u d' (u.length / 2 ^ (m - d'))) →
      (computeLlr F k m u.length t).Sat (AInv F m y u) := by
    intro k hk hl
    have := computeLlr_eq F (m := m) (y := y) (u := u) (i := u.length) (k := k) (d := m) (le_refl m) hk h.size h.s hy hl h.root
    rw [Nat.sub_self, Nat.pow_zero, Nat.div_one] at this
    refine this.mono fun t' ⟨g1, g2, g3, g4⟩ => ⟨g1, g3, by rw [g2]; exact h.leaf, g4, by unfold SOk; rw [g2]; exact h.s⟩
  unfold llrLeaf computeDepth
  by_cases h0 : u.length = 0
  · rw [if_pos h0, if_neg (by omega)]
    have : ((m : Int) - 1).toNat = m - 1 := by omega
    rw [this]
    refine fin (m - 1) (by omega) fun d' hd' => ?_
    have : d' = 0 := by omega
    subst this
    rw [h0, Nat.zero_div, h.root]
    rfl
  · obtain ⟨g1, g2, g3⟩ := depthLoop_spec (m := m) (i := u.length) (by omega) hu
    rw [if_neg h0, if_neg (by omega)]
    rw [show ((depthLoop m u.length : Nat) : Int).toNat = depthLoop m u.length by omega]
    refine fin _ g1 fun d' hd' => h.lam d' (by omega) fun c => g3 ?_
    have hdv : 2 ^ (depthLoop m u.length + 1) ∣ 2 ^ (m - d') := Nat.pow_dvd_pow 2 (by omega)
    exact Nat.mod_eq_zero_of_dvd (hdv.trans (Nat.dvd_of_mod_eq_zero c))

/-! ## The decision of a bit -/

theorem decide_ok (F : Fns R w) {m : Nat} {y : List R} {u : List Bool} {t : Tree R w} (h : AInv F m y u t) (b : Bool) :
    BInv F m y u b { t with s := put t.s m u.length [if b then bitInit w else 0] } := by
  refine ⟨sized_put_s h.size (by simp), h.root, fun j c hj => ?_, fun d hd _ => h.lam d hd, fun d hd ho => ?_⟩
  · dsimp only
    by_cases e : j = u.length
    · subst e
      rw [put_same]
      simp at hj
      rw [hj]
    · rw [put_ne _ _ (fun c => e c.2)]
      refine h.leaf j c ?_
      rw [List.getElem?_append] at hj
      split at hj
      · exact hj
      · rw [List.getElem?_singleton] at hj
        split at hj
        · omega
        · exact absurd hj (by simp)
  · dsimp only
    rw [put_ne _ _ ?_]
    · exact h.s d hd ho
    · rintro ⟨rfl, e2⟩
      rw [Nat.sub_self, Nat.pow_zero, Nat.div_one] at ho e2
      omega

/-! ## The propagation of the bits -/

theorem odd_pred {q : Nat} (h : q % 2 = 1) : q - 1 + 1 = q := by omega

theorem odd_ne {q : Nat} (h : q % 2 = 1) : q ≠ q - 1 := by omega

theorem node_succ (F : Fns R w) (m : Nat) (y : List R) (u : List Bool) (d l : Nat) : node F m y u (d + 1) l =
    if l % 2 = 0 then List.zipWith F.f ((node F m y u d (l / 2)).take (2 ^ (m - (d + 1)))) ((node F m y u d (l / 2)).drop (2 ^ (m - (d + 1))))
    else zip3 F.g ((node F m y u d (l / 2)).take (2 ^ (m - (d + 1)))) ((node F m y u d (l / 2)).drop (2 ^ (m - (d + 1)))) (blk w m (d + 1) (l - 1) u) := rfl

theorem soft_succ (F : Fns R w) (n : Nat) (y : List R) (u : List (BitVec w)) (i : Nat) : PolarSC.soft F (n + 1) y u i =
    if i < 2 ^ n then PolarSC.soft F n (List.zipWith F.f (y.take (2 ^ n)) (y.drop (2 ^ n))) u i
    else PolarSC.soft F n (zip3 F.g (y.take (2 ^ n)) (y.drop (2 ^ n)) (polarTransform n (u.take (2 ^ n)))) (u.drop (2 ^ n)) (i - 2 ^ n) := rfl

theorem word_length (u : List Bool) : (word w u).length = u.length := by simp [word]

theorem seg_length {u : List Bool} {a n : Nat} (h : a + n ≤ u.length) : (seg u a n).length = n := by simp [seg]; omega

theorem blk_split {m d l : Nat} (hd : d < m) {u : List Bool} (hu : (l + 1) * 2 ^ (m - d) ≤ u.length) :
    blk w m d l u = List.zipWith (· ^^^ ·) (blk w m (d + 1) (2 * l) u) (blk w m (d + 1) (2 * l + 1) u) ++ blk w m (d + 1) (2 * l + 1) u := by
  have hp := pow_split hd
  have e : seg u (l * 2 ^ (m - d)) (2 ^ (m - d)) = seg u (2 * l * 2 ^ (m - (d + 1))) (2 ^ (m - (d + 1))) ++ seg u ((2 * l + 1) * 2 ^ (m - (d + 1))) (2 ^ (m - (d + 1))) := by
    unfold seg
    rw [hp, show l * (2 ^ (m - (d + 1)) + 2 ^ (m - (d + 1))) = 2 * l * 2 ^ (m - (d + 1)) by ring, show (2 * l + 1) * 2 ^ (m - (d + 1)) = 2 * l * 2 ^ (m - (d + 1)) + 2 ^ (m - (d + 1)) by ring,
      List.take_add, List.drop_drop]
  have hb : (l + 1) * 2 ^ (m - d) = 2 * l * 2 ^ (m - (d + 1)) + 2 ^ (m - (d + 1)) + 2 ^ (m - (d + 1)) := by rw [hp]; ring
  have hb2 : (2 * l + 1) * 2 ^ (m - (d + 1)) = 2 * l * 2 ^ (m - (d + 1)) + 2 ^ (m - (d + 1)) := by ring
  unfold blk
  rw [e, show word w (_ ++ _) = word w _ ++ word w _ from List.map_append, show m - d = m - (d + 1) + 1 by omega, transform_halves]
  · have q1 : 2 * l * 2 ^ (m - (d + 1)) + 2 ^ (m - (d + 1)) ≤ u.length := by have := Nat.two_pow_pos (m - (d + 1)); omega
    rw [word_length, seg_length q1]
  · have q1 : (2 * l + 1) * 2 ^ (m - (d + 1)) + 2 ^ (m - (d + 1)) ≤ u.length := by omega
    rw [word_length, seg_length q1]

theorem computeSums_eq {m d l : Nat} (hd : d < m) {t : Tree R w} (hsz : Sized m t) {u : List Bool} (hu : (l + 1) * 2 ^ (m - d) ≤ u.length)
    (h1 : t.s (d + 1) (2 * l) = blk w m (d + 1) (2 * l) u)
    (h2 : t.s (d + 1) (2 * l + 1) = blk w m (d + 1) (2 * l + 1) u) : computeSums d l t = ok { t with s := put t.s d l (blk w m d l u) } := by
  have hp := pow_split hd
  have e : (t.lam d l).length / 2 = 2 ^ (m - (d + 1)) := by rw [(hsz d (by omega) l).1]; omega
  unfold computeSums
  rw [h1, h2, e, sLoop_eq (by rw [blk_length]) (by rw [blk_length]) (by rw [(hsz d (by omega) l).2]; omega), blk_split hd hu]
  rfl

theorem lane_end {i l H : Nat} (h : (l + 1) * H = i + 1) : i / H = l := by
  have hH : 0 < H := Nat.pos_of_ne_zero fun e => by subst e; omega
  rw [Nat.succ_mul] at h
  exact Nat.div_eq_of_lt_le (by omega) (by rw [Nat.succ_mul]; omega)

theorem propagate_ok {m i : Nat} {u : List Bool} (hu : u.length = i + 1) : ∀ {d l : Nat} {t : Tree R w}, d ≤ m → (l + 1) * 2 ^ (m - d) = i + 1 → Sized m t → SOk m u i t →
    (d < m → t.s (d + 1) (2 * l) = blk w m (d + 1) (2 * l) u ∧ t.s (d + 1) (2 * l + 1) = blk w m (d + 1) (2 * l + 1) u) → (d = m → t.s d l = blk w m d l u) →
    (propagate m d l t).Sat fun t' => Sized m t' ∧ t'.lam = t.lam ∧ (∀ d' l', d' = m ∨ d < d' ∨ i / 2 ^ (m - d') ≠ l' → t'.s d' l' = t.s d' l') ∧
      ∀ d', d' ≤ d → ∀ l', (l' + 1) * 2 ^ (m - d') = i + 1 → t'.s d' l' = blk w m d' l' u
  | 0, l, t, hd, hl, hsz, hs, hc, hm => by
    unfold propagate
    split
    · rename_i h0
      rw [computeSums_eq h0 hsz (by omega) (hc h0).1 (hc h0).2]
      refine sat_ok.2 ⟨sized_put_s hsz (blk_length _ _ _ _), rfl, fun d' l' h => put_ne _ _ ?_, fun d' hd' l' h => ?_⟩
      · rintro ⟨rfl, rfl⟩
        rcases h with h | h | h
        · omega
        · omega
        · exact h (lane_end hl)
      · obtain rfl : d' = 0 := by omega
        rw [← lane_end hl, lane_end h]
        exact put_same _ _ _ _
    · refine sat_ok.2 ⟨hsz, rfl, fun _ _ _ => rfl, fun d' hd' l' h => ?_⟩
      obtain rfl : d' = 0 := by omega
      have := hm (by omega)
      rw [← lane_end hl, lane_end h] at this
      exact this
  | d + 1, l, t, hd, hl, hsz, hs, hc, hm => by
    have first : ∀ P : Tree R w → Prop, (∀ t1 : Tree R w, Sized m t1 → t1.lam = t.lam → (∀ d' l', d' = m ∨ i / 2 ^ (m - d') ≠ l' ∨ d' ≠ d + 1 → t1.s d' l' = t.s d' l') →
        t1.s (d + 1) l = blk w m (d + 1) l u → (if l % 2 = 1 then propagate m d (l / 2) t1 else ok t1).Sat P) → (propagate m (d + 1) l t).Sat P := by
      intro P hP
      unfold propagate
      by_cases h0 : d + 1 < m
      · rw [if_pos h0, computeSums_eq h0 hsz (by omega) (hc h0).1 (hc h0).2, bind_ok]
        refine hP _ (sized_put_s hsz (blk_length _ _ _ _)) rfl (fun d' l' h => put_ne _ _ ?_) (put_same _ _ _ _)
        rintro ⟨rfl, rfl⟩
        rcases h with h | h | h
        · omega
        · exact h (lane_end hl)
        · exact h rfl
      · rw [if_neg h0, bind_ok]
        exact hP t hsz rfl (fun _ _ _ => rfl) (hm (by omega))
    refine first _ fun t1 k1 k2 k3 k4 => ?_
    have hp := pow_split (m := m) (d := d) (by omega)
    have hlane := lane_end hl
    split
    · rename_i ho
      have hl2 : 2 * (l / 2) + 1 = l := by omega
      have hs1 : SOk m u i t1 := by
        intro d' hd' ho'
        rw [k3 _ _ (Or.inr (Or.inl (odd_ne ho')))]
        exact hs d' hd' ho'
      refine (propagate_ok hu (d := d) (l := l / 2) (t := t1) (by omega) ?_ k1 hs1 ?_ (by omega)).mono fun t' ⟨g1, g2, g3, g4⟩ => ⟨g1, by rw [g2, k2], ?_, ?_⟩
      · rw [hp, ← Nat.mul_two, Nat.mul_comm _ 2, ← Nat.mul_assoc, show (l / 2 + 1) * 2 = l + 1 by omega]
        exact hl
      · intro _
        have := hs1 (d + 1) hd (by rw [hlane]; exact ho)
        rw [hlane, show l - 1 = 2 * (l / 2) by omega] at this
        rw [hl2]
        exact ⟨this, k4⟩
      · intro d' l' h
        rw [g3 _ _ (by rcases h with h | h | h; exacts [Or.inl h, Or.inr (Or.inl (by omega)), Or.inr (Or.inr h)]),
          k3 _ _ (by rcases h with h | h | h; exacts [Or.inl h, Or.inr (Or.inr (by omega)), Or.inr (Or.inl h)])]
      · intro d' hd' l' h
        by_cases e : d' = d + 1
        · subst e
          rw [← lane_end h, hlane, g3 _ _ (Or.inr (Or.inl (by omega)))]
          exact k4
        · exact g4 d' (by omega) l' h
    · rename_i ho
      refine sat_ok.2 ⟨k1, k2, fun d' l' h => k3 _ _ (by rcases h with h | h | h; exacts [Or.inl h, Or.inr (Or.inr (by omega)), Or.inr (Or.inl h)]), fun d' hd' l' h => ?_⟩
      by_cases e : d' = d + 1
      · subst e
        rw [← lane_end h, hlane]; exact k4
      · exfalso
        have hq : m - d' = m - (d + 1) + (d - d' + 1) := by omega
        rw [hq, Nat.pow_add, Nat.mul_comm (2 ^ (m - (d + 1))), ← Nat.mul_assoc, ← hl] at h
        have := Nat.eq_of_mul_eq_mul_right (Nat.two_pow_pos _) h
        rw [Nat.pow_succ, ← Nat.mul_assoc] at this
        omega

theorem SOk.snoc {m : Nat} {u : List Bool} {b : Bool} {t : Tree R w} (h : SOk m u u.length t) : SOk m (u ++ [b]) u.length t := by
  intro d hd ho
  rw [h d hd ho]
  refine blk_congr ?_
  have : (u.length / 2 ^ (m - d) - 1 + 1) * 2 ^ (m - d) ≤ u.length := by
    rw [odd_pred ho]; exact Nat.div_mul_le_self _ _
  rw [List.take_append_of_le_length this]

theorem blk_leaf {m j : Nat} {u : List Bool} {b : Bool} (h : u[j]? = some b) : blk w m m j u = [if b then bitInit w else 0] := by
  unfold blk
  rw [Nat.sub_self, Nat.pow_zero, Nat.mul_one]
  have : seg u j 1 = [b] := by
    unfold seg
    rw [List.take_one]
    simp [h]
  rw [this]
  cases b <;> simp [word, polarTransform, xorAll, Below]

theorem prop_ok (F : Fns R w) {m : Nat} {y : List R} {u : List Bool} {b : Bool} {t : Tree R w} (h : BInv F m y u b t) : (propagate m m u.length t).Sat (TInv F m y (u ++ [b])) := by
  have hl : (u ++ [b]).length = u.length + 1 := by simp
  refine (propagate_ok (u := u ++ [b]) hl (d := m) (l := u.length) (t := t) (le_refl m) (by simp) h.size h.s.snoc (by omega) fun _ => ?_).mono fun t' ⟨g1, g2, g3, g4⟩ =>
    ⟨g1, by rw [g2]; exact h.root, fun j c hj => by rw [g3 _ _ (Or.inl rfl)]; exact h.leaf j c hj, ?_, ?_, ?_⟩
  · have hb : (u ++ [b])[u.length]? = some b := by simp
    rw [h.leaf _ b hb, blk_leaf hb]
  · intro d hd hne
    rw [hl] at hne ⊢
    have hq : (u.length + 1) / 2 ^ (m - d) = u.length / 2 ^ (m - d) := by
      rw [Nat.succ_div, if_neg (fun c => hne (Nat.mod_eq_zero_of_dvd c)), Nat.add_zero]
    rw [hq, g2, h.lam d hd hne]
    refine node_congr F hd ?_
    rw [List.take_append_of_le_length (Nat.div_mul_le_self _ _)]
  · intro d hd ho
    rw [hl] at ho ⊢
    by_cases hne : (u.length + 1) % 2 ^ (m - d) = 0
    · have hq := Nat.div_mul_cancel (Nat.dvd_of_mod_eq_zero hne)
      refine g4 d hd _ ?_
      rw [odd_pred ho]
      exact hq
    · have hq : (u.length + 1) / 2 ^ (m - d) = u.length / 2 ^ (m - d) := by
        rw [Nat.succ_div, if_neg (fun c => hne (Nat.mod_eq_zero_of_dvd c)), Nat.add_zero]
      rw [hq] at ho ⊢
      rw [g3 _ _ (Or.inr (Or.inr (odd_ne ho)))]
      exact h.s.snoc d hd ho
  · intro hN
    rw [hl] at hN
    have := g4 0 (by omega) 0 (by rw [Nat.sub_zero]; omega)
    rw [this]
    unfold blk seg
    rw [Nat.zero_mul, List.drop_zero, Nat.sub_zero, ← hN, ← hl, List.take_length]

/-! ## The soft value of a leaf -/

theorem node_soft (F : Fns R w) {m : Nat} {y : List R} {u : List Bool} {i : Nat} (hi : i < 2 ^ m) : ∀ {d : Nat}, d ≤ m →
    PolarSC.soft F m y (word w u) i = PolarSC.soft F (m - d) (node F m y u d (i / 2 ^ (m - d))) ((word w u).drop (i / 2 ^ (m - d) * 2 ^ (m - d))) (i % 2 ^ (m - d))
  | 0, _ => by
    rw [Nat.sub_zero, Nat.div_eq_of_lt hi, Nat.zero_mul, List.drop_zero, Nat.mod_eq_of_lt hi]
    rfl
  | d + 1, hd => by
    have hp := pow_split (m := m) (d := d) (by omega)
    have hh := div_half (m := m) (d := d) (by omega) i
    have hm1 := Nat.div_add_mod i (2 ^ (m - d))
    have hm2 := Nat.div_add_mod i (2 ^ (m - (d + 1)))
    have hlt := Nat.mod_lt i (Nat.two_pow_pos (m - (d + 1)))
    have ih := node_soft F (y := y) (u := u) hi (d := d) (by omega)
    rw [ih, show m - d = m - (d + 1) + 1 by omega, soft_succ, show m - (d + 1) + 1 = m - d by omega]
    rw [node_succ, hh]
    by_cases h0 : i / 2 ^ (m - (d + 1)) % 2 = 0
    · have hq : i / 2 ^ (m - (d + 1)) = 2 * (i / 2 ^ (m - d)) := by omega
      have e2 : i / 2 ^ (m - (d + 1)) * 2 ^ (m - (d + 1)) = i / 2 ^ (m - d) * 2 ^ (m - d) := by rw [hq, hp]; ring
      have e3 : i % 2 ^ (m - (d + 1)) = i % 2 ^ (m - d) := by
        rw [Nat.mul_comm] at hm1 hm2; omega
      rw [if_pos (by omega), if_pos h0, e2, e3]
    · have hq : i / 2 ^ (m - (d + 1)) = 2 * (i / 2 ^ (m - d)) + 1 := by omega
      have e2 : i / 2 ^ (m - (d + 1)) * 2 ^ (m - (d + 1)) = i / 2 ^ (m - d) * 2 ^ (m - d) + 2 ^ (m - (d + 1)) := by rw [hq, hp]; ring
      have e3 : i % 2 ^ (m - (d + 1)) + 2 ^ (m - (d + 1)) = i % 2 ^ (m - d) := by
        rw [Nat.mul_comm] at hm1 hm2; omega
      rw [if_neg (by omega), if_neg h0, e2, ← e3, Nat.add_sub_cancel, List.drop_drop]
      congr 2
      unfold blk seg word
      rw [List.map_take, List.map_drop, show i / 2 ^ (m - (d + 1)) - 1 = 2 * (i / 2 ^ (m - d)) by omega, show 2 * (i / 2 ^ (m - d)) * 2 ^ (m - (d + 1)) = i / 2 ^ (m - d) * 2 ^ (m - d) by rw [hp]; ring]

theorem node_leaf (F : Fns R w) {m : Nat} {y : List R} (hy : y.length = 2 ^ m) {u : List Bool} {i : Nat} (hi : i < 2 ^ m) : node F m y u m i = [PolarSC.soft F m y (word w u) i] := by
  have h := node_soft F (y := y) (u := u) hi (d := m) (le_refl m)
  have hl := node_length F hy u (d := m) (le_refl m) i
  rw [Nat.sub_self, Nat.pow_zero, Nat.div_one, Nat.mul_one, Nat.mod_one] at h
  rw [Nat.sub_self, Nat.pow_zero] at hl
  obtain ⟨a, ha⟩ := List.length_eq_one_iff.1 hl
  rw [h, ha]
  simp [PolarSC.soft]

/-! ## The duplication -/

theorem dupSums_lam (a : Tree R w) : ∀ (d l : Nat) (b : Tree R w), (dupSums a d l b).lam = b.lam
  | 0, _, _ => rfl
  | d + 1, l, b => by
    unfold dupSums
    rw [dupSums_lam]
    split <;> rfl

theorem dupSums_s (a : Tree R w) : ∀ (d l : Nat) (b : Tree R w) (d' l' : Nat), (dupSums a d l b).s d' l' = a.s d' l' ∨ (dupSums a d l b).s d' l' = b.s d' l' ∧
    ¬ (0 < d' ∧ d' ≤ d ∧ l / 2 ^ (d - d') % 2 = 1 ∧ l' = l / 2 ^ (d - d') - 1)
  | 0, _, _, _, _ => Or.inr ⟨rfl, fun h => by omega⟩
  | d + 1, l, b, d', l' => by
    unfold dupSums
    rcases dupSums_s a d (l / 2) (if 2 * (l / 2) ≠ l then { b with s := put b.s (d + 1) (2 * (l / 2)) (a.s (d + 1) (2 * (l / 2))) } else b) d' l' with h | ⟨h1, h2⟩
    · exact Or.inl h
    · rw [h1]
      by_cases e : d' = d + 1
      · subst e
        split
        · dsimp only
          by_cases e2 : l' = 2 * (l / 2)
          · subst e2; exact Or.inl (put_same _ _ _ _)
          · refine Or.inr ⟨put_ne _ _ (fun c => e2 c.2), fun c => e2 ?_⟩
            have := c.2.2.2
            rw [Nat.sub_self, Nat.pow_zero, Nat.div_one] at this
            omega
        · refine Or.inr ⟨rfl, fun c => ?_⟩
          have := c.2.2.1
          rw [Nat.sub_self, Nat.pow_zero, Nat.div_one] at this
          omega
      · have e1 : ∀ hd' : d' ≤ d, l / 2 ^ (d + 1 - d') = l / 2 / 2 ^ (d - d') := by
          intro hd'
          rw [Nat.div_div_eq_div_mul, show d + 1 - d' = d - d' + 1 by omega, Nat.pow_succ, Nat.mul_comm]
        refine Or.inr ⟨?_, fun c => h2 ⟨c.1, by omega, ?_⟩⟩
        · split
          · exact put_ne _ _ (fun c => e c.1)
          · rfl
        · rw [← e1 (by omega)]; exact c.2.2

theorem dupLlr_s (a : Tree R w) : ∀ (d l : Nat) (b : Tree R w), (dupLlr a d l b).s = b.s
  | 0, _, _ => rfl
  | d + 1, l, b => by
    unfold dupLlr
    rw [dupLlr_s]

theorem dupLlr_lam (a : Tree R w) : ∀ (d l : Nat) (b : Tree R w) (d' l' : Nat), (dupLlr a d l b).lam d' l' = a.lam d' l' ∧ 0 < d' ∨ (dupLlr a d l b).lam d' l' = b.lam d' l' ∧
    ¬ (0 < d' ∧ d' ≤ d ∧ l' = l / 2 ^ (d - d'))
  | 0, _, _, _, _ => Or.inr ⟨rfl, fun h => by omega⟩
  | d + 1, l, b, d', l' => by
    unfold dupLlr
    rcases dupLlr_lam a d (l / 2) { b with lam := put b.lam (d + 1) l (a.lam (d + 1) l) } d' l' with h | ⟨h1, h2⟩
    · exact Or.inl h
    · rw [h1]
      dsimp only
      by_cases e : d' = d + 1
      · subst e
        by_cases e2 : l' = l
        · subst e2; exact Or.inl ⟨put_same _ _ _ _, by omega⟩
        · refine Or.inr ⟨put_ne _ _ (fun c => e2 c.2), fun c => e2 ?_⟩
          have := c.2.2
          rwa [Nat.sub_self, Nat.pow_zero, Nat.div_one] at this
      · have e1 : ∀ hd' : d' ≤ d, l / 2 ^ (d + 1 - d') = l / 2 / 2 ^ (d - d') := by
          intro hd'
          rw [Nat.div_div_eq_div_mul, show d + 1 - d' = d - d' + 1 by omega, Nat.pow_succ, Nat.mul_comm]
        refine Or.inr ⟨put_ne _ _ (fun c => e c.1), fun c => h2 ⟨c.1, by omega, ?_⟩⟩
        rw [← e1 (by omega)]; exact c.2.2

/-- The tree of the new path, before the decision of its bit. -/
def dupTree (m N i : Nat) (a b : Tree R w) : Tree R w :=
  let b := { b with s := fun x l => if x = m ∧ l < i then a.s x l else b.s x l }
  let b := dupSums a m i b
  if i + 1 < N then dupLlr a m (i + 1) b else b

theorem dupTree_ok (F : Fns R w) {m : Nat} {y : List R} {u : List Bool} (hu : u.length < 2 ^ m) {a b : Tree R w} (h : AInv F m y u a) (hb : Sized m b) (hr : b.lam 0 0 = y) (c : Bool) :
    BInv F m y u c { dupTree m (2 ^ m) u.length a b with s := put (dupTree m (2 ^ m) u.length a b).s m u.length [if c then bitInit w else 0] } ∧
      Sized m (dupTree m (2 ^ m) u.length a b) := by
  have hs : ∀ d l, (dupTree m (2 ^ m) u.length a b).s d l = (dupSums a m u.length { b with s := fun x l => if x = m ∧ l < u.length then a.s x l else b.s x l }).s d l := by
    intro d l
    unfold dupTree
    dsimp only
    split
    · rw [dupLlr_s]
    · rfl
  have hlam : ∀ d l, (dupTree m (2 ^ m) u.length a b).lam d l = a.lam d l ∧ 0 < d ∨ (dupTree m (2 ^ m) u.length a b).lam d l = b.lam d l ∧
      (u.length + 1 < 2 ^ m → ¬ (0 < d ∧ d ≤ m ∧ l = (u.length + 1) / 2 ^ (m - d))) := by
    intro d l
    unfold dupTree
    dsimp only
    split
    · rcases dupLlr_lam a m (u.length + 1) (dupSums a m u.length { b with s := fun x l => if x = m ∧ l < u.length then a.s x l else b.s x l }) d l with g | ⟨g1, g2⟩
      · exact Or.inl g
      · rw [g1, dupSums_lam]
        exact Or.inr ⟨rfl, fun _ => g2⟩
    · rename_i h0
      rw [dupSums_lam]
      exact Or.inr ⟨rfl, fun c => absurd c h0⟩
  have hsz : Sized m (dupTree m (2 ^ m) u.length a b) := by
    intro d hd l
    constructor
    · rcases hlam d l with ⟨g, _⟩ | ⟨g, _⟩
      · rw [g]; exact (h.size d hd l).1
      · rw [g]; exact (hb d hd l).1
    · rw [hs]
      rcases dupSums_s a m u.length { b with s := fun x l => if x = m ∧ l < u.length then a.s x l else b.s x l } d l with g | ⟨g, _⟩
      · rw [g]; exact (h.size d hd l).2
      · rw [g]
        dsimp only
        split
        · exact (h.size d hd l).2
        · exact (hb d hd l).2
  refine ⟨⟨sized_put_s hsz (by simp), ?_, fun j e hj => ?_, fun d hd hne => ?_, fun d hd ho => ?_⟩, hsz⟩
  · rcases hlam 0 0 with ⟨_, g⟩ | ⟨g, _⟩
    · omega
    · exact g.trans hr
  · dsimp only
    by_cases hjl : j = u.length
    · subst hjl
      rw [put_same]
      simp at hj
      rw [hj]
    · rw [put_ne _ _ (fun c => hjl c.2), hs]
      have hju : j < u.length := by
        have := (List.getElem?_eq_some_iff.1 hj).1
        simp at this; omega
      have hju' : u[j]? = some e := by rwa [List.getElem?_append_left hju] at hj
      rw [← h.leaf j e hju']
      rcases dupSums_s a m u.length { b with s := fun x l => if x = m ∧ l < u.length then a.s x l else b.s x l } m j with g | ⟨g, _⟩
      · exact g
      · rw [g]
        exact if_pos ⟨rfl, hju⟩
  · dsimp only
    have hq : (u.length + 1) / 2 ^ (m - d) = u.length / 2 ^ (m - d) := by
      rw [Nat.succ_div, if_neg (fun c => hne (Nat.mod_eq_zero_of_dvd c)), Nat.add_zero]
    by_cases hd0 : d = 0
    · subst hd0
      rw [Nat.sub_zero, Nat.div_eq_of_lt hu]
      rcases hlam 0 0 with ⟨_, g⟩ | ⟨g, _⟩
      · omega
      · exact g.trans hr
    · rw [← h.lam d hd]
      rcases hlam d (u.length / 2 ^ (m - d)) with ⟨g, _⟩ | ⟨_, g⟩
      · exact g
      · refine absurd ⟨by omega, hd, hq.symm⟩ (g ?_)
        rcases Nat.lt_or_ge (u.length + 1) (2 ^ m) with g' | g'
        · exact g'
        · refine absurd ?_ hne
          rw [show u.length + 1 = 2 ^ m by omega]
          exact Nat.mod_eq_zero_of_dvd (Nat.pow_dvd_pow 2 (by omega))
  · dsimp only
    rw [put_ne _ _ ?_, hs, ← h.s d hd ho]
    · rcases dupSums_s a m u.length { b with s := fun x l => if x = m ∧ l < u.length then a.s x l else b.s x l } d (u.length / 2 ^ (m - d) - 1) with g | ⟨_, g⟩
      · exact g
      · refine absurd ⟨Nat.pos_of_ne_zero fun h0 => ?_, hd, ho, rfl⟩ g
        subst h0
        rw [Nat.sub_zero, Nat.div_eq_of_lt hu] at ho
        omega
    · rintro ⟨rfl, e2⟩
      rw [Nat.sub_self, Nat.pow_zero, Nat.div_one] at ho e2
      omega

end Verif.PolarSCL
