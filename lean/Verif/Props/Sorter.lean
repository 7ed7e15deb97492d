import Verif.Proof.Sorter
import Mathlib.Order.Basic
import Mathlib.Algebra.Order.Ring.Int

/-! # Properties of the partial sort (C38, C63) -/

namespace Verif.Sorter
open Exec
variable {α : Type} [LinearOrder α]

/-- C38: `partial_sort` on a power of two of values writes in `pos` the `K` positions of the smallest values, ascending, all
different, and leaves the rest of `pos`. -/
theorem C38_partial_sort (zero top : α) {s : Sorter α} (hs : s.WF) {f : Nat → α} {values : List α} {d K : Nat} (hd : 1 ≤ d)
    (hv : ∀ x, x < 2 ^ d → values[x]? = some (f x)) (hK1 : 1 ≤ K) (hK : K ≤ 2 ^ d) (ht : 2 < K → ∀ x, x < 2 ^ d → f x < top)
    {pos : List Nat} (hpl : K ≤ pos.length) :
    ∃ s' pos', partialSort zero top s values pos (2 ^ d : Nat) K = ok (s', pos') ∧ s'.WF ∧ pos'.length = pos.length ∧
      pos'.drop K = pos.drop K ∧ Smallest f (2 ^ d) K (pos'.take K) :=
  partialSort_spec zero top hs hd hv hK1 hK ht hpl

/-- C38: every history of calls on a new sorter, of any sizes below and above the one it was made for. -/
theorem C38_history [Inhabited α] (zero top : α) {max : Nat} (hmax : 1 ≤ max) (cs : List (Call α)) (hcs : ∀ c ∈ cs, c.Valid top) :
    ∃ s out, make zero max = ok s ∧ calls zero top s cs = ok out ∧ List.Forall₂ Call.Result cs out := by
  obtain ⟨s, e, hs, hmx⟩ := make_wf zero hmax
  refine ⟨s, ?_⟩
  suffices h : ∀ s : Sorter α, s.WF → ∃ out, calls zero top s cs = ok out ∧ List.Forall₂ Call.Result cs out by
    obtain ⟨out, h1, h2⟩ := h s hs
    exact ⟨out, e, h1, h2⟩
  clear e hs hmx s
  induction cs with
  | nil => intro s _; exact ⟨[], rfl, List.Forall₂.nil⟩
  | cons c cs ih =>
    intro s hs
    obtain ⟨⟨d, hd, hn⟩, hvl, hK1, hKn, hpos, htop⟩ := hcs c (by simp)
    obtain ⟨s', pos', e, hs', hl, hdr, hsm⟩ := C38_partial_sort zero top hs (f := fun x => c.values.getD x default) (values := c.values)
      (d := d) (K := c.K) hd (fun x hx => by
        rw [List.getElem?_eq_getElem (by omega)]
        simp [List.getD_eq_getElem?_getD, List.getElem?_eq_getElem (show x < c.values.length by omega)]) hK1 (by omega)
      (fun h x hx => by
        have := htop h x (by omega)
        simpa [List.getD_eq_getElem?_getD, List.getElem?_eq_getElem (show x < c.values.length by omega)] using this) hpos
    obtain ⟨out, e2, h2⟩ := ih (fun c hc => hcs c (by simp [hc])) s' hs'
    refine ⟨pos' :: out, ?_, List.Forall₂.cons ⟨hl, hdr, by rw [hn]; exact hsm⟩ h2⟩
    show (partialSort zero top s c.values c.pos c.n c.K >>= fun x => calls zero top x.1 cs >>= fun l => ok (x.2 :: l)) = _
    rw [hn, e, bind_ok]
    simp only []
    rw [e2, bind_ok]

/-- C38: `partial_sort_destructive` gives the same positions; the values it took are replaced by the greatest value of the type,
except the last one, and, when two positions are asked for, the values are left. -/
theorem C38_destructive (zero top : α) {s : Sorter α} (hs : s.WF) {f : Nat → α} {values : List α} {d K : Nat} (hd : 1 ≤ d)
    (hv : ∀ x, x < 2 ^ d → values[x]? = some (f x)) (hK1 : 1 ≤ K) (hK : K ≤ 2 ^ d) (ht : 2 < K → ∀ x, x < 2 ^ d → f x < top)
    {pos : List Nat} (hpl : K ≤ pos.length) :
    ∃ s' values' pos', partialSortDestructive zero top s values pos (2 ^ d : Nat) K = ok (s', values', pos') ∧ s'.WF ∧
      pos'.length = pos.length ∧ pos'.drop K = pos.drop K ∧ Smallest f (2 ^ d) K (pos'.take K) ∧
      ((K = 2 ∧ values' = values) ∨ (K ≠ 2 ∧ Replaced top (pos'.take (K - 1)) values values')) :=
  destructive_spec zero top hs hd hv hK1 hK ht hpl

/-- C38: a null or negative size stands for the size of the sorter, a null or negative count for the size of `pos`. -/
theorem C38_defaults (zero top : α) (s : Sorter α) (values : List α) (pos : List Nat) (n K : Int) (hs : 1 ≤ s.max) (hp : 1 ≤ pos.length) :
    (n ≤ 0 → partialSort zero top s values pos n K = partialSort zero top s values pos s.max K) ∧
    (K ≤ 0 → partialSort zero top s values pos n K = partialSort zero top s values pos n pos.length) := by
  constructor
  · intro h
    have : argN n s = argN (s.max : Int) s := by
      unfold argN; rw [if_pos h, if_neg (by omega)]; exact (Int.toNat_natCast _).symm
    unfold partialSort
    simp only [this]
  · intro h
    have : argK K pos = argK (pos.length : Int) pos := by
      unfold argK; rw [if_pos h, if_neg (by omega)]; exact (Int.toNat_natCast _).symm
    unfold partialSort
    simp only [this]

/-- Sorters a user makes are well formed. -/
theorem C38_make (zero : α) {max : Nat} (h : 1 ≤ max) : ∃ s, make zero max = ok s ∧ s.WF ∧ s.max = max := make_wf zero h

/-- Eight values, three asked for, then two among four equal to the maximum. -/
example : ∃ s out, make (0 : Int) 4 = ok s ∧
    calls 0 127 s [⟨[5, 3, 9, 3, 8, 1, 7, 2], [0, 0, 0, 42], 8, 3⟩, ⟨[127, 127, 127, 127], [0, 0], 4, 2⟩] = ok out ∧
    out = [[5, 7, 3, 42], [3, 2]] := ⟨_, _, rfl, rfl, by decide⟩
example : ∀ c ∈ [(⟨[5, 3, 9, 3, 8, 1, 7, 2], [0, 0, 0, 42], 8, 3⟩ : Call Int), ⟨[127, 127, 127, 127], [0, 0], 4, 2⟩], c.Valid 127 := by
  intro c hc
  rcases List.mem_cons.1 hc with rfl | hc
  · exact ⟨⟨3, by decide, rfl⟩, by decide, by decide, by decide, by decide, fun _ => by decide⟩
  · rw [List.mem_singleton] at hc
    subst hc
    exact ⟨⟨2, by decide, rfl⟩, by decide, by decide, by decide, by decide, fun h => absurd h (by decide)⟩

/-! ## Corner cases (C63) -/

/-- C63: the number of values has to be a power of two: with three, the last one is never returned even if it is the smallest. -/
theorem C63_three (zero top : α) {s : Sorter α} (hs : s.WF) (hm : 3 ≤ s.max) (a b c : α) (pos : List Nat) (hp : 1 ≤ pos.length) :
    ∃ s' pos', partialSort zero top s [a, b, c] pos 3 1 = ok (s', pos') ∧ (pos'[0]? = some 0 ∨ pos'[0]? = some 1) := by
  obtain ⟨h1, h2, h3, h4⟩ := hs
  obtain ⟨mx, tree, vals⟩ := s
  simp only [] at h1 h2 h3 h4 hm
  match tree, h2 with
  | [], h2 => simp at h2; omega
  | [_], h2 => simp at h2; omega
  | t0 :: t1 :: tr, h2 =>
    have e0 := h3 0 (by omega)
    have e1 := h3 1 (by omega)
    simp at e0 e1
    subst e0 e1
    match vals, h4 with
    | [], h4 => simp at h4; omega
    | [_], h4 => simp at h4; omega
    | [_, _], h4 => simp at h4; omega
    | v0 :: v1 :: v2 :: vr, h4 =>
      have hw : mx < (0 :: 1 :: tr).length := by rw [h2]; omega
      have key : partialSort zero top ⟨mx, 0 :: 1 :: tr, v0 :: v1 :: v2 :: vr⟩ [a, b, c] pos 3 1 =
          ok (⟨mx, (0 :: 1 :: tr).set mx (if a < b then 0 else 1), a :: b :: c :: vr⟩, pos.set 0 (if a < b then 0 else 1)) := by
        unfold partialSort
        have hg : grow zero ⟨mx, 0 :: 1 :: tr, v0 :: v1 :: v2 :: vr⟩ 3 = ⟨mx, 0 :: 1 :: tr, v0 :: v1 :: v2 :: vr⟩ := by
          unfold grow; rw [if_neg (by simp only []; omega)]
        have hK : argK 1 pos = 1 := rfl
        have hN : argN 3 (⟨mx, 0 :: 1 :: tr, v0 :: v1 :: v2 :: vr⟩ : Sorter α) = 3 := rfl
        have hlog : Nat.log2 3 = 1 := by decide
        simp only [hK, hN, hg, hlog]
        have hs1 : step1 [a, b, c] 3 1 mx (0 :: 1 :: tr) = ok (mx, (0 :: 1 :: tr).set mx (if a < b then 0 else 1)) := by
          have : play [a, b, c] (2 * 0) (mx + 0) (0 :: 1 :: tr) = ok ((0 :: 1 :: tr).set mx (if a < b then 0 else 1)) := by
            show wr (0 :: 1 :: tr) mx (if a < b then 0 else 1) = _
            rw [wr_lt hw]
          unfold step1
          rw [show 3 / 2 = 0 + 1 from rfl, forN_succ, forN_zero, bind_ok, this]
          rfl
        rw [hs1, bind_ok]
        simp only []
        rw [(rd_ok_iff).2 (List.getElem?_set_self hw), bind_ok, wr_lt (by omega), bind_ok, if_neg (by decide)]
        rfl
      refine ⟨_, _, key, ?_⟩
      rw [List.getElem?_set_self (by omega)]
      split
      · exact Or.inl rfl
      · exact Or.inr rfl

/-- C63: with one value the shift of the depth is negative: undefined, on every sorter. -/
theorem C63_one (zero top : α) {s : Sorter α} (hs : s.WF) (a : α) (pos : List Nat) (K : Int) :
    partialSort zero top s [a] pos 1 K = ub ∧ partialSortDestructive zero top s [a] pos 1 K = ub := by
  have hN : argN 1 s = 1 := rfl
  have hg : grow zero s 1 = s := by unfold grow; rw [if_neg (by have := hs.pos; omega)]
  have hlog : Nat.log2 1 = 0 := by decide
  have h : step1 [a] 1 0 s.max s.tree = ub := rfl
  unfold partialSort partialSortDestructive
  simp only [hN, hg, hlog, h]
  exact ⟨rfl, rfl⟩

/-- C63: values equal to the greatest value of the type: the same position is returned again. -/
theorem C63_greatest : ∃ s s' pos, make (0 : Int) 4 = ok s ∧ partialSort 0 127 s [127, 127, 127, 127] [0, 0, 0] 4 3 = ok (s', pos) ∧
    pos = [3, 3, 3] := ⟨_, _, _, rfl, rfl, by decide⟩

/-- C63: more positions than values: a position is returned twice. -/
theorem C63_too_many : ∃ s s' pos, make (0 : Int) 2 = ok s ∧ partialSort 0 127 s [5, 3] [0, 0, 0] 2 3 = ok (s', pos) ∧
    pos = [1, 0, 1] := ⟨_, _, _, rfl, rfl, by decide⟩

/-- C63: more positions than `pos` can hold: written out of bounds. -/
theorem C63_overflow : ∃ s, make (0 : Int) 4 = ok s ∧ partialSort 0 127 s [5, 3, 9, 1] [0, 0] 4 3 = ub := ⟨_, rfl, rfl⟩

end Verif.Sorter
