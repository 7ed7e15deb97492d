import Verif.Spec.Control

/-! # Proofs about control -/

namespace Verif.Control
open Exec

theorem calls_spec {σ : Type} {step : σ → Exec (σ × Int)} {st : Nat → σ} {out : Nat → Int}
    (h : ∀ i, step (st i) = ok (st (i + 1), out i)) (k : Nat) : calls step k (st 0) = ok (st k, (List.range k).map out) := by
  unfold calls
  induction k with
  | zero => rfl
  | succ k ih =>
    rw [forN_succ, ih, bind_ok]
    simp only []
    rw [h k, bind_ok, List.range_succ, List.map_append]
    rfl

theorem iterate_eq (L c : Nat) (hL : L + 1 < 2 ^ 64) (hc : c ≤ L) :
    (⟨L, c⟩ : Iter).iterate = ok (⟨L, (c + 1) % (L + 1)⟩, if c < L then 0 else 1) := by
  unfold Iter.iterate
  rw [if_neg (by simp only; omega)]
  simp only []
  rw [Nat.mod_eq_of_lt (by omega : c + 1 < 2 ^ 64)]

theorem pathOf_toInt8 (n p : Nat) (hn : n ≤ 128) (hp : p < n) : pathOf n (toInt8 p) = p := by
  have : toInt8 p = p := by
    unfold toInt8 Int.bmod
    simp only []
    split <;> omega
  unfold pathOf
  rw [this]
  have : ((p : Int) % 2 ^ 64).toNat = p := by omega
  rw [this, Nat.mod_eq_of_lt hp]

theorem copyN_spec (src : List Int) (len : Nat) (dst : List Int) (hs : len ≤ src.length) (hd : len ≤ dst.length) :
    copyN src len dst = ok (src.take len ++ dst.drop len) := by
  unfold copyN
  induction len with
  | zero => rfl
  | succ k ih =>
    rw [forN_succ, ih (by omega) (by omega), bind_ok, rd_lt (by omega : k < src.length), bind_ok,
      wr_lt (by simp only [List.length_append, List.length_take, List.length_drop]; omega)]
    refine congrArg ok ?_
    refine List.ext_getElem? fun j => ?_
    have hl : (src.take k).length = k := by rw [List.length_take]; omega
    have hl' : (src.take (k + 1)).length = k + 1 := by rw [List.length_take]; omega
    rw [List.getElem?_set]
    by_cases hj : k = j
    · subst hj
      rw [if_pos rfl, if_pos (by simp only [List.length_append, List.length_take, List.length_drop]; omega),
        List.getElem?_append_left (by omega), List.getElem?_take_of_lt (by omega), List.getElem?_eq_getElem]
    · rw [if_neg hj]
      by_cases hlt : j < k
      · rw [List.getElem?_append_left (by omega), List.getElem?_append_left (by omega), List.getElem?_take_of_lt hlt,
          List.getElem?_take_of_lt (by omega)]
      · rw [List.getElem?_append_right (by omega), List.getElem?_append_right (by omega), hl, hl', List.getElem?_drop, List.getElem?_drop]
        congr 1
        omega

/-! ## The loop -/

variable {bad : Nat → List Ev → Bool}

theorem task_iterate (s : Loop) : loopTask bad 0 s = (match s.it.iterate with
    | .ok r => .inl ({ s with it := r.1, ctrl := r.2, trace := s.trace ++ [.iterate] }, 0)
    | _ => .inr s) := rfl
theorem task_select (s : Loop) : loopTask bad 1 s = .inl ({ s with trace := s.trace ++ [.select s.path] }, 0) := rfl
theorem task_commute (s : Loop) : loopTask bad 2 s =
    .inl ({ s with path := pathOf s.n s.ctrl, trace := s.trace ++ [.commute (pathOf s.n s.ctrl)] }, (pathOf s.n s.ctrl : Int)) := rfl
theorem task_user (h : NoThrow bad) (k : Nat) (s : Loop) : loopTask bad (k + 3) s = .inl ({ s with trace := s.trace ++ [.user k] }, 0) := by
  show (if bad k s.trace then _ else _) = _
  rw [h k s.trace]
  rfl

theorem forget_inl {σ : Type} (x : σ × Int) : forget (.inl x : Sum (σ × Int) σ) = .fin x.1 := rfl
theorem fin_then {σ : Type} (s : σ) (f : σ → Flow σ) : (Flow.fin s).andThen f = f s := rfl
theorem over_nil {σ : Type} (f : Nat → σ → Flow σ) (s : σ) : overList f [] s = .fin s := rfl
theorem over_cons {σ : Type} (f : Nat → σ → Flow σ) (a : Nat) (l : List Nat) (s : σ) :
    overList f (a :: l) s = (f a s).andThen (overList f l) := rfl
theorem over_one {σ : Type} (f : Nat → σ → Flow σ) (a : Nat) (s : σ) : overList f [a] s = f a s := by
  rw [over_cons]
  cases f a s <;> rfl

theorem over_user (h : NoThrow bad) : ∀ (l : List Nat) (s : Loop),
    overList (fun t s => forget (loopTask bad t s)) (l.map (· + 3)) s = .fin { s with trace := s.trace ++ us l }
  | [], s => by simp [overList, us]
  | k :: l, s => by
    show (forget (loopTask bad (k + 3) s)).andThen _ = _
    rw [task_user h]
    rw [forget_inl, fin_then, over_user h l]
    simp [us]

theorem overList_append {σ : Type} (f : Nat → σ → Flow σ) : ∀ (l l' : List Nat) (s : σ),
    overList f (l ++ l') s = (overList f l s).andThen (overList f l')
  | [], _, _ => rfl
  | a :: l, l', s => by
    show (f a s).andThen _ = ((f a s).andThen _).andThen _
    cases f a s with
    | fin t => exact overList_append f l l' t
    | abort t => rfl
    | out => rfl

theorem exec_loop (h : NoThrow bad) (pre h1 h2 body post : List Nat) (L : Nat) (hL : L + 1 < 2 ^ 64) :
    ∀ (r fuel : Nat) (s : Loop), 4 * r + 4 ≤ fuel → r ≤ L → s.it = ⟨L, L - r⟩ → s.n = 2 →
      execSeq (loopGraph pre h1 h2 body post) (loopTask bad) fuel 1 s =
        .fin ⟨⟨L, 0⟩, 2, 1, 1, s.trace ++ turns h1 h2 body post r s.path⟩ := by
  intro r
  induction r with
  | zero =>
    intro fuel s hf hr hi hn
    obtain ⟨f, rfl⟩ : ∃ f, fuel = f + 4 := ⟨fuel - 4, by omega⟩
    rw [execSeq]
    simp only [loopGraph, Bool.false_eq_true, if_false, over_one, task_select, forget_inl, fin_then]
    rw [execSeq]
    simp only [loopGraph, Bool.false_eq_true, if_false]
    rw [overList_append, over_user h]
    simp only [fin_then, over_one, over_cons, task_iterate]
    rw [hi, iterate_eq L (L - 0) hL (by omega)]
    simp only [Nat.sub_zero, Nat.lt_irrefl, if_false, Nat.mod_self, forget_inl, fin_then]
    rw [over_user h]
    simp only [fin_then, over_one, hn]
    rw [execSeq]
    have hp : pathOf 2 1 = 1 := by decide
    simp only [loopGraph, if_true, task_commute, hp]
    have hi' : (((1 : Nat) : Int) % 2 ^ 64).toNat = 1 := by decide
    simp only [hi']
    simp only [List.getElem?_cons_succ, List.getElem?_cons_zero]
    rw [execSeq]
    simp only [loopGraph, Bool.false_eq_true, if_false]
    rw [over_user h]
    simp only [fin_then, over_nil, turns, cond, List.append_assoc, List.cons_append, List.nil_append]
  | succ r ih =>
    intro fuel s hf hr hi hn
    obtain ⟨f, rfl⟩ : ∃ f, fuel = f + 4 := ⟨fuel - 4, by omega⟩
    rw [execSeq]
    simp only [loopGraph, Bool.false_eq_true, if_false, over_one, task_select, forget_inl, fin_then]
    rw [execSeq]
    simp only [loopGraph, Bool.false_eq_true, if_false]
    rw [overList_append, over_user h]
    simp only [fin_then, over_one, over_cons, task_iterate]
    rw [hi, iterate_eq L (L - (r + 1)) hL (by omega)]
    rw [if_pos (by omega : L - (r + 1) < L), Nat.mod_eq_of_lt (by omega : L - (r + 1) + 1 < L + 1)]
    simp only [forget_inl, fin_then]
    rw [over_user h]
    simp only [fin_then, over_one, hn]
    rw [execSeq]
    have hp : pathOf 2 0 = 0 := by decide
    simp only [loopGraph, if_true, task_commute, hp]
    have hi' : (((0 : Nat) : Int) % 2 ^ 64).toNat = 0 := by decide
    simp only [hi', List.getElem?_cons_zero]
    rw [execSeq]
    simp only [loopGraph, Bool.false_eq_true, if_false]
    rw [over_user h]
    simp only [fin_then, over_one]
    rw [ih f _ (by omega) (by omega) (by simp only [Iter.mk.injEq, true_and]; omega) rfl]
    simp only [turns, cond, List.append_assoc, List.cons_append, List.nil_append]

end Verif.Control
