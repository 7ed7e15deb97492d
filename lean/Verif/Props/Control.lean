import Verif.Proof.Control

/-! # C36, C61: iterators, controllers, switchers -/

namespace Verif.Control
open Exec

/-- C36: from a reset iterator of limit `L`, the call number `i` (from 0) returns 1 (leave the loop) exactly when `i` is `L`
modulo `L + 1`: the loop runs `L` times per cycle. -/
theorem C36_iterator (L k : Nat) (hL : L + 1 < 2 ^ 64) :
    calls Iter.iterate k ⟨L, 0⟩ = ok (⟨L, k % (L + 1)⟩, (List.range k).map fun i => if i % (L + 1) = L then 1 else 0) := by
  have h := calls_spec (step := Iter.iterate) (st := fun i => (⟨L, i % (L + 1)⟩ : Iter))
    (out := fun i => if i % (L + 1) = L then 1 else 0) (fun i => by
      have hlt := Nat.mod_lt i (by omega : 0 < L + 1)
      rw [iterate_eq L (i % (L + 1)) hL (by omega), Nat.mod_add_mod]
      by_cases h : i % (L + 1) = L
      · rw [if_neg (by omega), if_pos h]
      · rw [if_pos (by omega), if_neg h]) k
  simpa using h

/-- C36: changing the limit keeps the counter within it, resetting restarts the cycle. -/
theorem C36_set_limit (i : Iter) (L : Nat) (hL : L + 1 < 2 ^ 64) :
    ∃ i', i.setLimit L = ok i' ∧ i'.limit = L ∧ i'.counter ≤ L ∧ (i.counter ≤ L → i'.counter = i.counter) ∧ i.reset = ⟨i.limit, 0⟩ := by
  refine ⟨⟨L, i.counter % (L + 1)⟩, ?_, rfl, ?_, ?_, rfl⟩
  · unfold Iter.setLimit; rw [if_neg (by omega)]
  · have := Nat.mod_lt i.counter (by omega : 0 < L + 1)
    show i.counter % (L + 1) ≤ L
    omega
  · intro h
    exact Nat.mod_eq_of_lt (by omega)

/-- C36: a `Controller_limit` gives its first path `limit` times, then the other one for ever (even when its counter wraps). -/
theorem C36_limit (limit init k : Nat) (hl : limit < 2 ^ 64) :
    ∃ c, calls (fun c => ok (Lim.control c)) k (Lim.make limit init) =
      ok (c, (List.range k).map fun i => toInt8 (if i < limit then init else if init = 0 then 1 else 0)) ∧
      c.reset = Lim.make limit init := by
  have h := calls_spec (step := fun c : Lim => ok (Lim.control c))
    (st := fun i => (⟨limit, init, if i ≤ limit then init else lnot init, i % 2 ^ 64⟩ : Lim))
    (out := fun i => toInt8 (if i < limit then init else if init = 0 then 1 else 0)) (fun i => by
      unfold Lim.control
      simp only [Nat.mod_add_mod, ok.injEq, Prod.mk.injEq, Lim.mk.injEq, true_and, and_true]
      by_cases h : i < limit
      · have hi : i % 2 ^ 64 = i := Nat.mod_eq_of_lt (by omega)
        rw [hi, if_neg (by omega), if_pos (by omega), if_pos (by omega), if_pos h]
        exact ⟨rfl, rfl⟩
      · rw [if_neg (by omega : ¬ i + 1 ≤ limit), if_neg h]
        by_cases he : i = limit
        · have hi : i % 2 ^ 64 = i := Nat.mod_eq_of_lt (by omega)
          rw [hi, if_pos (by omega)]
          exact ⟨rfl, rfl⟩
        · rw [if_neg (by omega : ¬ i ≤ limit), ite_self]
          exact ⟨rfl, rfl⟩) k
  simp only [Nat.zero_le, if_true, Nat.zero_mod] at h
  exact ⟨_, h, rfl⟩

/-- C36: a `Controller_cyclic` gives the paths in turn, from its initial one. -/
theorem C36_cyclic (n init k : Nat) (hn : 0 < n) :
    ∃ c c', Cyc.make n init = ok c ∧ calls Cyc.control k c = ok (c', (List.range k).map fun i => toInt8 ((init + i) % n)) ∧
      (k ≠ 0 → c'.path = (init + (k - 1)) % n + 1) := by
  have h := calls_spec (step := Cyc.control)
    (st := fun i => (⟨n, init % n, if i = 0 then init % n else (init + (i - 1)) % n + 1⟩ : Cyc))
    (out := fun i => toInt8 ((init + i) % n)) (fun i => by
      unfold Cyc.control
      simp only []
      rw [if_neg (by omega)]
      have : (if i = 0 then init % n else (init + (i - 1)) % n + 1) % n = (init + i) % n := by
        by_cases h : i = 0
        · subst h; rw [if_pos rfl]; simp
        · rw [if_neg h, Nat.mod_add_mod]
          congr 1
          omega
      rw [this, if_neg (by omega)]
      rfl) k
  refine ⟨⟨n, init % n, init % n⟩, _, ?_, h, ?_⟩
  · unfold Cyc.make
    rw [if_neg (by omega)]
  · intro hk
    simp only [if_neg hk]

/-- C36: a controller and a switcher of at most 128 paths understand each other: the switcher takes the path the controller
gave. -/
theorem C36_paths (n p : Nat) (hn : n ≤ 128) (hp : p < n) : pathOf n (toInt8 p) = p := pathOf_toInt8 n p hn hp

/-- C36: `commute` copies its input to the output given by the control, changes no other output, and returns the path;
`select` copies the input of this path. -/
theorem C36_switcher (s : Swi) (p : Nat) (hn : s.n ≤ 128) (hp : p < s.n) (data : List Int) (outs : List (List Int)) (hd : s.commuteLen ≤ data.length)
    (ho : outs.length = s.n) (hlen : ∀ o ∈ outs, s.commuteLen ≤ o.length) :
    ∃ s' outs', s.commute data (toInt8 p) outs = ok (s', outs', p) ∧
      outs'[p]? = (outs[p]?).map (fun o => data.take s.commuteLen ++ o.drop s.commuteLen) ∧ (∀ q, q ≠ p → outs'[q]? = outs[q]?) ∧
      (∀ (ins : List (List Int)) (i out : List Int), ins[p]? = some i → s.selectLen ≤ i.length → s.selectLen ≤ out.length →
        s'.select ins out = ok (i.take s.selectLen ++ out.drop s.selectLen)) := by
  unfold Swi.commute
  simp only [C36_paths s.n p hn hp]
  have hpl : p < outs.length := by omega
  rw [rd_lt hpl, bind_ok, copyN_spec _ _ _ hd (hlen _ (List.getElem_mem hpl)), bind_ok, wr_lt hpl, bind_ok]
  refine ⟨_, _, rfl, ?_, fun q hq => ?_, fun ins i out hi h1 h2 => ?_⟩
  · rw [List.getElem?_set_self hpl, List.getElem?_eq_getElem hpl]; rfl
  · rw [List.getElem?_set_ne (fun h => hq h.symm)]
  · unfold Swi.select
    simp only []
    rw [(rd_ok_iff).2 hi, bind_ok, copyN_spec _ _ _ h1 h2]

/-- C36: a switcher starts (and is reset) on its last path. -/
theorem C36_switcher_reset (n lc ls : Nat) (s : Swi) (h : Swi.make n lc ls = ok s) : s.path = n - 1 ∧ s.reset.path = n - 1 ∧ 0 < n := by
  unfold Swi.make at h
  split at h
  · cases h
  · rename_i hne
    rw [← Exec.ok.inj h]
    exact ⟨rfl, rfl, by omega⟩

/-- C36: executing a sequence with a loop (tasks `pre`, then `select`, the tasks `h1`, `iterate`, the tasks `h2`, `commute`,
and `body` back to `select`, or `post`): one execution runs `pre` once, the body exactly `L` times, and `post` once; `select`
takes the initial data first (path 1) and the result of the body afterwards (path 0); the iterator is ready for the next
execution. -/
theorem C36_loop (bad : Nat → List Ev → Bool) (h : NoThrow bad) (pre h1 h2 body post : List Nat) (L fuel : Nat) (hL : L + 1 < 2 ^ 64)
    (hf : 4 * L + 5 ≤ fuel) (s : Loop) (hi : s.it = ⟨L, 0⟩) (hn : s.n = 2) :
    ∃ s', round bad (loopGraph pre h1 h2 body post) fuel s = some s' ∧ s'.it = ⟨L, 0⟩ ∧ s'.n = 2 ∧
      s'.trace = s.trace ++ us pre ++ turns h1 h2 body post L 1 := by
  obtain ⟨f, rfl⟩ : ∃ f, fuel = f + 1 := ⟨fuel - 1, by omega⟩
  obtain ⟨it, n, path, ctrl, trace⟩ := s
  simp only at hi hn
  subst hi hn
  unfold round
  rw [execSeq]
  simp only [loopGraph, Bool.false_eq_true, if_false]
  rw [over_user h]
  simp only [fin_then, over_one]
  rw [exec_loop h pre h1 h2 body post L hL L f _ (by omega) (Nat.le_refl _) (by rw [Nat.sub_self]) rfl]
  exact ⟨_, rfl, rfl, rfl, rfl⟩

/-- C36: the body runs exactly `L` times. -/
theorem C36_body_count (h1 h2 body post : List Nat) (L sel b : Nat) (h1b : b ∉ h1) (h2b : b ∉ h2) (hpb : b ∉ post) (hb : body.count b = 1) :
    (turns h1 h2 body post L sel).count (.user b) = L := by
  have hus : ∀ l : List Nat, (us l).count (.user b) = l.count b := by
    intro l
    induction l with
    | nil => rfl
    | cons a l ih =>
      show (Ev.user a :: us l).count (.user b) = _
      rw [List.count_cons, List.count_cons, ih]
      simp
  have hc : ∀ sel com, (cond h1 h2 sel com).count (.user b) = 0 := by
    intro sel com
    unfold cond
    simp [List.count_append, List.count_cons, hus, List.count_eq_zero.2 h1b, List.count_eq_zero.2 h2b]
  induction L generalizing sel with
  | zero => simp [turns, hc, hus, List.count_eq_zero.2 hpb]
  | succ L ih => simp [turns, hc, hus, hb, ih]; omega

example : (round (fun _ _ => false) (loopGraph [0] [1] [] [2] [3]) 20 ⟨⟨2, 0⟩, 2, 0, 0, []⟩).map (·.trace) =
    some [.user 0, .select 1, .user 1, .iterate, .commute 0, .user 2, .select 0, .user 1, .iterate, .commute 0, .user 2,
      .select 0, .user 1, .iterate, .commute 1, .user 3] := by decide +kernel

/-! ## C61: corner cases -/

/-- C61, defect: an execution aborted in the body leaves the iterator in the middle of its cycle (only the switchers are
reset): the next execution runs the body `L - 1` times. -/
theorem C61_abort (L fuel : Nat) (hL : L + 2 < 2 ^ 64) (hf : 4 * L + 13 ≤ fuel) :
    ∃ s1 s2, round (fun _ t => decide (t.length = 3)) (loopGraph [] [] [] [7] []) fuel ⟨⟨L + 1, 0⟩, 2, 1, 0, []⟩ = some s1 ∧
      s1.it = ⟨L + 1, 1⟩ ∧
      round (fun _ _ => false) (loopGraph [] [] [] [7] []) fuel s1 = some s2 ∧ s2.trace.count (.user 7) = L := by
  obtain ⟨f, rfl⟩ : ∃ f, fuel = f + 5 := ⟨fuel - 5, by omega⟩
  have e1 : round (fun _ t => decide (t.length = 3)) (loopGraph [] [] [] [7] []) (f + 5) ⟨⟨L + 1, 0⟩, 2, 1, 0, []⟩ =
      some ⟨⟨L + 1, 1⟩, 2, 0, 0, [.select 1, .iterate, .commute 0]⟩ := by
    unfold round
    rw [execSeq]
    simp only [loopGraph, Bool.false_eq_true, if_false, List.map_nil, over_nil, fin_then, over_one]
    rw [execSeq]
    simp only [loopGraph, Bool.false_eq_true, if_false, over_one, task_select, forget_inl, fin_then]
    rw [execSeq]
    simp only [loopGraph, Bool.false_eq_true, if_false, List.map_nil, List.nil_append, over_one, task_iterate]
    rw [iterate_eq (L + 1) 0 (by omega) (by omega)]
    rw [if_pos (by omega : 0 < L + 1), Nat.mod_eq_of_lt (by omega : 0 + 1 < L + 1 + 1)]
    simp only [forget_inl, fin_then, over_one]
    rw [execSeq]
    have hp : pathOf 2 0 = 0 := by decide
    simp only [loopGraph, if_true, task_commute, hp]
    have hi' : (((0 : Nat) : Int) % 2 ^ 64).toNat = 0 := by decide
    simp only [hi', List.getElem?_cons_zero]
    rw [execSeq]
    simp only [loopGraph, Bool.false_eq_true, if_false]
    rfl
  refine ⟨_, ⟨⟨L + 1, 0⟩, 2, 1, 1, [.select 1, .iterate, .commute 0] ++ turns [] [] [7] [] L 1⟩, e1, rfl, ?_, ?_⟩
  · unfold round
    rw [execSeq]
    simp only [loopGraph, Bool.false_eq_true, if_false, List.map_nil, over_nil, fin_then, over_one]
    rw [exec_loop (bad := fun _ _ => false) (fun _ _ => rfl) [] [] [] [7] [] (L + 1) (by omega) L (f + 4) _ (by omega) (by omega)
      (by simp only [Iter.mk.injEq, true_and]; omega) rfl]
  · rw [List.count_append, C36_body_count [] [] [7] [] L _ 7 (by simp) (by simp) (by simp) (by simp)]
    simp [List.count_cons]

/-- C61, defect: the control is an `int8_t`: a switcher of 200 paths takes the path 104 when the controller says 144. -/
theorem C61_many_paths : pathOf 200 (toInt8 144) = 104 := by decide

/-- C61, defect: the greatest limit makes an iterator divide by zero. -/
theorem C61_greatest_limit (c : Nat) : (⟨2 ^ 64 - 1, c⟩ : Iter).iterate = ub := by
  unfold Iter.iterate
  exact if_pos (by decide : (2 ^ 64 - 1 + 1) % 2 ^ 64 = 0)

/-- C61, defect: a cyclic controller without paths divides by zero (it is not refused). -/
theorem C61_no_path (i : Nat) : Cyc.make 0 i = ub := if_pos rfl

end Verif.Control
