import Verif.Proof.Sequence

/-! # C71, C72: construction and execution of sequences of tasks -/

namespace Verif.Sequence
open Exec

variable {g : Graph} {cf : Conf}

/-! ## C71 -/

/-- The constructor finds a right order, whatever the bindings; it throws exactly when one of the requested last tasks is not
part of it. -/
theorem C71_build (g : Graph) (cf : Conf) (wf : Wf g cf) (fuel : Nat) (hf : g.length < fuel) :
    ∃ order, Schedule g cf order ∧ cf.firsts.Sublist order ∧
      ((∀ l ∈ cf.lasts, l ∈ order) → ∃ s, init g cf fuel = ok s ∧ s.tasks = order) ∧
      ((∃ l ∈ cf.lasts, l ∉ order) → init g cf fuel = exc .runtimeError) := by
  obtain ⟨q, h1, h2⟩ := firsts_sat wf hf
  refine ⟨q.1.tasks, top_schedule wf h2, h2.sub, fun hl => ?_, fun ⟨l, h3, h4⟩ => ?_⟩
  · refine ⟨⟨q.1.tasks, q.2, q.1.realLastsId⟩, ?_, rfl⟩
    unfold init
    rw [if_neg (by simpa using wf.firsts), if_neg wf.threads, if_neg (by rintro ⟨e, h5, h6 | h6⟩; exacts [(wf.excl e h5).1 h6, (wf.excl e h5).2 h6]),
      h1, bind_ok, if_neg]
    rintro ⟨l, h5, h6⟩
    exact h6 (h2.inv.last l (hl l h5) h5)
  · unfold init
    rw [if_neg (by simpa using wf.firsts), if_neg wf.threads, if_neg (by rintro ⟨e, h5, h6 | h6⟩; exacts [(wf.excl e h5).1 h6, (wf.excl e h5).2 h6]),
      h1, bind_ok, if_pos ⟨l, h3, fun hc => h4 (h2.inv.rl l hc)⟩]

/-- Arguments that the constructor refuses. -/
theorem C71_rejects (g : Graph) (cf : Conf) (fuel : Nat) (h : cf.firsts = [] ∨ cf.nThreads = 0 ∨ ∃ e ∈ cf.excl, e ∈ cf.firsts ∨ e ∈ cf.lasts) :
    init g cf fuel = exc .invalidArgument := by
  unfold init
  by_cases h1 : cf.firsts.length = 0
  · rw [if_pos h1]
  · rw [if_neg h1]
    by_cases h2 : cf.nThreads = 0
    · rw [if_pos h2]
    · rw [if_neg h2]
      rcases h with h | h | h
      · rw [h] at h1; exact absurd rfl h1
      · exact absurd h h2
      · rw [if_pos h]

theorem schedule_mem {o1 o2 : List Nat} (h1 : Schedule g cf o1) (h2 : Schedule g cf o2) : ∀ n pre t post, pre.length = n → o1 = pre ++ t :: post → t ∈ o2 := by
  intro n
  induction n using Nat.strongRecOn with
  | _ n ih =>
    intro pre t post hn e
    rcases h1.after pre t post e with h3 | ⟨h3, h4⟩
    · exact h2.firsts t h3
    · refine h2.complete t h3 ⟨h4.some, h4.all, fun s hs => ⟨?_, (h4.from' s hs).2⟩⟩
      obtain ⟨a, b, hab⟩ := List.append_of_mem (h4.from' s hs).1
      have hl : a.length < n := by rw [← hn, hab]; simp
      exact ih a.length hl a s (b ++ t :: post) rfl (by rw [e, hab]; simp)

/-- The right orders have the same tasks: nothing is missing, nothing is added. -/
theorem C71_unique (g : Graph) (cf : Conf) (o1 o2 : List Nat) (h1 : Schedule g cf o1) (h2 : Schedule g cf o2) : o1.Perm o2 := by
  rw [List.perm_ext_iff_of_nodup h1.once h2.once]
  intro t
  constructor
  · intro h
    obtain ⟨a, b, e⟩ := List.append_of_mem h
    exact schedule_mem h1 h2 _ a t b rfl e
  · intro h
    obtain ⟨a, b, e⟩ := List.append_of_mem h
    exact schedule_mem h2 h1 _ a t b rfl e

theorem round_notin {V : Type} {exec : Nat → (Nat → V) → V} {l : List Nat} {v : Nat → V} {u : Nat} (h : u ∉ l) : round exec l v u = v u := by
  induction l generalizing v with
  | nil => rfl
  | cons t l ih =>
    rw [List.mem_cons, not_or] at h
    show round exec l _ u = v u
    rw [ih h.2]
    exact if_neg h.1

theorem round_append {V : Type} {exec : Nat → (Nat → V) → V} {a b : List Nat} {v : Nat → V} : round exec (a ++ b) v = round exec b (round exec a v) := by
  unfold round; rw [List.foldl_append]

/-- A task only reads the sockets bound to its inputs. -/
def Local {V : Type} (g : Graph) (exec : Nat → (Nat → V) → V) : Prop :=
  ∀ t v v', (∀ s, t ∈ dests g s → v s = v' s) → exec t v = exec t v'

theorem round_at {V : Type} {exec : Nat → (Nat → V) → V} (hx : Local g exec) {pre post : List Nat} {t : Nat} (hnd : (pre ++ t :: post).Nodup) (v : Nat → V)
    (hp : ∀ s, t ∈ dests g s → s ∈ pre ∨ s ∉ pre ++ t :: post) : round exec (pre ++ t :: post) v t = exec t (round exec (pre ++ t :: post) v) := by
  rw [List.nodup_append] at hnd
  obtain ⟨_, h2, h3⟩ := hnd
  have hpost : t ∉ post := (List.nodup_cons.1 h2).1
  have e1 : round exec (pre ++ t :: post) v t = exec t (round exec pre v) := by
    rw [round_append]
    show round exec post _ t = _
    rw [round_notin hpost]
    exact if_pos rfl
  rw [e1]
  refine hx t _ _ fun s hs => ?_
  rcases hp s hs with h4 | h4
  · rw [round_append, round_notin (l := t :: post)]
    intro hc
    exact h3 s h4 s hc rfl
  · rw [round_notin h4, round_notin (fun hc => h4 (List.mem_append_left _ hc))]

/-- One round of execution solves the equations of the program, whatever the sockets held: every task has been computed from
what its producers wrote in this round. -/
theorem C71_dataflow (V : Type) (g : Graph) (cf : Conf) (order : List Nat) (h : Schedule g cf order)
    (htop : ∀ f ∈ cf.firsts, ∀ s, f ∈ dests g s → s ∉ order) (exec : Nat → (Nat → V) → V) (hx : Local g exec) (v : Nat → V) :
    (∀ t ∈ order, round exec order v t = exec t (round exec order v)) ∧ ∀ t, t ∉ order → round exec order v t = v t := by
  refine ⟨fun t ht => ?_, fun t ht => round_notin ht⟩
  obtain ⟨a, b, e⟩ := List.append_of_mem ht
  have hnd := h.once
  have haf := h.after a t b e
  rw [e] at hnd htop ⊢
  refine round_at hx hnd v fun s hs => ?_
  rcases haf with h1 | ⟨_, h1⟩
  · exact Or.inr (htop t h1 s hs)
  · exact Or.inl (h1.from' s hs).1

/-- The result of a round does not depend on the order found (on the order of the bindings). -/
theorem C71_order_irrelevant (V : Type) (g : Graph) (cf : Conf) (o1 o2 : List Nat) (h1 : Schedule g cf o1) (h2 : Schedule g cf o2)
    (htop : ∀ f ∈ cf.firsts, ∀ s, f ∈ dests g s → s ∉ o1) (exec : Nat → (Nat → V) → V) (hx : Local g exec) (v : Nat → V) :
    round exec o1 v = round exec o2 v := by
  have hp := C71_unique g cf o1 o2 h1 h2
  obtain ⟨a1, b1⟩ := C71_dataflow V g cf o1 h1 htop exec hx v
  obtain ⟨a2, b2⟩ := C71_dataflow V g cf o2 h2 (fun f hf s hs hc => htop f hf s hs (hp.mem_iff.2 hc)) exec hx v
  have hin : ∀ n pre t post, pre.length = n → o1 = pre ++ t :: post → round exec o1 v t = round exec o2 v t := by
    intro n
    induction n using Nat.strongRecOn with
    | _ n ih =>
      intro pre t post hn e
      have ht : t ∈ o1 := by rw [e]; simp
      rw [a1 t ht, a2 t (hp.mem_iff.1 ht)]
      refine hx t _ _ fun s hs => ?_
      rcases h1.after pre t post e with h3 | ⟨_, h4⟩
      · have := htop t h3 s hs
        rw [b1 s this, b2 s (fun hc => this (hp.mem_iff.2 hc))]
      · obtain ⟨a, b, hab⟩ := List.append_of_mem (h4.from' s hs).1
        have hl : a.length < n := by rw [← hn, hab]; simp
        exact ih a.length hl a s (b ++ t :: post) rfl (by rw [e, hab]; simp)
  funext t
  by_cases ht : t ∈ o1
  · obtain ⟨a, b, e⟩ := List.append_of_mem ht
    exact hin _ a t b rfl e
  · rw [b1 t ht, b2 t (fun hc => ht (hp.mem_iff.2 hc))]

/-- The usual chain: a source feeds an encoder and a monitor; encoder, channel, decoder, monitor. -/
def chain : Graph := [⟨[.sout [1, 4]], true, false⟩, ⟨[.sin false 1, .sout [2]], true, false⟩, ⟨[.sin true 0, .sin false 1, .sout [3]], true, false⟩,
  ⟨[.sin false 1, .sout [4]], true, false⟩, ⟨[.sin false 1, .sin false 1, .sout []], true, false⟩]

/-- The whole chain from its source. -/
def chainConf : Conf := ⟨[0], [], [], true, 1⟩

theorem dests_ge {s : Nat} (h : g.length ≤ s) : dests g s = [] := by
  unfold dests; rw [List.getElem?_eq_none h]

theorem forall_dests {P : Nat → Nat → Prop} (h : ∀ s, s < g.length → ∀ t ∈ dests g s, P s t) : ∀ s t, t ∈ dests g s → P s t := by
  intro s t ht
  by_cases hs : s < g.length
  · exact h s hs t ht
  · rw [dests_ge (by omega)] at ht; simp at ht

theorem bound_ge {t : Nat} (hk : ∀ s t, t ∈ dests g s → t < g.length) (h : g.length ≤ t) : bound g t = 0 := by
  rw [bound_eq]
  exact Finset.sum_eq_zero fun s _ => List.count_eq_zero.2 fun hm => by have := hk s t hm; omega

theorem once_of (hk : ∀ s t, t ∈ dests g s → t < g.length) (h : ∀ t, t < g.length → bound g t ≤ need g t) : ∀ t, bound g t ≤ need g t := by
  intro t
  by_cases ht : t < g.length
  · exact h t ht
  · rw [bound_ge hk (by omega)]; exact Nat.zero_le _

theorem wf_chain : Wf chain chainConf where
  known := forall_dests (by decide)
  firstsKnown := by decide
  once := once_of (forall_dests (by decide)) (by decide)
  single := by
    have : ∀ ta ∈ chain, ∀ k ∈ ta.socks, (match k with | .sin _ n => decide (n ≤ 1) | .sout _ => true) = true := by decide
    intro ta hta st n hm
    simpa using this ta hta _ hm
  alloc := fun _ => by decide
  adaptor := fun h => by cases h
  nodup := by decide
  top := by
    intro f hf s _ _ hc
    have : ∀ s t, t ∈ dests chain s → t ≠ 0 := forall_dests (by decide)
    exact this s f hc (by simpa [chainConf] using hf)
  firsts := by decide
  threads := by decide
  excl := by decide

example : init chain chainConf 6 = ok ⟨[0, 1, 2, 3, 4], [0], [3, 4]⟩ := by decide +kernel

/-- With a requested last task the walk stops there; with an excluded task too. -/
example : init chain ⟨[0], [2], [], true, 1⟩ 6 = ok ⟨[0, 1, 2], [0], [2]⟩ ∧ init chain ⟨[0], [], [3], true, 1⟩ 6 = ok ⟨[0, 1, 2], [0], [2]⟩ ∧
    init chain ⟨[0], [4], [3], true, 1⟩ 6 = exc .runtimeError := by decide +kernel

/-- One round of the chain: the tasks add 1, the monitor adds its two inputs; the sockets held 100. -/
example : (List.range 5).map (round (fun t v => if t = 0 then 5 else if t = 4 then v 3 + v 0 else v (t - 1) + 1) [0, 1, 2, 3, 4] fun _ => 100) =
    [5, 6, 7, 8, 13] := by decide

/-! ## C72: defects -/

/-- With two first tasks or more, the sequence does not report the tasks it was given: each identifier is that of the task
executed just before the first task. -/
theorem C72_firsts_wrong (g : Graph) (cf : Conf) (wf : Wf g cf) (fuel : Nat) (hf : g.length < fuel) (s : Seq) (hs : init g cf fuel = ok s)
    (h2 : 2 ≤ cf.firsts.length) : getFirsts s ≠ cf.firsts := by
  obtain ⟨q, h1, h⟩ := firsts_sat wf hf
  unfold init at hs
  rw [if_neg (by simpa using wf.firsts), if_neg wf.threads, if_neg (by rintro ⟨e, h5, h6 | h6⟩; exacts [(wf.excl e h5).1 h6, (wf.excl e h5).2 h6]),
      h1, bind_ok] at hs
  split at hs
  · cases hs
  · injection hs with hs
    subst hs
    intro hc
    obtain ⟨k, k1, k2⟩ := h.ids 1 (by omega) (by omega)
    obtain ⟨z1, z2⟩ := h.zero wf.firsts
    have hne : ∃ a, q.1.tasks[0]? = some a := by rw [z2]; exact ⟨_, List.getElem?_eq_getElem (by omega)⟩
    obtain ⟨a, ha⟩ := hne
    have hk1 : ∃ b, cf.firsts[1]? = some b := ⟨_, List.getElem?_eq_getElem (by omega)⟩
    obtain ⟨b, hb⟩ := hk1
    rw [hb] at k2
    have hklt : k + 1 < q.1.tasks.length := by
      by_contra h'
      rw [List.getElem?_eq_none (by omega)] at k2
      cases k2
    obtain ⟨i0, i1, il, hi⟩ : ∃ i0 i1 il, q.2 = i0 :: i1 :: il := by
      have hlen := h.len
      match hq : q.2 with
      | [] => rw [hq] at hlen; simp at hlen; omega
      | [_] => rw [hq] at hlen; simp at hlen; omega
      | i0 :: i1 :: il => exact ⟨i0, i1, il, rfl⟩
    rw [hi] at z1 k1
    simp only [List.getElem?_cons_zero, List.getElem?_cons_succ, Option.some.injEq] at z1 k1
    subst z1 k1
    have e : (getFirsts ⟨q.1.tasks, q.2, q.1.realLastsId⟩)[1]? = q.1.tasks[i1]? := by
      unfold getFirsts byId
      simp only
      rw [hi, List.filterMap_cons, ha]
      simp only
      have hi1 : i1 < q.1.tasks.length := by omega
      rw [List.filterMap_cons, List.getElem?_eq_getElem hi1]
      rfl
    rw [hc, hb, ← k2] at e
    have hnd := h.inv.nd
    rw [List.getElem?_eq_getElem hklt, List.getElem?_eq_getElem (by omega), Option.some_inj] at e
    have := (List.Nodup.getElem_inj_iff hnd).1 e
    omega

/-- Two sources which feed a task. -/
def two : Graph := [⟨[.sout [2]], true, false⟩, ⟨[.sout [2]], true, false⟩, ⟨[.sin false 1, .sin false 1, .sout []], true, false⟩]

/-- For instance: built from tasks 0 and 1, the sequence reports twice task 0, and its copy executes task 0 twice (the model
stops at the use of the invalidated iterator). -/
theorem C72_two_firsts : init two ⟨[0, 1], [], [], true, 1⟩ 4 = ok ⟨[0, 1, 2], [0, 0], [0, 2]⟩ ∧ getFirsts ⟨[0, 1, 2], [0, 0], [0, 2]⟩ = [0, 0] ∧
    clone two ⟨[0, 1], [], [], true, 1⟩ 4 ⟨[0, 1, 2], [0, 0], [0, 2]⟩ = ub := by decide +kernel

/-- The decoder of the usual chain is reported as a last task although its output is used (the monitor waits for another
input when the decoder is added), and the chain cannot be cloned. -/
theorem C72_clone_throws : init chain chainConf 6 = ok ⟨[0, 1, 2, 3, 4], [0], [3, 4]⟩ ∧ getLasts ⟨[0, 1, 2, 3, 4], [0], [3, 4]⟩ = [3, 4] ∧
    4 ∈ dests chain 3 ∧ clone chain chainConf 6 ⟨[0, 1, 2, 3, 4], [0], [3, 4]⟩ = exc .runtimeError := by decide +kernel

/-- Two tasks bound in a cycle. -/
def cycle : Graph := [⟨[.sin false 1, .sout [1]], true, false⟩, ⟨[.sin false 1, .sout [0]], true, false⟩]

theorem cycle_ub : ∀ fuel st, st.realLasts = [] → visit cycle ⟨[0], [], [], true, 1⟩ fuel 0 st = ub ∧ visit cycle ⟨[0], [], [], true, 1⟩ fuel 1 st = ub
  | 0, st, _ => ⟨rfl, rfl⟩
  | fuel + 1, st, h => by
    obtain ⟨tasks, rl, ri, feed⟩ := st
    simp only at h
    subst h
    constructor
    · have := (cycle_ub fuel (St.fed ⟨tasks ++ [0], [], ri, feed⟩ 1) rfl).2
      unfold visit
      simp only [cycle, rd, List.getElem?_cons_zero, bind_ok, sockets, forEach, perSock, follow, List.not_mem_nil, if_false, List.getElem?_cons_succ]
      simp only [cycle] at this
      simp [nInputs, nStatic, St.fed] at this ⊢
      rw [this]
      rfl
    · have := (cycle_ub fuel (St.fed ⟨tasks ++ [1], [], ri, feed⟩ 0) rfl).1
      unfold visit
      simp only [cycle, rd, List.getElem?_cons_zero, bind_ok, sockets, forEach, perSock, follow, List.not_mem_nil, if_false, List.getElem?_cons_succ]
      simp only [cycle] at this
      simp [nInputs, nStatic, St.fed] at this ⊢
      rw [this]
      rfl

/-- The recursion does not end on a cycle through a first task, whatever the size of the stack. -/
theorem C72_cycle_overflow (fuel : Nat) : init cycle ⟨[0], [], [], true, 1⟩ fuel = ub := by
  unfold init
  rw [if_neg (by simp), if_neg (by simp), if_neg (by simp)]
  simp only [forEach, perFirst]
  rw [(cycle_ub fuel ⟨[], [], [], fun _ => 0⟩ rfl).1]
  rfl

/-- A first task which another first task feeds is visited twice. -/
theorem C72_first_fed_ub : init [⟨[.sout [1]], true, false⟩, ⟨[.sin false 1, .sout []], true, false⟩] ⟨[0, 1], [], [], true, 1⟩ 5 = ub := by decide +kernel

end Verif.Sequence
