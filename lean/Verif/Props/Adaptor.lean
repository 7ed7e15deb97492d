import Verif.Proof.AdaptorLive

/-!
# Pipeline adaptors: properties C31, C32, C33

A state is reachable (`Reach`) under *some* schedule of the threads, some sequence of calls, spurious wake-ups and
cancellations; every theorem quantifies over all of them.  `hist t` is the list of frames whose push (or pull) by thread `t`
took effect, in order.
-/

namespace Verif.Adaptor

section
variable {α : Type _} [Inhabited α]

/-! ## C31: nothing lost, duplicated or reordered -/

/-- 1-to-n: the `j`-th frame read by consumer `i` is the frame number `j * n + i` of the producer, unchanged. -/
theorem C31_one_to_n {cfg : Cfg} (hn : 0 < cfg.n) (hd : cfg.rov = .push) {s : St α} (h : Reach cfg s) {i j : Nat} (hi : i < cfg.n)
    {f : List α} (hf : (s.hist (.pull, i))[j]? = some f) : (s.hist (.push, 0))[j * cfg.n + i]? = some f := by
  have I := inv_reach hn h
  have hfix := I.order.fix (.pull, i) (by unfold Cfg.isThread; rw [if_neg (by rw [hd]; exact fun e => by cases e)]; exact hi) (by rw [hd]; exact fun e => by cases e)
  rw [hfix] at hf
  simp only at hf
  rw [I.data.fst] at hf
  have hj : (s.log .push i)[j]? = some f := by
    rw [List.getElem?_take] at hf
    split at hf
    · exact hf
    · cases hf
  have hlt : j < (s.log .push i).length := by
    by_contra hc
    rw [List.getElem?_eq_none (by omega)] at hj; cases hj
  have hL1 := I.order.len1
  have hL2 := I.order.len2
  have hR := I.order.rov
  rw [hd] at hL1 hL2 hR
  generalize (s.hist (.push, 0)) = H at *
  have hk : j * cfg.n + i < H.length := by
    have h1 := Nat.div_add_mod H.length cfg.n
    have hcomm : cfg.n * (H.length / cfg.n) = (H.length / cfg.n) * cfg.n := Nat.mul_comm _ _
    by_cases hc : i < H.length % cfg.n
    · have := hL1 i hc
      have hle : j ≤ H.length / cfg.n := by omega
      have := Nat.mul_le_mul_right cfg.n hle
      omega
    · have := hL2 i hi (by omega)
      have hle : j + 1 ≤ H.length / cfg.n := by omega
      have := Nat.mul_le_mul_right cfg.n hle
      rw [Nat.succ_mul] at this
      omega
  have hdm : (j * cfg.n + i) / cfg.n = j := by
    rw [Nat.add_comm, Nat.add_mul_div_right _ _ hn, Nat.div_eq_of_lt hi, Nat.zero_add]
  have hmm : (j * cfg.n + i) % cfg.n = i := by
    rw [Nat.add_comm, Nat.add_mul_mod_self_right, Nat.mod_eq_of_lt hi]
  rw [hR _ hk, hdm, hmm]
  exact hj

/-- n-to-1: the `k`-th frame read by the consumer is the frame number `k / n` of producer `k % n`, unchanged. -/
theorem C31_n_to_one {cfg : Cfg} (hn : 0 < cfg.n) (hd : cfg.rov = .pull) {s : St α} (h : Reach cfg s) {k : Nat}
    {f : List α} (hf : (s.hist (.pull, 0))[k]? = some f) : (s.hist (.push, k % cfg.n))[k / cfg.n]? = some f := by
  have I := inv_reach hn h
  have hi : k % cfg.n < cfg.n := Nat.mod_lt _ hn
  have hfix := I.order.fix (.push, k % cfg.n) (by unfold Cfg.isThread; rw [if_neg (by rw [hd]; exact fun e => by cases e)]; exact hi) (by rw [hd]; exact fun e => by cases e)
  have hR := I.order.rov
  rw [hd] at hR
  have hk : k < (s.hist (.pull, 0)).length := by
    by_contra hc
    rw [List.getElem?_eq_none (by omega)] at hf; cases hf
  rw [hR k hk, I.data.fst, List.getElem?_take] at hf
  rw [hfix]
  split at hf
  · exact hf
  · cases hf

/-- What `hist` means for a producer: under any run, it is the list of the frames its owner gave to the task, but for the last
one if its task has not finished (or was cancelled). -/
theorem C31_pushed {cfg : Cfg} {t : Thread} (ht : t.1 = .push) {as : List (Act α)} {s : St α} (hr : run cfg (init default) as = some s) :
    ∃ rest, given t as = s.hist t ++ rest ∧ rest.length ≤ 1 ∧ (s.pc t = .idle → rest = []) := by
  have h := pushed_run ht hr
  refine ⟨pend s t, ?_, ?_, ?_⟩
  · rw [h]; rfl
  · unfold pend; split
    · exact Nat.le_refl _
    · exact Nat.zero_le _
  · intro e; unfold pend; rw [e]; rfl

/-- What `hist` means for a consumer: outside the task, the last frame of `hist` is the content of its output sockets. -/
theorem C31_pulled {cfg : Cfg} {s : St α} (h : Reach cfg s) {t : Thread} (hi : s.pc t = .idle) :
    s.hist t = [] ∨ (s.hist t).getLast? = some (s.loc t) := rets_reach h t (by rw [hi]; rfl)

/-- No frame stays behind: a consumer that has read less than what was pushed for it finds it in the buffer, so that the
number of frames pushed and not read is the number of slots in use. -/
theorem C31_nothing_dropped {cfg : Cfg} (hn : 0 < cfg.n) {s : St α} (h : Reach cfg s) (c : Nat) :
    (s.log .push c).length = (s.log .pull c).length + (s.lst c - s.fst c) := by
  have I := inv_reach hn h
  have h1 := I.data.lst c
  have h2 := I.counts.lo c
  rw [I.data.fst c, List.length_take]
  omega

/-- A stage between a 1-to-n and an n-to-1 adaptor: if worker `i` pushes into the second, in order, the images by `g` of the
frames it read from the first, the output of the second is the input of the first, in order, through `g`. -/
theorem C31_stage {cfg cfg' : Cfg} (hn : 0 < cfg.n) (hd : cfg.rov = .push) (hd' : cfg'.rov = .pull) (hnn : cfg'.n = cfg.n)
    {s s' : St α} (h : Reach cfg s) (h' : Reach cfg' s') (g : List α → List α)
    (hw : ∀ i < cfg.n, s'.hist (.push, i) <+: (s.hist (.pull, i)).map g) {k : Nat} {f : List α}
    (hf : (s'.hist (.pull, 0))[k]? = some f) : ∃ f0, (s.hist (.push, 0))[k]? = some f0 ∧ f = g f0 := by
  have hn' : 0 < cfg'.n := hnn ▸ hn
  have h1 := C31_n_to_one hn' hd' h' hf
  rw [hnn] at h1
  obtain ⟨r, hr⟩ := hw (k % cfg.n) (Nat.mod_lt _ hn)
  have hlt : k / cfg.n < (s'.hist (.push, k % cfg.n)).length := by
    by_contra hc
    rw [List.getElem?_eq_none (by omega)] at h1; cases h1
  have h2 : ((s.hist (.pull, k % cfg.n)).map g)[k / cfg.n]? = some f := by
    rw [← hr, List.getElem?_append_left hlt]; exact h1
  rw [List.getElem?_map] at h2
  cases h3 : (s.hist (.pull, k % cfg.n))[k / cfg.n]? with
  | none => rw [h3] at h2; cases h2
  | some f0 =>
    rw [h3] at h2
    injection h2 with h2
    refine ⟨f0, ?_, h2.symm⟩
    have h4 := C31_one_to_n hn hd h (Nat.mod_lt _ hn) h3
    rwa [Nat.mul_comm, Nat.div_add_mod] at h4

/-! ## C32: bounded buffers, no concurrent access to a slot -/

/-- The slot of the buffers a thread accesses while it copies: its channel and the index modulo `buffer_size`. -/
def slot (cfg : Cfg) (s : St α) (t : Thread) : Nat × Nat :=
  (chan cfg s t, (match t.1 with | .push => s.lst (chan cfg s t) | .pull => s.fst (chan cfg s t)) % cfg.size)

/-- At most `buffer_size` frames are pushed and not read on a channel. -/
theorem C32_bounded {cfg : Cfg} (hn : 0 < cfg.n) {s : St α} (h : Reach cfg s) (c : Nat) :
    (s.log .push c).length ≤ (s.log .pull c).length + cfg.size := by
  have I := inv_reach hn h
  have h1 := I.data.lst c
  have h2 := I.counts.lo c
  have h3 := I.counts.hi c
  rw [I.data.fst c, List.length_take]
  omega

/-- Two threads that are copying frames work on different slots. -/
theorem C32_exclusive {cfg : Cfg} (hn : 0 < cfg.n) {s : St α} (h : Reach cfg s) {t u : Thread} (hne : t ≠ u) {j k : Nat}
    (ht : s.pc t = .copy j) (hu : s.pc u = .copy k) : slot cfg s t ≠ slot cfg s u := by
  have I := inv_reach hn h
  have vt := I.threads.valid t (by rw [ht]; exact fun e => by cases e)
  have vu := I.threads.valid u (by rw [hu]; exact fun e => by cases e)
  have bt := I.counts.res t (by rw [ht]; rfl)
  have bu := I.counts.res u (by rw [hu]; rfl)
  intro he
  have hc : chan cfg s t = chan cfg s u := congrArg Prod.fst he
  have hm := congrArg Prod.snd he
  have hlo := I.counts.lo (chan cfg s u)
  have hhi := I.counts.hi (chan cfg s u)
  by_cases hs : t.1 = u.1
  · exact hne (chan_inj vt vu hs hc)
  · obtain ⟨d, i⟩ := t
    obtain ⟨d', i'⟩ := u
    rw [hc] at bt
    simp only [slot] at hm
    rw [hc] at hm
    cases d <;> cases d' <;> first | exact absurd rfl hs | skip
    all_goals
      simp only [blocked, isFull_eq, isEmpty, decide_eq_false_iff_not] at bt bu
      generalize chan cfg s _ = c at *
      have := mod_ne (a := s.fst c) (b := s.lst c) (n := cfg.size) (by omega) (by omega)
      first | exact this hm | exact this hm.symm

/-! ## C33: waiting -/

/-- With passive waiting, whatever the schedule, only boundedly many steps can follow if no task is called any more. -/
theorem C33_finite {cfg : Cfg} (hn : 0 < cfg.n) (ha : cfg.active = false) {K : Nat} {as : List (Act α)} {s s' : St α} (h : Reach cfg s)
    (hi : ∀ a ∈ as, Internal K a) (hr : run cfg s as = some s') :
    as.length ≤ (cfg.n + 1) * (18 + cfg.socks) + K * (8 * cfg.n + 9) := by
  have h1 := total_run hn ha h hi hr
  have h2 := total_le cfg K s
  omega

/-- No lost wake-up: when nothing can move any more, a thread is outside its task, has thrown because it was cancelled, or is
asleep because its channel really is full (empty) and its object is not cancelled. -/
theorem C33_no_lost_wakeup {cfg : Cfg} (hn : 0 < cfg.n) {s : St α} (h : Reach cfg s) (hq : Quiet cfg s) (t : Thread) :
    s.pc t = .idle ∨ (s.pc t = .thrown ∧ s.flag t.2 = true) ∨
      (s.pc t = .asleep ∧ blocked cfg s t.1 (chan cfg s t) = true ∧ s.flag t.2 = false) := by
  have I := inv_reach hn h
  rcases quiet_pc I hq t with e | e | e
  · exact Or.inl e
  · exact Or.inr (Or.inl ⟨e, I.wakes.thrown t e⟩)
  · exact Or.inr (Or.inr ⟨e, quiet_asleep I hq e⟩)

/-- No deadlock: when nothing can move any more and nobody was cancelled, the thread visiting all channels is outside its task,
or the thread it waits for is. -/
theorem C33_no_deadlock {cfg : Cfg} (hn : 0 < cfg.n) (hz : 0 < cfg.size) {s : St α} (h : Reach cfg s) (hf : ∀ j, s.flag j = false)
    (hq : Quiet cfg s) : s.pc (cfg.rov, 0) = .idle ∨ s.pc (cfg.rov.other, s.cur) = .idle := by
  have I := inv_reach hn h
  rcases C33_no_lost_wakeup hn h hq (cfg.rov, 0) with e | ⟨_, e⟩ | ⟨_, e, _⟩
  · exact Or.inl e
  · rw [hf] at e; cases e
  · rcases C33_no_lost_wakeup hn h hq (cfg.rov.other, s.cur) with e' | ⟨_, e'⟩ | ⟨_, e', _⟩
    · exact Or.inr e'
    · rw [hf] at e'; cases e'
    · exfalso
      have c1 : chan cfg s (cfg.rov, 0) = s.cur := by unfold chan; rw [if_pos rfl]
      have c2 : chan cfg s (cfg.rov.other, s.cur) = s.cur := by unfold chan; rw [if_neg (other_ne _)]
      rw [c1] at e
      rw [c2] at e'
      exact not_both hz e e'

/-- The same with active waiting, at every state: some thread is outside its task, or can make a step that is not a turn of
its waiting loop. -/
theorem C33_no_livelock {cfg : Cfg} (hn : 0 < cfg.n) (hz : 0 < cfg.size) (ha : cfg.active = true) {s : St α} (h : Reach cfg s)
    (hf : ∀ j, s.flag j = false) : ∃ t, cfg.isThread t ∧ (s.pc t = .idle ∨ ((stepT cfg s t).isSome = true ∧
      ((s.pc t = .pre1 ∨ s.pc t = .pre2) → blocked cfg s t.1 (chan cfg s t) = false))) := by
  have I := inv_reach hn h
  have hpass := I.wakes.act ha
  have hen : ∀ t, s.pc t = .idle ∨ (stepT cfg s t).isSome = true := by
    intro t
    have h1 := hpass t
    have h2 := I.wakes.thrown t
    unfold stepT
    cases hp : s.pc t <;> rw [hp] at h1 h2 <;> simp only [passive, Bool.true_eq_false] at h1
    case idle => exact Or.inl rfl
    case thrown => rw [hf] at h2; exact absurd (h2 rfl) (by decide)
    all_goals
      refine Or.inr ?_
      simp only
      repeat' split
      all_goals rfl
  have hr : cfg.isThread (cfg.rov, 0) := by unfold Cfg.isThread; rw [if_pos rfl]
  by_cases hw : (s.pc (cfg.rov, 0) = .pre1 ∨ s.pc (cfg.rov, 0) = .pre2) ∧ blocked cfg s cfg.rov (chan cfg s (cfg.rov, 0)) = true
  · have hp : cfg.isThread (cfg.rov.other, s.cur) := by
      unfold Cfg.isThread; rw [if_neg (other_ne _)]; exact I.threads.cur
    refine ⟨(cfg.rov.other, s.cur), hp, ?_⟩
    rcases hen (cfg.rov.other, s.cur) with e | e
    · exact Or.inl e
    · refine Or.inr ⟨e, fun _ => ?_⟩
      have c1 : chan cfg s (cfg.rov, 0) = s.cur := by unfold chan; rw [if_pos rfl]
      have c2 : chan cfg s (cfg.rov.other, s.cur) = s.cur := by unfold chan; rw [if_neg (other_ne _)]
      have hb := hw.2
      rw [c1] at hb
      rw [c2]
      by_contra hcon
      exact not_both hz hb (by simpa using hcon)
  · refine ⟨(cfg.rov, 0), hr, ?_⟩
    rcases hen (cfg.rov, 0) with e | e
    · exact Or.inl e
    · refine Or.inr ⟨e, fun hh => ?_⟩
      by_contra hcon
      exact hw ⟨hh, by simpa using hcon⟩

/-- Cancellation: a thread waiting (or about to) whose object is cancelled never goes past the wait, under any continuation:
it stays before the copy or leaves with `waiting_canceled`. -/
theorem C33_cancel_safe {cfg : Cfg} {s s' : St α} {t : Thread} (hf : s.flag t.2 = true) (he : early (s.pc t) = true) {as : List (Act α)}
    (hr : run cfg s as = some s') : s'.flag t.2 = true ∧ (early (s'.pc t) = true ∨ s'.pc t = .thrown) := by
  have key : ∀ (as : List (Act α)) (s : St α), s.flag t.2 = true ∧ (early (s.pc t) = true ∨ s.pc t = .thrown) → run cfg s as = some s' →
      s'.flag t.2 = true ∧ (early (s'.pc t) = true ∨ s'.pc t = .thrown) := by
    intro as
    induction as with
    | nil => intro s h hr; simp only [run] at hr; injection hr with hr; rw [← hr]; exact h
    | cons a as ih =>
      intro s h hr
      simp only [run] at hr
      cases hs : step cfg s a with
      | none => rw [hs] at hr; cases hr
      | some s1 => rw [hs] at hr; exact ih s1 (cancelled_step h hs) hr
  exact key as s ⟨hf, Or.inl he⟩ hr

/-- Cancellation releases: when nothing can move any more, a thread that was waiting (or about to) when its object was
cancelled has thrown.  With `C33_finite` this happens after boundedly many steps. -/
theorem C33_cancel_releases {cfg : Cfg} (hn : 0 < cfg.n) {s s' : St α} {t : Thread} (h : Reach cfg s) (hf : s.flag t.2 = true)
    (he : early (s.pc t) = true) {as : List (Act α)} (hr : run cfg s as = some s') (hq : Quiet cfg s') : s'.pc t = .thrown := by
  obtain ⟨h1, h2⟩ := C33_cancel_safe hf he hr
  rcases C33_no_lost_wakeup hn (reach_run h hr) hq t with e | ⟨e, _⟩ | ⟨_, _, e⟩
  · rw [e] at h2
    rcases h2 with h2 | h2 <;> cases h2
  · exact e
  · rw [h1] at e; cases e

end

/-! ## Concrete runs -/

/-- Runs thread `t` up to `k` times, as long as it can move. -/
def go [Inhabited α] (cfg : Cfg) (t : Thread) : Nat → St α → St α
  | 0, s => s
  | k + 1, s => match stepT cfg s t with | some s' => go cfg t k s' | none => s

/-- Runs the cancel call `k` as long as it can move. -/
def goC [Inhabited α] (cfg : Cfg) (k : Nat) : Nat → St α → St α
  | 0, s => s
  | j + 1, s => match stepC cfg s k with | some s' => goC cfg k j s' | none => s

def start [Inhabited α] (cfg : Cfg) (t : Thread) (f : List α) (s : St α) : St α := (step cfg s (.call t f)).getD s

theorem reach_go [Inhabited α] {cfg : Cfg} {t : Thread} {k : Nat} {s : St α} (h : Reach cfg s) : Reach cfg (go cfg t k s) := by
  induction k generalizing s with
  | zero => exact h
  | succ k ih =>
    unfold go
    split
    · next e => exact ih (Reach.step (.run t) h e)
    · exact h

theorem reach_goC [Inhabited α] {cfg : Cfg} {k j : Nat} {s : St α} (h : Reach cfg s) : Reach cfg (goC cfg k j s) := by
  induction j generalizing s with
  | zero => exact h
  | succ j ih =>
    unfold goC
    split
    · next e => exact ih (Reach.step (.crun k) h e)
    · exact h

theorem reach_start [Inhabited α] {cfg : Cfg} {t : Thread} {f : List α} {s : St α} (h : Reach cfg s) : Reach cfg (start cfg t f s) := by
  unfold start
  cases hs : step cfg s (.call t f) with
  | none => exact h
  | some s' => exact Reach.step _ h hs

/-- One producer, two consumers, two slots, one socket. -/
def exCfg : Cfg := { n := 2, size := 2, socks := 1, rov := .push, active := false }

/-- Consumer 1 falls asleep on its empty channel, the producer pushes 7, 8, 9, consumers read. -/
def exState : St Nat :=
  go exCfg (.pull, 0) 99 <| start exCfg (.pull, 0) [] <|
  go exCfg (.pull, 0) 99 <| start exCfg (.pull, 0) [] <| go exCfg (.pull, 1) 99 <|
  go exCfg (.push, 0) 99 <| start exCfg (.push, 0) [9] <| go exCfg (.push, 0) 99 <| start exCfg (.push, 0) [8] <|
  go exCfg (.push, 0) 99 <| start exCfg (.push, 0) [7] <| go exCfg (.pull, 1) 99 <| start exCfg (.pull, 1) [] (init default)

example : Reach exCfg exState := by
  unfold exState
  repeat (first | exact Reach.init | apply reach_go | apply reach_start)

example : exState.hist (.push, 0) = [[7], [8], [9]] ∧ exState.hist (.pull, 0) = [[7], [9]] ∧ exState.hist (.pull, 1) = [[8]] := by
  decide +kernel

/-- The state reached before the producer starts: consumer 1 asleep and nothing else to do. -/
def exAsleep : St Nat := go exCfg (.pull, 1) 99 <| start exCfg (.pull, 1) [] (init default)

example : exAsleep.pc (.pull, 1) = .asleep := by decide +kernel

theorem exAsleep_reach : Reach exCfg exAsleep := reach_go (reach_start Reach.init)

/-- The two sides copying at once on one channel, in different slots. -/
def exCopy : St Nat :=
  go exCfg (.pull, 0) 3 <| start exCfg (.pull, 0) [] <| go exCfg (.push, 0) 3 <| start exCfg (.push, 0) [3] <|
  go exCfg (.push, 0) 99 <| start exCfg (.push, 0) [2] <| go exCfg (.push, 0) 99 <| start exCfg (.push, 0) [1] (init default)

example : exCopy.pc (.push, 0) = .copy 1 ∧ exCopy.pc (.pull, 0) = .copy 1 ∧ chan exCfg exCopy (.push, 0) = chan exCfg exCopy (.pull, 0) := by
  decide +kernel

/-- A cancelled consumer leaves its task. -/
def exCancel : St Nat := go exCfg (.pull, 1) 99 <| goC exCfg 0 99 <| (step exCfg exAsleep (.cancel 0 1)).getD exAsleep

example : exCancel.pc (.pull, 1) = .thrown ∧ exCancel.canc 0 = .off := by decide +kernel

/-- Finding: `cancel_waiting` only raises the flag of the object it is called on, since every clone has its own
(`Adaptor.cpp:61`); it wakes all sleeping threads but those of the other clones go back to sleep. -/
def exCancelOther : St Nat := go exCfg (.pull, 1) 99 <| goC exCfg 0 99 <| (step exCfg exAsleep (.cancel 0 0)).getD exAsleep

theorem C33_cancel_one_object : Reach exCfg exCancelOther ∧ exCancelOther.flag 0 = true ∧ exCancelOther.canc 0 = .off ∧
    exCancelOther.pc (.pull, 1) = .asleep ∧ stepT exCfg exCancelOther (.pull, 1) = none := by
  refine ⟨?_, ?_⟩
  · unfold exCancelOther
    refine reach_go (reach_goC ?_)
    cases hs : step exCfg exAsleep (.cancel 0 0) with
    | none => exact exAsleep_reach
    | some s' => exact Reach.step _ exAsleep_reach hs
  · have h : exCancelOther.pc (.pull, 1) = .asleep := by decide +kernel
    refine ⟨by decide +kernel, by decide +kernel, h, ?_⟩
    unfold stepT
    rw [h]

end Verif.Adaptor
