import Verif.Proof.Adaptor

/-! # Pipeline adaptors: termination of the steps, quiescent states, cancellation -/

namespace Verif.Adaptor

section
variable {α : Type _}

/-- The threads of an adaptor. -/
def threads (cfg : Cfg) : List Thread := (cfg.rov, 0) :: (List.range cfg.n).map fun i => (cfg.rov.other, i)

theorem mem_threads {cfg : Cfg} {t : Thread} : t ∈ threads cfg ↔ cfg.isThread t := by
  unfold threads Cfg.isThread
  rw [List.mem_cons, List.mem_map]
  by_cases h : t.1 = cfg.rov
  · rw [if_pos h]
    constructor
    · rintro (rfl | ⟨i, _, rfl⟩)
      · rfl
      · exact absurd h (other_ne _)
    · intro e; exact Or.inl (Prod.ext h e)
  · rw [if_neg h]
    constructor
    · rintro (rfl | ⟨i, hi, rfl⟩)
      · exact absurd rfl h
      · exact List.mem_range.mp hi
    · intro e; exact Or.inr ⟨t.2, List.mem_range.mpr e, Prod.ext (eq_other h).symm rfl⟩

theorem nodup_threads (cfg : Cfg) : (threads cfg).Nodup := by
  unfold threads
  rw [List.nodup_cons]
  constructor
  · rw [List.mem_map]
    rintro ⟨i, _, h⟩
    exact other_ne _ (congrArg Prod.fst h)
  · rw [List.nodup_iff_pairwise_ne, List.pairwise_map]
    refine List.Pairwise.imp ?_ (List.nodup_iff_pairwise_ne.mp List.nodup_range)
    intro a b hab h
    exact hab (congrArg Prod.snd h)

theorem sum_upd {β : Type _} [DecidableEq β] {γ : Type _} (g : γ → Nat) (f : β → γ) (a : β) (v : γ) (l : List β) (hn : l.Nodup) (ha : a ∈ l) :
    (l.map fun x => g (upd f a v x)).sum + g (f a) = (l.map fun x => g (f x)).sum + g v := by
  induction l with
  | nil => cases ha
  | cons b l ih =>
    rw [List.nodup_cons] at hn
    rw [List.map_cons, List.map_cons, List.sum_cons, List.sum_cons]
    by_cases e : a = b
    · subst e
      have : (l.map fun x => g (upd f a v x)) = l.map fun x => g (f x) := by
        refine List.map_congr_left fun x hx => ?_
        rw [upd_ne]
        rintro rfl
        exact hn.1 hx
      rw [this, upd_same]
      omega
    · have := ih hn.2 ((List.mem_cons.mp ha).resolve_left e)
      rw [upd_ne (fun h => e h.symm)]
      omega

/-- Steps left to a thread, counting what it can cause. -/
def rank (cfg : Cfg) : Pc → Nat
  | .idle | .thrown => 0
  | .adv => 1
  | .nunlock => 2
  | .notify => 6
  | .nlock => 7
  | .test => 8
  | .inc => 9
  | .copy k => 10 + (cfg.socks - k)
  | .post => 11 + cfg.socks
  | .unlk => 12 + cfg.socks
  | .asleep => 13 + cfg.socks
  | .pred2 => 14 + cfg.socks
  | .pred1 => 15 + cfg.socks
  | .lock => 16 + cfg.socks
  | .pre2 => 17 + cfg.socks
  | .pre1 => 18 + cfg.socks

def crank (cfg : Cfg) : CPc → Nat
  | .off => 0
  | .clock _ i => 8 * (cfg.n + 1 - i) + 1
  | .cnotify _ i => 8 * (cfg.n - i) + 7
  | .cunlock _ i => 8 * (cfg.n - i) + 2

theorem crank_off (cfg : Cfg) : crank cfg .off = 0 := rfl
theorem crank_clock (cfg : Cfg) (j i : Nat) : crank cfg (.clock j i) = 8 * (cfg.n + 1 - i) + 1 := rfl
theorem crank_cnotify (cfg : Cfg) (j i : Nat) : crank cfg (.cnotify j i) = 8 * (cfg.n - i) + 7 := rfl
theorem crank_cunlock (cfg : Cfg) (j i : Nat) : crank cfg (.cunlock j i) = 8 * (cfg.n - i) + 2 := rfl

def total (cfg : Cfg) (K : Nat) (s : St α) : Nat :=
  ((threads cfg).map fun t => rank cfg (s.pc t)).sum + ((List.range K).map fun k => crank cfg (s.canc k)).sum

theorem sum_le {β : Type _} (f : β → Nat) (b : Nat) (l : List β) (h : ∀ x ∈ l, f x ≤ b) : (l.map f).sum ≤ l.length * b := by
  induction l with
  | nil => simp
  | cons a l ih =>
    rw [List.map_cons, List.sum_cons, List.length_cons, Nat.succ_mul]
    have := h a List.mem_cons_self
    have := ih fun x hx => h x (List.mem_cons_of_mem _ hx)
    omega

theorem total_le (cfg : Cfg) (K : Nat) (s : St α) : total cfg K s ≤ (cfg.n + 1) * (18 + cfg.socks) + K * (8 * cfg.n + 9) := by
  unfold total
  have h1 := sum_le (fun t => rank cfg (s.pc t)) (18 + cfg.socks) (threads cfg) (fun t _ => by cases s.pc t <;> simp only [rank] <;> omega)
  have h2 := sum_le (fun k => crank cfg (s.canc k)) (8 * cfg.n + 9) (List.range K) (fun t _ => by cases s.canc t <;> simp only [crank] <;> omega)
  have e1 : (threads cfg).length = cfg.n + 1 := by simp [threads]
  rw [e1] at h1
  rw [List.length_range] at h2
  omega

theorem sum_wake {cfg : Cfg} (s : St α) (u : Thread) :
    ((threads cfg).map fun t => rank cfg ((wake s u).pc t)).sum ≤ ((threads cfg).map fun t => rank cfg (s.pc t)).sum + 3 := by
  unfold wake
  split
  · next e =>
    by_cases hu : u ∈ threads cfg
    · have := sum_upd (rank cfg) s.pc u .lock (threads cfg) (nodup_threads cfg) hu
      simp only [setPc]
      rw [e] at this
      have r1 : rank cfg .lock = 16 + cfg.socks := rfl
      have r2 : rank cfg .asleep = 13 + cfg.socks := rfl
      omega
    · have : ((threads cfg).map fun t => rank cfg ((setPc s u .lock).pc t)) = (threads cfg).map fun t => rank cfg (s.pc t) := by
        refine List.map_congr_left fun x hx => ?_
        simp only [setPc]
        rw [upd_ne]
        rintro rfl
        exact hu hx
      rw [this]; omega
  · omega

theorem total_stepT [Inhabited α] {cfg : Cfg} (ha : cfg.active = false) {K : Nat} {s s' : St α} {t : Thread} (hT : Threads cfg s)
    (hs : stepT cfg s t = some s') : total cfg K s' < total cfg K s := by
  have ht : cfg.isThread t := by
    apply hT.valid
    intro e
    simp [stepT, e] at hs
  have hm := mem_threads.mpr ht
  have key : ∀ (s1 : St α) (p : Pc), s1.pc = s.pc → s1.canc = s.canc → rank cfg p < rank cfg (s.pc t) →
      total cfg K (setPc s1 t p) < total cfg K s := by
    intro s1 p e1 e2 hr
    unfold total
    have := sum_upd (rank cfg) s.pc t p (threads cfg) (nodup_threads cfg) hm
    simp only [setPc, e1, e2]
    omega
  unfold stepT at hs
  cases hp : s.pc t <;> simp only [hp] at hs
  case idle => cases hs
  case asleep => cases hs
  case thrown => cases hs
  case copy k =>
    split at hs <;> (injection hs with hs; subst hs)
    · next hk =>
      refine key _ _ ?_ ?_ (by rw [hp]; simp only [rank]; omega) <;> (unfold copySock; split <;> rfl)
    · exact key _ _ rfl rfl (by rw [hp]; simp only [rank]; omega)
  case inc =>
    injection hs with hs; subst hs
    exact key _ _ bump_pc bump_canc (by rw [hp]; simp only [rank]; omega)
  case notify =>
    injection hs with hs; subst hs
    have hpt : (wake s (peer cfg s t)).pc t = .notify := by
      unfold wake
      split
      · simp only [setPc]; rw [upd_ne (peer_ne t).symm]; exact hp
      · exact hp
    have hc : (wake s (peer cfg s t)).canc = s.canc := by unfold wake; split <;> rfl
    have h1 := sum_wake (cfg := cfg) s (peer cfg s t)
    have h2 := sum_upd (rank cfg) (wake s (peer cfg s t)).pc t .nunlock (threads cfg) (nodup_threads cfg) hm
    rw [hpt] at h2
    have r1 : rank cfg .notify = 6 := rfl
    have r2 : rank cfg .nunlock = 2 := rfl
    unfold total
    simp only [setPc, hc]
    omega
  case pre2 =>
    rw [ha] at hs
    repeat' split at hs
    · injection hs with hs; subst hs
      refine key _ _ ?_ ?_ (by rw [hp]; simp only [rank]; omega) <;> rfl
    · next h => cases h
    · injection hs with hs; subst hs
      refine key _ _ ?_ ?_ (by rw [hp]; simp only [rank]; omega) <;> rfl
  all_goals
    repeat' split at hs
    all_goals first
      | (cases hs; done)
      | (injection hs with hs; subst hs; refine key _ _ ?_ ?_ (by rw [hp]; simp only [rank]; omega) <;> rfl)

theorem total_stepC {cfg : Cfg} {K : Nat} {s s' : St α} {k : Nat} (hk : k < K)
    (hi : ∀ j i, (s.canc k = .cnotify j i ∨ s.canc k = .cunlock j i) → i ≤ cfg.n)
    (hs : stepC cfg s k = some s') : total cfg K s' < total cfg K s := by
  have hm := List.mem_range.mpr hk
  unfold stepC at hs
  cases hp : s.canc k with
  | off => simp only [hp] at hs; cases hs
  | clock j i =>
    simp only [hp] at hs
    split at hs
    · next h =>
      injection hs with hs; subst hs
      have := sum_upd (crank cfg) s.canc k .off (List.range K) List.nodup_range hm
      rw [hp] at this
      simp only [crank_off, crank_clock, crank_cnotify, crank_cunlock] at this
      unfold total
      simp only
      omega
    split at hs
    · next h _ =>
      injection hs with hs; subst hs
      have := sum_upd (crank cfg) s.canc k (.cnotify j i) (List.range K) List.nodup_range hm
      rw [hp] at this
      simp only [crank_off, crank_clock, crank_cnotify, crank_cunlock] at this
      unfold total
      simp only
      omega
    · cases hs
  | cnotify j i =>
    simp only [hp] at hs
    injection hs with hs; subst hs
    have hc : (wake s (target cfg i)).canc = s.canc := by unfold wake; split <;> rfl
    have h1 := sum_wake (cfg := cfg) s (target cfg i)
    have := sum_upd (crank cfg) s.canc k (.cunlock j i) (List.range K) List.nodup_range hm
    rw [hp] at this
    simp only [crank_off, crank_clock, crank_cnotify, crank_cunlock] at this
    unfold total
    simp only
    omega
  | cunlock j i =>
    simp only [hp] at hs
    have := hi j i (Or.inr hp)
    injection hs with hs; subst hs
    have := sum_upd (crank cfg) s.canc k (.clock j (i + 1)) (List.range K) List.nodup_range hm
    rw [hp] at this
    simp only [crank_off, crank_clock, crank_cnotify, crank_cunlock] at this
    unfold total
    simp only
    omega

/-! ## Cancel calls -/

structure Cancels (cfg : Cfg) (s : St α) : Prop where
  flag : ∀ k j i, (s.canc k = .clock j i ∨ s.canc k = .cnotify j i ∨ s.canc k = .cunlock j i) → s.flag j = true
  turn : ∀ k j i, (s.canc k = .cnotify j i ∨ s.canc k = .cunlock j i) → i ≤ cfg.n

theorem stepT_canc [Inhabited α] {cfg : Cfg} {s s' : St α} {t : Thread} (hs : stepT cfg s t = some s') :
    s'.canc = s.canc ∧ s'.flag = s.flag := by
  unfold stepT at hs
  cases hp : s.pc t <;> simp only [hp] at hs
  case inc =>
    injection hs with hs; subst hs
    exact ⟨bump_canc, bump_flag⟩
  case notify =>
    injection hs with hs; subst hs
    simp only [setPc]
    unfold wake; split <;> exact ⟨rfl, rfl⟩
  case copy k =>
    split at hs <;> (injection hs with hs; subst hs)
    · simp only [setPc]; unfold copySock; split <;> exact ⟨rfl, rfl⟩
    · exact ⟨rfl, rfl⟩
  all_goals
    repeat' split at hs
    all_goals first
      | (cases hs; done)
      | (injection hs with hs; subst hs; exact ⟨rfl, rfl⟩)

theorem cancels_step [Inhabited α] {cfg : Cfg} {s s' : St α} (h : Cancels cfg s) {a : Act α} (hs : step cfg s a = some s') : Cancels cfg s' := by
  have same : s'.canc = s.canc → s'.flag = s.flag → Cancels cfg s' := by
    intro e1 e2
    refine ⟨?_, ?_⟩
    · rw [e1, e2]; exact h.flag
    · rw [e1]; exact h.turn
  cases a with
  | run t => exact same (stepT_canc hs).1 (stepT_canc hs).2
  | call t fr =>
    simp only [step] at hs
    split at hs
    · injection hs with hs; subst hs; exact same rfl rfl
    · cases hs
  | spurious t =>
    simp only [step] at hs
    split at hs
    · injection hs with hs; subst hs; exact same rfl rfl
    · cases hs
  | cancel k j =>
    simp only [step] at hs
    split at hs
    · injection hs with hs; subst hs
      refine ⟨fun k' j' i' hh => ?_, fun k' j' i' hh => ?_⟩
      · simp only at hh ⊢
        by_cases e : k' = k
        · subst e
          rw [upd_same] at hh
          split at hh
          · rcases hh with hh | hh | hh <;> cases hh
          · rcases hh with hh | hh | hh
            · injection hh with h1 _; subst h1; exact upd_same _ _ _
            · cases hh
            · cases hh
        · rw [upd_ne e] at hh
          have := h.flag k' j' i' hh
          simp only [upd]; split
          · rfl
          · exact this
      · simp only at hh
        by_cases e : k' = k
        · subst e
          rw [upd_same] at hh
          split at hh <;> (rcases hh with hh | hh <;> cases hh)
        · rw [upd_ne e] at hh; exact h.turn k' j' i' hh
    · cases hs
  | crun k =>
    have hs : stepC cfg s k = some s' := hs
    have chg : ∀ c : CPc, s'.canc = upd s.canc k c → s'.flag = s.flag →
        (∀ j i, (c = .clock j i ∨ c = .cnotify j i ∨ c = .cunlock j i) → s.flag j = true) →
        (∀ j i, (c = .cnotify j i ∨ c = .cunlock j i) → i ≤ cfg.n) → Cancels cfg s' := by
      intro c e1 e2 h1 h2
      refine ⟨fun k' j' i' hh => ?_, fun k' j' i' hh => ?_⟩
      · rw [e1] at hh; rw [e2]
        by_cases e : k' = k
        · subst e; rw [upd_same] at hh; exact h1 j' i' hh
        · rw [upd_ne e] at hh; exact h.flag k' j' i' hh
      · rw [e1] at hh
        by_cases e : k' = k
        · subst e; rw [upd_same] at hh; exact h2 j' i' hh
        · rw [upd_ne e] at hh; exact h.turn k' j' i' hh
    unfold stepC at hs
    cases hp : s.canc k with
    | off => simp only [hp] at hs; cases hs
    | clock j i =>
      simp only [hp] at hs
      split at hs
      · injection hs with hs; subst hs
        exact chg .off rfl rfl (fun _ _ hh => by rcases hh with hh | hh | hh <;> cases hh) (fun _ _ hh => by rcases hh with hh | hh <;> cases hh)
      split at hs
      · next hi _ =>
        injection hs with hs; subst hs
        refine chg (.cnotify j i) rfl rfl (fun _ _ hh => ?_) (fun _ _ hh => ?_)
        · rcases hh with hh | hh | hh
          · cases hh
          · injection hh with h1 h2; rw [← h1]; exact h.flag k j i (Or.inl hp)
          · cases hh
        · rcases hh with hh | hh
          · injection hh with h1 h2; omega
          · cases hh
      · cases hs
    | cnotify j i =>
      simp only [hp] at hs
      injection hs with hs; subst hs
      refine chg (.cunlock j i) ?_ ?_ (fun _ _ hh => ?_) (fun _ _ hh => ?_)
      · rfl
      · simp only; unfold wake; split <;> rfl
      · rcases hh with hh | hh | hh
        · cases hh
        · cases hh
        · injection hh with h1 h2; rw [← h1]; exact h.flag k j i (Or.inr (Or.inl hp))
      · rcases hh with hh | hh
        · cases hh
        · injection hh with h1 h2; rw [← h2]; exact h.turn k j i (Or.inl hp)
    | cunlock j i =>
      simp only [hp] at hs
      injection hs with hs; subst hs
      refine chg (.clock j (i + 1)) rfl rfl (fun _ _ hh => ?_) (fun _ _ hh => ?_)
      · rcases hh with hh | hh | hh
        · injection hh with h1 h2; rw [← h1]; exact h.flag k j i (Or.inr (Or.inr hp))
        · cases hh
        · cases hh
      · rcases hh with hh | hh <;> cases hh

theorem cancels_reach [Inhabited α] {cfg : Cfg} {s : St α} (h : Reach cfg s) : Cancels cfg s := by
  induction h with
  | init =>
    refine ⟨fun _ _ _ h => ?_, fun _ _ _ h => ?_⟩
    · rcases h with h | h | h <;> cases h
    · rcases h with h | h <;> cases h
  | step a _ hs ih => exact cancels_step ih hs

/-! ## Finite runs -/

/-- Steps of threads and of the first `K` cancel calls. -/
def Internal (K : Nat) : Act α → Prop
  | .run _ => True
  | .crun k => k < K
  | _ => False

theorem total_run [Inhabited α] {cfg : Cfg} (hn : 0 < cfg.n) (ha : cfg.active = false) {K : Nat} {as : List (Act α)} {s s' : St α} (h : Reach cfg s)
    (hi : ∀ a ∈ as, Internal K a) (hr : run cfg s as = some s') : as.length + total cfg K s' ≤ total cfg K s := by
  induction as generalizing s with
  | nil => simp only [run] at hr; injection hr with hr; subst hr; simp
  | cons a as ih =>
    simp only [run] at hr
    cases hs : step cfg s a with
    | none => rw [hs] at hr; cases hr
    | some s1 =>
      rw [hs] at hr
      have h1 := ih (Reach.step a h hs) (fun b hb => hi b (List.mem_cons_of_mem _ hb)) hr
      have h2 : total cfg K s1 < total cfg K s := by
        have ha' := hi a List.mem_cons_self
        cases a with
        | run t => exact total_stepT ha (inv_reach hn h).threads hs
        | crun k => exact total_stepC ha' (cancels_reach h |>.turn k) hs
        | call t fr => exact ha'.elim
        | spurious t => exact ha'.elim
        | cancel k j => exact ha'.elim
      rw [List.length_cons]
      omega

/-! ## Quiescent states -/

/-- No thread and no cancel call can make a step. -/
def Quiet [Inhabited α] (cfg : Cfg) (s : St α) : Prop := (∀ t, stepT cfg s t = none) ∧ ∀ k, stepC cfg s k = none

theorem quiet_mtx [Inhabited α] {cfg : Cfg} {s : St α} (h : Inv cfg s) (hq : Quiet cfg s) (m : Thread) : s.mtx m = none := by
  cases hm : s.mtx m with
  | none => rfl
  | some a =>
    exfalso
    have hh := (h.mutex m a).mp hm
    cases a with
    | thr u =>
      have := hq.1 u
      rcases hh with ⟨_, hh⟩ | ⟨_, hh⟩
      · unfold stepT at this
        cases hp : s.pc u <;> rw [hp] at hh <;> simp only [own, Bool.false_eq_true] at hh
        all_goals
          simp only [hp] at this
          repeat' split at this
          all_goals cases this
      · unfold stepT at this
        cases hp : s.pc u <;> rw [hp] at hh <;> simp only [notif, Bool.false_eq_true] at hh
        all_goals
          simp only [hp] at this
          repeat' split at this
          all_goals cases this
    | canc k =>
      have := hq.2 k
      obtain ⟨j, i, hh | hh, _⟩ := hh
      · unfold stepC at this; simp only [hh] at this; cases this
      · unfold stepC at this; simp only [hh] at this; cases this

theorem quiet_pc [Inhabited α] {cfg : Cfg} {s : St α} (h : Inv cfg s) (hq : Quiet cfg s) (t : Thread) :
    s.pc t = .idle ∨ s.pc t = .thrown ∨ s.pc t = .asleep := by
  have hm := quiet_mtx h hq
  have := hq.1 t
  unfold stepT at this
  cases hp : s.pc t <;> simp only [hp] at this
  case idle => exact Or.inl rfl
  case thrown => exact Or.inr (Or.inl rfl)
  case asleep => exact Or.inr (Or.inr rfl)
  all_goals
    exfalso
    repeat' split at this
    all_goals first
      | (cases this; done)
      | (next h1 => exact h1 (hm _))

theorem quiet_canc [Inhabited α] {cfg : Cfg} {s : St α} (h : Inv cfg s) (hq : Quiet cfg s) (k : Nat) : s.canc k = .off := by
  have hm := quiet_mtx h hq
  have := hq.2 k
  unfold stepC at this
  cases hp : s.canc k <;> simp only [hp] at this
  case off => rfl
  case clock j i =>
    exfalso
    split at this
    · cases this
    split at this
    · cases this
    · next h1 => exact h1 (hm _)
  all_goals cases this

theorem quiet_asleep [Inhabited α] {cfg : Cfg} {s : St α} (h : Inv cfg s) (hq : Quiet cfg s) {t : Thread} (ht : s.pc t = .asleep) :
    blocked cfg s t.1 (chan cfg s t) = true ∧ s.flag t.2 = false := by
  constructor
  · rcases h.wakes.wake t (by rw [ht]; rfl) with h1 | ⟨h1, _⟩
    · exact h1
    · rcases quiet_pc h hq (peer cfg s t) with e | e | e <;> (rw [e] at h1; cases h1)
  · rcases h.wakes.flag t ht with h1 | ⟨k, i, h1, _⟩
    · exact h1
    · rw [quiet_canc h hq k] at h1; cases h1

/-- A channel is not full and empty at once. -/
theorem not_both {cfg : Cfg} (hz : 0 < cfg.size) {s : St α} {c : Nat} {d : Side} (h1 : blocked cfg s d c = true)
    (h2 : blocked cfg s d.other c = true) : False := by
  cases d <;> simp only [Side.other, blocked, isFull_eq, isEmpty, decide_eq_true_eq] at h1 h2 <;> omega

/-! ## After a cancellation -/

theorem cancelled_step [Inhabited α] {cfg : Cfg} {s s' : St α} {t : Thread} {a : Act α}
    (h : s.flag t.2 = true ∧ (early (s.pc t) = true ∨ s.pc t = .thrown))
    (hs : step cfg s a = some s') : s'.flag t.2 = true ∧ (early (s'.pc t) = true ∨ s'.pc t = .thrown) := by
  obtain ⟨hf, hp⟩ := h
  have hwake : ∀ u, (wake s u).flag t.2 = true ∧ (early ((wake s u).pc t) = true ∨ (wake s u).pc t = .thrown) := by
    intro u
    unfold wake
    split
    · refine ⟨hf, ?_⟩
      simp only [setPc]
      by_cases e : t = u
      · subst e; rw [upd_same]; exact Or.inl rfl
      · rw [upd_ne e]; exact hp
    · exact ⟨hf, hp⟩
  cases a with
  | run u =>
    have hs : stepT cfg s u = some s' := hs
    refine ⟨by rw [(stepT_canc hs).2]; exact hf, ?_⟩
    by_cases e : t = u
    · subst e
      unfold stepT at hs
      cases hq : s.pc t <;> simp only [hq, hf] at hs <;> rw [hq] at hp <;>
        (try simp only [early, Bool.false_eq_true, reduceCtorEq, or_self] at hp)
      all_goals
        repeat' split at hs
        all_goals first
          | (cases hs; done)
          | (injection hs with hs; subst hs; simp only [setPc, upd_same]; first | exact Or.inl rfl | exact Or.inr rfl | exact Or.inr trivial)
          | (exfalso; simp at *; done)
    · have hne : ∀ (s1 : St α) p, s1.pc = s.pc → early ((setPc s1 u p).pc t) = true ∨ (setPc s1 u p).pc t = .thrown := by
        intro s1 p e1
        simp only [setPc]; rw [upd_ne e, e1]; exact hp
      unfold stepT at hs
      cases hq : s.pc u <;> simp only [hq] at hs
      case inc =>
        injection hs with hs; subst hs
        exact hne _ _ bump_pc
      case notify =>
        injection hs with hs; subst hs
        simp only [setPc]; rw [upd_ne e]; exact (hwake _).2
      case copy k =>
        split at hs <;> (injection hs with hs; subst hs)
        · refine hne _ _ ?_; unfold copySock; split <;> rfl
        · exact hne _ _ rfl
      all_goals
        repeat' split at hs
        all_goals first
          | (cases hs; done)
          | (injection hs with hs; subst hs; refine hne _ _ ?_; rfl)
  | call u fr =>
    simp only [step] at hs
    split at hs
    · next hc =>
      injection hs with hs; subst hs
      refine ⟨hf, ?_⟩
      simp only [setPc]
      by_cases e : t = u
      · subst e; rw [upd_same]; exact Or.inl rfl
      · rw [upd_ne e]; exact hp
    · cases hs
  | spurious u =>
    simp only [step] at hs
    split at hs
    · next e =>
      injection hs with hs
      have := hwake u
      unfold wake at this
      rw [if_pos e, hs] at this
      exact this
    · cases hs
  | cancel k j =>
    simp only [step] at hs
    split at hs
    · injection hs with hs; subst hs
      refine ⟨?_, hp⟩
      simp only [upd]; split
      · rfl
      · exact hf
    · cases hs
  | crun k =>
    have hs : stepC cfg s k = some s' := hs
    unfold stepC at hs
    repeat' split at hs
    all_goals first
      | (cases hs; done)
      | (injection hs with hs; subst hs; first | exact ⟨hf, hp⟩ | exact hwake _)

/-! ## Calls and returns -/

theorem wake_frame (s : St α) (u t : Thread) : (wake s u).loc = s.loc ∧ (wake s u).hist = s.hist ∧
    ((wake s u).pc t = s.pc t ∨ (s.pc t = .asleep ∧ (wake s u).pc t = .lock)) := by
  unfold wake
  split
  · next e =>
    refine ⟨rfl, rfl, ?_⟩
    simp only [setPc]
    by_cases h : t = u
    · subst h; rw [upd_same]; exact Or.inr ⟨e, rfl⟩
    · rw [upd_ne h]; exact Or.inl rfl
  · exact ⟨rfl, rfl, Or.inl rfl⟩

/-- What a step of another thread, of a cancel call or of the environment does to thread `t`. -/
theorem step_frame [Inhabited α] {cfg : Cfg} {s s' : St α} {a : Act α} {t : Thread} (hs : step cfg s a = some s')
    (hr : a ≠ .run t) (hc : ∀ fr, a ≠ .call t fr) :
    s'.loc t = s.loc t ∧ s'.hist t = s.hist t ∧ (s'.pc t = s.pc t ∨ (s.pc t = .asleep ∧ s'.pc t = .lock)) := by
  cases a with
  | run u =>
    have hu : t ≠ u := fun e => hr (by rw [e])
    have hs : stepT cfg s u = some s' := hs
    have key : ∀ (s1 : St α) p, s1.pc = s.pc → s1.loc t = s.loc t → s1.hist t = s.hist t →
        (setPc s1 u p).loc t = s.loc t ∧ (setPc s1 u p).hist t = s.hist t ∧
          ((setPc s1 u p).pc t = s.pc t ∨ (s.pc t = .asleep ∧ (setPc s1 u p).pc t = .lock)) := by
      intro s1 p e1 e2 e3
      refine ⟨e2, e3, Or.inl ?_⟩
      simp only [setPc]; rw [upd_ne hu, e1]
    unfold stepT at hs
    cases hq : s.pc u <;> simp only [hq] at hs
    case inc =>
      injection hs with hs; subst hs
      refine key _ _ bump_pc (by rw [bump_loc]) ?_
      unfold bump; split <;> exact upd_ne hu
    case notify =>
      injection hs with hs; subst hs
      obtain ⟨h1, h2, h3⟩ := wake_frame s (peer cfg s u) t
      refine ⟨by simp only [setPc]; rw [h1], by simp only [setPc]; rw [h2], ?_⟩
      simp only [setPc]; rw [upd_ne hu]; exact h3
    case copy k =>
      split at hs <;> (injection hs with hs; subst hs)
      · refine key _ _ ?_ ?_ ?_
        · unfold copySock; split <;> rfl
        · unfold copySock; split
          · rfl
          · exact upd_ne hu
        · unfold copySock; split <;> rfl
      · exact key _ _ rfl rfl rfl
    all_goals
      repeat' split at hs
      all_goals first
        | (cases hs; done)
        | (injection hs with hs; subst hs; refine key _ _ ?_ ?_ ?_ <;> rfl)
  | call u fr =>
    have hu : t ≠ u := fun e => hc fr (by rw [e])
    simp only [step] at hs
    split at hs
    · injection hs with hs; subst hs
      exact ⟨upd_ne hu, rfl, Or.inl (upd_ne hu)⟩
    · cases hs
  | spurious u =>
    simp only [step] at hs
    split at hs
    · next e =>
      injection hs with hs
      have : s' = wake s u := by unfold wake; rw [if_pos e]; exact hs.symm
      rw [this]
      obtain ⟨h1, h2, h3⟩ := wake_frame s u t
      exact ⟨by rw [h1], by rw [h2], h3⟩
    · cases hs
  | cancel k j =>
    simp only [step] at hs
    split at hs
    · injection hs with hs; subst hs; exact ⟨rfl, rfl, Or.inl rfl⟩
    · cases hs
  | crun k =>
    have hs : stepC cfg s k = some s' := hs
    unfold stepC at hs
    repeat' split at hs
    all_goals first
      | (cases hs; done)
      | (injection hs with hs; subst hs; first | exact ⟨rfl, rfl, Or.inl rfl⟩ | skip)
    all_goals
      obtain ⟨h1, h2, h3⟩ := wake_frame s (target cfg ‹Nat›) t
      first | exact ⟨by simp only; rw [h1], by simp only; rw [h2], h3⟩ | skip
    all_goals exact ⟨by simp only [(wake_frame s _ t).1], by simp only [(wake_frame s _ t).2.1], (wake_frame s _ t).2.2⟩

/-- In the task, and the push has not taken effect (yet). -/
def pending : Pc → Bool
  | .pre1 | .pre2 | .lock | .pred1 | .pred2 | .asleep | .unlk | .post | .copy _ | .inc | .thrown => true
  | _ => false

/-- The frame being pushed. -/
def pend (s : St α) (t : Thread) : List (List α) := if pending (s.pc t) = true then [s.loc t] else []

/-- The frames given to the task of `t`. -/
def given (t : Thread) : List (Act α) → List (List α)
  | [] => []
  | .call u fr :: as => if u = t then fr :: given t as else given t as
  | _ :: as => given t as

theorem pend_pc {s s' : St α} {t : Thread} (h1 : s'.loc t = s.loc t) (h2 : pending (s'.pc t) = pending (s.pc t)) : pend s' t = pend s t := by
  unfold pend
  by_cases e : pending (s.pc t) = true
  · rw [if_pos e, if_pos (h2.trans e), h1]
  · rw [if_neg e, if_neg (fun h => e (h2.symm.trans h))]

theorem pushed_step [Inhabited α] {cfg : Cfg} {s s' : St α} {a : Act α} {t : Thread} (ht : t.1 = .push) (hs : step cfg s a = some s') :
    s'.hist t ++ pend s' t = s.hist t ++ pend s t ++ given t [a] := by
  by_cases hr : a = .run t
  · subst hr
    have hs : stepT cfg s t = some s' := hs
    have key : ∀ (s1 : St α) p, s1.loc t = s.loc t → s1.hist t = s.hist t → pending p = pending (s.pc t) →
        (setPc s1 t p).hist t ++ pend (setPc s1 t p) t = s.hist t ++ pend s t ++ given t [.run t] := by
      intro s1 p e1 e2 e3
      have : pend (setPc s1 t p) t = pend s t := pend_pc e1 (by simp only [setPc, upd_same]; exact e3)
      rw [this]
      simp only [setPc, given, List.append_nil]; rw [e2]
    unfold stepT at hs
    cases hq : s.pc t <;> simp only [hq] at hs
    case inc =>
      injection hs with hs; subst hs
      have e1 : pend (setPc (bump cfg s t) t .test) t = [] := by
        unfold pend; rw [if_neg]; simp only [setPc, upd_same]; exact fun h => by cases h
      have e2 : pend s t = [s.loc t] := by unfold pend; rw [hq]; rfl
      have e3 : (setPc (bump cfg s t) t .test).hist t = s.hist t ++ [s.loc t] := by
        simp only [setPc]; unfold bump; split <;> exact upd_same _ _ _
      rw [e1, e2, e3]; rfl
    case notify =>
      injection hs with hs; subst hs
      obtain ⟨h1, h2, _⟩ := wake_frame s (peer cfg s t) t
      exact key _ _ (by rw [h1]) (by rw [h2]) (by rw [hq]; rfl)
    case copy k =>
      split at hs <;> (injection hs with hs; subst hs)
      · refine key _ _ ?_ ?_ (by rw [hq]; rfl) <;> (unfold copySock; rw [ht])
      · exact key _ _ rfl rfl (by rw [hq]; rfl)
    all_goals
      repeat' split at hs
      all_goals first
        | (cases hs; done)
        | (injection hs with hs; subst hs; refine key _ _ ?_ ?_ (by rw [hq]; rfl) <;> rfl)
  · by_cases hc : ∃ fr, a = .call t fr
    · obtain ⟨fr, rfl⟩ := hc
      simp only [step] at hs
      split at hs
      · next h =>
        injection hs with hs; subst hs
        have e1 : pend s t = [] := by unfold pend; rw [h.2.1, if_neg]; exact fun h => by cases h
        have e2 : pend (setPc { s with loc := upd s.loc t (argOf t.1 fr) } t .pre1) t = [fr] := by
          unfold pend
          rw [if_pos]
          · simp only [setPc, upd_same, ht, argOf]
          · simp only [setPc, upd_same]; rfl
        rw [e1, e2]
        simp [given, setPc]
      · cases hs
    · obtain ⟨h1, h2, h3⟩ := step_frame hs hr (fun fr e => hc ⟨fr, e⟩)
      have e1 : given t [a] = [] := by
        cases a with
        | call u fr =>
          have : u ≠ t := fun e => hc ⟨fr, by rw [e]⟩
          simp [given, this]
        | _ => rfl
      have e2 : pend s' t = pend s t := by
        refine pend_pc h1 ?_
        rcases h3 with h3 | ⟨h3, h4⟩
        · rw [h3]
        · rw [h3, h4]; rfl
      rw [h2, e1, e2, List.append_nil]

theorem given_cons (t : Thread) (a : Act α) (as : List (Act α)) : given t (a :: as) = given t [a] ++ given t as := by
  cases a with
  | call u fr => simp only [given]; split <;> rfl
  | _ => rfl

theorem pushed_run [Inhabited α] {cfg : Cfg} {t : Thread} (ht : t.1 = .push) {as : List (Act α)} {s s' : St α} (hr : run cfg s as = some s') :
    s'.hist t ++ pend s' t = s.hist t ++ pend s t ++ given t as := by
  induction as generalizing s with
  | nil => simp only [run] at hr; injection hr with hr; subst hr; simp [given]
  | cons a as ih =>
    simp only [run] at hr
    cases hs : step cfg s a with
    | none => rw [hs] at hr; cases hr
    | some s1 =>
      rw [hs] at hr
      rw [ih hr, pushed_step ht hs, given_cons t a as, List.append_assoc]

/-- Out of the task, or past the copy. -/
def returned : Pc → Bool
  | .idle | .test | .nlock | .notify | .nunlock | .adv => true
  | _ => false

def Rets (s : St α) (t : Thread) : Prop := returned (s.pc t) = true → s.hist t = [] ∨ (s.hist t).getLast? = some (s.loc t)

theorem rets_step [Inhabited α] {cfg : Cfg} {s s' : St α} {a : Act α} {t : Thread} (h : Rets s t) (hs : step cfg s a = some s') : Rets s' t := by
  intro hret
  by_cases hr : a = .run t
  · subst hr
    have hs : stepT cfg s t = some s' := hs
    have key : ∀ (s1 : St α) p, s1.loc t = s.loc t → s1.hist t = s.hist t → returned (s.pc t) = true →
        (setPc s1 t p).hist t = [] ∨ ((setPc s1 t p).hist t).getLast? = some ((setPc s1 t p).loc t) := by
      intro s1 p e1 e2 e3
      simp only [setPc]; rw [e1, e2]; exact h e3
    unfold stepT at hs
    cases hq : s.pc t <;> simp only [hq] at hs
    case inc =>
      injection hs with hs; subst hs
      have e3 : (setPc (bump cfg s t) t .test).hist t = s.hist t ++ [s.loc t] := by
        simp only [setPc]; unfold bump; split <;> exact upd_same _ _ _
      have e4 : (setPc (bump cfg s t) t .test).loc t = s.loc t := by simp only [setPc]; rw [bump_loc]
      rw [e3, e4]
      exact Or.inr (by simp)
    case notify =>
      injection hs with hs; subst hs
      obtain ⟨h1, h2, _⟩ := wake_frame s (peer cfg s t) t
      exact key _ _ (by rw [h1]) (by rw [h2]) (by rw [hq]; rfl)
    all_goals
      repeat' split at hs
      all_goals first
        | (cases hs; done)
        | (injection hs with hs; subst hs; simp only [setPc, upd_same] at hret; cases hret; done)
        | (injection hs with hs; subst hs; refine key _ _ ?_ ?_ (by rw [hq]; rfl) <;> rfl)
  · by_cases hc : ∃ fr, a = .call t fr
    · obtain ⟨fr, rfl⟩ := hc
      simp only [step] at hs
      split at hs
      · injection hs with hs; subst hs
        simp only [setPc, upd_same] at hret; cases hret
      · cases hs
    · obtain ⟨h1, h2, h3⟩ := step_frame hs hr (fun fr e => hc ⟨fr, e⟩)
      rw [h1, h2]
      rcases h3 with h3 | ⟨h3, h4⟩
      · exact h (h3 ▸ hret)
      · rw [h4] at hret; cases hret

theorem rets_reach [Inhabited α] {cfg : Cfg} {s : St α} (h : Reach cfg s) (t : Thread) : Rets s t := by
  induction h with
  | init => intro _; exact Or.inl rfl
  | step a _ hs ih => exact rets_step ih hs

end

end Verif.Adaptor
