import Verif.Model.Adaptor
import Mathlib.Data.Nat.ModEq
import Mathlib.Tactic.ByContra

/-! # Pipeline adaptors: invariants -/

namespace Verif.Adaptor

section
variable {α : Type _}

theorem upd_same {β γ : Type _} [DecidableEq β] (f : β → γ) (a : β) (v : γ) : upd f a v a = v := by simp [upd]

theorem upd_ne {β γ : Type _} [DecidableEq β] {f : β → γ} {a x : β} {v : γ} (h : x ≠ a) : upd f a v x = f x := by simp [upd, h]

theorem other_ne (d : Side) : d.other ≠ d := by cases d <;> decide

theorem other_other (d : Side) : d.other.other = d := by cases d <;> rfl

theorem eq_other {d e : Side} (h : d ≠ e) : d = e.other := by cases d <;> cases e <;> first | rfl | exact absurd rfl h

/-! ## Threads, channels, peers -/

/-- Structural invariant. -/
structure Threads (cfg : Cfg) (s : St α) : Prop where
  valid : ∀ t, s.pc t ≠ .idle → cfg.isThread t
  cur : s.cur < cfg.n

theorem isThread_rov {cfg : Cfg} {t : Thread} (h : cfg.isThread t) (hr : t.1 = cfg.rov) : t = (cfg.rov, 0) := by
  unfold Cfg.isThread at h
  rw [if_pos hr] at h
  exact Prod.ext hr h

theorem isThread_fix {cfg : Cfg} {t : Thread} (h : cfg.isThread t) (hr : t.1 ≠ cfg.rov) : t.2 < cfg.n := by
  unfold Cfg.isThread at h
  rwa [if_neg hr] at h

theorem isThread_peer {cfg : Cfg} {s : St α} (hc : s.cur < cfg.n) (t : Thread) : cfg.isThread (peer cfg s t) := by
  unfold peer Cfg.isThread
  by_cases h : t.1 = cfg.rov
  · rw [if_pos h, if_neg (by rw [h]; exact other_ne _)]; exact hc
  · rw [if_neg h, if_pos rfl]

theorem peer_side {cfg : Cfg} {s : St α} (t : Thread) : (peer cfg s t).1 = t.1.other := by
  unfold peer
  by_cases h : t.1 = cfg.rov
  · rw [if_pos h]
  · rw [if_neg h]
    rw [eq_other h, other_other]

theorem peer_ne {cfg : Cfg} {s : St α} (t : Thread) : peer cfg s t ≠ t := by
  intro h
  have := peer_side (cfg := cfg) (s := s) t
  rw [h] at this
  exact other_ne _ this.symm

theorem chan_lt {cfg : Cfg} {s : St α} (hc : s.cur < cfg.n) {t : Thread} (h : cfg.isThread t) : chan cfg s t < cfg.n := by
  unfold chan
  by_cases hr : t.1 = cfg.rov
  · rw [if_pos hr]; exact hc
  · rw [if_neg hr]; exact isThread_fix h hr

/-- Two threads of one side work on different channels. -/
theorem chan_inj {cfg : Cfg} {s : St α} {t u : Thread} (ht : cfg.isThread t) (hu : cfg.isThread u) (hs : t.1 = u.1)
    (hc : chan cfg s t = chan cfg s u) : t = u := by
  by_cases hr : t.1 = cfg.rov
  · rw [isThread_rov ht hr, isThread_rov hu (hs ▸ hr)]
  · unfold chan at hc
    rw [if_neg hr, if_neg (hs ▸ hr)] at hc
    exact Prod.ext hs hc

/-- Threads of opposite sides on one channel are each other's peer. -/
theorem peer_of_chan {cfg : Cfg} {s : St α} {t u : Thread} (ht : cfg.isThread t) (hu : cfg.isThread u) (hs : t.1 ≠ u.1)
    (hc : chan cfg s t = chan cfg s u) : peer cfg s t = u := by
  unfold chan at hc
  unfold peer
  by_cases hr : t.1 = cfg.rov
  · rw [if_pos hr] at hc ⊢
    rw [if_neg (fun h => hs (hr.trans h.symm))] at hc
    exact Prod.ext (eq_other hs.symm).symm hc
  · rw [if_neg hr]
    have hur : u.1 = cfg.rov := by
      rw [eq_other hr] at hs
      by_contra h
      exact hs (eq_other h).symm
    exact (isThread_rov hu hur).symm

theorem chan_peer {cfg : Cfg} {s : St α} {t : Thread} (h : t.1 = cfg.rov) : chan cfg s (peer cfg s t) = chan cfg s t := by
  unfold chan peer
  rw [if_pos h, if_pos h, if_neg (by rw [h]; exact other_ne _)]

theorem threads_setPc {cfg : Cfg} {s : St α} (h : Threads cfg s) {t : Thread} (ht : cfg.isThread t) (p : Pc) :
    Threads cfg (setPc s t p) := by
  refine ⟨fun u hu => ?_, h.cur⟩
  by_cases e : u = t
  · subst e; exact ht
  · simp only [setPc] at hu; rw [upd_ne e] at hu; exact h.valid u hu

theorem threads_wake {cfg : Cfg} {s : St α} (h : Threads cfg s) (t : Thread) : Threads cfg (wake s t) := by
  unfold wake
  split
  · next e => exact threads_setPc h (h.valid t (by rw [e]; decide)) _
  · exact h

theorem threads_stepT [Inhabited α] {cfg : Cfg} (hn : 0 < cfg.n) {s s' : St α} {t : Thread} (h : Threads cfg s)
    (hs : stepT cfg s t = some s') : Threads cfg s' ∧ cfg.isThread t := by
  have ht : cfg.isThread t := by
    apply h.valid
    intro e
    simp [stepT, e] at hs
  refine ⟨?_, ht⟩
  have key : ∀ s1 : St α, s1.pc = s.pc → s1.cur < cfg.n → ∀ p, Threads cfg (setPc s1 t p) := by
    intro s1 e1 e2 p
    exact threads_setPc ⟨fun u hu => h.valid u (by rw [← e1]; exact hu), e2⟩ ht p
  unfold stepT at hs
  cases hp : s.pc t <;> simp only [hp] at hs
  case idle => cases hs
  case asleep => cases hs
  case thrown => cases hs
  case notify =>
    injection hs with hs; subst hs
    exact threads_setPc (threads_wake h _) ht _
  case adv =>
    split at hs <;> (injection hs with hs; subst hs)
    · refine key _ ?_ ?_ _
      · rfl
      · exact Nat.mod_lt _ hn
    · exact key _ rfl h.cur _
  case copy k =>
    split at hs <;> (injection hs with hs; subst hs)
    · refine key _ ?_ ?_ _
      · unfold copySock; split <;> rfl
      · unfold copySock; split <;> exact h.cur
    · exact key _ rfl h.cur _
  case inc =>
    injection hs with hs; subst hs
    refine key _ ?_ ?_ _
    · unfold bump; split <;> rfl
    · unfold bump; split <;> exact h.cur
  all_goals
    repeat' split at hs
    all_goals first | (cases hs; done) | (injection hs with hs; subst hs; refine key _ ?_ ?_ _ <;> first | rfl | exact h.cur)

/-! ## Mutexes -/

/-- Holds its own mutex. -/
def own : Pc → Bool
  | .pred1 | .pred2 | .unlk => true
  | _ => false

/-- Holds the mutex of the other side. -/
def notif : Pc → Bool
  | .notify | .nunlock => true
  | _ => false

/-- `a` is inside the critical section of the mutex of `m`. -/
def Holds (cfg : Cfg) (s : St α) : Actor → Thread → Prop
  | .thr u, m => (u = m ∧ own (s.pc u) = true) ∨ (peer cfg s u = m ∧ notif (s.pc u) = true)
  | .canc k, m => ∃ j i, (s.canc k = .cnotify j i ∨ s.canc k = .cunlock j i) ∧ target cfg i = m

/-- The owner recorded in a mutex is who is inside its critical section. -/
def Mutex (cfg : Cfg) (s : St α) : Prop := ∀ m a, s.mtx m = some a ↔ Holds cfg s a m

theorem mutex_pc {cfg : Cfg} {s : St α} (h : Mutex cfg s) {t : Thread} {p : Pc} (ho : own (s.pc t) = own p)
    (hn : notif (s.pc t) = notif p) : Mutex cfg (setPc s t p) := by
  intro m a
  refine (h m a).trans ?_
  cases a with
  | thr u =>
    simp only [Holds, setPc]
    by_cases e : u = t
    · subst e; rw [upd_same, ho, hn]; rfl
    · rw [upd_ne e]; rfl
  | canc k => exact Iff.rfl

theorem mutex_wake {cfg : Cfg} {s : St α} (h : Mutex cfg s) (t : Thread) : Mutex cfg (wake s t) := by
  unfold wake
  split
  · next e => exact mutex_pc h (by rw [e]; rfl) (by rw [e]; rfl)
  · exact h

theorem mutex_acquire {cfg : Cfg} {s : St α} (h : Mutex cfg s) {t m0 : Thread} {p : Pc} (hfree : s.mtx m0 = none)
    (h1 : own (s.pc t) = false) (h2 : notif (s.pc t) = false)
    (hnew : ∀ m, ((t = m ∧ own p = true) ∨ (peer cfg s t = m ∧ notif p = true)) ↔ m = m0) :
    Mutex cfg (setPc { s with mtx := upd s.mtx m0 (some (.thr t)) } t p) := by
  intro m a
  simp only [setPc]
  have hno : ∀ a, ¬ Holds cfg s a m0 := fun a ha => by rw [(h m0 a).mpr ha] at hfree; cases hfree
  by_cases em : m = m0
  · subst em
    rw [upd_same]
    cases a with
    | thr u =>
      by_cases e : u = t
      · subst e
        simp only [Holds, upd_same, true_iff]
        exact (hnew m).mpr rfl
      · simp only [Holds, upd_ne e]
        constructor
        · intro hh; injection hh with hh; injection hh with hh; exact absurd hh.symm e
        · intro hh; exact absurd hh (hno (.thr u))
    | canc k =>
      constructor
      · intro hh; injection hh with hh; cases hh
      · intro hh; exact absurd hh (hno (.canc k))
  · rw [upd_ne em]
    refine (h m a).trans ?_
    cases a with
    | thr u =>
      by_cases e : u = t
      · subst e
        simp only [Holds, upd_same]
        rw [h1, h2]
        constructor
        · rintro (⟨_, hh⟩ | ⟨_, hh⟩) <;> cases hh
        · intro hh; exact absurd ((hnew m).mp hh) em
      · simp only [Holds, upd_ne e]; rfl
    | canc k => exact Iff.rfl

theorem mutex_release {cfg : Cfg} {s : St α} (h : Mutex cfg s) {t m0 : Thread} {p : Pc} (hheld : s.mtx m0 = some (.thr t))
    (h1 : own p = false) (h2 : notif p = false) (hold : ∀ m, Holds cfg s (.thr t) m → m = m0) :
    Mutex cfg (setPc { s with mtx := upd s.mtx m0 none } t p) := by
  intro m a
  simp only [setPc]
  by_cases em : m = m0
  · subst em
    rw [upd_same]
    constructor
    · intro hh; cases hh
    · intro hh
      cases a with
      | thr u =>
        by_cases e : u = t
        · subst e
          simp only [Holds, upd_same, h1, h2] at hh
          rcases hh with ⟨_, hh⟩ | ⟨_, hh⟩ <;> cases hh
        · simp only [Holds, upd_ne e] at hh
          have := (h m (.thr u)).mpr hh
          rw [hheld] at this
          injection this with this; injection this with this
          exact absurd this.symm e
      | canc k =>
        have := (h m (.canc k)).mpr hh
        rw [hheld] at this
        injection this with this; cases this
  · rw [upd_ne em]
    refine (h m a).trans ?_
    cases a with
    | thr u =>
      by_cases e : u = t
      · subst e
        constructor
        · intro hh; exact absurd (hold m hh) em
        · simp only [Holds, upd_same, h1, h2]
          rintro (⟨_, hh⟩ | ⟨_, hh⟩) <;> cases hh
      · simp only [Holds, upd_ne e]; rfl
    | canc k => exact Iff.rfl

theorem mutex_stepT [Inhabited α] {cfg : Cfg} {s s' : St α} {t : Thread} (hT : Threads cfg s) (h : Mutex cfg s)
    (hs : stepT cfg s t = some s') : Mutex cfg s' := by
  have ht : cfg.isThread t := by
    apply hT.valid
    intro e
    simp [stepT, e] at hs
  have key : ∀ s1 : St α, s1.pc = s.pc → s1.mtx = s.mtx → s1.cur = s.cur → s1.canc = s.canc → ∀ p, own (s.pc t) = own p →
      notif (s.pc t) = notif p → Mutex cfg (setPc s1 t p) := by
    intro s1 e1 e2 e3 e4 p h1 h2
    refine mutex_pc ?_ (by rw [e1]; exact h1) (by rw [e1]; exact h2)
    intro m a
    rw [e2]
    refine (h m a).trans ?_
    cases a with
    | thr u => simp only [Holds, peer, e1, e3]
    | canc k => simp only [Holds, e4]
  unfold stepT at hs
  cases hp : s.pc t <;> simp only [hp] at hs
  case idle => cases hs
  case asleep => cases hs
  case thrown => cases hs
  case lock =>
    split at hs
    · next e =>
      injection hs with hs; subst hs
      exact mutex_acquire h e (by rw [hp]; rfl) (by rw [hp]; rfl) fun m => by simp [own, notif, eq_comm]
    · cases hs
  case pred2 =>
    split at hs <;> (injection hs with hs; subst hs)
    · exact key _ rfl rfl rfl rfl _ (by rw [hp]; rfl) (by rw [hp]; rfl)
    · refine mutex_release h ((h t (.thr t)).mpr (Or.inl ⟨rfl, by rw [hp]; rfl⟩)) rfl rfl fun m hm => ?_
      rcases hm with ⟨e, _⟩ | ⟨_, hh⟩
      · exact e.symm
      · rw [hp] at hh; cases hh
  case unlk =>
    injection hs with hs; subst hs
    refine mutex_release h ((h t (.thr t)).mpr (Or.inl ⟨rfl, by rw [hp]; rfl⟩)) rfl rfl fun m hm => ?_
    rcases hm with ⟨e, _⟩ | ⟨_, hh⟩
    · exact e.symm
    · rw [hp] at hh; cases hh
  case nlock =>
    split at hs
    · next e =>
      injection hs with hs; subst hs
      exact mutex_acquire h e (by rw [hp]; rfl) (by rw [hp]; rfl) fun m => by simp [own, notif, eq_comm]
    · cases hs
  case notify =>
    injection hs with hs; subst hs
    have hne := peer_ne (cfg := cfg) (s := s) t
    have hpt : (wake s (peer cfg s t)).pc t = .notify := by
      unfold wake
      split
      · simp only [setPc]; rw [upd_ne hne.symm]; exact hp
      · exact hp
    exact mutex_pc (mutex_wake h _) (by rw [hpt]; rfl) (by rw [hpt]; rfl)
  case nunlock =>
    injection hs with hs; subst hs
    refine mutex_release h ((h _ (.thr t)).mpr (Or.inr ⟨rfl, by rw [hp]; rfl⟩)) rfl rfl fun m hm => ?_
    rcases hm with ⟨_, hh⟩ | ⟨e, _⟩
    · rw [hp] at hh; cases hh
    · exact e.symm
  case adv =>
    split at hs <;> (injection hs with hs; subst hs)
    · next hr =>
      refine mutex_pc (t := t) ?_ (by simp only; rw [hp]; rfl) (by simp only; rw [hp]; rfl)
      intro m a
      refine (h m a).trans ?_
      cases a with
      | thr u =>
        by_cases e : u = t
        · subst e; simp only [Holds, hp, own, notif]; simp
        · by_cases hu : u.1 = cfg.rov
          · by_cases hui : s.pc u = .idle
            · simp only [Holds, hui, own, notif]; simp
            · have := isThread_rov (hT.valid u hui) hu
              rw [isThread_rov ht hr] at e
              exact absurd this e
          · simp only [Holds, peer, if_neg hu]
      | canc k => exact Iff.rfl
    · exact key _ rfl rfl rfl rfl _ (by rw [hp]; rfl) (by rw [hp]; rfl)
  case copy k =>
    split at hs <;> (injection hs with hs; subst hs)
    · refine key _ ?_ ?_ ?_ ?_ _ (by rw [hp]; rfl) (by rw [hp]; rfl) <;> (unfold copySock; split <;> rfl)
    · exact key _ rfl rfl rfl rfl _ (by rw [hp]; rfl) (by rw [hp]; rfl)
  case inc =>
    injection hs with hs; subst hs
    refine key _ ?_ ?_ ?_ ?_ _ (by rw [hp]; rfl) (by rw [hp]; rfl) <;> (unfold bump; split <;> rfl)
  all_goals
    repeat' split at hs
    all_goals first | (cases hs; done) | (injection hs with hs; subst hs; refine key _ ?_ ?_ ?_ ?_ _ (by rw [hp]; rfl) (by rw [hp]; rfl) <;> rfl)

theorem target_idx {cfg : Cfg} {i k : Nat} (hi : i ≤ cfg.n) (hk : k ≤ cfg.n) (h : target cfg i = target cfg k) : i = k := by
  unfold target at h
  by_cases h1 : i < cfg.n <;> by_cases h2 : k < cfg.n
  · rw [if_pos h1, if_pos h2] at h; exact congrArg Prod.snd h
  · rw [if_pos h1, if_neg h2] at h; exact absurd (congrArg Prod.fst h) (other_ne _)
  · rw [if_neg h1, if_pos h2] at h; exact absurd (congrArg Prod.fst h).symm (other_ne _)
  · omega

theorem mutex_stepC {cfg : Cfg} {s s' : St α} {k : Nat} (h : Mutex cfg s) (hs : stepC cfg s k = some s') : Mutex cfg s' := by
  unfold stepC at hs
  cases hp : s.canc k with
  | off => simp only [hp] at hs; cases hs
  | clock j i =>
    simp only [hp] at hs
    split at hs
    · injection hs with hs; subst hs
      intro m a
      refine (h m a).trans ?_
      cases a with
      | thr u => exact Iff.rfl
      | canc k' =>
        by_cases e : k' = k
        · subst e; simp [Holds, upd_same, hp]
        · simp only [Holds, upd_ne e]
    split at hs
    · next hfree =>
      injection hs with hs; subst hs
      have hno : ∀ a, ¬ Holds cfg s a (target cfg i) := fun a ha => by rw [(h _ a).mpr ha] at hfree; cases hfree
      intro m a
      simp only
      by_cases em : m = target cfg i
      · subst em
        rw [upd_same]
        cases a with
        | thr u =>
          constructor
          · intro hh; injection hh with hh; cases hh
          · intro hh; exact absurd hh (hno (.thr u))
        | canc k' =>
          by_cases e : k' = k
          · subst e
            simp only [Holds, upd_same, true_iff]
            exact ⟨j, i, Or.inl rfl, rfl⟩
          · simp only [Holds, upd_ne e]
            constructor
            · intro hh; injection hh with hh; injection hh with hh; exact absurd hh.symm e
            · intro hh; exact absurd hh (hno (.canc k'))
      · rw [upd_ne em]
        refine (h m a).trans ?_
        cases a with
        | thr u => exact Iff.rfl
        | canc k' =>
          by_cases e : k' = k
          · subst e
            simp only [Holds, upd_same, hp]
            constructor
            · rintro ⟨_, _, hh | hh, _⟩ <;> cases hh
            · rintro ⟨j', i', hh | hh, e⟩
              · injection hh with h1 h2; subst h2; exact absurd e.symm em
              · cases hh
          · simp only [Holds, upd_ne e]
    · cases hs
  | cnotify j i =>
    simp only [hp] at hs
    injection hs with hs; subst hs
    have hw := mutex_wake h (target cfg i)
    have hc : (wake s (target cfg i)).canc = s.canc := by unfold wake; split <;> rfl
    intro m a
    refine (hw m a).trans ?_
    cases a with
    | thr u => exact Iff.rfl
    | canc k' =>
      by_cases e : k' = k
      · subst e
        simp only [Holds, upd_same, hc, hp]
        constructor
        · rintro ⟨j', i', hh | hh, e⟩
          · injection hh with h1 h2; subst h1 h2; exact ⟨_, _, Or.inr rfl, e⟩
          · cases hh
        · rintro ⟨j', i', hh | hh, e⟩
          · cases hh
          · injection hh with h1 h2; subst h1 h2; exact ⟨_, _, Or.inl rfl, e⟩
      · simp only [Holds, upd_ne e, hc]
  | cunlock j i =>
    simp only [hp] at hs
    injection hs with hs; subst hs
    have hheld := (h (target cfg i) (.canc k)).mpr ⟨j, i, Or.inr hp, rfl⟩
    intro m a
    simp only
    by_cases em : m = target cfg i
    · subst em
      rw [upd_same]
      constructor
      · intro hh; cases hh
      · intro hh
        cases a with
        | thr u =>
          have := (h _ (.thr u)).mpr hh
          rw [hheld] at this
          injection this with this; cases this
        | canc k' =>
          by_cases e : k' = k
          · subst e
            simp only [Holds, upd_same] at hh
            obtain ⟨_, _, hh | hh, _⟩ := hh <;> cases hh
          · simp only [Holds, upd_ne e] at hh
            have := (h _ (.canc k')).mpr hh
            rw [hheld] at this
            injection this with this; injection this with this
            exact absurd this.symm e
    · rw [upd_ne em]
      refine (h m a).trans ?_
      cases a with
      | thr u => exact Iff.rfl
      | canc k' =>
        by_cases e : k' = k
        · subst e
          simp only [Holds, upd_same, hp]
          constructor
          · rintro ⟨j', i', hh | hh, e⟩
            · cases hh
            · injection hh with h1 h2; subst h2; exact absurd e.symm em
          · rintro ⟨_, _, hh | hh, _⟩ <;> cases hh
        · simp only [Holds, upd_ne e]

/-! ## Counters and reservations -/

/-- The slot is reserved: the copy is under way. -/
def copying : Pc → Bool
  | .copy _ | .inc => true
  | _ => false

/-- The wait is over. -/
def waited : Pc → Bool
  | .unlk | .post => true
  | _ => false

structure Counts (cfg : Cfg) (s : St α) : Prop where
  lo : ∀ c, s.fst c ≤ s.lst c
  hi : ∀ c, s.lst c ≤ s.fst c + cfg.size
  res : ∀ t, copying (s.pc t) = true → blocked cfg s t.1 (chan cfg s t) = false
  wai : ∀ t, waited (s.pc t) = true → blocked cfg s t.1 (chan cfg s t) = false ∨ s.flag t.2 = true

theorem isFull_eq {cfg : Cfg} {s : St α} {c : Nat} : isFull cfg s c = decide (s.lst c = s.fst c + cfg.size) := by
  unfold isFull
  congr 1
  apply propext
  omega

theorem counts_congr {cfg : Cfg} {s s1 : St α} (h : Counts cfg s) (e1 : s1.pc = s.pc) (e2 : s1.fst = s.fst) (e3 : s1.lst = s.lst)
    (e4 : s1.cur = s.cur) (e5 : s1.flag = s.flag) : Counts cfg s1 := by
  have hb : ∀ d c, blocked cfg s1 d c = blocked cfg s d c := by
    intro d c; cases d <;> simp only [blocked, isFull, isEmpty, e2, e3]
  have hc : ∀ t, chan cfg s1 t = chan cfg s t := by intro t; simp only [chan, e4]
  constructor
  · intro c; rw [e2, e3]; exact h.lo c
  · intro c; rw [e2, e3]; exact h.hi c
  · intro t; rw [e1, hb, hc]; exact h.res t
  · intro t; rw [e1, hb, hc, e5]; exact h.wai t

theorem counts_pc {cfg : Cfg} {s : St α} (h : Counts cfg s) {t : Thread} {p : Pc}
    (hr : copying p = true → blocked cfg s t.1 (chan cfg s t) = false)
    (hw : waited p = true → blocked cfg s t.1 (chan cfg s t) = false ∨ s.flag t.2 = true) : Counts cfg (setPc s t p) := by
  refine ⟨h.lo, h.hi, fun u hu => ?_, fun u hu => ?_⟩
  · simp only [setPc] at hu
    by_cases e : u = t
    · subst e; rw [upd_same] at hu; exact hr hu
    · rw [upd_ne e] at hu; exact h.res u hu
  · simp only [setPc] at hu
    by_cases e : u = t
    · subst e; rw [upd_same] at hu; exact hw hu
    · rw [upd_ne e] at hu; exact h.wai u hu

theorem counts_wake {cfg : Cfg} {s : St α} (h : Counts cfg s) (t : Thread) : Counts cfg (wake s t) := by
  unfold wake
  split
  · exact counts_pc h (fun e => by cases e) (fun e => by cases e)
  · exact h

/-- The other threads' conditions do not get worse. -/
theorem bump_mono {cfg : Cfg} {s : St α} (h : Counts cfg s) {t u : Thread} (ht : cfg.isThread t) (hu : cfg.isThread u) (hne : u ≠ t)
    (hb : blocked cfg s u.1 (chan cfg s u) = false) : blocked cfg (bump cfg s t) u.1 (chan cfg s u) = false := by
  obtain ⟨d, i⟩ := t
  obtain ⟨d', i'⟩ := u
  have hl := h.lo (chan cfg s (d', i'))
  have hh := h.hi (chan cfg s (d', i'))
  by_cases hd : d = d'
  · subst hd
    have hc : chan cfg s (d, i') ≠ chan cfg s (d, i) := fun e => hne (chan_inj hu ht rfl e)
    cases d <;> simp only [blocked, isEmpty, isFull_eq, bump, decide_eq_false_iff_not, upd_ne hc] at hb ⊢ <;> exact hb
  · by_cases hc : chan cfg s (d', i') = chan cfg s (d, i)
    · rw [hc] at hb hl hh ⊢
      cases d <;> cases d' <;> first | exact absurd rfl hd | skip
      · refine decide_eq_false ?_
        simp only [bump, upd_same]
        omega
      · show isFull _ _ _ = _
        rw [isFull_eq]
        refine decide_eq_false ?_
        simp only [bump, upd_same]
        omega
    · cases d <;> cases d' <;> first | exact absurd rfl hd | skip
      all_goals
        simp only [blocked, isEmpty, isFull_eq, bump, decide_eq_false_iff_not, upd_ne hc] at hb ⊢
        exact hb

theorem bump_pc {cfg : Cfg} {s : St α} {t : Thread} : (bump cfg s t).pc = s.pc := by unfold bump; split <;> rfl
theorem bump_cur {cfg : Cfg} {s : St α} {t : Thread} : (bump cfg s t).cur = s.cur := by unfold bump; split <;> rfl
theorem bump_flag {cfg : Cfg} {s : St α} {t : Thread} : (bump cfg s t).flag = s.flag := by unfold bump; split <;> rfl
theorem bump_canc {cfg : Cfg} {s : St α} {t : Thread} : (bump cfg s t).canc = s.canc := by unfold bump; split <;> rfl
theorem bump_mtx {cfg : Cfg} {s : St α} {t : Thread} : (bump cfg s t).mtx = s.mtx := by unfold bump; split <;> rfl
theorem bump_loc {cfg : Cfg} {s : St α} {t : Thread} : (bump cfg s t).loc = s.loc := by unfold bump; split <;> rfl
theorem bump_buf {cfg : Cfg} {s : St α} {t : Thread} : (bump cfg s t).buf = s.buf := by unfold bump; split <;> rfl
theorem bump_chan {cfg : Cfg} {s : St α} {t u : Thread} : chan cfg (bump cfg s t) u = chan cfg s u := by unfold chan; rw [bump_cur]
theorem bump_peer {cfg : Cfg} {s : St α} {t u : Thread} : peer cfg (bump cfg s t) u = peer cfg s u := by unfold peer; rw [bump_cur]

theorem counts_bump {cfg : Cfg} {s : St α} (hT : Threads cfg s) (h : Counts cfg s) {t : Thread} (ht : cfg.isThread t)
    (hb : blocked cfg s t.1 (chan cfg s t) = false) : Counts cfg (setPc (bump cfg s t) t .test) := by
  have hlo := h.lo
  have hhi := h.hi
  have hmono : ∀ u, u ≠ t → s.pc u ≠ .idle → blocked cfg s u.1 (chan cfg s u) = false →
      blocked cfg (setPc (bump cfg s t) t .test) u.1 (chan cfg (setPc (bump cfg s t) t .test) u) = false := by
    intro u hu hi hbu
    have := bump_mono h ht (hT.valid u hi) hu hbu
    rw [← bump_chan (t := t)] at this
    exact this
  refine ⟨fun c => ?_, fun c => ?_, fun u hu => ?_, fun u hu => ?_⟩
  · obtain ⟨d, i⟩ := t
    cases d <;> simp only [setPc, bump]
    · by_cases e : c = chan cfg s (.push, i)
      · subst e; rw [upd_same]; have := hlo (chan cfg s (.push, i)); omega
      · rw [upd_ne e]; exact hlo c
    · by_cases e : c = chan cfg s (.pull, i)
      · subst e; rw [upd_same]
        have := hlo (chan cfg s (.pull, i))
        simp only [blocked, isEmpty, decide_eq_false_iff_not] at hb
        omega
      · rw [upd_ne e]; exact hlo c
  · obtain ⟨d, i⟩ := t
    cases d <;> simp only [setPc, bump]
    · by_cases e : c = chan cfg s (.push, i)
      · subst e; rw [upd_same]
        have := hhi (chan cfg s (.push, i))
        simp only [blocked, isFull_eq, decide_eq_false_iff_not] at hb
        omega
      · rw [upd_ne e]; exact hhi c
    · by_cases e : c = chan cfg s (.pull, i)
      · subst e; rw [upd_same]; have := hhi (chan cfg s (.pull, i)); omega
      · rw [upd_ne e]; exact hhi c
  · simp only [setPc] at hu
    by_cases e : u = t
    · subst e; rw [upd_same] at hu; cases hu
    · rw [upd_ne e, bump_pc] at hu
      exact hmono u e (fun hh => by rw [hh] at hu; cases hu) (h.res u hu)
  · simp only [setPc] at hu
    by_cases e : u = t
    · subst e; rw [upd_same] at hu; cases hu
    · rw [upd_ne e, bump_pc] at hu
      rcases h.wai u hu with hh | hh
      · exact Or.inl (hmono u e (fun hh => by rw [hh] at hu; cases hu) hh)
      · refine Or.inr ?_
        simp only [setPc]; rw [bump_flag]; exact hh

theorem counts_stepT [Inhabited α] {cfg : Cfg} {s s' : St α} {t : Thread} (hT : Threads cfg s) (h : Counts cfg s)
    (hs : stepT cfg s t = some s') : Counts cfg s' := by
  have ht : cfg.isThread t := by
    apply hT.valid
    intro e
    simp [stepT, e] at hs
  have no : ∀ {p : Pc} {P : Prop}, p = .idle → (copying p = true → P) := by
    intro p P e h; rw [e] at h; cases h
  unfold stepT at hs
  cases hp : s.pc t <;> simp only [hp] at hs
  case idle => cases hs
  case asleep => cases hs
  case thrown => cases hs
  case pre1 =>
    split at hs <;> (injection hs with hs; subst hs)
    · exact counts_pc h (fun e => by cases e) (fun e => by cases e)
    · next hb => exact counts_pc h (fun e => by cases e) (fun _ => Or.inl (by simpa using hb))
  case pre2 =>
    split at hs
    · next hb =>
      injection hs with hs; subst hs
      exact counts_pc h (fun e => by cases e) (fun _ => Or.inr hb)
    · split at hs <;> (injection hs with hs; subst hs) <;> exact counts_pc h (fun e => by cases e) (fun e => by cases e)
  case lock =>
    split at hs
    · injection hs with hs; subst hs
      refine counts_pc ?_ (fun e => by cases e) (fun e => by cases e)
      exact counts_congr h rfl rfl rfl rfl rfl
    · cases hs
  case pred1 =>
    split at hs <;> (injection hs with hs; subst hs)
    · exact counts_pc h (fun e => by cases e) (fun e => by cases e)
    · next hb => exact counts_pc h (fun e => by cases e) (fun _ => Or.inl (by simpa using hb))
  case pred2 =>
    split at hs <;> (injection hs with hs; subst hs)
    · next hb => exact counts_pc h (fun e => by cases e) (fun _ => Or.inr hb)
    · refine counts_pc ?_ (fun e => by cases e) (fun e => by cases e)
      exact counts_congr h rfl rfl rfl rfl rfl
  case unlk =>
    injection hs with hs; subst hs
    refine counts_pc ?_ (fun e => by cases e) (fun _ => h.wai t (by rw [hp]; rfl))
    exact counts_congr h rfl rfl rfl rfl rfl
  case post =>
    split at hs <;> (injection hs with hs; subst hs)
    · exact counts_pc h (fun e => by cases e) (fun e => by cases e)
    · next hb =>
      refine counts_pc h (fun _ => ?_) (fun e => by cases e)
      rcases h.wai t (by rw [hp]; rfl) with hh | hh
      · exact hh
      · exact absurd hh hb
  case copy k =>
    have hb := h.res t (by rw [hp]; rfl)
    split at hs <;> (injection hs with hs; subst hs)
    · have e : ∀ {d c}, blocked cfg (copySock cfg s t k) d c = blocked cfg s d c := by
        intro d c; unfold copySock; cases d <;> (split <;> rfl)
      have e' : chan cfg (copySock cfg s t k) t = chan cfg s t := by unfold copySock; split <;> rfl
      refine counts_pc (counts_congr h ?_ ?_ ?_ ?_ ?_) (fun _ => by rw [e, e']; exact hb) (fun e => by cases e) <;>
        (unfold copySock; split <;> rfl)
    · exact counts_pc h (fun _ => hb) (fun e => by cases e)
  case inc =>
    injection hs with hs; subst hs
    exact counts_bump hT h ht (h.res t (by rw [hp]; rfl))
  case test =>
    repeat' split at hs
    all_goals (injection hs with hs; subst hs; exact counts_pc h (fun e => by cases e) (fun e => by cases e))
  case nlock =>
    split at hs
    · injection hs with hs; subst hs
      refine counts_pc ?_ (fun e => by cases e) (fun e => by cases e)
      exact counts_congr h rfl rfl rfl rfl rfl
    · cases hs
  case notify =>
    injection hs with hs; subst hs
    exact counts_pc (counts_wake h _) (fun e => by cases e) (fun e => by cases e)
  case nunlock =>
    injection hs with hs; subst hs
    refine counts_pc ?_ (fun e => by cases e) (fun e => by cases e)
    exact counts_congr h rfl rfl rfl rfl rfl
  case adv =>
    split at hs <;> (injection hs with hs; subst hs)
    · next hr =>
      have hch : ∀ u, u ≠ t → s.pc u ≠ .idle → chan cfg { s with cur := (s.cur + 1) % cfg.n } u = chan cfg s u := by
        intro u hu hi
        unfold chan
        by_cases hur : u.1 = cfg.rov
        · rw [isThread_rov ht hr] at hu; exact absurd (isThread_rov (hT.valid u hi) hur) hu
        · rw [if_neg hur, if_neg hur]
      refine ⟨h.lo, h.hi, fun u hu => ?_, fun u hu => ?_⟩
      · simp only [setPc] at hu
        by_cases e : u = t
        · subst e; rw [upd_same] at hu; cases hu
        · rw [upd_ne e] at hu
          have hc := hch u e (fun hh => by rw [hh] at hu; cases hu)
          have := h.res u hu
          rw [← hc] at this
          exact this
      · simp only [setPc] at hu
        by_cases e : u = t
        · subst e; rw [upd_same] at hu; cases hu
        · rw [upd_ne e] at hu
          have hc := hch u e (fun hh => by rw [hh] at hu; cases hu)
          have := h.wai u hu
          rw [← hc] at this
          exact this
    · exact counts_pc h (fun e => by cases e) (fun e => by cases e)

/-! ## Wake-ups -/

/-- About to wake the other side up. -/
def willWake : Pc → Bool
  | .test | .nlock | .notify => true
  | _ => false

def sleepy : Pc → Bool
  | .pred2 | .asleep => true
  | _ => false

/-- Pcs of passive waiting only. -/
def passive : Pc → Bool
  | .lock | .pred1 | .pred2 | .asleep | .unlk | .nlock | .notify | .nunlock => true
  | _ => false

/-- The turn of `wake_up` at which a thread is notified. -/
def turn (cfg : Cfg) (t : Thread) : Nat := if t.1 = cfg.rov then cfg.n else t.2

/-- Turns of a `cancel_waiting` still to be made start here. -/
def pos : CPc → Option Nat
  | .off => none
  | .clock _ i | .cnotify _ i => some i
  | .cunlock _ i => some (i + 1)

structure Wakes (cfg : Cfg) (s : St α) : Prop where
  act : cfg.active = true → ∀ t, passive (s.pc t) = false
  wake : ∀ t, sleepy (s.pc t) = true → blocked cfg s t.1 (chan cfg s t) = true ∨
    (willWake (s.pc (peer cfg s t)) = true ∧ chan cfg s (peer cfg s t) = chan cfg s t)
  flag : ∀ t, s.pc t = .asleep → s.flag t.2 = false ∨ ∃ k i, pos (s.canc k) = some i ∧ i ≤ turn cfg t
  thrown : ∀ t, s.pc t = .thrown → s.flag t.2 = true

theorem wakes_congr {cfg : Cfg} {s s1 : St α} (h : Wakes cfg s) (e1 : s1.pc = s.pc) (e2 : s1.fst = s.fst) (e3 : s1.lst = s.lst)
    (e4 : s1.cur = s.cur) (e5 : s1.flag = s.flag) (e6 : s1.canc = s.canc) : Wakes cfg s1 := by
  have hb : ∀ d c, blocked cfg s1 d c = blocked cfg s d c := by
    intro d c; cases d <;> simp only [blocked, isFull, isEmpty, e2, e3]
  have hc : ∀ t, chan cfg s1 t = chan cfg s t := by intro t; simp only [chan, e4]
  have hp : ∀ t, peer cfg s1 t = peer cfg s t := by intro t; simp only [peer, e4]
  constructor
  · intro ha t; rw [e1]; exact h.act ha t
  · intro t; rw [e1, hb, hc, hp, hc]; exact h.wake t
  · intro t; rw [e1, e5, e6]; exact h.flag t
  · intro t; rw [e1, e5]; exact h.thrown t

/-- A thread moves and nothing else changes. -/
theorem wakes_pc {cfg : Cfg} {s : St α} (h : Wakes cfg s) {t : Thread} {p : Pc}
    (ha : cfg.active = true → passive p = false)
    (hw : sleepy p = true → blocked cfg s t.1 (chan cfg s t) = true ∨
      (willWake (s.pc (peer cfg s t)) = true ∧ chan cfg s (peer cfg s t) = chan cfg s t))
    (hww : willWake (s.pc t) = true → willWake p = true ∨ ∀ u, u ≠ t → sleepy (s.pc u) = true → peer cfg s u = t →
      chan cfg s t = chan cfg s u → blocked cfg s u.1 (chan cfg s u) = true)
    (hf : p = .asleep → s.flag t.2 = false)
    (ht : p = .thrown → s.flag t.2 = true) : Wakes cfg (setPc s t p) := by
  refine ⟨fun hh u => ?_, fun u hu => ?_, fun u hu => ?_, fun u hu => ?_⟩
  · simp only [setPc]
    by_cases e : u = t
    · subst e; rw [upd_same]; exact ha hh
    · rw [upd_ne e]; exact h.act hh u
  · simp only [setPc] at hu
    have hgoal : ∀ u, u ≠ t → sleepy (s.pc u) = true → blocked cfg s u.1 (chan cfg s u) = true ∨
        (willWake ((setPc s t p).pc (peer cfg s u)) = true ∧ chan cfg s (peer cfg s u) = chan cfg s u) := by
      intro u e hu
      rcases h.wake u hu with hh | ⟨h1, h2⟩
      · exact Or.inl hh
      · by_cases ep : peer cfg s u = t
        · rw [ep] at h1 h2 ⊢
          rcases hww h1 with h3 | h3
          · refine Or.inr ⟨?_, h2⟩
            simp only [setPc]; rw [upd_same]; exact h3
          · exact Or.inl (h3 u e hu ep h2)
        · refine Or.inr ⟨?_, h2⟩
          simp only [setPc]; rw [upd_ne ep]; exact h1
    by_cases e : u = t
    · subst e
      rw [upd_same] at hu
      rcases hw hu with hh | ⟨h1, h2⟩
      · exact Or.inl hh
      · refine Or.inr ⟨?_, h2⟩
        show willWake (upd s.pc u p (peer cfg s u)) = true
        rw [upd_ne (peer_ne u)]; exact h1
    · rw [upd_ne e] at hu
      exact hgoal u e hu
  · simp only [setPc] at hu
    by_cases e : u = t
    · subst e; rw [upd_same] at hu; exact Or.inl (hf hu)
    · rw [upd_ne e] at hu; exact h.flag u hu
  · simp only [setPc] at hu
    by_cases e : u = t
    · subst e; rw [upd_same] at hu; exact ht hu
    · rw [upd_ne e] at hu; exact h.thrown u hu

theorem wakes_wake {cfg : Cfg} {s : St α} (h : Wakes cfg s) (t : Thread) : Wakes cfg (wake s t) := by
  unfold wake
  split
  · next e =>
    refine wakes_pc h (fun ha => ?_) (fun e => by cases e) (fun hh => ?_) (fun e => by cases e) (fun e => by cases e)
    · have := h.act ha t; rw [e] at this; cases this
    · rw [e] at hh; cases hh
  · exact h

theorem wakes_stepT [Inhabited α] {cfg : Cfg} {s s' : St α} {t : Thread} (hT : Threads cfg s) (hM : Mutex cfg s) (hC : Counts cfg s)
    (h : Wakes cfg s) (hs : stepT cfg s t = some s') : Wakes cfg s' := by
  have ht : cfg.isThread t := by
    apply hT.valid
    intro e
    simp [stepT, e] at hs
  -- a move from a place that is not one of the waking places
  have easy : ∀ s1 : St α, s1.pc = s.pc → s1.fst = s.fst → s1.lst = s.lst → s1.cur = s.cur → s1.flag = s.flag → s1.canc = s.canc →
      ∀ p, willWake (s.pc t) = false → sleepy p = false → (passive (s.pc t) = false → passive p = true → cfg.active = false) →
      (p = .thrown → s.flag t.2 = true) → Wakes cfg (setPc s1 t p) := by
    intro s1 e1 e2 e3 e4 e5 e6 p hw hsl ha hth
    refine wakes_pc (wakes_congr h e1 e2 e3 e4 e5 e6) (fun hh => ?_) (fun e => by rw [hsl] at e; cases e) (fun hh => ?_)
      (fun e => by rw [e] at hsl; cases hsl) (fun e => by rw [e5]; exact hth e)
    · have h1 := h.act hh t
      by_contra hp
      rw [ha h1 (by simpa using hp)] at hh
      cases hh
    · rw [e1, hw] at hh; cases hh
  unfold stepT at hs
  cases hp : s.pc t <;> simp only [hp] at hs
  case idle => cases hs
  case asleep => cases hs
  case thrown => cases hs
  case pre1 =>
    split at hs <;> (injection hs with hs; subst hs)
    all_goals (refine easy _ ?_ ?_ ?_ ?_ ?_ ?_ _ (by rw [hp]; rfl) rfl (fun _ e => by cases e) (fun e => by cases e) <;> rfl)
  case pre2 =>
    split at hs
    · injection hs with hs; subst hs
      (refine easy _ ?_ ?_ ?_ ?_ ?_ ?_ _ (by rw [hp]; rfl) rfl (fun _ e => by cases e) (fun e => by cases e) <;> rfl)
    · split at hs <;> (injection hs with hs; subst hs)
      · (refine easy _ ?_ ?_ ?_ ?_ ?_ ?_ _ (by rw [hp]; rfl) rfl (fun _ e => by cases e) (fun e => by cases e) <;> rfl)
      · next ha => (refine easy _ ?_ ?_ ?_ ?_ ?_ ?_ _ (by rw [hp]; rfl) rfl (fun _ _ => by simpa using ha) (fun e => by cases e) <;> rfl)
  case lock =>
    split at hs
    · injection hs with hs; subst hs
      refine easy _ ?_ ?_ ?_ ?_ ?_ ?_ _ (by rw [hp]; rfl) rfl (fun e => by rw [hp] at e; cases e) (fun e => by cases e) <;> rfl
    · cases hs
  case pred1 =>
    split at hs <;> (injection hs with hs; subst hs)
    · next hb =>
      refine wakes_pc h (fun ha => ?_) (fun _ => Or.inl hb) (fun hh => ?_) (fun e => by cases e) (fun e => by cases e)
      · have := h.act ha t; rw [hp] at this; cases this
      · rw [hp] at hh; cases hh
    · (refine easy _ ?_ ?_ ?_ ?_ ?_ ?_ _ (by rw [hp]; rfl) rfl (fun e => by rw [hp] at e; cases e) (fun e => by cases e) <;> rfl)
  case pred2 =>
    split at hs <;> (injection hs with hs; subst hs)
    · (refine easy _ ?_ ?_ ?_ ?_ ?_ ?_ _ (by rw [hp]; rfl) rfl (fun e => by rw [hp] at e; cases e) (fun e => by cases e) <;> rfl)
    · next hfl =>
      refine wakes_pc ?_ (fun ha => ?_) (fun _ => h.wake t (by rw [hp]; rfl)) (fun hh => ?_)
        (fun _ => by simpa using hfl) (fun e => by cases e)
      · exact wakes_congr h rfl rfl rfl rfl rfl rfl
      · have := h.act ha t; rw [hp] at this; cases this
      · simp only at hh; rw [hp] at hh; cases hh
  case unlk =>
    injection hs with hs; subst hs
    refine easy _ ?_ ?_ ?_ ?_ ?_ ?_ _ (by rw [hp]; rfl) rfl (fun e => by rw [hp] at e; cases e) (fun e => by cases e) <;> rfl
  case post =>
    split at hs <;> (injection hs with hs; subst hs)
    · next hb => (refine easy _ ?_ ?_ ?_ ?_ ?_ ?_ _ (by rw [hp]; rfl) rfl (fun _ e => by cases e) (fun _ => hb) <;> rfl)
    · (refine easy _ ?_ ?_ ?_ ?_ ?_ ?_ _ (by rw [hp]; rfl) rfl (fun _ e => by cases e) (fun e => by cases e) <;> rfl)
  case copy k =>
    split at hs <;> (injection hs with hs; subst hs)
    · refine easy _ ?_ ?_ ?_ ?_ ?_ ?_ _ (by rw [hp]; rfl) rfl (fun _ e => by cases e) (fun e => by cases e) <;>
        (unfold copySock; split <;> rfl)
    · (refine easy _ ?_ ?_ ?_ ?_ ?_ ?_ _ (by rw [hp]; rfl) rfl (fun _ e => by cases e) (fun e => by cases e) <;> rfl)
  case inc =>
    injection hs with hs; subst hs
    have hpc : ∀ u, (setPc (bump cfg s t) t .test).pc u = if u = t then .test else s.pc u := by
      intro u
      simp only [setPc, upd, bump_pc]
    refine ⟨fun ha u => ?_, fun u hu => ?_, fun u hu => ?_, fun u hu => ?_⟩
    · rw [hpc]; split
      · rfl
      · exact h.act ha u
    · rw [hpc] at hu
      split at hu
      · cases hu
      next hne =>
      have hui : s.pc u ≠ .idle := fun e => by rw [e] at hu; cases hu
      have hvu := hT.valid u hui
      have epeer : ∀ v, peer cfg (setPc (bump cfg s t) t .test) v = peer cfg s v := fun v => bump_peer
      have echan : ∀ v, chan cfg (setPc (bump cfg s t) t .test) v = chan cfg s v := fun v => bump_chan
      rw [epeer, echan, echan, hpc]
      by_cases ep : peer cfg s u = t ∧ chan cfg s t = chan cfg s u
      · refine Or.inr ⟨?_, by rw [ep.1]; exact ep.2⟩
        rw [if_pos ep.1]; rfl
      · have hch : u.1 = t.1 ∨ chan cfg s u ≠ chan cfg s t := by
          by_contra hcon
          simp only [not_or, not_not] at hcon
          exact ep ⟨peer_of_chan hvu ht hcon.1 hcon.2, hcon.2.symm⟩
        have hch2 : chan cfg s u ≠ chan cfg s t := by
          rcases hch with h1 | h1
          · exact fun e => hne (chan_inj hvu ht h1 e)
          · exact h1
        have hb : blocked cfg (setPc (bump cfg s t) t .test) u.1 (chan cfg s u) = blocked cfg s u.1 (chan cfg s u) := by
          obtain ⟨d, i⟩ := t
          obtain ⟨d', i'⟩ := u
          cases d <;> cases d' <;> simp only [blocked, isEmpty, isFull, setPc, bump, upd_ne hch2]
        rw [hb]
        rcases h.wake u hu with h1 | ⟨h1, h2⟩
        · exact Or.inl h1
        · refine Or.inr ⟨?_, h2⟩
          rw [if_neg]
          · exact h1
          · intro e; exact ep ⟨e, by rw [← h2, e]⟩
    · rw [hpc] at hu
      split at hu
      · cases hu
      · simp only [setPc]; rw [bump_flag, bump_canc]; exact h.flag u hu
    · rw [hpc] at hu
      split at hu
      · cases hu
      · simp only [setPc]; rw [bump_flag]; exact h.thrown u hu
  case test =>
    split at hs
    · next ha =>
      injection hs with hs; subst hs
      refine wakes_pc h (fun _ => rfl) (fun e => by cases e) (fun _ => Or.inr fun u _ hu _ _ => ?_) (fun e => by cases e) (fun e => by cases e)
      have := h.act ha u
      revert hu this
      cases s.pc u <;> simp [sleepy, passive]
    split at hs <;> (injection hs with hs; subst hs)
    · next hb =>
      refine wakes_pc h (fun _ => rfl) (fun e => by cases e) (fun _ => Or.inr fun u hne hu hpe hch => ?_) (fun e => by cases e) (fun e => by cases e)
      have h1 := peer_side (cfg := cfg) (s := s) u
      rw [hpe] at h1
      rw [h1, other_other, hch] at hb
      exact hb
    · next ha _ => exact wakes_pc h (fun hh => absurd hh ha) (fun e => by cases e) (fun _ => Or.inl rfl) (fun e => by cases e) (fun e => by cases e)
  case nlock =>
    split at hs
    · injection hs with hs; subst hs
      refine wakes_pc ?_ (fun ha => ?_) (fun e => by cases e) (fun _ => Or.inl rfl) (fun e => by cases e) (fun e => by cases e)
      · exact wakes_congr h rfl rfl rfl rfl rfl rfl
      have := h.act ha t; rw [hp] at this; cases this
    · cases hs
  case notify =>
    injection hs with hs; subst hs
    refine wakes_pc (wakes_wake h _) (fun ha => ?_) (fun e => by cases e) (fun _ => Or.inr fun u hne hu hpe hch => ?_) (fun e => by cases e) (fun e => by cases e)
    · have := h.act ha t; rw [hp] at this; cases this
    · exfalso
      have ewp : ∀ v, peer cfg (wake s (peer cfg s t)) v = peer cfg s v := by intro v; unfold wake; split <;> rfl
      have ewc : ∀ v, chan cfg (wake s (peer cfg s t)) v = chan cfg s v := by intro v; unfold wake; split <;> rfl
      rw [ewp] at hpe
      rw [ewc, ewc] at hch
      have hus : sleepy (s.pc u) = true := by
        revert hu
        unfold wake
        split
        · simp only [setPc]
          by_cases e : u = peer cfg s t
          · rw [← e, upd_same]; intro hh; cases hh
          · rw [upd_ne e]; exact id
        · exact id
      have hui : s.pc u ≠ .idle := fun e => by rw [e] at hus; cases hus
      have hpt : peer cfg s t = u := by
        refine peer_of_chan ht (hT.valid u hui) ?_ hch
        have h1 := peer_side (cfg := cfg) (s := s) u
        rw [hpe] at h1
        rw [h1]; exact other_ne _
      rw [hpt] at hu
      by_cases has : s.pc u = .asleep
      · unfold wake at hu
        rw [if_pos has] at hu
        simp only [setPc, upd_same] at hu
        cases hu
      · have hp2 : s.pc u = .pred2 := by
          revert hus has
          cases s.pc u <;> simp [sleepy]
        have m1 := (hM u (.thr u)).mpr (Or.inl ⟨rfl, by rw [hp2]; rfl⟩)
        have m2 := (hM u (.thr t)).mpr (Or.inr ⟨hpt, by rw [hp]; rfl⟩)
        rw [m1] at m2
        injection m2 with m2; injection m2 with m2
        exact hne m2
  case nunlock =>
    injection hs with hs; subst hs
    refine easy _ ?_ ?_ ?_ ?_ ?_ ?_ _ (by rw [hp]; rfl) rfl (fun e => by rw [hp] at e; cases e) (fun e => by cases e) <;> rfl
  case adv =>
    split at hs <;> (injection hs with hs; subst hs)
    · next hr =>
      have hrov : ∀ u, s.pc u ≠ .idle → u.1 = cfg.rov → u = t := by
        intro u hi hur
        rw [isThread_rov ht hr, isThread_rov (hT.valid u hi) hur]
      have hpc : ∀ u, (setPc { s with cur := (s.cur + 1) % cfg.n } t .idle).pc u = if u = t then .idle else s.pc u := fun u => rfl
      refine ⟨fun ha u => ?_, fun u hu => ?_, fun u hu => ?_, fun u hu => ?_⟩
      · rw [hpc]; split
        · rfl
        · exact h.act ha u
      · rw [hpc] at hu
        split at hu
        · cases hu
        next hne =>
        have hui : s.pc u ≠ .idle := fun e => by rw [e] at hu; cases hu
        have hur : u.1 ≠ cfg.rov := fun e => hne (hrov u hui e)
        have hpu : ∀ s1 : St α, peer cfg s1 u = t := by
          intro s1
          unfold peer; rw [if_neg hur, isThread_rov ht hr]
        have hcu : ∀ s1 : St α, chan cfg s1 u = u.2 := by intro s1; unfold chan; rw [if_neg hur]
        rcases h.wake u hu with h1 | ⟨h1, _⟩
        · refine Or.inl ?_
          rw [hcu] at h1 ⊢
          exact h1
        · rw [hpu, hp] at h1; cases h1
      · rw [hpc] at hu
        split at hu
        · cases hu
        · exact h.flag u hu
      · rw [hpc] at hu
        split at hu
        · cases hu
        · exact h.thrown u hu
    · (refine easy _ ?_ ?_ ?_ ?_ ?_ ?_ _ (by rw [hp]; rfl) rfl (fun _ e => by cases e) (fun e => by cases e) <;> rfl)

theorem target_turn {cfg : Cfg} {t : Thread} (h : cfg.isThread t) : target cfg (turn cfg t) = t := by
  unfold target turn
  by_cases hr : t.1 = cfg.rov
  · rw [if_pos hr, if_neg (Nat.lt_irrefl _)]; exact (isThread_rov h hr).symm
  · rw [if_neg hr, if_pos (isThread_fix h hr)]
    exact Prod.ext (eq_other hr).symm rfl

theorem turn_le {cfg : Cfg} {t : Thread} (h : cfg.isThread t) : turn cfg t ≤ cfg.n := by
  unfold turn
  by_cases hr : t.1 = cfg.rov
  · rw [if_pos hr]
  · rw [if_neg hr]; exact Nat.le_of_lt (isThread_fix h hr)

theorem wakes_stepC {cfg : Cfg} {s s' : St α} {k : Nat} (hT : Threads cfg s) (h : Wakes cfg s) (hs : stepC cfg s k = some s') :
    Wakes cfg s' := by
  unfold stepC at hs
  cases hp : s.canc k with
  | off => simp only [hp] at hs; cases hs
  | clock j i =>
    simp only [hp] at hs
    split at hs
    · next hi =>
      injection hs with hs; subst hs
      refine ⟨h.act, h.wake, fun u hu => ?_, h.thrown⟩
      rcases h.flag u hu with h1 | ⟨k', i', h1, h2⟩
      · exact Or.inl h1
      · refine Or.inr ⟨k', i', ?_, h2⟩
        by_cases e : k' = k
        · subst e
          rw [hp] at h1
          simp only [pos, Option.some.injEq] at h1
          have := turn_le (hT.valid u (by rw [hu]; decide))
          omega
        · simp only [upd_ne e]; exact h1
    split at hs
    · injection hs with hs; subst hs
      refine ⟨h.act, h.wake, fun u hu => ?_, h.thrown⟩
      rcases h.flag u hu with h1 | ⟨k', i', h1, h2⟩
      · exact Or.inl h1
      · refine Or.inr ⟨k', i', ?_, h2⟩
        by_cases e : k' = k
        · subst e
          rw [hp] at h1
          simp only [upd_same]; exact h1
        · simp only [upd_ne e]; exact h1
    · cases hs
  | cnotify j i =>
    simp only [hp] at hs
    injection hs with hs; subst hs
    have hw := wakes_wake h (target cfg i)
    refine ⟨hw.act, hw.wake, fun u hu => ?_, hw.thrown⟩
    simp only at hu
    have hc : (wake s (target cfg i)).canc = s.canc := by unfold wake; split <;> rfl
    have hut : u ≠ target cfg i := by
      intro e
      rw [e] at hu
      unfold wake at hu
      split at hu
      · simp only [setPc, upd_same] at hu; cases hu
      · next h1 => exact h1 hu
    have hui : s.pc u ≠ .idle := by
      intro e
      have : (wake s (target cfg i)).pc u = s.pc u := by
        unfold wake; split
        · simp only [setPc]; rw [upd_ne hut]
        · rfl
      rw [this, e] at hu; cases hu
    rcases hw.flag u hu with h1 | ⟨k', i', h1, h2⟩
    · exact Or.inl h1
    · simp only [hc] at h1 ⊢
      by_cases e : k' = k
      · subst e
        rw [hp] at h1
        simp only [pos, Option.some.injEq] at h1
        refine Or.inr ⟨k', i + 1, by rw [upd_same]; rfl, ?_⟩
        have : i ≠ turn cfg u := fun e => hut (by rw [e, target_turn (hT.valid u hui)])
        omega
      · exact Or.inr ⟨k', i', by rw [upd_ne e]; exact h1, h2⟩
  | cunlock j i =>
    simp only [hp] at hs
    injection hs with hs; subst hs
    refine ⟨h.act, h.wake, fun u hu => ?_, h.thrown⟩
    rcases h.flag u hu with h1 | ⟨k', i', h1, h2⟩
    · exact Or.inl h1
    · refine Or.inr ⟨k', i', ?_, h2⟩
      by_cases e : k' = k
      · subst e
        rw [hp] at h1
        simp only [upd_same]; exact h1
      · simp only [upd_ne e]; exact h1

/-! ## Data -/

/-- Inside a task, before the copy. -/
def early : Pc → Bool
  | .pre1 | .pre2 | .lock | .pred1 | .pred2 | .asleep | .unlk | .post => true
  | _ => false

/-- Number of sockets copied so far. -/
def done (cfg : Cfg) : Pc → Option Nat
  | .copy m => some m
  | .inc => some cfg.socks
  | _ => none

/-- The frame at the head of a channel. -/
def head (s : St α) (c : Nat) : List α := (s.log .push c).getD (s.fst c) []

structure Data [Inhabited α] (cfg : Cfg) (s : St α) : Prop where
  lst : ∀ c, s.lst c = (s.log .push c).length
  fst : ∀ c, s.log .pull c = (s.log .push c).take (s.fst c)
  wid : ∀ c, ∀ f ∈ s.log .push c, f.length = cfg.socks
  buf : ∀ c j k, s.fst c ≤ j → j < s.lst c → k < cfg.socks →
    ((s.log .push c).getD j []).getD k default = s.buf c k (j % cfg.size)
  cop : ∀ t m, s.pc t = .copy m → m ≤ cfg.socks
  psh : ∀ t, t.1 = .push → (early (s.pc t) = true ∨ copying (s.pc t) = true) → (s.loc t).length = cfg.socks
  pshd : ∀ t m, t.1 = .push → done cfg (s.pc t) = some m → ∀ k < m, k < cfg.socks →
    s.buf (chan cfg s t) k (s.lst (chan cfg s t) % cfg.size) = (s.loc t).getD k default
  pul : ∀ t, t.1 = .pull → early (s.pc t) = true → s.loc t = []
  puld : ∀ t m, t.1 = .pull → done cfg (s.pc t) = some m → s.loc t = (head s (chan cfg s t)).take m

/-- A thread moves and nothing relevant changes. -/
theorem data_pc [Inhabited α] {cfg : Cfg} {s s1 : St α} (h : Data cfg s) {t : Thread} {p : Pc} (e1 : s1.pc = s.pc)
    (e2 : s1.fst = s.fst) (e3 : s1.lst = s.lst) (e4 : s1.cur = s.cur ∨ (t.1 = cfg.rov ∧ ∀ u, s.pc u ≠ .idle → u.1 = cfg.rov → u = t))
    (e5 : s1.buf = s.buf) (e6 : s1.loc = s.loc) (e7 : s1.log = s.log)
    (hp : (early p = true → early (s.pc t) = true) ∧ (∀ m, p = .copy m → m = 0 ∧ early (s.pc t) = true) ∧ p ≠ .inc) :
    Data cfg (setPc s1 t p) := by
  obtain ⟨hp1, hp2, hp3⟩ := hp
  have hpc : ∀ u, (setPc s1 t p).pc u = if u = t then p else s.pc u := by intro u; simp only [setPc, upd, e1]
  have hch : ∀ u, u ≠ t → s.pc u ≠ .idle → chan cfg (setPc s1 t p) u = chan cfg s u := by
    intro u hu hi
    show chan cfg s1 u = chan cfg s u
    unfold chan
    rcases e4 with e4 | ⟨_, e4⟩
    · rw [e4]
    · rw [if_neg (fun e => hu (e4 u hi e)), if_neg (fun e => hu (e4 u hi e))]
  have hdone : ∀ m, done cfg p = some m → m = 0 ∧ early (s.pc t) = true := by
    intro m hm
    cases p <;> simp only [done, reduceCtorEq] at hm
    · injection hm with hm; subst hm; exact hp2 _ rfl
    · exact absurd rfl hp3
  have hnid : ∀ u m, done cfg (s.pc u) = some m → s.pc u ≠ .idle := by
    intro u m hm e; rw [e] at hm; cases hm
  constructor
  · intro c; show s1.lst c = _; simp only [setPc]; rw [e3, e7]; exact h.lst c
  · intro c; simp only [setPc]; rw [e2, e7]; exact h.fst c
  · intro c; simp only [setPc]; rw [e7]; exact h.wid c
  · intro c j k; simp only [setPc]; rw [e2, e3, e5, e7]; exact h.buf c j k
  · intro u m hu
    rw [hpc] at hu
    split at hu
    · rw [(hp2 m hu).1]; exact Nat.zero_le _
    · exact h.cop u m hu
  · intro u hu hh
    rw [hpc] at hh
    simp only [setPc]; rw [e6]
    split at hh
    · next e =>
      subst e
      refine h.psh u hu (Or.inl ?_)
      rcases hh with hh | hh
      · exact hp1 hh
      · cases p <;> simp only [copying, Bool.false_eq_true] at hh
        · exact (hp2 _ rfl).2
        · exact absurd rfl hp3
    · exact h.psh u hu hh
  · intro u m hu hm k hk hk'
    rw [hpc] at hm
    split at hm
    · rw [(hdone m hm).1] at hk; omega
    · next hne =>
      rw [hch u hne (hnid u m hm)]
      simp only [setPc]; rw [e5, e3, e6]
      exact h.pshd u m hu hm k hk hk'
  · intro u hu hh
    rw [hpc] at hh
    simp only [setPc]; rw [e6]
    split at hh
    · next e => subst e; exact h.pul u hu (hp1 hh)
    · exact h.pul u hu hh
  · intro u m hu hm
    rw [hpc] at hm
    split at hm
    · next e =>
      subst e
      obtain ⟨h0, h1⟩ := hdone m hm
      simp only [setPc]; rw [e6, h.pul u hu h1, h0, List.take_zero]
    · next hne =>
      rw [hch u hne (hnid u m hm)]
      simp only [setPc, head]; rw [e6, e7, e2]
      exact h.puld u m hu hm

theorem data_wake [Inhabited α] {cfg : Cfg} {s : St α} (h : Data cfg s) (t : Thread) : Data cfg (wake s t) := by
  unfold wake
  split
  · next e =>
    exact data_pc h rfl rfl rfl (Or.inl rfl) rfl rfl rfl ⟨fun _ => by rw [e]; rfl, (fun m e => by cases e), (fun e => by cases e)⟩
  · exact h

theorem mod_ne {a b n : Nat} (h1 : a < b) (h2 : b < a + n) : a % n ≠ b % n := by
  intro h
  have hb : b = a + (b - a) := by omega
  have hlt : b - a < n := by omega
  have h3 : (a + (b - a)) % n = (a + 0) % n := by rw [← hb, Nat.add_zero]; exact h.symm
  have h4 := Nat.ModEq.add_left_cancel' a (show a + (b - a) ≡ a + 0 [MOD n] from h3)
  unfold Nat.ModEq at h4
  rw [Nat.mod_eq_of_lt hlt, Nat.zero_mod] at h4
  omega

theorem getD_take_succ {β : Type _} (l : List β) (m : Nat) (d : β) (h : m < l.length) : l.take m ++ [l.getD m d] = l.take (m + 1) := by
  rw [List.take_succ_eq_append_getElem h]
  simp [List.getD, List.getElem?_eq_getElem h]

theorem data_copy [Inhabited α] {cfg : Cfg} {s : St α} (hT : Threads cfg s) (hC : Counts cfg s)
    (h : Data cfg s) {t : Thread} {m : Nat} (hp : s.pc t = .copy m) (hm : m < cfg.socks) :
    Data cfg (setPc (copySock cfg s t m) t (.copy (m + 1))) := by
  have hi : s.pc t ≠ .idle := by rw [hp]; exact fun e => by cases e
  have ht := hT.valid t hi
  have hb := hC.res t (by rw [hp]; rfl)
  have hlo := hC.lo (chan cfg s t)
  have hhi := hC.hi (chan cfg s t)
  have hpc : ∀ u, (setPc (copySock cfg s t m) t (.copy (m + 1))).pc u = if u = t then .copy (m + 1) else s.pc u := by
    intro u
    have e : (copySock cfg s t m).pc = s.pc := by unfold copySock; split <;> rfl
    simp only [setPc, upd, e]
  obtain ⟨d, i⟩ := t
  cases d
  · -- push
    have hbuf : ∀ c k p, (copySock cfg s (.push, i) m).buf c k p =
        if c = chan cfg s (.push, i) ∧ k = m ∧ p = s.lst c % cfg.size then (s.loc (.push, i)).getD m default else s.buf c k p := by
      intro c k p
      show upd s.buf (chan cfg s (.push, i)) _ c k p = _
      by_cases h1 : c = chan cfg s (.push, i)
      · subst h1
        rw [upd_same]
        by_cases h2 : k = m
        · subst h2
          rw [upd_same]
          by_cases h3 : p = s.lst (chan cfg s (.push, i)) % cfg.size
          · subst h3; rw [upd_same, if_pos ⟨rfl, rfl, rfl⟩]
          · rw [upd_ne h3, if_neg (fun hh => h3 hh.2.2)]
        · rw [upd_ne h2, if_neg (fun hh => h2 hh.2.1)]
      · rw [upd_ne h1, if_neg (fun hh => h1 hh.1)]
    have hloc : (copySock cfg s (.push, i) m).loc = s.loc := rfl
    have hb : ¬ s.lst (chan cfg s (.push, i)) = s.fst (chan cfg s (.push, i)) + cfg.size := by
      simpa only [blocked, isFull_eq, decide_eq_false_iff_not] using hb
    constructor
    · exact h.lst
    · exact h.fst
    · exact h.wid
    · intro c j k h1 h2 h3
      show _ = (copySock cfg s (.push, i) m).buf c k (j % cfg.size)
      rw [hbuf, if_neg]
      · exact h.buf c j k h1 h2 h3
      · rintro ⟨rfl, _, e⟩
        have h1 : s.fst (chan cfg s (.push, i)) ≤ j := h1
        have h2 : j < s.lst (chan cfg s (.push, i)) := h2
        exact mod_ne (a := j) h2 (by omega) e
    · intro u m' hu
      rw [hpc] at hu
      split at hu
      · injection hu with hu; omega
      · exact h.cop u m' hu
    · intro u hu hh
      rw [hpc] at hh
      split at hh
      · next e => subst e; exact h.psh _ hu (Or.inr (by rw [hp]; rfl))
      · exact h.psh u hu hh
    · intro u m' hu hm' k hk hk'
      rw [hpc] at hm'
      show (copySock cfg s (.push, i) m).buf (chan cfg s u) k (s.lst (chan cfg s u) % cfg.size) = (s.loc u).getD k default
      rw [hbuf]
      split at hm'
      · next e =>
        subst e
        simp only [done] at hm'; injection hm' with hm'
        by_cases e : k = m
        · subst e; rw [if_pos ⟨rfl, rfl, rfl⟩]
        · rw [if_neg (fun hh => e hh.2.1)]
          exact h.pshd _ m hu (by rw [hp]; rfl) k (by omega) hk'
      · next hne =>
        have hui : s.pc u ≠ .idle := fun e => by rw [e] at hm'; cases hm'
        rw [if_neg (fun hh => hne (chan_inj (hT.valid u hui) ht hu hh.1))]
        exact h.pshd u m' hu hm' k hk hk'
    · intro u hu hh
      rw [hpc] at hh
      split at hh
      · next e => subst e; cases hu
      · exact h.pul u hu hh
    · intro u m' hu hm'
      rw [hpc] at hm'
      split at hm'
      · next e => subst e; cases hu
      · exact h.puld u m' hu hm'
  · -- pull
    simp only [blocked, isEmpty, decide_eq_false_iff_not] at hb
    have hloc : ∀ u, (copySock cfg s (.pull, i) m).loc u = if u = (.pull, i) then
        s.loc (.pull, i) ++ [s.buf (chan cfg s (.pull, i)) m (s.fst (chan cfg s (.pull, i)) % cfg.size)] else s.loc u := by
      intro u; simp only [copySock, upd]
    constructor
    · exact h.lst
    · exact h.fst
    · exact h.wid
    · exact h.buf
    · intro u m' hu
      rw [hpc] at hu
      split at hu
      · injection hu with hu; omega
      · exact h.cop u m' hu
    · intro u hu hh
      rw [hpc] at hh
      show ((copySock cfg s (.pull, i) m).loc u).length = _
      split at hh
      · next e => subst e; cases hu
      · next hne => rw [hloc, if_neg hne]; exact h.psh u hu hh
    · intro u m' hu hm' k hk hk'
      rw [hpc] at hm'
      show s.buf (chan cfg s u) k (s.lst (chan cfg s u) % cfg.size) = ((copySock cfg s (.pull, i) m).loc u).getD k default
      split at hm'
      · next e => subst e; cases hu
      · next hne => rw [hloc, if_neg hne]; exact h.pshd u m' hu hm' k hk hk'
    · intro u hu hh
      rw [hpc] at hh
      show (copySock cfg s (.pull, i) m).loc u = _
      split at hh
      · cases hh
      · next hne => rw [hloc, if_neg hne]; exact h.pul u hu hh
    · intro u m' hu hm'
      rw [hpc] at hm'
      show (copySock cfg s (.pull, i) m).loc u = (head s (chan cfg s u)).take m'
      rw [hloc]
      split at hm'
      · next e =>
        subst e
        simp only [done] at hm'; injection hm' with hm'
        have hlt : s.fst (chan cfg s (.pull, i)) < s.lst (chan cfg s (.pull, i)) := by omega
        rw [if_pos rfl, h.puld _ m hu (by rw [hp]; rfl), ← h.buf _ _ m (Nat.le_refl _) hlt hm, ← hm']
        refine getD_take_succ (head s (chan cfg s (.pull, i))) m default ?_
        have hlt' : s.fst (chan cfg s (.pull, i)) < (s.log .push (chan cfg s (.pull, i))).length := by rw [← h.lst]; exact hlt
        have : head s (chan cfg s (.pull, i)) ∈ s.log .push (chan cfg s (.pull, i)) := by
          unfold head
          simp only [List.getD, List.getElem?_eq_getElem hlt', Option.getD_some]
          exact List.getElem_mem hlt'
        rw [h.wid _ _ this]; exact hm
      · next hne => rw [if_neg hne]; exact h.puld u m' hu hm'

theorem getD_append_left {β : Type _} (l l' : List β) (j : Nat) (d : β) (h : j < l.length) : (l ++ l').getD j d = l.getD j d := by
  simp only [List.getD, List.getElem?_append_left h]

theorem data_bump [Inhabited α] {cfg : Cfg} {s : St α} (hT : Threads cfg s) (hC : Counts cfg s)
    (h : Data cfg s) {t : Thread} (hp : s.pc t = .inc) : Data cfg (setPc (bump cfg s t) t .test) := by
  have hi : s.pc t ≠ .idle := by rw [hp]; decide
  have ht := hT.valid t hi
  have hb := hC.res t (by rw [hp]; rfl)
  have hlo := hC.lo (chan cfg s t)
  have hhi := hC.hi (chan cfg s t)
  have hpc : ∀ u, (setPc (bump cfg s t) t .test).pc u = if u = t then .test else s.pc u := by
    intro u; simp only [setPc, upd, bump_pc]
  have hch : ∀ u, chan cfg (setPc (bump cfg s t) t .test) u = chan cfg s u := fun u => bump_chan
  have hbf : (setPc (bump cfg s t) t .test).buf = s.buf := bump_buf
  have hlc : (setPc (bump cfg s t) t .test).loc = s.loc := bump_loc
  obtain ⟨d, i⟩ := t
  cases d
  · -- push
    generalize hs' : setPc (bump cfg s (.push, i)) (.push, i) .test = s' at *
    generalize hc0 : chan cfg s (.push, i) = c0 at *
    have efst : s'.fst = s.fst := by rw [← hs']; rfl
    have elst : s'.lst = upd s.lst c0 (s.lst c0 + 1) := by rw [← hs', ← hc0]; rfl
    have elogp : ∀ c, s'.log .push c = if c = c0 then s.log .push c ++ [s.loc (.push, i)] else s.log .push c := by
      intro c
      rw [← hs', ← hc0]
      simp only [setPc, bump, upd, if_true]
      by_cases e : c = chan cfg s (.push, i) <;> simp [e]
    have elogq : s'.log .pull = s.log .pull := by rw [← hs']; simp only [setPc, bump, upd]; rfl
    have hll : (s.loc (.push, i)).length = cfg.socks := h.psh _ rfl (Or.inr (by rw [hp]; rfl))
    simp only [blocked, isFull_eq, decide_eq_false_iff_not] at hb
    constructor
    · intro c
      rw [elst, elogp]
      by_cases e : c = c0
      · subst e; rw [upd_same, if_pos rfl, List.length_append, ← h.lst]; rfl
      · rw [upd_ne e, if_neg e]; exact h.lst c
    · intro c
      rw [elogq, elogp, efst]
      by_cases e : c = c0
      · subst e
        rw [if_pos rfl, List.take_append_of_le_length (by rw [← h.lst]; exact hlo)]; exact h.fst c
      · rw [if_neg e]; exact h.fst c
    · intro c f hf
      rw [elogp] at hf
      by_cases e : c = c0
      · rw [if_pos e] at hf
        rcases List.mem_append.mp hf with hf | hf
        · exact h.wid c f hf
        · rw [List.mem_singleton] at hf; rw [hf]; exact hll
      · rw [if_neg e] at hf; exact h.wid c f hf
    · intro c j k h1 h2 h3
      rw [elogp, hbf]
      rw [efst] at h1
      rw [elst] at h2
      by_cases e : c = c0
      · subst e
        rw [upd_same] at h2
        rw [if_pos rfl]
        by_cases ej : j = s.lst c
        · subst ej
          have : (s.log .push c ++ [s.loc (.push, i)]).getD (s.lst c) [] = s.loc (.push, i) := by
            rw [h.lst]; simp [List.getD]
          rw [this]
          have := h.pshd (.push, i) cfg.socks rfl (by rw [hp]; rfl) k h3 h3
          rw [hc0] at this
          exact this.symm
        · rw [getD_append_left _ _ _ _ (by rw [← h.lst]; omega)]
          exact h.buf c j k h1 (by omega) h3
      · rw [upd_ne e] at h2
        rw [if_neg e]
        exact h.buf c j k h1 h2 h3
    · intro u m hu
      rw [hpc] at hu
      split at hu
      · cases hu
      · exact h.cop u m hu
    · intro u hu hh
      rw [hpc] at hh
      rw [hlc]
      split at hh
      · rcases hh with hh | hh <;> cases hh
      · exact h.psh u hu hh
    · intro u m hu hm k hk hk'
      rw [hpc] at hm
      rw [hlc, hch, hbf, elst]
      split at hm
      · cases hm
      · next hne =>
        have hui : s.pc u ≠ .idle := fun e => by rw [e] at hm; cases hm
        rw [upd_ne (fun e => hne (chan_inj (hT.valid u hui) ht hu (e.trans hc0.symm)))]
        exact h.pshd u m hu hm k hk hk'
    · intro u hu hh
      rw [hpc] at hh
      rw [hlc]
      split at hh
      · cases hh
      · exact h.pul u hu hh
    · intro u m hu hm
      rw [hpc] at hm
      rw [hlc, hch]
      split at hm
      · cases hm
      · rw [h.puld u m hu hm]
        unfold head
        rw [elogp, efst]
        by_cases e : chan cfg s u = c0
        · rw [if_pos e]
          have hcu : copying (s.pc u) = true := by
            revert hm; cases s.pc u <;> simp [done, copying]
          have hbu := hC.res u hcu
          have hl := hC.lo (chan cfg s u)
          rw [hu] at hbu
          simp only [blocked, isEmpty, decide_eq_false_iff_not] at hbu
          rw [getD_append_left _ _ _ _ (by rw [← h.lst]; omega)]
        · rw [if_neg e]
  · -- pull
    generalize hs' : setPc (bump cfg s (.pull, i)) (.pull, i) .test = s' at *
    generalize hc0 : chan cfg s (.pull, i) = c0 at *
    have efst : s'.fst = upd s.fst c0 (s.fst c0 + 1) := by rw [← hs', ← hc0]; rfl
    have elst : s'.lst = s.lst := by rw [← hs']; rfl
    have elogq : ∀ c, s'.log .pull c = if c = c0 then s.log .pull c ++ [s.loc (.pull, i)] else s.log .pull c := by
      intro c
      rw [← hs', ← hc0]
      simp only [setPc, bump, upd, if_true]
      by_cases e : c = chan cfg s (.pull, i) <;> simp [e]
    have elogp : s'.log .push = s.log .push := by rw [← hs']; simp only [setPc, bump, upd]; rfl
    simp only [blocked, isEmpty, decide_eq_false_iff_not] at hb
    have hlt : s.fst c0 < (s.log .push c0).length := by rw [← h.lst]; omega
    have hll : s.loc (.pull, i) = head s c0 := by
      have := h.puld (.pull, i) cfg.socks rfl (by rw [hp]; rfl)
      rw [hc0] at this
      rw [this]
      refine List.take_of_length_le ?_
      have hm : head s c0 ∈ s.log .push c0 := by
        unfold head
        simp only [List.getD, List.getElem?_eq_getElem hlt, Option.getD_some]
        exact List.getElem_mem hlt
      rw [h.wid _ _ hm]
    constructor
    · intro c; rw [elst, elogp]; exact h.lst c
    · intro c
      rw [elogq, elogp, efst]
      by_cases e : c = c0
      · subst e
        rw [if_pos rfl, upd_same, h.fst, hll]
        exact getD_take_succ _ _ _ hlt
      · rw [if_neg e, upd_ne e]; exact h.fst c
    · intro c; rw [elogp]; exact h.wid c
    · intro c j k h1 h2 h3
      rw [elogp, hbf]
      rw [elst] at h2
      rw [efst] at h1
      refine h.buf c j k ?_ h2 h3
      by_cases e : c = c0
      · subst e; rw [upd_same] at h1; omega
      · rw [upd_ne e] at h1; exact h1
    · intro u m hu
      rw [hpc] at hu
      split at hu
      · cases hu
      · exact h.cop u m hu
    · intro u hu hh
      rw [hpc] at hh
      rw [hlc]
      split at hh
      · rcases hh with hh | hh <;> cases hh
      · exact h.psh u hu hh
    · intro u m hu hm k hk hk'
      rw [hpc] at hm
      rw [hlc, hch, hbf, elst]
      split at hm
      · cases hm
      · exact h.pshd u m hu hm k hk hk'
    · intro u hu hh
      rw [hpc] at hh
      rw [hlc]
      split at hh
      · cases hh
      · exact h.pul u hu hh
    · intro u m hu hm
      rw [hpc] at hm
      rw [hlc, hch]
      split at hm
      · cases hm
      · next hne =>
        have hui : s.pc u ≠ .idle := fun e => by rw [e] at hm; cases hm
        rw [h.puld u m hu hm]
        unfold head
        rw [elogp, efst, upd_ne (fun e => hne (chan_inj (hT.valid u hui) ht hu (e.trans hc0.symm)))]

theorem data_inc [Inhabited α] {cfg : Cfg} {s : St α} (h : Data cfg s) {t : Thread} {m : Nat} (hp : s.pc t = .copy m)
    (hm : ¬ m < cfg.socks) : Data cfg (setPc s t .inc) := by
  have hme : m = cfg.socks := by have := h.cop t m hp; omega
  have hpc : ∀ u, (setPc s t .inc).pc u = if u = t then .inc else s.pc u := fun u => rfl
  have hd : ∀ u m', done cfg ((setPc s t .inc).pc u) = some m' → done cfg (s.pc u) = some m' := by
    intro u m' hh
    rw [hpc] at hh
    split at hh
    · next e => subst e; rw [hp, hme]; exact hh
    · exact hh
  have hc : ∀ u, copying ((setPc s t .inc).pc u) = true → copying (s.pc u) = true := by
    intro u hh
    rw [hpc] at hh
    split at hh
    · next e => subst e; rw [hp]; rfl
    · exact hh
  have he : ∀ u, early ((setPc s t .inc).pc u) = true → early (s.pc u) = true := by
    intro u hh
    rw [hpc] at hh
    split at hh
    · cases hh
    · exact hh
  refine ⟨h.lst, h.fst, h.wid, h.buf, fun u m' hu => ?_, fun u hu hh => ?_, fun u m' hu hh => ?_, fun u hu hh => ?_, fun u m' hu hh => ?_⟩
  · rw [hpc] at hu
    split at hu
    · cases hu
    · exact h.cop u m' hu
  · exact h.psh u hu (hh.imp (he u) (hc u))
  · exact h.pshd u m' hu (hd u m' hh)
  · exact h.pul u hu (he u hh)
  · exact h.puld u m' hu (hd u m' hh)

theorem data_stepT [Inhabited α] {cfg : Cfg} {s s' : St α} {t : Thread} (hT : Threads cfg s) (hC : Counts cfg s)
    (h : Data cfg s) (hs : stepT cfg s t = some s') : Data cfg s' := by
  have ht : cfg.isThread t := by
    apply hT.valid
    intro e
    simp [stepT, e] at hs
  unfold stepT at hs
  cases hp : s.pc t <;> simp only [hp] at hs
  case idle => cases hs
  case asleep => cases hs
  case thrown => cases hs
  case copy m =>
    split at hs <;> (injection hs with hs; subst hs)
    · next hm => exact data_copy hT hC h hp hm
    · next hm => exact data_inc h hp hm
  case inc =>
    injection hs with hs; subst hs
    exact data_bump hT hC h hp
  case notify =>
    injection hs with hs; subst hs
    have hpt : (wake s (peer cfg s t)).pc t = .notify := by
      unfold wake
      split
      · simp only [setPc]; rw [upd_ne (peer_ne t).symm]; exact hp
      · exact hp
    refine data_pc (data_wake h (peer cfg s t)) ?_ ?_ ?_ (Or.inl ?_) ?_ ?_ ?_ ⟨(fun e => by cases e), (fun m e => by cases e), (fun e => by cases e)⟩ <;> rfl
  case adv =>
    split at hs <;> (injection hs with hs; subst hs)
    · next hr =>
      refine data_pc h ?_ ?_ ?_ (Or.inr ⟨hr, fun u hi hur => ?_⟩) ?_ ?_ ?_ ⟨(fun e => by cases e), (fun m e => by cases e), (fun e => by cases e)⟩
      on_goal 4 => rw [isThread_rov ht hr, isThread_rov (hT.valid u hi) hur]
      all_goals rfl
    · refine data_pc h ?_ ?_ ?_ (Or.inl ?_) ?_ ?_ ?_ ⟨(fun e => by cases e), (fun m e => by cases e), (fun e => by cases e)⟩ <;> rfl
  case post =>
    split at hs <;> (injection hs with hs; subst hs)
    · refine data_pc h ?_ ?_ ?_ (Or.inl ?_) ?_ ?_ ?_ ⟨(fun e => by cases e), (fun m e => by cases e), (fun e => by cases e)⟩ <;> rfl
    · refine data_pc h ?_ ?_ ?_ (Or.inl ?_) ?_ ?_ ?_ ⟨(fun e => by cases e), (fun m e => ⟨by injection e with e; exact e.symm, by rw [hp]; rfl⟩), (fun e => by cases e)⟩ <;> rfl
  all_goals
    repeat' split at hs
    all_goals first
      | (cases hs; done)
      | (injection hs with hs; subst hs
         refine data_pc h ?_ ?_ ?_ (Or.inl ?_) ?_ ?_ ?_ ⟨(fun _ => by first | (rw [hp]; rfl) | contradiction), (fun m e => by cases e), (fun e => by cases e)⟩ <;> rfl)

/-! ## Order -/

/-- After the increment, before the channel is left. -/
def late : Pc → Bool
  | .test | .nlock | .notify | .nunlock | .adv => true
  | _ => false

/-- What the thread visiting all channels did, in order, is what was done on the channels in turn. -/
structure Order (cfg : Cfg) (s : St α) : Prop where
  fix : ∀ t, cfg.isThread t → t.1 ≠ cfg.rov → s.hist t = s.log t.1 t.2
  len1 : ∀ c, c < (s.hist (cfg.rov, 0)).length % cfg.n → (s.log cfg.rov c).length = (s.hist (cfg.rov, 0)).length / cfg.n + 1
  len2 : ∀ c, c < cfg.n → (s.hist (cfg.rov, 0)).length % cfg.n ≤ c → (s.log cfg.rov c).length = (s.hist (cfg.rov, 0)).length / cfg.n
  rov : ∀ k, k < (s.hist (cfg.rov, 0)).length → (s.hist (cfg.rov, 0))[k]? = (s.log cfg.rov (k % cfg.n))[k / cfg.n]?
  cur1 : late (s.pc (cfg.rov, 0)) = true → (s.hist (cfg.rov, 0)).length % cfg.n = (s.cur + 1) % cfg.n
  cur2 : late (s.pc (cfg.rov, 0)) = false → (s.hist (cfg.rov, 0)).length % cfg.n = s.cur

theorem order_pc {cfg : Cfg} {s s1 : St α} (h : Order cfg s) {t : Thread} {p : Pc} (e1 : s1.pc = s.pc) (e2 : s1.cur = s.cur)
    (e3 : s1.hist = s.hist) (e4 : s1.log = s.log) (hp : late p = late (s.pc t)) : Order cfg (setPc s1 t p) := by
  have hl : late ((setPc s1 t p).pc (cfg.rov, 0)) = late (s.pc (cfg.rov, 0)) := by
    simp only [setPc]; rw [e1]
    by_cases e : (cfg.rov, 0) = t
    · rw [← e, upd_same, hp, ← e]
    · rw [upd_ne e]
  refine ⟨?_, ?_, ?_, ?_, ?_, ?_⟩
  · simp only [setPc]; rw [e3, e4]; exact h.fix
  · simp only [setPc]; rw [e3, e4]; exact h.len1
  · simp only [setPc]; rw [e3, e4]; exact h.len2
  · simp only [setPc]; rw [e3, e4]; exact h.rov
  · rw [hl]; simp only [setPc]; rw [e3, e2]; exact h.cur1
  · rw [hl]; simp only [setPc]; rw [e3, e2]; exact h.cur2

theorem succ_div_mod {L n : Nat} (hn : 0 < n) :
    (L % n + 1 < n ∧ (L + 1) / n = L / n ∧ (L + 1) % n = L % n + 1) ∨ (L % n + 1 = n ∧ (L + 1) / n = L / n + 1 ∧ (L + 1) % n = 0) := by
  have h1 := Nat.div_add_mod L n
  have h2 := Nat.mod_lt L hn
  by_cases h : L % n + 1 < n
  · left
    have e : L + 1 = (L % n + 1) + n * (L / n) := by omega
    refine ⟨h, ?_, ?_⟩
    · rw [e, Nat.add_mul_div_left _ _ hn, Nat.div_eq_of_lt h]; omega
    · rw [e, Nat.add_mul_mod_self_left, Nat.mod_eq_of_lt h]
  · right
    have e : L + 1 = n * (L / n + 1) := by rw [Nat.mul_add, Nat.mul_one]; omega
    refine ⟨by omega, ?_, ?_⟩
    · rw [e, Nat.mul_div_cancel_left _ hn]
    · rw [e, Nat.mul_mod_right]

theorem order_bump {cfg : Cfg} (hn : 0 < cfg.n) {s : St α} (hT : Threads cfg s) (h : Order cfg s) {t : Thread}
    (hp : s.pc t = .inc) : Order cfg (setPc (bump cfg s t) t .test) := by
  have ht := hT.valid t (by rw [hp]; decide)
  have hhist : (setPc (bump cfg s t) t .test).hist = upd s.hist t (s.hist t ++ [s.loc t]) := by
    simp only [setPc]; unfold bump; split <;> rfl
  have hlog : ∀ d c, (setPc (bump cfg s t) t .test).log d c =
      if d = t.1 ∧ c = chan cfg s t then s.log d c ++ [s.loc t] else s.log d c := by
    intro d c
    have : (setPc (bump cfg s t) t .test).log = upd s.log t.1 (upd (s.log t.1) (chan cfg s t) (s.log t.1 (chan cfg s t) ++ [s.loc t])) := by
      simp only [setPc]; unfold bump; split <;> rfl
    rw [this]
    unfold upd
    by_cases e : d = t.1
    · subst e
      by_cases e : c = chan cfg s t
      · subst e; simp
      · simp [e]
    · simp [e]
  have hpc : ∀ u, (setPc (bump cfg s t) t .test).pc u = if u = t then .test else s.pc u := by
    intro u; simp only [setPc, upd, bump_pc]
  have hcur : (setPc (bump cfg s t) t .test).cur = s.cur := bump_cur
  generalize hs' : setPc (bump cfg s t) t .test = s' at *
  by_cases hr : t.1 = cfg.rov
  · have het := isThread_rov ht hr
    subst het
    have hc0 : chan cfg s (cfg.rov, 0) = s.cur := by unfold chan; rw [if_pos rfl]
    rw [hc0] at hlog
    have hcc := h.cur2 (by rw [hp]; rfl)
    have hL1 := h.len1
    have hL2 := h.len2
    have hR := h.rov
    have hH : s'.hist (cfg.rov, 0) = s.hist (cfg.rov, 0) ++ [s.loc (cfg.rov, 0)] := by rw [hhist, upd_same]
    have hHl : (s'.hist (cfg.rov, 0)).length = (s.hist (cfg.rov, 0)).length + 1 := by rw [hH, List.length_append]; rfl
    generalize hLe : (s.hist (cfg.rov, 0)).length = L at *
    have hsd := succ_div_mod (L := L) hn
    have hml := Nat.mod_lt L hn
    refine ⟨fun u hu hur => ?_, fun c hc => ?_, fun c hc hc' => ?_, fun k hk => ?_, fun _ => ?_, fun hh => ?_⟩
    · rw [hhist, upd_ne (fun e => hur (by rw [e])), hlog, if_neg (fun e => hur e.1)]
      exact h.fix u hu hur
    · rw [hHl] at hc ⊢
      rw [hlog]
      rcases hsd with ⟨a1, a2, a3⟩ | ⟨a1, a2, a3⟩
      · rw [a2]
        by_cases e : c = s.cur
        · rw [if_pos ⟨rfl, e⟩, List.length_append, hL2 c (by omega) (by omega), List.length_singleton]
        · rw [if_neg (fun hh => e hh.2), hL1 c (by omega)]
      · omega
    · rw [hHl] at hc' ⊢
      rw [hlog]
      rcases hsd with ⟨a1, a2, a3⟩ | ⟨a1, a2, a3⟩
      · rw [a2, if_neg (fun hh => by omega)]
        exact hL2 c hc (by omega)
      · rw [a2]
        by_cases e : c = s.cur
        · rw [if_pos ⟨rfl, e⟩, List.length_append, hL2 c (by omega) (by omega), List.length_singleton]
        · rw [if_neg (fun hh => e hh.2), hL1 c (by omega)]
    · rw [hHl] at hk
      rw [hH, hlog]
      by_cases e : k = L
      · subst e
        have hlk := hL2 (k % cfg.n) hml (Nat.le_refl _)
        rw [List.getElem?_append_right (by omega), hLe, Nat.sub_self, if_pos ⟨rfl, hcc⟩, List.getElem?_append_right (by omega),
          hlk, Nat.sub_self]
      · have hk' : k < (s.hist (cfg.rov, 0)).length := by omega
        rw [List.getElem?_append_left hk', hR k (by omega)]
        split
        · have hkl : k / cfg.n < (s.log cfg.rov (k % cfg.n)).length := by
            by_contra hcon
            have := hR k (by omega)
            rw [List.getElem?_eq_none (l := s.log cfg.rov (k % cfg.n)) (by omega), List.getElem?_eq_none_iff] at this
            omega
          rw [List.getElem?_append_left hkl]
        · rfl
    · rw [hHl, hcur, ← hcc, Nat.mod_add_mod]
    · rw [hpc, if_pos rfl] at hh; cases hh
  · have hne : (cfg.rov, 0) ≠ t := fun e => hr (by rw [← e])
    have hH : s'.hist (cfg.rov, 0) = s.hist (cfg.rov, 0) := by rw [hhist, upd_ne hne]
    have hlr : ∀ c, s'.log cfg.rov c = s.log cfg.rov c := fun c => by rw [hlog, if_neg (fun e => hr e.1.symm)]
    refine ⟨fun u hu hur => ?_, fun c hc => ?_, fun c hc hc' => ?_, fun k hk => ?_, fun hh => ?_, fun hh => ?_⟩
    · rw [hhist, hlog]
      by_cases e : u = t
      · subst e
        rw [upd_same, if_pos ⟨rfl, by unfold chan; rw [if_neg hr]⟩, h.fix u hu hur]
      · rw [upd_ne e, if_neg]
        · exact h.fix u hu hur
        · rintro ⟨e1, e2⟩
          unfold chan at e2
          rw [if_neg hr] at e2
          exact e (Prod.ext e1 e2)
    · rw [hH] at hc; rw [hlr, hH]; exact h.len1 c hc
    · rw [hH] at hc'; rw [hlr, hH]; exact h.len2 c hc hc'
    · rw [hlr, hH]; rw [hH] at hk; exact h.rov k hk
    · rw [hpc, if_neg hne] at hh; rw [hH, hcur]; exact h.cur1 hh
    · rw [hpc, if_neg hne] at hh; rw [hH, hcur]; exact h.cur2 hh

theorem order_wake {cfg : Cfg} {s : St α} (h : Order cfg s) (t : Thread) : Order cfg (wake s t) := by
  unfold wake
  split
  · next e => exact order_pc h rfl rfl rfl rfl (by rw [e]; rfl)
  · exact h

theorem order_stepT [Inhabited α] {cfg : Cfg} (hn : 0 < cfg.n) {s s' : St α} {t : Thread} (hT : Threads cfg s)
    (h : Order cfg s) (hs : stepT cfg s t = some s') : Order cfg s' := by
  have ht : cfg.isThread t := by
    apply hT.valid
    intro e
    simp [stepT, e] at hs
  unfold stepT at hs
  cases hp : s.pc t <;> simp only [hp] at hs
  case idle => cases hs
  case asleep => cases hs
  case thrown => cases hs
  case copy m =>
    split at hs <;> (injection hs with hs; subst hs)
    · refine order_pc h ?_ ?_ ?_ ?_ (by rw [hp]; rfl) <;> (unfold copySock; split <;> rfl)
    · exact order_pc h rfl rfl rfl rfl (by rw [hp]; rfl)
  case inc =>
    injection hs with hs; subst hs
    exact order_bump hn hT h hp
  case notify =>
    injection hs with hs; subst hs
    have hpt : (wake s (peer cfg s t)).pc t = .notify := by
      unfold wake
      split
      · simp only [setPc]; rw [upd_ne (peer_ne t).symm]; exact hp
      · exact hp
    refine order_pc (order_wake h (peer cfg s t)) ?_ ?_ ?_ ?_ (by rw [hpt]; rfl) <;> rfl
  case adv =>
    split at hs <;> (injection hs with hs; subst hs)
    · next hr =>
      have het := isThread_rov ht hr
      subst het
      refine ⟨h.fix, h.len1, h.len2, h.rov, fun hh => ?_, fun _ => ?_⟩
      · simp only [setPc, upd_same] at hh; cases hh
      · exact h.cur1 (by rw [hp]; rfl)
    · next hr =>
      have hne : (cfg.rov, 0) ≠ t := fun e => hr (by rw [← e])
      refine ⟨h.fix, h.len1, h.len2, h.rov, fun hh => ?_, fun hh => ?_⟩
      · simp only [setPc] at hh
        rw [upd_ne hne] at hh
        exact h.cur1 hh
      · simp only [setPc] at hh
        rw [upd_ne hne] at hh
        exact h.cur2 hh
  all_goals
    repeat' split at hs
    all_goals first
      | (cases hs; done)
      | (injection hs with hs; subst hs; refine order_pc h ?_ ?_ ?_ ?_ (by rw [hp]; rfl) <;> rfl)

/-! ## The invariant -/

structure Inv [Inhabited α] (cfg : Cfg) (s : St α) : Prop where
  threads : Threads cfg s
  mutex : Mutex cfg s
  counts : Counts cfg s
  wakes : Wakes cfg s
  data : Data cfg s
  order : Order cfg s

theorem inv_init [Inhabited α] {cfg : Cfg} (hn : 0 < cfg.n) : Inv (α := α) cfg (init default) := by
  refine ⟨⟨fun t h => absurd rfl h, hn⟩, fun m a => ?_, ⟨fun _ => Nat.le_refl _, fun _ => Nat.zero_le _, fun _ h => ?_, fun _ h => ?_⟩,
    ⟨fun _ _ => rfl, fun _ h => ?_, fun _ h => ?_, fun _ h => ?_⟩, ?_, ?_⟩
  · constructor
    · intro h; cases h
    · intro h
      cases a with
      | thr u => rcases h with ⟨_, h⟩ | ⟨_, h⟩ <;> cases h
      | canc k => obtain ⟨_, _, h | h, _⟩ := h <;> cases h
  · cases h
  · cases h
  · cases h
  · cases h
  · cases h
  · refine ⟨fun _ => rfl, fun _ => rfl, fun _ f hf => ?_, fun c j k _ h => absurd h (Nat.not_lt_zero _), fun _ _ h => ?_,
      fun _ _ h => ?_, fun _ _ _ h => ?_, fun _ _ h => ?_, fun _ _ _ h => ?_⟩
    · cases hf
    · cases h
    · rcases h with h | h <;> cases h
    · cases h
    · cases h
    · cases h
  · refine ⟨fun _ _ _ => rfl, fun c hc => ?_, fun c _ _ => ?_, fun k hk => absurd hk (Nat.not_lt_zero _), fun hh => ?_, fun _ => ?_⟩
    · simp [init] at hc
    · simp [init]
    · cases hh
    · simp [init]

theorem inv_step [Inhabited α] {cfg : Cfg} (hn : 0 < cfg.n) {s s' : St α} (h : Inv cfg s) {a : Act α} (hs : step cfg s a = some s') :
    Inv cfg s' := by
  cases a with
  | run t =>
    have hs : stepT cfg s t = some s' := hs
    exact ⟨(threads_stepT hn h.threads hs).1, mutex_stepT h.threads h.mutex hs, counts_stepT h.threads h.counts hs,
      wakes_stepT h.threads h.mutex h.counts h.wakes hs, data_stepT h.threads h.counts h.data hs, order_stepT hn h.threads h.order hs⟩
  | crun k =>
    have hs : stepC cfg s k = some s' := hs
    refine ⟨?_, mutex_stepC h.mutex hs, ?_, wakes_stepC h.threads h.wakes hs, ?_, ?_⟩
    all_goals
      unfold stepC at hs
      repeat' split at hs
      all_goals first
        | (cases hs; done)
        | (injection hs with hs; subst hs)
    all_goals first
      | exact ⟨h.threads.valid, h.threads.cur⟩
      | exact ⟨(threads_wake h.threads _).valid, (threads_wake h.threads _).cur⟩
      | exact counts_congr h.counts rfl rfl rfl rfl rfl
      | exact counts_congr (counts_wake h.counts _) rfl rfl rfl rfl rfl
      | exact ⟨h.data.lst, h.data.fst, h.data.wid, h.data.buf, h.data.cop, h.data.psh, h.data.pshd, h.data.pul, h.data.puld⟩
      | exact ⟨(data_wake h.data _).lst, (data_wake h.data _).fst, (data_wake h.data _).wid, (data_wake h.data _).buf, (data_wake h.data _).cop,
          (data_wake h.data _).psh, (data_wake h.data _).pshd, (data_wake h.data _).pul, (data_wake h.data _).puld⟩
      | exact ⟨h.order.fix, h.order.len1, h.order.len2, h.order.rov, h.order.cur1, h.order.cur2⟩
      | exact ⟨(order_wake h.order _).fix, (order_wake h.order _).len1, (order_wake h.order _).len2, (order_wake h.order _).rov, (order_wake h.order _).cur1, (order_wake h.order _).cur2⟩
  | spurious t =>
    simp only [step] at hs
    split at hs
    · next e =>
      injection hs with hs
      have : s' = wake s t := by unfold wake; rw [if_pos e]; exact hs.symm
      rw [this]
      exact ⟨threads_wake h.threads t, mutex_wake h.mutex t, counts_wake h.counts t, wakes_wake h.wakes t, data_wake h.data t, order_wake h.order t⟩
    · cases hs
  | cancel k j =>
    simp only [step] at hs
    split at hs
    · next e =>
      injection hs with hs; subst hs
      refine ⟨⟨h.threads.valid, h.threads.cur⟩, ?_, ?_, ?_, ⟨h.data.lst, h.data.fst, h.data.wid, h.data.buf, h.data.cop, h.data.psh, h.data.pshd, h.data.pul, h.data.puld⟩,
        ⟨h.order.fix, h.order.len1, h.order.len2, h.order.rov, h.order.cur1, h.order.cur2⟩⟩
      · intro m a
        refine (h.mutex m a).trans ?_
        cases a with
        | thr u => exact Iff.rfl
        | canc k' =>
          by_cases ek : k' = k
          · subst ek
            simp only [Holds, upd_same, e]
            constructor
            · rintro ⟨_, _, hh | hh, _⟩ <;> cases hh
            · rintro ⟨_, _, hh | hh, _⟩ <;> (split at hh <;> cases hh)
          · simp only [Holds, upd_ne ek]
      · refine ⟨h.counts.lo, h.counts.hi, h.counts.res, fun t ht => ?_⟩
        rcases h.counts.wai t ht with h1 | h1
        · exact Or.inl h1
        · refine Or.inr ?_
          simp only [upd]; split
          · rfl
          · exact h1
      · refine ⟨h.wakes.act, h.wakes.wake, fun t ht => ?_, fun t ht => ?_⟩
        · have hact : cfg.active = false := by
            by_contra hh
            have := h.wakes.act (by simpa using hh) t
            simp only at ht
            rw [ht] at this; cases this
          simp only [hact, Bool.false_eq_true, if_false]
          by_cases ej : t.2 = j
          · exact Or.inr ⟨k, 0, by rw [upd_same]; rfl, Nat.zero_le _⟩
          · rw [upd_ne ej]
            rcases h.wakes.flag t ht with h1 | ⟨k', i, h1, h2⟩
            · exact Or.inl h1
            · refine Or.inr ⟨k', i, ?_, h2⟩
              rw [upd_ne]
              · exact h1
              · rintro rfl; rw [e] at h1; cases h1
        · simp only [upd]; split
          · rfl
          · exact h.wakes.thrown t ht
    · cases hs
  | call t fr =>
    simp only [step] at hs
    split at hs
    · next hc =>
      obtain ⟨ht, hp, hf⟩ := hc
      injection hs with hs; subst hs
      refine ⟨?_, ?_, ?_, ?_, ?_, ?_⟩
      · refine threads_setPc ?_ ht _
        exact ⟨h.threads.valid, h.threads.cur⟩
      · refine mutex_pc (s := { s with loc := _ }) ?_ (by simp only; rw [hp]; rfl) (by simp only; rw [hp]; rfl)
        exact h.mutex
      · refine counts_pc (s := { s with loc := _ }) ?_ (fun e => by cases e) (fun e => by cases e)
        exact counts_congr h.counts rfl rfl rfl rfl rfl
      · refine wakes_pc (s := { s with loc := _ }) ?_ (fun _ => rfl) (fun e => by cases e) (fun hh => ?_) (fun e => by cases e) (fun e => by cases e)
        · exact wakes_congr h.wakes rfl rfl rfl rfl rfl rfl
        · simp only at hh; rw [hp] at hh; cases hh
      · have hD := h.data
        have hpc : ∀ u, (setPc { s with loc := upd s.loc t (argOf t.1 fr) } t .pre1).pc u = if u = t then .pre1 else s.pc u := fun _ => rfl
        refine ⟨hD.lst, hD.fst, hD.wid, hD.buf, fun u m hu => ?_, fun u hu hh => ?_, fun u m hu hh => ?_, fun u hu hh => ?_, fun u m hu hh => ?_⟩
        · rw [hpc] at hu
          split at hu
          · cases hu
          · exact hD.cop u m hu
        · rw [hpc] at hh
          simp only [setPc, upd]
          split at hh
          · next e => subst e; rw [if_pos rfl, hu]; exact hf hu
          · next e => rw [if_neg e]; exact hD.psh u hu hh
        · rw [hpc] at hh
          split at hh
          · cases hh
          · next e =>
            intro kk hk hk'
            simp only [setPc, upd]
            rw [if_neg e]; exact hD.pshd u m hu hh kk hk hk'
        · rw [hpc] at hh
          simp only [setPc, upd]
          split at hh
          · next e => subst e; rw [if_pos rfl, hu]; rfl
          · next e => rw [if_neg e]; exact hD.pul u hu hh
        · rw [hpc] at hh
          split at hh
          · cases hh
          · next e => simp only [setPc, upd]; rw [if_neg e]; exact hD.puld u m hu hh
      · refine order_pc h.order ?_ ?_ ?_ ?_ (by rw [hp]; rfl) <;> rfl
    · cases hs

theorem inv_reach [Inhabited α] {cfg : Cfg} (hn : 0 < cfg.n) {s : St α} (h : Reach cfg s) : Inv cfg s := by
  induction h with
  | init => exact inv_init hn
  | step a _ hs ih => exact inv_step hn ih hs

theorem reach_run [Inhabited α] {cfg : Cfg} {as : List (Act α)} {s s' : St α} (h : Reach cfg s) (hr : run cfg s as = some s') : Reach cfg s' := by
  induction as generalizing s with
  | nil => simp only [run] at hr; injection hr with hr; rw [← hr]; exact h
  | cons a as ih =>
    simp only [run] at hr
    cases hs : step cfg s a with
    | none => rw [hs] at hr; cases hr
    | some s1 => rw [hs] at hr; exact ih (Reach.step a h hs) hr

end

end Verif.Adaptor
