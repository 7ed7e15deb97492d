/-!
# Pipeline adaptors

Models `src/Module/Adaptor/Adaptor_1_to_n.cpp`, `.../Adaptor_n_to_1.cpp` and `include/Module/Adaptor/Adaptor.hxx` as a
transition system: one transition per access to shared memory (a read or increment of an atomic counter, a read or write of
the cancel flag, the copy of one socket, an operation on a mutex or condition variable).

The two adaptors are the same protocol with the sides exchanged.  One side is a single thread visiting the channels in turn
(`cur_id`): the pusher of `Adaptor_1_to_n`, the puller of `Adaptor_n_to_1`.  The other side has one thread per channel
(`id`), each working on its own clone.  Every waiting thread has its own condition variable and mutex.

Simplifications: channels are the `n` clones made before running, none destroyed (`buffer[i].size() != 0` for all `i`);
64-bit counters do not wrap; atomics are sequentially consistent (the C++ default); the payload of a socket is one value
and its copy one transition (no other thread may access it meanwhile, which is what `C32` says); the no-copy mode, where
the buffer pointers are exchanged instead, is not modelled here.
-/

namespace Verif.Adaptor

/-- The two kinds of tasks: `push_1` / `push_n` and `pull_n` / `pull_1`. -/
inductive Side where
  | push | pull
  deriving DecidableEq, Repr

def Side.other : Side → Side
  | .push => .pull
  | .pull => .push

/-- A thread: its side and the `id` of its channel (0 for the thread visiting all channels). -/
abbrev Thread := Side × Nat

/-- What may hold a mutex: a thread, or a call of `cancel_waiting` from outside. -/
inductive Actor where
  | thr (t : Thread)
  | canc (k : Nat)
  deriving DecidableEq, Repr

/-- Program counter of a thread. -/
inductive Pc where
  /-- outside the tasks of the adaptor -/
  | idle
  /-- about to read `is_full` / `is_empty` before waiting, `Adaptor_1_to_n.cpp:56,60,79,83` -/
  | pre1
  /-- about to read `*waiting_canceled` before waiting, same lines -/
  | pre2
  /-- about to lock the mutex (first time, or when leaving `wait`), `:62,85` -/
  | lock
  /-- predicate of `wait`, about to read `is_full` / `is_empty`, mutex held, `:63-66,86-89` -/
  | pred1
  /-- predicate of `wait`, about to read `*waiting_canceled`, mutex held -/
  | pred2
  /-- inside `wait`, mutex released -/
  | asleep
  /-- leaving the scope of `lock`, `:67,90` -/
  | unlk
  /-- about to test `*waiting_canceled` after waiting, `:70,93` -/
  | post
  /-- about to copy socket `k`, `:22-29,39-46` -/
  | copy (k : Nat)
  /-- about to increment `last` / `first`, `:128,149` -/
  | inc
  /-- about to test `is_empty` / `is_full`, `:130-132,151-153` -/
  | test
  /-- about to lock the mutex of the other side, `:134,155` -/
  | nlock
  /-- about to `notify_one`, `:135,156` -/
  | notify
  /-- leaving the scope of the lock guard, `:136,157` -/
  | nunlock
  /-- about to move `cur_id`, `:139-143` -/
  | adv
  /-- left the task with `waiting_canceled` -/
  | thrown
  deriving DecidableEq, Repr

/-- Program counter of a call of `cancel_waiting` by the owner of object `j`, after `send_cancel_signal`; `i < n` is the
thread of channel `i`, `i = n` the thread visiting all channels. -/
inductive CPc where
  | off
  | clock (j i : Nat)
  | cnotify (j i : Nat)
  | cunlock (j i : Nat)
  deriving DecidableEq, Repr

/-- Parameters: number of channels, `buffer_size`, `n_sockets`, the side with a single thread, `active_waiting`. -/
structure Cfg where
  n : Nat
  size : Nat
  socks : Nat
  rov : Side
  active : Bool

/-- The shared memory and the threads.  `hist` and `log` only record what happened: frames whose push or pull took effect,
by thread and by channel. -/
structure St (α : Type _) where
  fst : Nat → Nat
  lst : Nat → Nat
  buf : Nat → Nat → Nat → α
  flag : Nat → Bool
  cur : Nat
  mtx : Thread → Option Actor
  pc : Thread → Pc
  loc : Thread → List α
  canc : Nat → CPc
  hist : Thread → List (List α)
  log : Side → Nat → List (List α)

/-- Function update. -/
def upd {β γ : Type _} [DecidableEq β] (f : β → γ) (a : β) (v : γ) : β → γ := fun x => if x = a then v else f x

/-- After construction: counters zero, nobody inside, `Adaptor.hxx:14-59`. -/
def init {α : Type _} (d : α) : St α where
  fst _ := 0
  lst _ := 0
  buf _ _ _ := d
  flag _ := false
  cur := 0
  mtx _ := none
  pc _ := .idle
  loc _ := []
  canc _ := .off
  hist _ := []
  log _ _ := []

section
variable {α : Type _}

/-- The threads of the adaptor. -/
def Cfg.isThread (cfg : Cfg) (t : Thread) : Prop := if t.1 = cfg.rov then t.2 = 0 else t.2 < cfg.n

instance (cfg : Cfg) (t : Thread) : Decidable (cfg.isThread t) := by unfold Cfg.isThread; infer_instance

/-- `this->cur_id` or `this->id`. -/
def chan (cfg : Cfg) (s : St α) (t : Thread) : Nat := if t.1 = cfg.rov then s.cur else t.2

/-- The thread of the other side that works on the channel of `t`. -/
def peer (cfg : Cfg) (s : St α) (t : Thread) : Thread := if t.1 = cfg.rov then (t.1.other, s.cur) else (cfg.rov, 0)

/-- `is_full`, `Adaptor.hxx:153-158`, with `n_free_slots` and `n_fill_slots`, `:160-170`. -/
def isFull (cfg : Cfg) (s : St α) (c : Nat) : Bool := decide ((cfg.size : Int) - ((s.lst c : Int) - (s.fst c : Int)) = 0)

/-- `is_empty`, `Adaptor.hxx:147-151`. -/
def isEmpty (s : St α) (c : Nat) : Bool := decide (s.fst c = s.lst c)

/-- The condition a side waits on: `wait_push` waits while the channel is full, `wait_pull` while it is empty. -/
def blocked (cfg : Cfg) (s : St α) : Side → Nat → Bool
  | .push, c => isFull cfg s c
  | .pull, c => isEmpty s c

def setPc (s : St α) (t : Thread) (p : Pc) : St α := { s with pc := upd s.pc t p }

/-- `notify_one` / `notify_all` on the condition variable of `t`, which only `t` waits on. -/
def wake (s : St α) (t : Thread) : St α := if s.pc t = .asleep then setPc s t .lock else s

/-- Copy of socket `k`: `push` writes the slot `last % buffer_size`, `Adaptor_1_to_n.cpp:22-29,98-101`; `pull` reads the
slot `first % buffer_size`, `:39-46,103-107`. -/
def copySock [Inhabited α] (cfg : Cfg) (s : St α) (t : Thread) (k : Nat) : St α :=
  let c := chan cfg s t
  match t.1 with
  | .push => { s with buf := upd s.buf c (upd (s.buf c) k (upd (s.buf c k) (s.lst c % cfg.size) ((s.loc t).getD k default))) }
  | .pull => { s with loc := upd s.loc t (s.loc t ++ [s.buf c k (s.fst c % cfg.size)]) }

/-- `last[...]++` / `first[...]++`, `Adaptor_1_to_n.cpp:128,149`. -/
def bump (cfg : Cfg) (s : St α) (t : Thread) : St α :=
  let c := chan cfg s t
  let s' : St α := { s with
    hist := upd s.hist t (s.hist t ++ [s.loc t])
    log := upd s.log t.1 (upd (s.log t.1) c (s.log t.1 c ++ [s.loc t])) }
  match t.1 with
  | .push => { s' with lst := upd s.lst c (s.lst c + 1) }
  | .pull => { s' with fst := upd s.fst c (s.fst c + 1) }

/-- One transition of thread `t` inside its task; `none` when it cannot move. -/
def stepT [Inhabited α] (cfg : Cfg) (s : St α) (t : Thread) : Option (St α) :=
  match s.pc t with
  | .idle => none
  | .pre1 => if blocked cfg s t.1 (chan cfg s t) then some (setPc s t .pre2) else some (setPc s t .post)
  | .pre2 =>
    if s.flag t.2 then some (setPc s t .post)
    else if cfg.active then some (setPc s t .pre1) else some (setPc s t .lock)
  | .lock => if s.mtx t = none then some (setPc { s with mtx := upd s.mtx t (some (.thr t)) } t .pred1) else none
  | .pred1 => if blocked cfg s t.1 (chan cfg s t) then some (setPc s t .pred2) else some (setPc s t .unlk)
  | .pred2 =>
    if s.flag t.2 then some (setPc s t .unlk)
    else some (setPc { s with mtx := upd s.mtx t none } t .asleep)
  | .asleep => none
  | .unlk => some (setPc { s with mtx := upd s.mtx t none } t .post)
  | .post => if s.flag t.2 then some (setPc s t .thrown) else some (setPc s t (.copy 0))
  | .copy k => if k < cfg.socks then some (setPc (copySock cfg s t k) t (.copy (k + 1))) else some (setPc s t .inc)
  | .inc => some (setPc (bump cfg s t) t .test)
  | .test =>
    if cfg.active then some (setPc s t .adv)
    else if blocked cfg s t.1.other (chan cfg s t) then some (setPc s t .adv) else some (setPc s t .nlock)
  | .nlock =>
    if s.mtx (peer cfg s t) = none then
      some (setPc { s with mtx := upd s.mtx (peer cfg s t) (some (.thr t)) } t .notify)
    else none
  | .notify => some (setPc (wake s (peer cfg s t)) t .nunlock)
  | .nunlock => some (setPc { s with mtx := upd s.mtx (peer cfg s t) none } t .adv)
  | .adv =>
    if t.1 = cfg.rov then some (setPc { s with cur := (s.cur + 1) % cfg.n } t .idle) else some (setPc s t .idle)
  | .thrown => none

/-- Target of the `i`-th turn of `wake_up`, `Adaptor_1_to_n.cpp:161-176`: the threads with a channel, then the other. -/
def target (cfg : Cfg) (i : Nat) : Thread := if i < cfg.n then (cfg.rov.other, i) else (cfg.rov, 0)

/-- One transition of a call of `cancel_waiting`, `Adaptor_1_to_n.cpp:161-183`. -/
def stepC (cfg : Cfg) (s : St α) (k : Nat) : Option (St α) :=
  match s.canc k with
  | .off => none
  | .clock j i =>
    if cfg.n < i then some { s with canc := upd s.canc k .off }
    else if s.mtx (target cfg i) = none then
      some { s with mtx := upd s.mtx (target cfg i) (some (.canc k)), canc := upd s.canc k (.cnotify j i) }
    else none
  | .cnotify j i => some { wake s (target cfg i) with canc := upd s.canc k (.cunlock j i) }
  | .cunlock j i => some { s with mtx := upd s.mtx (target cfg i) none, canc := upd s.canc k (.clock j (i + 1)) }

/-- What the scheduler and the environment may do. -/
inductive Act (α : Type _) where
  /-- the owner of `t` calls its task; `fr` is the frame to push (one value per socket) -/
  | call (t : Thread) (fr : List α)
  /-- thread `t` makes one transition -/
  | run (t : Thread)
  /-- `wait` returns without having been notified -/
  | spurious (t : Thread)
  /-- `cancel_waiting` is called on object `j`: `send_cancel_signal`, then the loop of `wake_up` unless waiting is active -/
  | cancel (k j : Nat)
  /-- the call `k` of `cancel_waiting` makes one transition -/
  | crun (k : Nat)

/-- The frame a task starts with: the input sockets of `push`, nothing yet for `pull`. -/
def argOf (d : Side) (fr : List α) : List α :=
  match d with
  | .push => fr
  | .pull => []

/-- The transitions. -/
def step [Inhabited α] (cfg : Cfg) (s : St α) : Act α → Option (St α)
  | .call t fr =>
    if cfg.isThread t ∧ s.pc t = .idle ∧ (t.1 = .push → fr.length = cfg.socks) then
      some (setPc { s with loc := upd s.loc t (argOf t.1 fr) } t .pre1)
    else none
  | .run t => stepT cfg s t
  | .spurious t => if s.pc t = .asleep then some (setPc s t .lock) else none
  | .cancel k j =>
    if s.canc k = .off then
      some { s with flag := upd s.flag j true, canc := upd s.canc k (if cfg.active then .off else .clock j 0) }
    else none
  | .crun k => stepC cfg s k

/-- States reached under some schedule. -/
inductive Reach [Inhabited α] (cfg : Cfg) : St α → Prop
  | init : Reach cfg (init default)
  | step {s s' : St α} (a : Act α) : Reach cfg s → step cfg s a = some s' → Reach cfg s'

/-- Running a list of actions. -/
def run [Inhabited α] (cfg : Cfg) : St α → List (Act α) → Option (St α)
  | s, [] => some s
  | s, a :: as => (step cfg s a).bind fun s' => run cfg s' as

end

end Verif.Adaptor
