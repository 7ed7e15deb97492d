import Verif.Prelude.Loops

/-!
# Construction and execution of a sequence of tasks

Models `src/Tools/Sequence/Sequence.cpp:207-312` (`init`), `:820-1157` (`init_recursive`), `:314-334` (`clone`), `:2055-2075`
(`update_firsts_and_lasts_tasks`) and the execution of one round, `:469-492`, for sequences without switchers: the digraph of
sub-sequences then has one node, and a task goes through the "standard case" of `init_recursive`.

Tasks are numbers; the bindings do not change during the construction.  The copies made for the other threads (`_init`) are not
modelled: every thread executes the tasks in the order of the first one.
-/

namespace Verif.Sequence
open Exec

/-- A socket of a task: an input (is it static, `Task.cpp:904-914`; size of `get_bound_sockets()`) or an output (tasks of the
sockets bound to it, in the order of the bindings). -/
inductive Sock where
  | sin (static : Bool) (nBound : Nat)
  | sout (dst : List Nat)
  deriving DecidableEq, Repr

/-- A task: its sockets, in their order; `is_autoalloc()`; does it belong to an adaptor? -/
structure Task where
  socks : List Sock
  autoalloc : Bool
  adaptor : Bool
  deriving DecidableEq, Repr

/-- The tasks of a program and their bindings: task `t` is the `t`-th element. -/
abbrev Graph := List Task

/-- `t.get_n_input_sockets()`, `Task.cpp:756-760`. -/
def nInputs (t : Task) : Nat := (t.socks.filter fun s => match s with | .sin _ _ => true | .sout _ => false).length

/-- `t.get_n_static_input_sockets()`, `Task.cpp:904-914`. -/
def nStatic (t : Task) : Nat := (t.socks.filter fun s => match s with | .sin st _ => st | .sout _ => false).length

/-- The arguments of the construction: `firsts`, `lasts`, `exclusions`, `tasks_inplace`, `n_threads`. -/
structure Conf where
  firsts : List Nat
  lasts : List Nat
  excl : List Nat
  inplace : Bool
  nThreads : Nat
  deriving DecidableEq, Repr

/-- State of the construction: the tasks of the sub-sequence (`tasks_id` are their positions, `taid` their number),
`real_lasts`, `real_lasts_id`, `in_sockets_feed` (0 for an absent key). -/
structure St where
  tasks : List Nat
  realLasts : List Nat
  realLastsId : List Nat
  feed : Nat → Nat

/-- A task is fed by one more socket, `Sequence.cpp:1088-1089`. -/
def St.fed (st : St) (t : Nat) : St := { st with feed := fun u => if u = t then st.feed u + 1 else st.feed u }

/-- Body of the loop over the sockets bound to an output, `Sequence.cpp:1079-1098`; the state is also `!is_last`.  The graph is
looked up for the destination: a number outside of it is `ub` (a dangling reference). -/
def follow (g : Graph) (cf : Conf) (visit : Nat → St → Exec St) (t : Nat) (p : St × Bool) : Exec (St × Bool) :=
  if t ∈ cf.excl then ok p
  else do
    let st := p.1.fed t
    let ta ← rd g t
    if nInputs ta - nStatic ta ≤ st.feed t then do
      let st ← visit t st
      ok (st, true)
    else ok (st, p.2)

/-- Body of the loop over the sockets, `Sequence.cpp:1071-1142`. -/
def perSock (g : Graph) (cf : Conf) (visit : Nat → St → Exec St) (s : Sock) (p : St × Bool) : Exec (St × Bool) :=
  match s with
  | .sout dst => forEach dst (follow g cf visit) p
  | .sin _ n => if n > 1 then exc .runtimeError else ok p

/-- The loop over the sockets, unless the task is one of `lasts`, `Sequence.cpp:1069-1143`. -/
def sockets (g : Graph) (cf : Conf) (visit : Nat → St → Exec St) (t : Nat) (ta : Task) (st : St) : Exec (St × Bool) :=
  if t ∈ cf.lasts then ok (st, false) else forEach ta.socks (perSock g cf visit) (st, false)

/-- The end of `init_recursive`, `Sequence.cpp:1146-1150`. -/
def ending (t : Nat) (p : St × Bool) : St :=
  if p.2 = false ∧ t ∉ p.1.realLasts then
    { p.1 with realLasts := p.1.realLasts ++ [t], realLastsId := p.1.realLastsId ++ [p.1.tasks.length - 1] }
  else p.1

/-- `init_recursive`, standard case, `Sequence.cpp:820-866` and `:1064-1157`.  Line 856 uses an iterator invalidated by line
855: `ub`.  The recursion is bounded by `fuel` (the stack): beyond is `ub`. -/
def visit (g : Graph) (cf : Conf) : Nat → Nat → St → Exec St
  | 0, _, _ => ub
  | fuel + 1, t, st => do
    let ta ← rd g t
    if cf.inplace ∧ !ta.autoalloc then exc .runtimeError
    else if ta.adaptor ∧ !cf.inplace then exc .runtimeError
    else if t ∈ st.realLasts then ub
    else do
      let p ← sockets g cf (visit g cf fuel) t ta { st with tasks := st.tasks ++ [t] }
      ok (ending t p)

/-- What the constructor leaves: the tasks in the order of execution, `firsts_tasks_id`, `lasts_tasks_id`. -/
structure Seq where
  tasks : List Nat
  firstsId : List Nat
  lastsId : List Nat
  deriving DecidableEq, Repr

/-- Body of the loop over `firsts`, `Sequence.cpp:262-280`: the identifier is pushed before the task is added. -/
def perFirst (g : Graph) (cf : Conf) (fuel : Nat) (t : Nat) (p : St × List Nat) : Exec (St × List Nat) := do
  let ids := p.2 ++ [p.1.tasks.length - 1]
  let st ← visit g cf fuel t p.1
  ok (st, ids)

/-- `init`, `Sequence.cpp:207-300`. -/
def init (g : Graph) (cf : Conf) (fuel : Nat) : Exec Seq :=
  if cf.firsts.length = 0 then exc .invalidArgument
  else if cf.nThreads = 0 then exc .invalidArgument
  else if ∃ e ∈ cf.excl, e ∈ cf.firsts ∨ e ∈ cf.lasts then exc .invalidArgument
  else do
    let p ← forEach cf.firsts (perFirst g cf fuel) (⟨[], [], [], fun _ => 0⟩, [])
    if ∃ l ∈ cf.lasts, l ∉ p.1.realLasts then exc .runtimeError
    else ok ⟨p.1.tasks, p.2, p.1.realLastsId⟩

/-- Tasks from their identifiers, `Sequence.cpp:2060-2074`. -/
def byId (s : Seq) (ids : List Nat) : List Nat := ids.filterMap fun i => s.tasks[i]?

/-- `get_firsts_tasks()[0]`, `Sequence.cpp:2058-2065`. -/
def getFirsts (s : Seq) : List Nat := byId s s.firstsId

/-- `get_lasts_tasks()[0]`, `Sequence.cpp:2067-2074`. -/
def getLasts (s : Seq) : List Nat := byId s s.lastsId

/-- `clone`, `Sequence.cpp:314-334`: the construction of the copy, from the tasks of the original. -/
def clone (g : Graph) (cf : Conf) (fuel : Nat) (s : Seq) : Exec Seq :=
  init g { cf with firsts := getFirsts s, lasts := getLasts s, inplace := false } fuel

/-- One round of execution, `Sequence.cpp:485-488`: `exec t v` is what task `t` writes in its output sockets, as a function of
everything the tasks have written so far. -/
def round {V : Type} (exec : Nat → (Nat → V) → V) (order : List Nat) (v : Nat → V) : Nat → V :=
  order.foldl (fun v t => fun u => if u = t then exec t v else v u) v

end Verif.Sequence
