import Verif.Model.Sequence
import Mathlib.Data.List.Count

/-! # Specification of the construction of sequences -/

namespace Verif.Sequence

/-- Destination tasks of the sockets bound to the outputs of task `s` (one element per bound socket). -/
def dests (g : Graph) (s : Nat) : List Nat :=
  match g[s]? with
  | some ta => ta.socks.flatMap fun k => match k with | .sout dst => dst | .sin _ _ => []
  | none => []

/-- Number of inputs of task `t` that a socket has to feed. -/
def need (g : Graph) (t : Nat) : Nat :=
  match g[t]? with
  | some ta => nInputs ta - nStatic ta
  | none => 0

/-- Number of bindings to task `t`, in the whole program. -/
def bound (g : Graph) (t : Nat) : Nat := ((List.range g.length).map fun s => (dests g s).count t).sum

/-- All the inputs of `t` which have to be fed are bound to tasks of `S` where the sequence does not stop. -/
structure Fed (g : Graph) (cf : Conf) (S : List Nat) (t : Nat) : Prop where
  some : 0 < bound g t
  all : bound g t = need g t
  from' : ∀ s, t ∈ dests g s → s ∈ S ∧ s ∉ cf.lasts

/-- The tasks that a walk from the first tasks meets. -/
inductive Reached (g : Graph) (cf : Conf) : Nat → Prop
  | first {t : Nat} : t ∈ cf.firsts → Reached g cf t
  | next {s t : Nat} : Reached g cf s → s ∉ cf.lasts → t ∈ dests g s → t ∉ cf.excl → Reached g cf t

/-- The programs of this specification: bindings to existing tasks, at most one binding per input, distinct first tasks
which are not fed by the tasks met from them, tasks in the right mode. -/
structure Wf (g : Graph) (cf : Conf) : Prop where
  known : ∀ s t, t ∈ dests g s → t < g.length
  firstsKnown : ∀ f ∈ cf.firsts, f < g.length
  once : ∀ t, bound g t ≤ need g t
  single : ∀ ta ∈ g, ∀ st n, Sock.sin st n ∈ ta.socks → n ≤ 1
  alloc : cf.inplace = true → ∀ ta ∈ g, ta.autoalloc = true
  adaptor : cf.inplace = false → ∀ ta ∈ g, ta.adaptor = false
  nodup : cf.firsts.Nodup
  top : ∀ f ∈ cf.firsts, ∀ s, Reached g cf s → s ∉ cf.lasts → f ∉ dests g s
  firsts : cf.firsts ≠ []
  threads : cf.nThreads ≠ 0
  excl : ∀ e ∈ cf.excl, e ∉ cf.firsts ∧ e ∉ cf.lasts

/-- A right order: each task once; the first tasks; any other task after all the tasks which feed it; and every task that can
be fed. -/
structure Schedule (g : Graph) (cf : Conf) (order : List Nat) : Prop where
  once : order.Nodup
  firsts : ∀ f ∈ cf.firsts, f ∈ order
  after : ∀ pre t post, order = pre ++ t :: post → t ∈ cf.firsts ∨ (t ∉ cf.excl ∧ Fed g cf pre t)
  complete : ∀ t, t ∉ cf.excl → Fed g cf order t → t ∈ order

end Verif.Sequence
