import Verif.Prelude.Loops

/-!
# Control of the execution: iterators, controllers, switchers, sub-sequences

Models `src/Module/Iterator/Iterator.cpp`, `src/Module/Controller/**`, `include/Module/Switcher/Switcher.hxx` and the
execution of a graph of sub-sequences in `src/Tools/Sequence/Sequence.cpp`.  `size_t` values are naturals; their wrap
around is written where it can happen.
-/

namespace Verif.Control
open Exec

/-- Conversion to `int8_t`. -/
def toInt8 (x : Nat) : Int := (x : Int).bmod 256

/-- `Iterator`, `Iterator.hpp`. -/
structure Iter where
  limit : Nat
  counter : Nat
  deriving DecidableEq, Repr

/-- `Iterator::_iterate`, `Iterator.cpp:72-79`: the value written to `out[0]`; `limit + 1` wraps to 0 for the greatest
`size_t`. -/
def Iter.iterate (i : Iter) : Exec (Iter × Int) :=
  if (i.limit + 1) % 2 ^ 64 = 0 then ub
  else ok ({ i with counter := (i.counter + 1) % 2 ^ 64 % (i.limit + 1) }, if i.counter < i.limit then 0 else 1)

/-- `Iterator::set_limit`, `Iterator.cpp:52-57`. -/
def Iter.setLimit (i : Iter) (l : Nat) : Exec Iter :=
  if (l + 1) % 2 ^ 64 = 0 then ub else ok ⟨l, i.counter % (l + 1)⟩

/-- `Iterator::reset`, `Iterator.cpp:59-63`. -/
def Iter.reset (i : Iter) : Iter := { i with counter := 0 }

/-- `Controller_limit`, with the fields of `Controller`. -/
structure Lim where
  limit : Nat
  init : Nat
  path : Nat
  counter : Nat
  deriving DecidableEq, Repr

/-- `Controller_limit::Controller_limit`, `Controller_limit.cpp:8-14`. -/
def Lim.make (limit init : Nat) : Lim := ⟨limit, init, init, 0⟩

/-- `!init_path`. -/
def lnot (x : Nat) : Nat := if x = 0 then 1 else 0

/-- `Controller_limit::_control`, `Controller_limit.cpp:31-38`. -/
def Lim.control (c : Lim) : Lim × Int :=
  let p := if c.limit ≤ c.counter then lnot c.init else c.path
  ({ c with path := p, counter := (c.counter + 1) % 2 ^ 64 }, toInt8 p)

/-- `Controller_limit::reset`, `Controller_limit.cpp:24-29`. -/
def Lim.reset (c : Lim) : Lim := { c with path := c.init, counter := 0 }

/-- `Controller_cyclic`, with the fields of `Controller`. -/
structure Cyc where
  n : Nat
  init : Nat
  path : Nat
  deriving DecidableEq, Repr

/-- `Controller_cyclic::Controller_cyclic`, `Controller_cyclic.cpp:8-14`. -/
def Cyc.make (n init : Nat) : Exec Cyc := if n = 0 then ub else ok ⟨n, init % n, init % n⟩

/-- `Controller_cyclic::_control`, `Controller_cyclic.cpp:49-54`. -/
def Cyc.control (c : Cyc) : Exec (Cyc × Int) :=
  if c.n = 0 then ub else ok ({ c with path := c.path % c.n + 1 }, toInt8 (c.path % c.n))

/-- `Controller_cyclic::set_n_paths`, `Controller_cyclic.cpp:30-35`. -/
def Cyc.setN (c : Cyc) (n : Nat) : Exec Cyc := if n = 0 then ub else ok { c with n := n, path := c.path % n }

/-- `Controller_cyclic::set_path`, `Controller_cyclic.cpp:37-41`. -/
def Cyc.setPath (c : Cyc) (p : Nat) : Exec Cyc := if c.n = 0 then ub else ok { c with path := p % c.n }

/-- `Controller_cyclic::reset`, `Controller_cyclic.cpp:43-47`. -/
def Cyc.reset (c : Cyc) : Exec Cyc := if c.n = 0 then ub else ok { c with path := c.init % c.n }

/-- `Controller_static::_control`, `Controller_static.cpp:24-28`. -/
def staticControl (path : Nat) : Int := toInt8 path

/-! ## Switcher -/

/-- `(size_t)ctrl` then `Switcher::set_path`, `Switcher.hxx:83` and `:205-209`: a negative `int8_t` is extended. -/
def pathOf (n : Nat) (ctrl : Int) : Nat := (ctrl % 2 ^ 64).toNat % n

/-- The switcher: number of data sockets, path, bytes of all the frames for the two tasks. -/
structure Swi where
  n : Nat
  path : Nat
  commuteLen : Nat
  selectLen : Nat
  deriving DecidableEq, Repr

/-- `Switcher::Switcher`, `Switcher.hxx:26-123`; the sizes are those of all the frames. -/
def Swi.make (n lc ls : Nat) : Exec Swi := if n = 0 ∨ lc = 0 ∨ ls = 0 then exc .invalidArgument else ok ⟨n, n - 1, lc, ls⟩

/-- `Switcher::reset`, `Switcher.cpp:14-18`. -/
def Swi.reset (s : Swi) : Swi := { s with path := s.n - 1 }

/-- `std::copy` of the first `len` elements. -/
def copyN (src : List Int) (len : Nat) (dst : List Int) : Exec (List Int) :=
  forN len (fun i d => rd src i >>= fun v => wr d i v) dst

/-- The codelet of `commute`, `Switcher.hxx:78-98` (copy mode): the outputs and the status. -/
def Swi.commute (s : Swi) (data : List Int) (ctrl : Int) (outs : List (List Int)) : Exec (Swi × List (List Int) × Nat) :=
  let p := pathOf s.n ctrl
  rd outs p >>= fun o => copyN data s.commuteLen o >>= fun o' => wr outs p o' >>= fun outs => ok ({ s with path := p }, outs, p)

/-- The codelet of `select`, `Switcher.hxx:105-122` (copy mode). -/
def Swi.select (s : Swi) (ins : List (List Int)) (out : List Int) : Exec (List Int) :=
  rd ins s.path >>= fun i => copyN i s.selectLen out

/-! ## Execution of sub-sequences -/

/-- A node of the graph of sub-sequences, `Sequence.hpp` (`Sub_sequence_generic` in a `Digraph_node`). -/
structure Node where
  commute : Bool
  tasks : List Nat
  children : List Nat
  deriving DecidableEq, Repr

/-- Outcome of an execution: normal, aborted by an exception (`processing_aborted`), or not ended within the fuel. -/
inductive Flow (σ : Type) where
  | fin (s : σ)
  | abort (s : σ)
  | out
  deriving DecidableEq

/-- Goes on after a normal return. -/
def Flow.andThen {σ : Type} : Flow σ → (σ → Flow σ) → Flow σ
  | .fin s, f => f s
  | .abort s, _ => .abort s
  | .out, _ => .out

/-- A loop over the elements of a list. -/
def overList {σ : Type} (f : Nat → σ → Flow σ) : List Nat → σ → Flow σ
  | [], s => .fin s
  | a :: l, s => (f a s).andThen (overList f l)

/-- Drops the status. -/
def forget {σ : Type} : Sum (σ × Int) σ → Flow σ
  | .inl x => .fin x.1
  | .inr s => .abort s

/-- `exec_sequence` of `_exec_without_statuses`, `Sequence.cpp:552-571` (`_exec` and `exec_seq` go through the graph in the
same way): `tsk t` executes the task `t` and returns its status, or aborts. -/
def execSeq {σ : Type} (g : Nat → Node) (tsk : Nat → σ → Sum (σ × Int) σ) : Nat → Nat → σ → Flow σ
  | 0, _, _ => .out
  | fuel + 1, n, s =>
    if (g n).commute then
      match (g n).tasks with
      | [] => .out
      | t :: _ =>
        match tsk t s with
        | .inr s => .abort s
        | .inl x =>
          match (g n).children[(x.2 % 2 ^ 64).toNat]? with
          | none => .fin x.1
          | some c => execSeq g tsk fuel c x.1
    else
      (overList (fun t s => forget (tsk t s)) (g n).tasks s).andThen (overList (execSeq g tsk fuel) (g n).children)

/-- What happens, in order: tasks of the user, `iterate`, `select` of a path, `commute` to a path. -/
inductive Ev where
  | user (k : Nat)
  | iterate
  | select (path : Nat)
  | commute (path : Nat)
  deriving DecidableEq, Repr

/-- State of a sequence with an iterator and a switcher of `n` paths controlled by it; `ctrl` is the buffer between them. -/
structure Loop where
  it : Iter
  n : Nat
  path : Nat
  ctrl : Int
  trace : List Ev
  deriving DecidableEq, Repr

/-- The tasks: 0 is `iterate`, 1 is `select`, 2 is `commute`, `k + 3` is the user's `k`, which throws if `bad` says so.
(An iterator with the greatest limit, undefined, is excluded by the theorems.) -/
def loopTask (bad : Nat → List Ev → Bool) : Nat → Loop → Sum (Loop × Int) Loop
  | 0, s =>
    match s.it.iterate with
    | .ok r => .inl ({ s with it := r.1, ctrl := r.2, trace := s.trace ++ [.iterate] }, 0)
    | _ => .inr s
  | 1, s => .inl ({ s with trace := s.trace ++ [.select s.path] }, 0)
  | 2, s => .inl ({ s with path := pathOf s.n s.ctrl, trace := s.trace ++ [.commute (pathOf s.n s.ctrl)] }, pathOf s.n s.ctrl)
  | k + 3, s => if bad k s.trace then .inr s else .inl ({ s with trace := s.trace ++ [.user k] }, 0)

/-- The graph `Sequence::init_recursive` builds for a loop (`Sequence.cpp:872-947`, `:978-1008`): tasks before the loop, the
`select` node, its son (condition tasks with `iterate` among them), the `commute` node, the body (which goes back to the
`select` node), and the tasks after the loop. -/
def loopGraph (pre h1 h2 body post : List Nat) : Nat → Node
  | 0 => ⟨false, pre.map (· + 3), [1]⟩
  | 1 => ⟨false, [1], [2]⟩
  | 2 => ⟨false, h1.map (· + 3) ++ 0 :: h2.map (· + 3), [3]⟩
  | 3 => ⟨true, [2], [4, 5]⟩
  | 4 => ⟨false, body.map (· + 3), [1]⟩
  | _ => ⟨false, post.map (· + 3), []⟩

/-- One turn of the loop of `_exec_without_statuses`, `Sequence.cpp:578-588`: the switchers are reset (not the iterators),
the graph is executed, aborts are ignored. -/
def round (bad : Nat → List Ev → Bool) (g : Nat → Node) (fuel : Nat) (s : Loop) : Option Loop :=
  match execSeq g (loopTask bad) fuel 0 { s with path := s.n - 1 } with
  | .fin s => some s
  | .abort s => some s
  | .out => none

end Verif.Control
