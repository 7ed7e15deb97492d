import Verif.Prelude.Loops

/-!
# Partial sort

Models `include/Tools/Algo/Sort/LC_sorter.hxx`.  Values are of a linearly ordered type `α` (no NaN), `top` is
`std::numeric_limits<T>::max()`.
-/

namespace Verif.Sorter
open Exec
variable {α : Type} [LT α] [DecidableLT α]

/-- `LC_sorter`, `LC_sorter.hpp:27-29`. -/
structure Sorter (α : Type) where
  max : Nat
  tree : List Nat
  vals : List α
  deriving DecidableEq, Repr

/-- `LC_sorter::LC_sorter`, `LC_sorter.hxx:14-21`: `zero` is the initial value of the vector (undefined size for `max_elmts`
= 0). -/
def make (zero : α) (max : Nat) : Exec (Sorter α) :=
  if max = 0 then ub else ok ⟨max, List.range max ++ List.replicate (max - 1) 0, List.replicate (2 * max) zero⟩

/-- The comparison of two entries of the tree, `LC_sorter.hxx:92-95`, `:105-108`, `:135-138`, `:147-150`, `:179-182`: entries
`src`, `src + 1` are compared and the winner written to `dst`. -/
def play (vals : List α) (src dst : Nat) (t : List Nat) : Exec (List Nat) :=
  rd t src >>= fun a => rd t (src + 1) >>= fun b => rd vals a >>= fun x => rd vals b >>= fun y =>
    wr t dst (if x < y then a else b)

/-- `1 << (depth -1)`, undefined for `depth` 0. -/
def guardDepth (depth : Nat) : Exec Unit := if depth = 0 then ub else ok ()

/-- `_partial_sort_step1`, `LC_sorter.hxx:78-116`: offset of the root and tree. -/
def step1 (vals : List α) (n depth max : Nat) (t : List Nat) : Exec (Nat × List Nat) :=
  forN (n / 2) (fun j t => play vals (2 * j) (max + j) t) t >>= fun t =>
  guardDepth depth >>= fun _ =>
  forN (depth - 1) (fun i (x : Nat × List Nat) =>
    forN (2 ^ (depth - 1 - i) / 2) (fun j t => play vals (x.1 + 2 * j) (x.1 + 2 ^ (depth - 1 - i) + j) t) x.2 >>= fun t =>
      ok (x.1 + 2 ^ (depth - 1 - i), t)) (max, t)

/-- The branch of the position `p`, `LC_sorter.hxx:132-155`. -/
def branch (vals : List α) (p depth max : Nat) (t : List Nat) : Exec (Nat × List Nat) :=
  play vals (2 * (p / 2)) (max + p / 2) t >>= fun t =>
  forN (depth - 1) (fun i (x : Nat × List Nat) =>
    play vals (x.1 + 2 * (p / (2 ^ (i + 1) * 2))) (x.1 + 2 ^ (depth - 1 - i) + p / (2 ^ (i + 1) * 2)) x.2 >>= fun t =>
      ok (x.1 + 2 ^ (depth - 1 - i), t)) (max, t)

/-- `_partial_sort_step2`, `LC_sorter.hxx:118-159`: the state is the values, the positions and the tree. -/
def step2 (top : α) (K depth max : Nat) (s : List α × List Nat × List Nat) : Exec (List α × List Nat × List Nat) :=
  forN (K - 1) (fun k s =>
    rd s.2.1 k >>= fun p => wr s.1 p top >>= fun v => branch v p depth max s.2.2 >>= fun x =>
      rd x.2 x.1 >>= fun r => wr s.2.1 (k + 1) r >>= fun pos => ok (v, pos, x.2)) s

/-- `_partial_sort2_step2`, `LC_sorter.hxx:161-189`. -/
def step2two (vals : List α) (depth max : Nat) (pos t : List Nat) : Exec (List Nat × List Nat) :=
  rd pos 0 >>= fun p =>
  wr t (max + p / 2) (if p % 2 ≠ 0 then p - 1 else p + 1) >>= fun t =>
  forN (depth - 1) (fun i (x : Nat × List Nat) =>
    play vals (x.1 + 2 * (p / 2 ^ (i + 2))) (x.1 + 2 ^ (depth - 1 - i) + p / 2 ^ (i + 2)) x.2 >>= fun t =>
      ok (x.1 + 2 ^ (depth - 1 - i), t)) (max, t) >>= fun x =>
  rd x.2 x.1 >>= fun r => wr pos 1 r >>= fun pos => ok (pos, x.2)

/-- The growth of the buffers, `LC_sorter.hxx:32-38` and `:57-63`. -/
def grow (zero : α) (s : Sorter α) (n : Nat) : Sorter α :=
  if s.max < n then
    ⟨n, List.range n ++ (s.tree ++ List.replicate (2 * n - 1 - s.tree.length) 0).drop n, (s.vals ++ List.replicate (n - s.vals.length) zero).take n⟩
  else s

/-- The default values of the arguments, `LC_sorter.hxx:27-28` and `:52-53`. -/
def argK (K : Int) (pos : List Nat) : Nat := if K ≤ 0 then pos.length else K.toNat
/-- See `argK`. -/
def argN (n : Int) (s : Sorter α) : Nat := if n ≤ 0 then s.max else n.toNat

/-- `LC_sorter::partial_sort`, `LC_sorter.hxx:48-76`. -/
def partialSort (zero top : α) (s : Sorter α) (values : List α) (pos : List Nat) (n K : Int) : Exec (Sorter α × List Nat) :=
  let K := argK K pos
  let n := argN n s
  let s := grow zero s n
  step1 values n n.log2 s.max s.tree >>= fun x =>
  rd x.2 x.1 >>= fun r => wr pos 0 r >>= fun pos =>
  if K = 2 then step2two values n.log2 s.max pos x.2 >>= fun y => ok ({ s with tree := y.2 }, y.1)
  else
    forN n (fun i v => rd values i >>= fun a => wr v i a) s.vals >>= fun v =>
      step2 top K n.log2 s.max (v, pos, x.2) >>= fun y => ok ({ s with tree := y.2.2, vals := y.1 }, y.2.1)

/-- `LC_sorter::partial_sort_destructive`, `LC_sorter.hxx:23-46`: returns also the values. -/
def partialSortDestructive (zero top : α) (s : Sorter α) (values : List α) (pos : List Nat) (n K : Int) :
    Exec (Sorter α × List α × List Nat) :=
  let K := argK K pos
  let n := argN n s
  let s := grow zero s n
  step1 values n n.log2 s.max s.tree >>= fun x =>
  rd x.2 x.1 >>= fun r => wr pos 0 r >>= fun pos =>
  if K = 2 then step2two values n.log2 s.max pos x.2 >>= fun y => ok ({ s with tree := y.2 }, values, y.1)
  else step2 top K n.log2 s.max (values, pos, x.2) >>= fun y => ok ({ s with tree := y.2.2 }, y.1, y.2.1)

end Verif.Sorter
