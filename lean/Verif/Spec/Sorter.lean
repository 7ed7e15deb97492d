import Mathlib.Order.Basic
import Verif.Model.Sorter

/-! # Specification of a partial sort -/

namespace Verif.Sorter
open Exec

/-- `l` is a list of `K` different positions below `n`, in ascending order of their values, and the values at the other
positions are not smaller. -/
structure Smallest {α : Type} [LinearOrder α] (f : Nat → α) (n K : Nat) (l : List Nat) : Prop where
  length : l.length = K
  nodup : l.Nodup
  lt : ∀ p ∈ l, p < n
  sorted : l.Pairwise fun a b => f a ≤ f b
  least : ∀ p ∈ l, ∀ x, x < n → x ∉ l → f p ≤ f x

/-- The values `v'` are those of `v`, but `top` at the positions of `l`. -/
def Replaced {α : Type} (top : α) (l : List Nat) (v v' : List α) : Prop :=
  ∀ x : Nat, v'[x]? = if x ∈ l ∧ x < v.length then some top else v[x]?

/-- Sorters between two calls. -/
structure Sorter.WF {α : Type} (s : Sorter α) : Prop where
  pos : 1 ≤ s.max
  length : s.tree.length = 2 * s.max - 1
  leaf : ∀ j, j < s.max → s.tree[j]? = some j
  vals : s.max ≤ s.vals.length

/-- The arguments of a call of `partial_sort`. -/
structure Call (α : Type) where
  values : List α
  pos : List Nat
  n : Nat
  K : Nat

/-- Calls a user may make: a power of two of values, at least two, `K` results which fit in `pos`, and, when more than two
positions are asked for, values smaller than the greatest value of the type. -/
structure Call.Valid {α : Type} [LinearOrder α] (top : α) (c : Call α) : Prop where
  n : ∃ d, 1 ≤ d ∧ c.n = 2 ^ d
  values : c.n ≤ c.values.length
  K1 : 1 ≤ c.K
  Kn : c.K ≤ c.n
  pos : c.K ≤ c.pos.length
  top : 2 < c.K → ∀ x, ∀ h : x < c.n, c.values[x]'(Nat.lt_of_lt_of_le h values) < top

/-- Successive calls on the same sorter. -/
def calls {α : Type} [LinearOrder α] (zero top : α) (s : Sorter α) : List (Call α) → Exec (List (List Nat))
  | [] => ok []
  | c :: cs => partialSort zero top s c.values c.pos c.n c.K >>= fun x => calls zero top x.1 cs >>= fun l => ok (x.2 :: l)

/-- What `pos` holds after a call. -/
def Call.Result {α : Type} [LinearOrder α] [Inhabited α] (c : Call α) (pos : List Nat) : Prop :=
  pos.length = c.pos.length ∧ pos.drop c.K = c.pos.drop c.K ∧ Smallest (fun x => c.values.getD x default) c.n c.K (pos.take c.K)

end Verif.Sorter
