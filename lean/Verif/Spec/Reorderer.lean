import Verif.Model.Reorderer

/-! # Specification of the reordering of frames -/

namespace Verif.Reorderer
variable {α : Type}

/-- `n` frames; the element `i` of the frame `f` is `F f i`, for `i < len`. -/
def Frames (n len : Nat) (F : Nat → Nat → α) (l : List (List α)) : Prop :=
  l.length = n ∧ ∀ f, f < n → ∃ d, l[f]? = some d ∧ ∀ i, i < len → d[i]? = some (F f i)

/-- The element `x` of the frame `f` of a buffer. -/
def at' (l : List (List α)) (f x : Nat) : Option α := l[f]?.bind fun d => d[x]?

/-- `n` buffers of at least `len` elements. -/
def Room (n len : Nat) (l : List (List α)) : Prop := l.length = n ∧ ∀ f, f < n → ∃ d, l[f]? = some d ∧ len ≤ d.length

/-- Number of bits of the frame numbers moved by the last pass of the stages of `apply_rev`, for `2^m` frames and registers of
`2^w` elements. -/
def last (w m : Nat) : Nat := (w - 1) % m + 1

/-- The frame `apply_rev` writes in `out_data[f]`, for `2^m` frames and registers of `2^w` elements. -/
def source (w m f : Nat) : Nat := f / 2 % 2 ^ (m - last w m) * 2 ^ last w m + f / 2 / 2 ^ (m - last w m) * 2 + f % 2

end Verif.Reorderer
