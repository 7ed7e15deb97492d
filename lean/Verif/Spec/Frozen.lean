import Mathlib.Data.Nat.Bits

/-!
# Polarised channels

The channel `i` of a polar code of length `2 ^ m` is obtained from the channel `x` of the symbols by the transforms given by the
`m` binary digits of `i`, from the most significant one to the least significant one: `fm` for 0, `fp` for 1.
-/

namespace Verif.Frozen

/-- The quality of the channel `i` of a code of length `2 ^ m`. -/
def chan {α : Type} (fm fp : α → α) : Nat → α → Nat → α
  | 0, x, _ => x
  | m + 1, x, i => if i % 2 = 0 then fm (chan fm fp m x (i / 2)) else fp (chan fm fp m x (i / 2))

end Verif.Frozen
