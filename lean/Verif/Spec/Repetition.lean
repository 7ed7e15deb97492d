import Mathlib.Order.Defs.LinearOrder

/-! # Repetition and repeat-accumulate codes: vocabulary of the statements -/

namespace Verif.Repetition

/-- Position in the codeword of copy `r` (0 to `rep`) of message bit `k`: message after message when `buffered`, else the
copies of one bit side by side. -/
def pos (K rep : Nat) (buffered : Bool) (k r : Nat) : Nat := if buffered then r * K + k else k * (rep + 1) + r

/-- The channel value `v` has the sign of bit `b` and is not null: positive for 0, negative for 1. -/
def Strict {R : Type} [Zero R] [LinearOrder R] (b : Nat) (v : R) : Prop := if b = 0 then 0 < v else v < 0

end Verif.Repetition
