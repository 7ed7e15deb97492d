import Verif.Model.RA
import Verif.Spec.Turbo

/-! # Specification of repeat-accumulate codes -/

namespace Verif.RA

/-- The codeword of message `u`: bit `i` is the sum modulo 2 of the `i + 1` first bits of the message repeated `r` times
and permuted by `π`. -/
def word (r : Nat) (π : Nat → Nat) (N : Nat) (u : List Nat) : List Nat :=
  (List.range N).map fun i => ((List.range (i + 1)).map fun j => u.getD (π j / r) 0).sum % 2

/-- A list of bits. -/
def IsBits (u : List Nat) : Prop := ∀ b, b ∈ u → b < 2

/-- The LLRs say what the codeword is: positive for 0, negative for 1. -/
def Agrees {R : Type} [Zero R] [LT R] (Y : List R) (x : List Nat) : Prop :=
  ∀ (i : Nat) (y : R) (b : Nat), Y[i]? = some y → x[i]? = some b → (b = 0 → 0 < y) ∧ (b ≠ 0 → y < 0)

/-- The LLRs with the signs of the positions of the ones of `x` changed. -/
def flips {R : Type} [Neg R] (x : List Nat) (Y : List R) : List R :=
  List.zipWith (fun b y => if b = 0 then y else -y) x Y

end Verif.RA
