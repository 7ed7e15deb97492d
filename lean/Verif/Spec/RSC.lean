import Verif.Model.RSC

/-! # Specification of a terminated recursive systematic convolutional code

The register contents over time are a sequence `v` of bits: at time `t` the `m` cells hold
`v t, ..., v (t + m - 1)` (oldest first) and `v (t + m)` is shifted in.  The register starts and ends at zero.
With feedback polynomial `g0` and forward polynomial `g1` (bit `i` is the tap on the cell holding `v (t + i)`),
the systematic output is `⊕ᵢ g0ᵢ v(t+i)` and the parity `⊕ᵢ g1ᵢ v(t+i)`, i.e. the code is
`{ (g0·w, g1·w) }` for all input-register sequences `w`. -/

namespace Verif.RSC

/-- XOR of `f 0 .. f (n-1)`. -/
def xorN (n : Nat) (f : Nat → Bool) : Bool :=
  match n with
  | 0 => false
  | n + 1 => xorN n f ^^ f n

/-- Taps of polynomial `g` of degree `m` on the register at time `t`. -/
def taps (m g : Nat) (v : Nat → Bool) (t : Nat) : Bool := xorN (m + 1) fun i => g.testBit i && v (t + i)

/-- 0/1 value of a bit. -/
def b2i (b : Bool) : Int := if b then 1 else 0

/-- Position of the `t`-th systematic symbol (message then tail). -/
def sysPos (buffered : Bool) (t : Nat) : Nat := if buffered then t else 2 * t

/-- Position of the `t`-th parity symbol, for a codeword of `2 L` symbols. -/
def parPos (buffered : Bool) (L t : Nat) : Nat := if buffered then L + t else 2 * t + 1

/-- `x` is a codeword of the terminated code with message length `K`. -/
def IsCodeword (buffered : Bool) (m g0 g1 K : Nat) (x : List Int) : Prop :=
  x.length = 2 * (K + m) ∧
  ∃ v : Nat → Bool, (∀ i, i < m → v i = false) ∧ (∀ i, K + m ≤ i → v i = false) ∧
    ∀ t, t < K + m →
      x[sysPos buffered t]? = some (b2i (taps m g0 v t)) ∧
      x[parPos buffered (K + m) t]? = some (b2i (taps m g1 v t))

/-- Words of 0/1 values. -/
def IsBits (l : List Int) : Prop := ∀ a ∈ l, a = 0 ∨ a = 1

end Verif.RSC
