import Verif.Model.RSCDB
import Verif.Spec.RSC

/-! # Specification of double-binary circular convolutional codes

The two encoders of the standards DVB-RCS and DVB-RCS2: at each time a couple of bits `a`, `b` enters the register, which gives two
parity bits `y`, `w`.  A codeword is a path that comes back to the state it starts from. -/

namespace Verif.RSCDB
open Verif.RSC

inductive Standard where
  | rcs1
  | rcs2
  deriving DecidableEq

/-- The name given to the constructor. -/
def Standard.name : Standard → String
  | .rcs1 => "DVB-RCS1"
  | .rcs2 => "DVB-RCS2"

/-- Number of cells of the register. -/
def Standard.memory : Standard → Nat
  | .rcs1 => 3
  | .rcs2 => 4

/-- One step of the register: its new contents, and the parities `y` and `w`.  In the first standard the feedback polynomial is
`1 + D + D³`, and those of the parities are `1 + D² + D³` and `1 + D³`; in the second one these are `1 + D³ + D⁴`,
`1 + D + D² + D⁴` and `1 + D² + D³ + D⁴`.  The second bit of the couple also enters other cells. -/
def step : Standard → List Bool → Bool → Bool → List Bool × Bool × Bool
  | .rcs1, [s1, s2, s3], a, b =>
    let f := a ^^ b ^^ s1 ^^ s3
    ([f, s1 ^^ b, s2 ^^ b], f ^^ s2 ^^ s3, f ^^ s3)
  | .rcs2, [s1, s2, s3, s4], a, b =>
    let f := a ^^ b ^^ s3 ^^ s4
    ([f, s1 ^^ b, s2, s3 ^^ b], f ^^ s1 ^^ s2 ^^ s4, f ^^ s2 ^^ s3 ^^ s4)
  | _, s, _, _ => (s, false, false)

/-- Positions in a codeword of the bits `a`, `b`, `y`, `w` of the `k`-th couple: all the couples then all the parities if `bf`,
else the four bits together. -/
def posA (bf : Bool) (k : Nat) : Nat := if bf then 2 * k else 4 * k
def posB (bf : Bool) (k : Nat) : Nat := if bf then 2 * k + 1 else 4 * k + 1
def posY (bf : Bool) (K k : Nat) : Nat := if bf then K + 2 * k else 4 * k + 2
def posW (bf : Bool) (K k : Nat) : Nat := if bf then K + 2 * k + 1 else 4 * k + 3

/-- `x` is a codeword for messages of `K` bits: `σ` are the contents of the register, the same at the beginning and at the end, and `a`
and `b` the bits of the couples. -/
def IsCodeword (bf : Bool) (S : Standard) (K : Nat) (x : List Int) : Prop :=
  x.length = 2 * K ∧ ∃ (σ : Nat → List Bool) (a b : Nat → Bool), (σ 0).length = S.memory ∧ σ (K / 2) = σ 0 ∧
    ∀ k, k < K / 2 → σ (k + 1) = (step S (σ k) (a k) (b k)).1 ∧
      x[posA bf k]? = some (b2i (a k)) ∧ x[posB bf k]? = some (b2i (b k)) ∧
      x[posY bf K k]? = some (b2i (step S (σ k) (a k) (b k)).2.1) ∧ x[posW bf K k]? = some (b2i (step S (σ k) (a k) (b k)).2.2)

/-- A number of couples for which all messages have a codeword: not a multiple of the period of the register. -/
def Circular (S : Standard) (K : Nat) : Prop := (K / 2) % (2 ^ S.memory - 1) ≠ 0

instance (S : Standard) (K : Nat) : Decidable (Circular S K) := inferInstanceAs (Decidable (_ ≠ _))

/-- The number of a state, most significant bit first. -/
def num (s : List Bool) : Nat := s.foldl (fun n b => 2 * n + b.toNat) 0

/-! ## Turbo codes -/

/-- The bits of the `k`-th couple of the second encoder, from the message `u` and the order `ρ` of the couples: the two bits of the couples
of even index are exchanged. -/
def shuffledA (ρ : Nat → Nat) (u : List Int) (k : Nat) : Option Int := if ρ k % 2 = 0 then u[2 * ρ k + 1]? else u[2 * ρ k]?
def shuffledB (ρ : Nat → Nat) (u : List Int) (k : Nat) : Option Int := if ρ k % 2 = 0 then u[2 * ρ k]? else u[2 * ρ k + 1]?

/-- The order of the couples of the second encoder: the inverse of the permutation of the first frame of the interleaver. -/
def order (c : Interleaver.Core) (k : Nat) : Nat := c.piInv.getD k 0

/-- Turbo codewords: the message, then the couples of `y` parities of the two codewords, then those of the `w` parities. -/
def IsTurbo (Sn Si : Standard) (K : Nat) (ρ : Nat → Nat) (x : List Int) : Prop :=
  x.length = 3 * K ∧ ∃ xn xi, IsCodeword true Sn K xn ∧ IsCodeword true Si K xi ∧
    (∀ k, k < K / 2 → xi[posA true k]? = shuffledA ρ xn k ∧ xi[posB true k]? = shuffledB ρ xn k) ∧
    (∀ k, k < K → x[k]? = xn[k]?) ∧
    ∀ k, k < K / 2 → x[K + 2 * k]? = xn[posY true K k]? ∧ x[K + 2 * k + 1]? = xi[posY true K k]? ∧
      x[2 * K + 2 * k]? = xn[posW true K k]? ∧ x[2 * K + 2 * k + 1]? = xi[posW true K k]?

end Verif.RSCDB
