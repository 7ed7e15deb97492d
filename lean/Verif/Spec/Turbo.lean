import Verif.Spec.RSC
import Verif.Spec.Interleaver

/-! # Specification of turbo codes

A turbo codeword consists of two codewords of terminated convolutional codes, whose messages are the same up to a permutation; the
message of the second one is not transmitted. -/

namespace Verif.Turbo
open Verif.RSC Verif.Interleaver

/-- A convolutional code: memory, feedback polynomial, forward polynomial. -/
structure Code where
  m : Nat
  g0 : Nat
  g1 : Nat

/-- Permutation applied to frame `f` by an interleaver: bit `i` of the interleaved message is bit `perm c f i` of the message. -/
def perm (c : Core) (f i : Nat) : Nat := c.pi.getD ((if c.uniform then f % c.nFrames else 0) * c.size + i) 0

/-- `xn` and `xi` are codewords of the two codes, with messages equal up to `π`. -/
def Pair (bf : Bool) (cn ci : Code) (K : Nat) (π : Nat → Nat) (xn xi : List Int) : Prop :=
  IsCodeword bf cn.m cn.g0 cn.g1 K xn ∧ IsCodeword bf ci.m ci.g0 ci.g1 K xi ∧ ∀ k, k < K → xi[sysPos bf k]? = xn[sysPos bf (π k)]?

/-- Turbo codewords laid out as `[sysn | tail sysn | pn | tail pn | tail sysi | pi | tail pi]`. -/
def IsTurbo (cn ci : Code) (K : Nat) (π : Nat → Nat) (x : List Int) : Prop :=
  ∃ xn xi, Pair true cn ci K π xn xi ∧ x = xn ++ xi.drop K

/-- Turbo codewords laid out bit by bit: systematic bit and the two parities of each bit, then the tail of the first code, then the tail of
the second one. -/
def IsTurboInterlaced (c : Code) (K : Nat) (π : Nat → Nat) (x : List Int) : Prop :=
  ∃ xn xi, Pair false c c K π xn xi ∧ x.length = 3 * K + 4 * c.m ∧
    (∀ k, k < K → x[3 * k]? = xn[2 * k]? ∧ x[3 * k + 1]? = xn[2 * k + 1]? ∧ x[3 * k + 2]? = xi[2 * k + 1]?) ∧
    ∀ j, j < 2 * c.m → x[3 * K + j]? = xn[2 * K + j]? ∧ x[3 * K + 2 * c.m + j]? = xi[2 * K + j]?

end Verif.Turbo
