import Verif.Model.Bin

/-! # Vocabulary of the properties of the modems with two points -/

namespace Verif.Bin
open Verif.Float Verif.Cstl Verif.Modem Exec

/-- The modem is a BPSK, fast or not. -/
def Psk : Kind → Prop
  | .bpsk _ => True
  | .fast _ _ _ => True
  | _ => False

/-- The value sent for a bit: 1 and -1 for a BPSK, 0 and 1 for an OOK. -/
def signal (k : Kind) (x : Int) : Fl :=
  match k with
  | .bpsk _ => if x = 0 then .fin 1 else .fin (-1)
  | .fast _ _ _ => if x = 0 then .fin 1 else .fin (-1)
  | _ => if x = 0 then .fin 0 else .fin 1

/-- The modem can modulate: the fast one is made for some types only. -/
def Typed : Kind → Prop
  | .fast _ t _ => t = true
  | _ => True

/-- The modem ignores the noise. -/
def NoSig : Kind → Prop
  | .bpsk n => n = true
  | .fast n _ _ => n = true
  | .awgn n => n = true
  | _ => False

/-- The states a modem gets to by modulating and demodulating (`filter` excepted). -/
inductive Reach (L : Lib) (g : Cfg) : St → Prop
  | init : Reach L g (init g.kind)
  | modulate {st st' x out o} : Reach L g st → step L g st (.modulate x) out = ok (st', o) → Reach L g st'
  | demodulate {st st' cp h y out o} : Reach L g st → step L g st (.demodulate cp h y) out = ok (st', o) → Reach L g st'

/-- The log-likelihood ratio of a bit sent as `a` (for 0) or `b` (for 1) and received as `y` with a Gaussian noise of standard deviation `s`:
the difference of the exponents of the two densities. -/
def gaussian (a b y s : ℚ) : ℚ := (-(y - a) ^ 2 - -(y - b) ^ 2) / (2 * s ^ 2)

/-- What is supposed of the logarithm of the library between `2 ^ -149` and 1, where the exact one is at most `q - 1` and greater than -104. -/
def Lib.LogOk (L : Lib) : Prop := ∀ q : ℚ, 1 / 2 ^ 149 ≤ q → q < 1 → ∃ l : ℚ, L.log (.fin q) = .fin l ∧ l ≤ (q - 1) / 2 ∧ -200 ≤ l

/-- The noise of a frame which arrives unchanged is plausible: the LLRs neither overflow nor underflow. -/
def Plain (g : Cfg) (cp : Fl) : Prop :=
  match g.kind with
  | .bpsk n => n = true ∨ ∃ s : ℚ, cp = .fin s ∧ |s| < 2 ^ 63
  | .fast n _ _ => n = true ∨ ∃ s : ℚ, cp = .fin s ∧ |s| < 2 ^ 63
  | .awgn n => n = true ∨ ∃ s : ℚ, cp = .fin s ∧ 1 / 2 ^ 60 ≤ |s|
  | .bec => True
  | .bsc => ∃ p : ℚ, cp = .fin p ∧ b32.Rep p ∧ 0 ≤ p ∧ p < 1 / 2

/-- Number of erasures before position `i`. -/
def before (e : List Bool) (i : Nat) : Nat := (e.take i).count true

end Verif.Bin
