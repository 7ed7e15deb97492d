import Verif.Spec.BCJR
import Verif.Spec.Turbo

/-! # Specification of the iterative decoding of turbo codes, on integers

Each half iteration computes the max-log posterior LLRs of the message bits for one of the two convolutional codes, from the LLRs of the
channel and the extrinsic LLRs of the other code. -/

namespace Verif.Turbo
open Verif.RSC Verif.BCJR

/-- LLR of index `j` of the received word. -/
def at0 (y : List Int) (j : Nat) : Int := y.getD j 0

/-- LLRs of the systematic symbols of the first code: the message, then its tail.  `bf`: layout of `IsTurbo`, else of
`IsTurboInterlaced`. -/
def sysN (bf : Bool) (K : Nat) (y : List Int) (t : Nat) : Int :=
  if bf then at0 y t else if t < K then at0 y (3 * t) else at0 y (3 * K + 2 * (t - K))

/-- LLRs of the parities of the first code. -/
def parN (bf : Bool) (K mn : Nat) (y : List Int) (t : Nat) : Int :=
  if bf then at0 y (K + mn + t) else if t < K then at0 y (3 * t + 1) else at0 y (3 * K + 2 * (t - K) + 1)

/-- LLRs of the systematic symbols of the second code: the interleaved message, then its tail. -/
def sysI (bf : Bool) (K mn : Nat) (π : Nat → Nat) (y : List Int) (t : Nat) : Int :=
  if t < K then sysN bf K y (π t) else if bf then at0 y (2 * (K + mn) + (t - K)) else at0 y (3 * K + 2 * mn + 2 * (t - K))

/-- LLRs of the parities of the second code. -/
def parI (bf : Bool) (K mn mi : Nat) (y : List Int) (t : Nat) : Int :=
  if bf then at0 y (2 * (K + mn) + mi + t) else if t < K then at0 y (3 * t + 2) else at0 y (3 * K + 2 * mn + 2 * (t - K) + 1)

/-- Channel LLRs plus extrinsic LLRs of the message. -/
def plus (K : Nat) (s a : Nat → Int) (t : Nat) : Int := if t < K then s t + a t else s t

/-- `h` are the max-log posterior LLRs of the message bits, from LLRs `s` and `p` bounded by `M`. -/
def Half (c : Code) (K : Nat) (M : Int) (s p h : Nat → Int) : Prop :=
  (∀ t, t < K + c.m → |s t| + |p t| ≤ M) ∧ ∀ t, t < K → MaxLog true c.m c.g0 c.g1 K s p t (h t)

/-- Decisions. -/
def signs (K : Nat) (h : Nat → Int) : List Int := (List.range K).map fun t => if h t < 0 then 1 else 0

/-- A post-processing: scaling of the extrinsic LLRs, undefined where it is not exact, or early termination. -/
inductive Post where
  | scale (f : Bool → Nat → Int → Option Int)
  | crc (start : Nat) (chk : List Int → Bool)

/-- The post-processings change the extrinsic LLRs `e` of the first code into `e'`, at iteration `ite`; `some v`: they stop the decoding
with the decisions `v`.  `L`: input LLRs; `lim`: largest LLR. -/
inductive PostN (K : Nat) (lim : Int) (ite : Nat) (L : Nat → Int) : List Post → (Nat → Int) → (Nat → Int) → Option (List Int) → Prop
  | nil {e} : PostN K lim ite L [] e e none
  | scale {f ps e e' e'' o} : (∀ t, t < K → f false ite (e t) = some (e' t) ∧ |e' t| ≤ lim ∧ |e' t + L t| ≤ lim) →
      PostN K lim ite L ps e' e'' o → PostN K lim ite L (.scale f :: ps) e e'' o
  | stop {start chk ps e} : start ≤ ite → chk (signs K fun t => e t + L t) = true →
      PostN K lim ite L (.crc start chk :: ps) e e (some (signs K fun t => e t + L t))
  | go {start chk ps e e' o} : ¬(start ≤ ite ∧ chk (signs K fun t => e t + L t) = true) → PostN K lim ite L ps e e' o →
      PostN K lim ite L (.crc start chk :: ps) e e' o

/-- The same on the extrinsic LLRs of the second code. -/
inductive PostI (K : Nat) (lim : Int) (ite : Nat) (L : Nat → Int) : List Post → (Nat → Int) → (Nat → Int) → Prop
  | nil {e} : PostI K lim ite L [] e e
  | scale {f ps e e' e''} : (∀ t, t < K → f true ite (e t) = some (e' t) ∧ |e' t| ≤ lim ∧ |e' t + L t| ≤ lim) →
      PostI K lim ite L ps e' e'' → PostI K lim ite L (.scale f :: ps) e e''
  | crc {start chk ps e e'} : PostI K lim ite L ps e e' → PostI K lim ite L (.crc start chk :: ps) e e'

/-- The received LLRs, seen from the two codes. -/
structure Rx where
  sn : Nat → Int
  pn : Nat → Int
  si : Nat → Int
  pi : Nat → Int

/-- `Run … ite a v`: the iterations from `ite` to `nIte`, with a priori LLRs `a`, decide `v`, and every LLR given to a component decoder is
at most `M`. -/
inductive Run (cn ci : Code) (K : Nat) (π : Nat → Nat) (M lim : Int) (ps : List Post) (r : Rx) (nIte : Nat) : Nat → (Nat → Int) → List Int → Prop
  | stop {ite a h e v} : ite ≤ nIte → Half cn K M (plus K r.sn a) r.pn h →
      PostN K lim ite (plus K r.sn a) ps (fun t => h t - plus K r.sn a t) e (some v) → Run cn ci K π M lim ps r nIte ite a v
  | last {a h e b h' e' v} : Half cn K M (plus K r.sn a) r.pn h →
      PostN K lim nIte (plus K r.sn a) ps (fun t => h t - plus K r.sn a t) e none → (∀ t, t < K → b t = e (π t)) →
      Half ci K M (plus K r.si b) r.pi h' → PostI K lim nIte (plus K r.si b) ps (fun t => h' t - plus K r.si b t) e' →
      v.length = K → (∀ t, t < K → v[π t]? = some (if e' t + plus K r.si b t < 0 then 1 else 0)) → Run cn ci K π M lim ps r nIte nIte a v
  | step {ite a h e b h' e' a' v} : ite < nIte → Half cn K M (plus K r.sn a) r.pn h →
      PostN K lim ite (plus K r.sn a) ps (fun t => h t - plus K r.sn a t) e none → (∀ t, t < K → b t = e (π t)) →
      Half ci K M (plus K r.si b) r.pi h' → PostI K lim ite (plus K r.si b) ps (fun t => h' t - plus K r.si b t) e' →
      (∀ t, t < K → a' (π t) = e' t) → Run cn ci K π M lim ps r nIte (ite + 1) a' v → Run cn ci K π M lim ps r nIte ite a v

end Verif.Turbo
