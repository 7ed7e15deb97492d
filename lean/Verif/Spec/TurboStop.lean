import Verif.Model.TurboDec

/-! # Turbo decoder: the checks that stop the decoding -/

namespace Verif.Turbo
variable {R D : Type}

/-- The check of a post-processing that can stop the decoding. -/
def PP.checks : PP R → Option (List Int → Bool)
  | .crc _ c => some c
  | .fnc _ c _ _ _ => some c
  | _ => none

/-- The post-processings that cannot stop the decoding. -/
def strip (pps : List (PP R)) : List (PP R) := pps.filter fun p => p.checks.isNone

/-- The same decoder, without the post-processings that can stop it. -/
def TDec.unchecked (d : TDec R) : TDec R := { d with pps := strip d.pps }

/-- The decoders that calls can lead to, with any component decoders, post-processings and inputs. -/
inductive Any (A : BCJR.Arith R D) (zero : R) (pps : List (PP R)) : TDec R → Prop
  | init {fill K N nIte n i core nf bf d} : TDec.mk? fill K N nIte n i core nf bf pps = .ok d → Any A zero pps d
  | decode {d f y r} : Any A zero pps d → d.decode A zero f y = .ok r → Any A zero pps r.1

end Verif.Turbo
