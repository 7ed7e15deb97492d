import Verif.Prelude.Float

/-! # Vocabulary for quantizers -/

namespace Verif.Quantizer
open Float

/-- `z` is the nearest integer to `q`, the one farther from zero when there are two. -/
def NearestAway (q : ℚ) (z : ℤ) : Prop := |(z : ℚ) - q| ≤ 1 / 2 ∧ (|(z : ℚ) - q| = 1 / 2 → |q| < |(z : ℚ)|)

/-- The formats for `float` and `double` are such. -/
structure Std (F : Fmt) : Prop where
  p : 24 ≤ F.p
  emin : F.emin ≤ 0
  emax : (F.p : ℤ) ≤ F.emax
  big : 31 ≤ F.emax

theorem std32 : Std b32 := ⟨by decide, by decide, by decide, by decide⟩
theorem std64 : Std b64 := ⟨by decide, by decide, by decide, by decide⟩

end Verif.Quantizer
