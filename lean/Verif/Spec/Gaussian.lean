import Verif.Spec.Events
import Verif.Model.Gaussian

/-! # Fast generator of Gaussian noise: specification -/

namespace Verif.Gaussian
open Exec Verif.Float Verif.Prng Verif.Events

/-- The length of noise drawn in whole pairs of registers. -/
def vec (L n : Nat) : Nat := n / (L * 2) * (L * 2)

/-- What gives the noise at place `k` of `n`, when `i` numbers were drawn from the first generator and `j` from each lane: the standard deviation
of Box and Muller's radius, `√(-2 log u1)`, and the sine or the cosine of the angle `2π u2`.  In pairs of registers the cosines come first. -/
def polar (fv fs : Fns) (L : Nat) (s : BitVec 32) (i j n k : Nat) : Fl × Fl :=
  if k < vec L n then
    let u := fun m => simdOo (number (laneSeed s (k % L)) (j + 2 * (k / (L * 2)) + m))
    (fv.sqrt (b32.mul (fv.log (u 0)) (.fin (-2))), (if k % (L * 2) < L then fv.cos else fv.sin) (b32.mul (u 1) fv.twopi))
  else
    let u := fun m => oo b32 (number s (i + 2 * ((k - vec L n) / 2) + m))
    (fs.sqrt (b32.mul (fs.log (u 0)) (.fin (-2))), (if (k - vec L n) % 2 = 0 then fs.sin else fs.cos) (b32.mul (u 1) fs.twopi))

/-- The noise of standard deviation `sigma` and mean `mu`. -/
def scaled (sigma mu : Fl) (z : Fl × Fl) : Fl := b32.add (b32.mul (b32.mul z.1 sigma) z.2) mu

/-- The noise drawn by several calls. -/
def expect (fv fs : Fns) (L : Nat) (s : BitVec 32) (i j : Nat) : List Op → List (List Fl)
  | [] => []
  | .seed s' :: l => [] :: expect fv fs L s' L 0 l
  | .gen n sigma mu _ :: l => ((List.range n).map fun k => scaled sigma mu (polar fv fs L s i j n k)) ::
      expect fv fs L s (i + 2 * ((n - vec L n + 1) / 2)) (j + 2 * (n / (L * 2))) l

/-- The buffers have room for the noise. -/
def Op.Fits : Op → Prop
  | .seed _ => True
  | .gen n _ _ buf => buf.length = n

end Verif.Gaussian
