import Verif.Prelude.Float
import Verif.Prelude.Loops

/-!
# Quantizers

Models `src/Module/Quantizer/Pow2/Quantizer_pow2.cpp` and `src/Module/Quantizer/Custom/Quantizer_custom.cpp`.  The type `R` is
a format of `Prelude/Float.lean`; `Q` is a signed integer type of `bits` bits, or `R` itself.
-/

namespace Verif.Quantizer
open Exec Float

/-- `1 << k` in an `int`. -/
def shl1 (k : Int) : Exec Int := if 0 ≤ k ∧ k ≤ 30 then ok (2 ^ k.toNat) else ub

/-- `((1 << (pos -2))) + ((1 << (pos -2)) -1)`, `Quantizer_pow2.cpp:66`, `Quantizer_custom.cpp:58`. -/
def valMax (pos : Int) : Exec Int := shl1 (pos - 2) >>= fun x => ok (x + (x - 1))

/-- `(unsigned) x` of a `short`. -/
def toUnsigned (x : Int) : Int := x % 2 ^ 32

/-- `Quantizer_pow2<R,Q>`, `Q` an integer type: `val_max` and `factor` (`val_min` is `-val_max`). -/
structure Pow2 where
  max : Int
  factor : Int
  deriving DecidableEq, Repr

/-- `Quantizer_pow2(N, fixed_point_pos)`, `Quantizer_pow2.cpp:12-31`. -/
def Pow2.make2 (bits : Nat) (f : Int) : Exec Pow2 :=
  valMax bits >>= fun m => shl1 f >>= fun fac =>
    if (bits : Int) ≤ toUnsigned f then exc .invalidArgument else ok ⟨m, fac⟩

/-- `Quantizer_pow2(N, fixed_point_pos, saturation_pos)`, `Quantizer_pow2.cpp:62-118`. -/
def Pow2.make3 (bits : Nat) (f s : Int) : Exec Pow2 :=
  valMax s >>= fun m => shl1 f >>= fun fac =>
    if f ≤ 0 then exc .invalidArgument
    else if s < 2 then exc .invalidArgument
    else if s < f then exc .invalidArgument
    else if (bits : Int) ≤ toUnsigned f then exc .invalidArgument
    else valMax bits >>= fun lim => if lim < m then exc .invalidArgument else if -m < -lim then exc .invalidArgument else ok ⟨m, fac⟩

/-- `std::max`. -/
def fmax (a b : Fl) : Fl := if a.lt b then b else a
/-- `std::min`. -/
def fmin (a b : Fl) : Fl := if b.lt a then b else a

/-- `tools::saturate`, `utils.hxx:67-71`. -/
def saturate (v lo hi : Fl) : Fl := fmin (fmax v lo) hi

/-- Conversion to a signed integer type of `bits` bits: truncation, undefined if the result does not fit. -/
def cast (bits : Nat) : Fl → Exec Int
  | .fin q =>
    let z := if q < 0 then -⌊-q⌋ else ⌊q⌋
    if -2 ^ (bits - 1) ≤ z ∧ z < 2 ^ (bits - 1) then ok z else ub
  | _ => ub

/-- The quantization of a value, `Quantizer_pow2.cpp:165`. -/
def Pow2.quant (F : Fmt) (bits : Nat) (c : Pow2) (y : Fl) : Exec Int :=
  cast bits (saturate (F.mul (F.of c.factor) y).round (F.of (-c.max)) (F.of c.max))

/-- A frame: the loop of `_process`, `Quantizer_pow2.cpp:163-165` and `Quantizer_custom.cpp:197-198`. -/
def process (N : Nat) (quant : Fl → Exec Int) (y : List Fl) (out : List Int) : Exec (List Int) :=
  forN N (fun i o => rd y i >>= fun v => quant v >>= fun q => wr o i q) out

/-- The quantization of a value when `Q` is `R`, `Quantizer_pow2.cpp:37-44` and `:165`: all the constants are 0. -/
def quantFloat (F : Fmt) (y : Fl) : Fl := saturate (F.mul (F.of 0) y).round (F.of 0) (F.of 0)

/-- `Quantizer_custom<R,Q>`: `val_max` and `delta_inv`. -/
structure Cust where
  max : Int
  delta : Fl
  deriving DecidableEq

/-- `(R)1.0 / ((R)std::abs(x) / (R)val_max)`, `Quantizer_custom.cpp:110` and `:194`. -/
def deltaOf (F : Fmt) (max : Int) (x : Fl) : Fl := F.div (F.of 1) (F.div x.abs (F.of max))

/-- `Quantizer_custom(N, saturation_pos)`, `Quantizer_custom.cpp:54-72`: the range is taken from the first frame. -/
def Cust.makeAuto (bits : Nat) (s : Int) : Exec Cust :=
  valMax s >>= fun m => if (bits : Int) < toUnsigned s then exc .invalidArgument else ok ⟨m, .fin 0⟩

/-- `Quantizer_custom(N, min_max, saturation_pos)`, `Quantizer_custom.cpp:146-164`. -/
def Cust.make (F : Fmt) (bits : Nat) (range : Fl) (s : Int) : Exec Cust :=
  valMax s >>= fun m => if (bits : Int) < toUnsigned s then exc .invalidArgument else ok ⟨m, deltaOf F m range⟩

/-- The quantization of a value, `Quantizer_custom.cpp:198`. -/
def Cust.quant (F : Fmt) (bits : Nat) (c : Cust) (y : Fl) : Exec Int :=
  cast bits (saturate (F.mul y c.delta).round (F.of (-c.max)) (F.of c.max))

/-- `tmp[i] = std::abs(Y_N1[i])`, `Quantizer_custom.cpp:183-190` (infinite values are not modelled; the average is not used). -/
def absFin : Fl → ℚ
  | .fin q => |q|
  | _ => 0

/-- The range of the first frame, `Quantizer_custom.cpp:181-195`. -/
def Cust.calibrate (F : Fmt) (N : Nat) (c : Cust) (y : List Fl) : Exec Cust :=
  if c.delta = .fin 0 then
    rd (((y.take N).map absFin).mergeSort) (N / 10 * 8) >>= fun x => ok { c with delta := deltaOf F c.max (.fin x) }
  else ok c

/-- `Quantizer_custom::_process`, `Quantizer_custom.cpp:175-199`. -/
def Cust.process (F : Fmt) (bits N : Nat) (c : Cust) (y : List Fl) (out : List Int) : Exec (Cust × List Int) :=
  c.calibrate F N y >>= fun c => Quantizer.process N (c.quant F bits) y out >>= fun o => ok (c, o)

/-! ## Vectorised version

The instructions are those of x86 (MIPP is not part of the repository): rounding to the nearest even, conversions to `int`
which give the least `int` for values that do not fit, packing with saturation. -/

/-- `_mm256_cvtps_epi32` after `_mm256_round_ps`. -/
def cvtInt : Fl → Int
  | .fin q => if -2 ^ 31 ≤ rne q ∧ rne q < 2 ^ 31 then rne q else -2 ^ 31
  | _ => -2 ^ 31

/-- Saturation. -/
def clampI (lo hi x : Int) : Int := min (max x lo) hi

/-- A lane of the vectorised loop of `Quantizer_pow2_fast::_process`, `Quantizer_pow2_fast.cpp:186-197` (16 bits) and
`:224-243` (8 bits): multiplication, rounding, conversion, packing to 16 then `bits` bits, saturation. -/
def Pow2.lane (F : Fmt) (bits : Nat) (c : Pow2) (y : Fl) : Int :=
  clampI (-c.max) c.max (clampI (-2 ^ (bits - 1)) (2 ^ (bits - 1) - 1) (clampI (-2 ^ 15) (2 ^ 15 - 1) (cvtInt (F.mul (F.of c.factor) y))))

/-- `Quantizer_pow2_fast::_process`, `Quantizer_pow2_fast.cpp:171-203` and `:209-247`: `w` values per register of the output
type, the rest as in `Quantizer_pow2`. -/
def Pow2.processFast (F : Fmt) (bits N w : Nat) (c : Pow2) (y : List Fl) (out : List Int) : Exec (List Int) :=
  forN N (fun i o => rd y i >>= fun v =>
    (if i < N / w * w then ok (c.lane F bits v) else c.quant F bits v) >>= fun q => wr o i q) out

end Verif.Quantizer
