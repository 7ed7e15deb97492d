import Verif.Model.CRC

/-!
# Cyclic redundancy checks of several frames at once

Models `src/Module/CRC/Polynomial/CRC_polynomial_inter.cpp`.  `n` is the number of elements of a vector register, which is also the
number of frames per call (`set_n_frames_per_wave(mipp::nElReg<B>())`, line 19).  The operations on registers are modelled element by
element: every turn of the loops reads and writes its own element.
-/

namespace Verif.CRC
open Exec

/-- `x ^ p` where `p` is a coefficient of the polynomial, 0 or 1 (`CRC_polynomial.cpp:40-42`), and `x` a signed integer. -/
def xor1 (x p : Int) : Int := if p = 0 then x else if x % 2 = 0 then x + 1 else x - 1

/-- `_generate_INTER`, `CRC_polynomial_inter.cpp:80-111`, on the scratch buffer `buff_crc_inter`.  The mask `r_mask` (line 97) depends on
the contents of the buffer before the loop over the coefficients; it keeps the elements which are zero (`andb`, `andnb`, `orb`,
lines 102-105).  The last copy (line 110) has no effect when called from `_check`, where the destination is the source. -/
def Crc.generateInter (c : Crc) (n : Nat) (buff uIn : List Int) (offIn loopSize : Nat) : Exec (List Int) := do
  let buff ← copyTo uIn offIn loopSize buff 0
  let buff ← forN (n * c.size) (fun i b => wr b (b.length - n * c.size + i) 0) buff
  forN ((loopSize + n - 1) / n) (fun t b0 =>
    forN (c.size + 1) (fun j b => do
      let p ← rd c.poly j
      forN n (fun l b => do
        let z ← rd b0 (n * t + l)
        let x ← rd b (n * t + n * j + l)
        wr b (n * t + n * j + l) (if z = 0 then x else xor1 x p)) b) b0) buff

/-- The `while` loop of `_check`, `CRC_polynomial_inter.cpp:54-55`, from index `i` with `r` positions left. -/
def equalLoop (b v : List Int) (off : Nat) : Nat → Nat → Exec Bool
  | _, 0 => ok true
  | i, r + 1 => do
    let x ← rd b (off + i)
    let y ← rd v (off + i)
    if x = y then equalLoop b v off (i + 1) r else ok false

/-- `CRC_polynomial_inter::_check`, `CRC_polynomial_inter.cpp:42-58`. -/
def Crc.checkInter (c : Crc) (n : Nat) (buff vK : List Int) : Exec Bool := do
  let b ← c.generateInter n buff vK 0 (c.K * n)
  equalLoop b vK (c.K * n) 0 (n * c.size)

/-- `CRC_polynomial_inter::_check_packed`, `CRC_polynomial_inter.cpp:60-65`. -/
def Crc.checkPackedInter (_c : Crc) (_n : Nat) (_vK : List Int) : Exec Bool := exc .unimplemented

/-- `CRC_polynomial_inter::_build`, `CRC_polynomial_inter.cpp:32-40`, with `CRC_polynomial::_build` on each frame
(`CRC_polynomial.cpp:108-134`); the scratch buffer `buff_crc` is kept from one frame to the next. -/
def Crc.buildInter (c : Crc) (n : Nat) (buff uK1 uK2 : List Int) : Exec (List Int) := do
  let s ← forN n (fun f (s : List Int × List Int) => do
    let o ← copyTo uK1 (f * c.K) c.K s.2 (f * (c.K + c.size))
    let b ← c.generate s.1 uK1 (f * c.K) c.K
    let o ← copyTo b c.K c.size o (f * (c.K + c.size) + c.K)
    ok (b, o)) (buff, uK2)
  ok s.2

/-- `CRC_polynomial_inter::_extract`, `CRC_polynomial_inter.cpp:67-75`, with `CRC_polynomial::_extract` on each frame. -/
def Crc.extractInter (c : Crc) (n : Nat) (vK1 vK2 : List Int) : Exec (List Int) :=
  forN n (fun f o => copyTo vK1 (f * (c.K + c.size)) c.K o (f * c.K)) vK2

end Verif.CRC
