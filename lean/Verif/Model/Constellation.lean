import Verif.Prelude.Exec
import Verif.Prelude.Float

/-!
# Constellations

Model of `include/Tools/Constellation/`.  Points are complex numbers over the floating point type `R` of the class (`F`: `float`
or `double`).  The functions of the mathematical library (`sqrt`, `cos`, `sin`) and the complex division of the compiler are the
parameters `Lib` of the model: no property of them is assumed unless a theorem says so.
-/

namespace Verif.Cstl
open Verif.Float Exec

/-- `std::complex<R>`. -/
structure Pt where
  re : Fl
  im : Fl
  deriving DecidableEq

/-- What the code takes from the C++ library: `std::sqrt` on `double`, `std::sqrt`, `std::cos` and `std::sin` on `R`, and the
division of two `std::complex<R>`. -/
structure Lib where
  sqrt : Fl → Fl
  sqrtR : Fl → Fl
  cos : Fl → Fl
  sin : Fl → Fl
  cdiv : Pt → Pt → Pt

/-- Conversion of a floating point value to the type `R`. -/
def cvt (F : Fmt) : Fl → Fl
  | .fin q => F.of q
  | x => x

/-- A constellation (`Constellation.hpp:106-112`): bits per symbol, number of symbols, points, `is_cplx`. -/
structure Cstl where
  nBps : Nat
  nSymbs : Nat
  pts : List Pt
  cplx : Bool
  deriving DecidableEq

/-- `Constellation(std::vector<S>&& symbols, name)` (`Constellation.hxx:28-44`).  The logarithm of an empty vector is infinite and its
conversion to `unsigned` undefined; so is the shift of an `int` by 31 or more.  The name is not modelled. -/
def fromSymbols (symbols : List Pt) : Exec Cstl :=
  if symbols.length = 0 then ub
  else if 31 ≤ Nat.log2 symbols.length then ub
  else if symbols.length ≠ 2 ^ Nat.log2 symbols.length then exc .invalidArgument
  else ok ⟨Nat.log2 symbols.length, 2 ^ Nat.log2 symbols.length, symbols, true⟩

/-- `Constellation(n_bps, name)` (`Constellation.hxx:46-51`): `2 ^ n_bps` null points. -/
def ofBits (n : Nat) : Exec Cstl :=
  if 63 ≤ n then ub else fromSymbols (List.replicate (2 ^ n) ⟨.fin 0, .fin 0⟩)

/-- The bits of `j`, least significant first (`Constellation.hxx:136-141`). -/
def bitsOf (n j : Nat) : List Nat := (List.range n).map fun l => j / 2 ^ l % 2

/-- `has_complex_symbols` (`Constellation.hxx:16-26`); the table has `n_symbs` points. -/
def hasComplex (pts : List Pt) : Bool := pts.any fun p => p.im ≠ .fin 0

/-- `build` (`Constellation.hxx:130-149`) with a `bits_to_symbol` which does not throw `unimplemented_error`.  The buffer of bits,
wholly rewritten for each symbol, is built in one go. -/
def build (sym : List Nat → Exec Pt) (c : Cstl) : Exec Cstl := do
  let pts ← forN c.nSymbs (fun j t => do
    let p ← sym (bitsOf c.nBps j)
    wr t j p) c.pts
  ok { c with pts := pts, cplx := hasComplex pts }

/-- The amplitude computed by `bits_to_symbol` before it is scaled (`PAM/Constellation_PAM.hxx:26-28`, `PSK/Constellation_PSK.hxx:29-31`,
and `QAM/Constellation_QAM.hxx:27-34` for each of the two axes, from bit `off`): `n` bits.  The variable of the loop is
`j = i + 1`. -/
def amplitude (F : Fmt) (n off : Nat) (bits : List Nat) : Exec Fl := do
  let b0 ← rd bits off
  forN (n - 1) (fun i s => do
    let b ← rd bits (off + (i + 1))
    ok (F.mul (F.add (.fin 1) (F.add (.fin b) (.fin b)).neg) (F.add (.fin (2 ^ (i + 1) : Nat)) s.neg)))
    (F.add (.fin 1) (F.add (.fin b0) (.fin b0)).neg)

/-- What `Constellation_PAM` takes the square root of (`PAM/Constellation_PAM.hxx:17`): the product of two `unsigned` is taken modulo
`2 ^ 32`, converted to `R`, and the rest is computed in `double`. -/
def pamEnergy (F : Fmt) (nSymbs : Nat) : Fl :=
  b64.div (b64.add (cvt F (.fin (nSymbs * nSymbs % 2 ^ 32 : Nat))) (.fin (-1))) (.fin 3)

/-- `Constellation_PAM` (`PAM/Constellation_PAM.hxx:13-31`). -/
def pam (L : Lib) (F : Fmt) (n : Nat) : Exec Cstl := do
  let c ← ofBits n
  build (fun bits => do
    let s ← amplitude F c.nBps 0 bits
    ok ⟨F.div s (cvt F (L.sqrt (pamEnergy F c.nSymbs))), .fin 0⟩) c

/-- `M_PI`, a `double`. -/
def mPi : Fl := b64.of (314159265358979323846 / 10 ^ 20)

/-- `Constellation_PSK` (`PSK/Constellation_PSK.hxx:17-35`). -/
def psk (L : Lib) (F : Fmt) (n : Nat) : Exec Cstl := do
  let c ← ofBits n
  build (fun bits => do
    let s ← amplitude F c.nBps 0 bits
    let t := F.div (F.mul (F.add s (.fin 1)) (cvt F mPi)) (.fin c.nSymbs)
    ok ⟨L.cos t, L.sin t⟩) c

/-- What `Constellation_QAM` takes the square root of (`QAM/Constellation_QAM.hxx:16`): a product in `R`, a division in `double`. -/
def qamEnergy (F : Fmt) (nSymbs : Nat) : Fl :=
  b64.div (F.mul (.fin 2) (cvt F (.fin (nSymbs - 1 : Nat)))) (.fin 3)

/-- `Constellation_QAM` (`QAM/Constellation_QAM.hxx:12-37`): `bits[bps / 2]` is read before the loop, `bits[0]` even when `bps / 2` is
zero. -/
def qam (L : Lib) (F : Fmt) (n : Nat) : Exec Cstl := do
  let c ← ofBits n
  build (fun bits => do
    let i ← amplitude F (c.nBps / 2) 0 bits
    let q ← amplitude F (c.nBps / 2) (c.nBps / 2) bits
    ok (L.cdiv ⟨i, q⟩ ⟨cvt F (L.sqrt (qamEnergy F c.nSymbs)), .fin 0⟩)) c

/-- A line of the file of a user constellation: a comment, or the numbers which could be read from it. -/
inductive Line where
  | comment
  | nums (l : List Fl)
  deriving DecidableEq

/-- The loop which reads the points (`User/Constellation_user.hxx:42-62`): the points read so far and the sum of their energies. -/
def readLines (F : Fmt) : List Line → List Pt → Fl → Exec (List Pt × Fl)
  | [], pts, es => ok (pts, es)
  | .comment :: r, pts, es => readLines F r pts es
  | .nums l :: r, pts, es =>
    if 3 ≤ l.length then exc .runtimeError
    else if l.length = 2 then
      readLines F r (pts ++ [⟨l.getD 0 .nan, l.getD 1 .nan⟩])
        (F.add es (F.add (F.mul (l.getD 0 .nan) (l.getD 0 .nan)) (F.mul (l.getD 1 .nan) (l.getD 1 .nan))))
    else do
      let x ← rd l 0
      readLines F r (pts ++ [⟨x, .fin 0⟩]) (F.add es (F.add (F.mul x x) (F.mul (.fin 0) (.fin 0))))

/-- `Constellation_user` (`User/Constellation_user.hxx:17-69`) on the lines of a file which could be opened.  `build` is not called. -/
def user (L : Lib) (F : Fmt) (lines : List Line) : Exec Cstl := do
  let r ← readLines F lines [] (.fin 0)
  let s := L.sqrtR (F.div r.2 (.fin r.1.length))
  fromSymbols (r.1.map fun p => L.cdiv p ⟨s, .fin 0⟩)

end Verif.Cstl
