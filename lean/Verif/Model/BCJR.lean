import Verif.Prelude.Float
import Verif.Model.RSC

/-! # The max-log BCJR decoder of convolutional codes

Models `include/Module/Decoder/RSC/BCJR/Decoder_RSC_BCJR.hxx`, `Seq_generic/Decoder_RSC_BCJR_seq_generic.hxx` and
`Seq_generic/Decoder_RSC_BCJR_seq_generic_std.hxx` (implementation "GENERIC" of the factory) with `MAX1 = MAX2 =
tools::max`, for one frame per wave.  `alpha[j][i]` and `beta[j][i]` are kept column by column: the list of index `i`
holds the metrics of the states `j` at time `i`. -/

namespace Verif.BCJR
open Exec Verif.RSC Verif.Float

/-- The operations on the types `R` (LLRs, metrics) and `D` (`RD`, sums of three metrics). -/
structure Arith (R D : Type) where
  /-- metric of state 0 at both ends -/
  zero : R
  /-- metric of the other states at both ends, `Decoder_RSC_BCJR_seq_generic.hxx:14-80` -/
  low : R
  /-- `-std::numeric_limits<RD>::max()` -/
  lowD : D
  /-- `div_or_not(sys + par)`, `Decoder_RSC_BCJR_seq_generic.hxx:109-126` -/
  gsum : R → R → R
  /-- `div_or_not(sys - par)` -/
  gdiff : R → R → R
  /-- `x + c * g` with an `int` `c` -/
  madd : R → Int → R → R
  add : R → R → R
  sub : R → R → R
  max1 : R → R → R
  /-- whether the column of index `i` is normalized, `Decoder_RSC_BCJR_seq_generic.hxx:158-216` -/
  nrm : Nat → Bool
  /-- one element of a normalized column, from this element and the one of state 0 -/
  nsub : R → R → R
  /-- `(RD)a + (RD)b + (RD)g` -/
  sum3 : R → R → R → D
  /-- `(RD)a + (RD)b - (RD)g` -/
  dif3 : R → R → R → D
  max2 : D → D → D
  /-- `post::compute(max0 - max1)`, `Decoder_RSC_BCJR_seq_generic.hxx:129-155` -/
  post : D → D → R
  /-- the last subtraction, of the input LLR -/
  fin : R → R → R
  /-- `mipp::Reg<R>` addition of the hard decision, `Decoder_RSC_BCJR.hxx:134` -/
  hadd : R → R → R
  /-- sign bit, `Decoder_RSC_BCJR.hxx:137` -/
  neg : R → Bool

/-- Conversion to a signed integer type of `b` bits. -/
def wrap (b : Nat) (x : Int) : Int := x.bmod (2 ^ b)

/-- `saturate`, `include/Tools/Math/utils.hxx:67-71`. -/
def sat (lo hi x : Int) : Int := min (max x lo) hi

/-- `R = RD = short`.  The sums are on `int`, then converted; the sum of two `mipp` registers saturates (MIPP is not part
of the tree). -/
def a16 : Arith Int Int where
  zero := 0
  low := -16384
  lowD := -32767
  gsum s p := wrap 16 (s + p)
  gdiff s p := wrap 16 (s - p)
  madd x c g := wrap 16 (x + c * g)
  add x g := wrap 16 (x + g)
  sub x g := wrap 16 (x - g)
  max1 := max
  nrm i := i % 8 == 0
  nsub x v := wrap 16 (x - v)
  sum3 a b g := wrap 16 (a + b + g)
  dif3 a b g := wrap 16 (a + b - g)
  max2 := max
  post a b := wrap 16 (a - b) / 2
  fin x s := wrap 16 (x - s)
  hadd x s := sat (-32768) 32767 (x + s)
  neg x := x < 0

/-- `R = signed char`, `RD = short`.  `norm_val` is subtracted on `int`, converted to `signed char` by the call of
`saturate<signed char>`. -/
def a8 : Arith Int Int where
  zero := 0
  low := -63
  lowD := -32767
  gsum s p := wrap 8 (s + p) / 2
  gdiff s p := wrap 8 (s - p) / 2
  madd x c g := wrap 8 (x + c * g)
  add x g := wrap 8 (x + g)
  sub x g := wrap 8 (x - g)
  max1 := max
  nrm _ := true
  nsub x v := sat (-63) 63 (wrap 8 (x - v))
  sum3 a b g := wrap 16 (a + b + g)
  dif3 a b g := wrap 16 (a + b - g)
  max2 := max
  post a b := sat (-63) 63 (wrap 16 (a - b))
  fin x s := wrap 8 (x - s)
  hadd x s := sat (-128) 127 (x + s)
  neg x := x < 0

/-- The largest finite number. -/
def maxF (F : Fmt) : ℚ := (2 ^ F.p - 1) * 2 ^ (F.emax - F.p)

/-- `std::max`. -/
def flMax (a b : Fl) : Fl := if Fl.lt a b then b else a

/-- `R = RD = float` or `double`.  The sign of a null LLR is not represented (a null `ext + sys` is `+0` in the code, as
the difference of two equal numbers). -/
def aF (F : Fmt) : Arith Fl Fl where
  zero := .fin 0
  low := .fin (-maxF F)
  lowD := .fin (-maxF F)
  gsum s p := F.mul (F.add s p) (F.of (1 / 2))
  gdiff s p := F.mul (F.add s p.neg) (F.of (1 / 2))
  madd x c g := F.add x (F.mul (F.of c) g)
  add x g := F.add x g
  sub x g := F.add x g.neg
  max1 := flMax
  nrm _ := false
  nsub x _ := x
  sum3 a b g := F.add (F.add a b) g
  dif3 a b g := F.add (F.add a b) g.neg
  max2 := flMax
  post a b := F.add a b.neg
  fin x s := F.add x s.neg
  hadd x s := F.add x s
  neg x := Fl.lt x (.fin 0)

/-- The cells written by `for (j = 0; j < n; j++) col[j] = f(j)`, where `f` does not read them. -/
def mapN {R : Type} (n : Nat) (f : Nat → Exec R) : Exec (List R) := forN n (fun j l => do let x ← f j; ok (l ++ [x])) []

/-- `trellis[r][j]`. -/
def tr (T : List (List Int)) (r j : Nat) : Exec Int := do let row ← rd T r; rd row j

/-- `gamma[r][t]`. -/
def gAt {R : Type} (gam : List (List R)) (r : Int) (t : Nat) : Exec R := do let row ← rdI gam r; rd row t

variable {R D : Type} (A : Arith R D)

/-- `compute_gamma`, `Decoder_RSC_BCJR_seq_generic_std.hxx:36-48`. -/
def gamma (L : Nat) (sys par : List R) : Exec (List (List R)) := do
  let g0 ← mapN L fun i => do let s ← rd sys i; let p ← rd par i; ok (A.gsum s p)
  let g1 ← mapN L fun i => do let s ← rd sys i; let p ← rd par i; ok (A.gdiff s p)
  ok [g0, g1]

/-- The new value of `alpha[j][i]`, `Decoder_RSC_BCJR_seq_generic_std.hxx:58-60`; `prev` is the column `i - 1` and `t` is
`i - 1`. -/
def alphaCell (T : List (List Int)) (gam : List (List R)) (prev : List R) (t j : Nat) : Exec R := do
  let p0 ← tr T 0 j
  let a0 ← rdI prev p0
  let c0 ← tr T 1 j
  let r0 ← tr T 2 j
  let g0 ← gAt gam r0 t
  let p1 ← tr T 3 j
  let a1 ← rdI prev p1
  let c1 ← tr T 4 j
  let r1 ← tr T 5 j
  let g1 ← gAt gam r1 t
  ok (A.max1 (A.madd a0 c0 g0) (A.madd a1 c1 g1))

/-- The new value of `beta[j][i]` (or `beta_cur[j]`), `Decoder_RSC_BCJR_seq_generic_std.hxx:74-76`, `126-128`, `171-173`;
`next` is the column `i + 1`. -/
def betaCell (T : List (List Int)) (gam : List (List R)) (next : List R) (i j : Nat) : Exec R := do
  let p0 ← tr T 6 j
  let b0 ← rdI next p0
  let r0 ← tr T 7 j
  let g0 ← gAt gam r0 i
  let p1 ← tr T 8 j
  let b1 ← rdI next p1
  let r1 ← tr T 9 j
  let g1 ← gAt gam r1 i
  ok (A.max1 (A.add b0 g0) (A.sub b1 g1))

/-- `RSC_BCJR_seq_generic_normalize`, `Decoder_RSC_BCJR_seq_generic.hxx:158-216`, on the column of index `i`. -/
def normalize (n i : Nat) (col : List R) : Exec (List R) :=
  if A.nrm i then do
    let v ← rd col 0
    mapN n fun j => do let x ← rd col j; ok (A.nsub x v)
  else ok col

/-- `compute_alpha`, `Decoder_RSC_BCJR_seq_generic_std.hxx:50-64`. -/
def computeAlpha (T : List (List Int)) (gam : List (List R)) (n L : Nat) (alpha : List (List R)) : Exec (List (List R)) :=
  forRange 1 L (fun i al => do
    let prev ← rd al (i - 1)
    let col ← mapN n (alphaCell A T gam prev (i - 1))
    let col ← normalize A n i col
    wr al i col) alpha

/-- `compute_beta`, `Decoder_RSC_BCJR_seq_generic_std.hxx:66-80`. -/
def computeBeta (T : List (List Int)) (gam : List (List R)) (n L : Nat) (beta : List (List R)) : Exec (List (List R)) :=
  forN (L - 1) (fun k be => do
    let i := L - 1 - k
    let next ← rd be (i + 1)
    let col ← mapN n (betaCell A T gam next i)
    let col ← normalize A n i col
    wr be i col) beta

/-- `(RD)alpha[j][i] + (RD)beta[trellis[6][j]][i+1] + (RD)gamma[trellis[7][j]][i]`. -/
def branch0 (T : List (List Int)) (gam : List (List R)) (al next : List R) (i j : Nat) : Exec D := do
  let a ← rd al j
  let p ← tr T 6 j
  let b ← rdI next p
  let r ← tr T 7 j
  let g ← gAt gam r i
  ok (A.sum3 a b g)

/-- `(RD)alpha[j][i] + (RD)beta[trellis[8][j]][i+1] - (RD)gamma[trellis[9][j]][i]`. -/
def branch1 (T : List (List Int)) (gam : List (List R)) (al next : List R) (i j : Nat) : Exec D := do
  let a ← rd al j
  let p ← tr T 8 j
  let b ← rdI next p
  let r ← tr T 9 j
  let g ← gAt gam r i
  ok (A.dif3 a b g)

/-- One of the two loops over the states of the extrinsic values, with the branches selected by row `r` of the trellis,
`Decoder_RSC_BCJR_seq_generic_std.hxx:147-165` (from state 1) and `192-210` (from state 0). -/
def scanSys (T : List (List Int)) (gam : List (List R)) (al next : List R) (i r j0 n : Nat) (m : D × D) : Exec (D × D) :=
  forRange j0 n (fun j m => do
    let c ← tr T r j
    if c = 1 then do
      let x ← branch0 A T gam al next i j
      ok (A.max2 m.1 x, m.2)
    else do
      let x ← branch1 A T gam al next i j
      ok (m.1, A.max2 m.2 x)) m

/-- One of the two loops of `compute_ext_par`, `Decoder_RSC_BCJR_seq_generic_std.hxx:226-245`, `247-266`. -/
def scanPar (T : List (List Int)) (gam : List (List R)) (al next : List R) (i r n : Nat) (m : D × D) : Exec (D × D) :=
  forN n (fun j m => do
    let c ← tr T r j
    let t7 ← tr T 7 j
    let t9 ← tr T 9 j
    if c = 1 ∧ t7 = 0 then do
      let x ← branch0 A T gam al next i j
      ok (A.max2 m.1 x, m.2)
    else if c = 1 ∧ t7 = 1 then do
      let x ← branch0 A T gam al next i j
      ok (m.1, A.max2 m.2 x)
    else if c = -1 ∧ t9 = 1 then do
      let x ← branch1 A T gam al next i j
      ok (A.max2 m.1 x, m.2)
    else if c = -1 ∧ t9 = 0 then do
      let x ← branch1 A T gam al next i j
      ok (m.1, A.max2 m.2 x)
    else ok m) m

/-- The extrinsic value computed by `compute_beta_ext` at time `i`, `Decoder_RSC_BCJR_seq_generic_std.hxx:139-167`. -/
def extAlt (T : List (List Int)) (gam : List (List R)) (al next sys : List R) (i n : Nat) : Exec R := do
  let m0 ← branch0 A T gam al next i 0
  let m1 ← branch1 A T gam al next i 0
  let m ← scanSys A T gam al next i 1 1 n (m0, m1)
  let m ← scanSys A T gam al next i 4 1 n m
  let s ← rd sys i
  ok (A.fin (A.post m.1 m.2) s)

/-- `compute_beta_ext`, `Decoder_RSC_BCJR_seq_generic_std.hxx:116-180`: the columns of `beta` are not kept. -/
def betaExt (T : List (List Int)) (gam : List (List R)) (n K nff : Nat) (alpha : List (List R)) (sys ext : List R) :
    Exec (List R) := do
  let a0 ← rd alpha 0
  let prev ← mapN n (fun j => rd a0 j)
  let prev ← forN nff (fun k prev => do
    let i := K + nff - 1 - k
    let col ← mapN n (betaCell A T gam prev i)
    normalize A n i col) prev
  let r ← forN K (fun k (st : List R × List R) => do
    let i := K - 1 - k
    let al ← rd alpha i
    let x ← extAlt A T gam al st.1 sys i n
    let ext ← wr st.2 i x
    let col ← mapN n (betaCell A T gam st.1 i)
    let col ← normalize A n i col
    ok (col, ext)) (prev, ext)
  ok r.2

/-- `compute_ext_sys`, `Decoder_RSC_BCJR_seq_generic_std.hxx:182-214`, written from offset 0 of `out`. -/
def extSys (T : List (List Int)) (gam : List (List R)) (n L : Nat) (alpha beta : List (List R)) (sys out : List R) :
    Exec (List R) :=
  forN L (fun i out => do
    let al ← rd alpha i
    let next ← rd beta (i + 1)
    let m ← scanSys A T gam al next i 1 0 n (A.lowD, A.lowD)
    let m ← scanSys A T gam al next i 4 0 n m
    let s ← rd sys i
    wr out i (A.fin (A.post m.1 m.2) s)) out

/-- `compute_ext_par`, `Decoder_RSC_BCJR_seq_generic_std.hxx:216-270`, written from offset `L` of `out`; `par` starts at
offset `L` of `y`. -/
def extPar (T : List (List Int)) (gam : List (List R)) (n L : Nat) (alpha beta : List (List R)) (y out : List R) :
    Exec (List R) :=
  forN L (fun i out => do
    let al ← rd alpha i
    let next ← rd beta (i + 1)
    let m ← scanPar A T gam al next i 1 n (A.lowD, A.lowD)
    let m ← scanPar A T gam al next i 4 n m
    let p ← rd y (L + i)
    wr out (L + i) (A.fin (A.post m.1 m.2) p)) out

/-- Members of `Decoder_RSC_BCJR_seq_generic_std` (`Decoder_RSC_BCJR.hpp:20-29`, `Decoder_RSC_BCJR_seq_generic.hpp`); `gamma`,
`beta_cur` and `beta_prev` are written before being read in each call and are not kept. -/
structure Dec (R : Type) where
  K : Nat
  n : Nat
  nff : Nat
  buffered : Bool
  T : List (List Int)
  alpha : List (List R)
  beta : List (List R)
  sys : List R
  par : List R
  ext : List R
  deriving DecidableEq

/-- Column of the metrics at both ends. -/
def endCol (n : Nat) : List R := A.zero :: List.replicate (n - 1) A.low

/-- Constructors, `Decoder_RSC_BCJR.hxx:18-42`, `Decoder_RSC_BCJR_seq_generic.hxx:83-99` and the checks of
`src/Module/Decoder/Decoder.cpp`.  `fill` is the value given by `mipp::vector` to its new elements (MIPP is not part of the
tree); the vectors of `mipp::nElReg` additional elements are not longer here. -/
def Dec.mk? (fill : R) (K : Int) (T : List (List Int)) (buffered : Bool) : Exec (Dec R) := do
  let row ← rd T 0
  let n := row.length
  if n = 0 then ub
  else if K ≤ 0 then exc .invalidArgument
  else
    let nff := Nat.log2 n
    if 2 ^ nff ≠ n then exc .invalidArgument
    else
      let L := K.toNat + nff
      ok { K := K.toNat, n, nff, buffered, T
           alpha := endCol A n :: List.replicate (L - 1) (List.replicate n fill) ++ [List.replicate n A.low]
           beta := List.replicate n A.low :: List.replicate (L - 1) (List.replicate n fill) ++ [endCol A n]
           sys := List.replicate L fill, par := List.replicate L fill, ext := List.replicate K.toNat fill }

/-- `_load`, `Decoder_RSC_BCJR.hxx:74-116`, one frame. -/
def Dec.load (d : Dec R) (y : List R) : Exec (Dec R) :=
  if d.buffered then do
    let sys ← copyTo y 0 (d.K + d.nff) d.sys 0
    let par ← copyTo y (d.K + d.nff) d.K d.par 0
    ok { d with sys, par }
  else do
    let r ← forN (d.K + d.nff) (fun i (st : List R × List R) => do
      let a ← rd y (i * 2 + 0)
      let sys ← wr st.1 i a
      let b ← rd y (i * 2 + 1)
      let par ← wr st.2 i b
      ok (sys, par)) (d.sys, d.par)
    ok { d with sys := r.1, par := r.2 }

/-- `_decode_siso_alt`, `Decoder_RSC_BCJR_seq_generic_std.hxx:272-283`. -/
def Dec.sisoAlt (d : Dec R) (sys par ext : List R) : Exec (Dec R × List R) := do
  let gam ← gamma A (d.K + d.nff) sys par
  let alpha ← computeAlpha A d.T gam d.n (d.K + d.nff) d.alpha
  let ext ← betaExt A d.T gam d.n d.K d.nff alpha sys ext
  ok ({ d with alpha }, ext)

/-- `_decode_siso`, `Decoder_RSC_BCJR_seq_generic_std.hxx:285-304`. -/
def Dec.siso (d : Dec R) (y out : List R) : Exec (Dec R × List R) :=
  if !d.buffered then exc .runtimeError
  else do
    let L := d.K + d.nff
    let gam ← gamma A L y (y.drop L)
    let alpha ← computeAlpha A d.T gam d.n L d.alpha
    let beta ← computeBeta A d.T gam d.n L d.beta
    let out ← extSys A d.T gam d.n L alpha beta y out
    let out ← extPar A d.T gam d.n L alpha beta y out
    ok ({ d with alpha, beta }, out)

/-- `_decode_siho`, `Decoder_RSC_BCJR.hxx:118-151`, and `_store`, `Decoder_RSC_BCJR.hxx:153-161`: the decisions are the sign
bits. -/
def Dec.siho (d : Dec R) (y : List R) : Exec (Dec R × List Int) := do
  let d ← d.load y
  let r ← d.sisoAlt A d.sys d.par d.ext
  let v ← mapN d.K fun i => do
    let x ← rd r.2 i
    let s ← rd d.sys i
    ok (if A.neg (A.hadd x s) then 1 else 0)
  ok ({ r.1 with ext := r.2 }, v)

end Verif.BCJR
