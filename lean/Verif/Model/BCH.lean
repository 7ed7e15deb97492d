import Verif.Model.Galois
import Verif.Model.BitPacker

/-!
# BCH and Reed–Solomon generators and encoders

Models `src/Tools/Code/BCH/BCH_polynomial_generator.cpp`, `src/Tools/Code/RS/RS_polynomial_generator.cpp`,
`src/Module/Encoder/BCH/Encoder_BCH.cpp` and `src/Module/Encoder/RS/Encoder_RS.cpp`.

The `do … while` loops get a fuel argument; running out of fuel (a loop that would not have ended) is `ub`.
-/

namespace Verif.BCH
open Exec Verif.Galois

/-- "Generate the last cycle set", `BCH_polynomial_generator.cpp:69-73` and
`RS_polynomial_generator.cpp:64-68`. -/
def cosetLoop (N front : Nat) : Nat → List Nat → Exec (List Nat)
  | 0, _ => ub
  | fuel + 1, set =>
    let v := (set.getLastD 0 * 2) % N
    if (v * 2) % N ≠ front then cosetLoop N front fuel (set ++ [v]) else ok (set ++ [v])

/-- "find next cycle set representative", `BCH_polynomial_generator.cpp:76-86` and
`RS_polynomial_generator.cpp:71-81`: `some r` when the loop stops with `test == false`, `none` when it stops with
`test == true` (then the representative is `N - 1`). -/
def findRep (N : Nat) (sets : List (List Nat)) : Nat → Nat → Exec (Option Nat)
  | 0, _ => ub
  | fuel + 1, rep =>
    let r := rep + 1
    if sets.any (fun c => c.contains r) then
      if r < N - 1 then findRep N sets fuel r else ok none
    else ok (some r)

/-- The outer loop, `BCH_polynomial_generator.cpp:62-94` and `RS_polynomial_generator.cpp:57-89`: `done` are the
complete cycle sets, `front` the only element of the last one, `rep` is `cycle_set_representative`.  The cycle set
`{0}` of index 0, never looked at, is left out. -/
def cosetsLoop (N : Nat) : Nat → List (List Nat) → Nat → Nat → Exec (List (List Nat))
  | 0, _, _, _ => ub
  | fuel + 1, done, front, rep => do
    let c ← cosetLoop N front N [front]
    let r ← findRep N (done ++ [c]) N rep
    match r with
    | none => ok (done ++ [c])
    | some r => if r < N - 1 then cosetsLoop N fuel (done ++ [c]) r r else ok (done ++ [c] ++ [[r]])

/-- Cycle sets modulo `N`, `BCH_polynomial_generator.cpp:55-94` and `RS_polynomial_generator.cpp:50-89`. -/
def cosets (N : Nat) : Exec (List (List Nat)) := cosetsLoop N N [] 1 0

/-- "Search for roots 1, 2, ..., d-1 in cycle sets", `BCH_polynomial_generator.cpp:97-124` and
`RS_polynomial_generator.cpp:92-117`: `zeros[1..rdncy]`, i.e. the concatenation of the cycle sets that hold a root
(the array `zeros` has `rdncy` entries after its first, unused one, so the guard `kaux <= rdncy` never cuts it). -/
def zerosOf (d : Nat) (sets : List (List Nat)) : List Nat :=
  (sets.filter fun c => c.any fun x => decide (1 ≤ x ∧ x < d)).flatten

/-- `alpha_to[x % N]` (`%` of C++: a negative remainder is an out-of-bounds access). -/
def expAt (g : GF) (x : Int) : Exec Nat :=
  if x.tmod g.N < 0 then ub else rd g.alphaTo (x.tmod g.N).toNat

/-- Body of the loop over `j`, `BCH_polynomial_generator.cpp:136-139` (`e = zeros[i]`) and
`RS_polynomial_generator.cpp:131-134` (`e = init_root + i - 1`). -/
def rootStep (g : GF) (e j : Nat) (poly : List Nat) : Exec (List Nat) := do
  let pj ← rd poly j
  if pj ≠ 0 then do
    let pj1 ← rd poly (j - 1)
    let ix ← rd g.indexOf pj
    let a ← expAt g (ix + e)
    wr poly j (pj1 ^^^ a)
  else do
    let pj1 ← rd poly (j - 1)
    wr poly j pj1

/-- One factor, `BCH_polynomial_generator.cpp:134-141` and `RS_polynomial_generator.cpp:129-136`. -/
def mulRoot (g : GF) (e i : Nat) (poly : List Nat) : Exec (List Nat) := do
  let poly ← wr poly i 1
  let poly ← forN (i - 1) (fun k => rootStep g e (i - 1 - k)) poly
  let p0 ← rd poly 0
  let ix ← rd g.indexOf p0
  let a ← expAt g (ix + e)
  wr poly 0 a

/-- `g[0] = alpha_to[zeros[1]]; g[1] = 1; for (i = 2; ...)`, with `expo i` the exponent of the `i`-th factor. -/
def product (g : GF) (first : Nat) (expo : Nat → Exec Nat) (r : Nat) : Exec (List Nat) := do
  let a ← rd g.alphaTo first
  let poly ← wr (List.replicate (r + 1) 0) 0 a
  let poly ← wr poly 1 1
  forRange 2 (r + 1) (fun i p => expo i >>= fun e => mulRoot g e i p) poly

/-- Members of a `BCH_polynomial_generator`; the RS generator has the same ones, its `g` holds exponents. -/
structure Gen where
  gf : GF
  t : Nat
  g : List Nat
  deriving DecidableEq, Repr

/-- `BCH_polynomial_generator<I>(N, t, p)` for `I` of `w` bits, `BCH_polynomial_generator.cpp:8-21, 53-143`. -/
def bchGen (w : Nat) (N t : Int) (p : List Nat) : Exec Gen := do
  let gf ← GF.mk? w N p
  if t < 1 then exc .invalidArgument
  else do
    let sets ← cosets gf.N
    let zeros := zerosOf (2 * t.toNat + 1) sets
    let z0 ← rd zeros 0
    let g ← product gf z0 (fun i => rd zeros (i - 1)) zeros.length
    ok ⟨gf, t.toNat, g⟩

/-- Members of a `RS_polynomial_generator`. -/
structure RsGen where
  gf : GF
  t : Nat
  g : List Int
  deriving DecidableEq, Repr

/-- Last loop of the RS generator, `RS_polynomial_generator.cpp:139-140`. -/
def toIndex (gf : GF) (g : List Nat) : Exec (List Int) :=
  forN g.length (fun i o => rd g i >>= fun v => rd gf.indexOf v >>= fun x => wr o i x) (g.map fun _ => 0)

/-- `RS_polynomial_generator(N, t)`, `RS_polynomial_generator.cpp:8-20, 46-142` (`I = int`, 32 bits).  For `t < 0`
the member initialiser `g(d, 0)` throws `std::length_error`. -/
def rsGen (N t : Int) : Exec RsGen := do
  let gf ← GF.mk? 32 N []
  if t < 0 then exc .lengthError
  else if t < 1 then exc .invalidArgument
  else do
    let sets ← cosets gf.N
    let zeros := zerosOf (2 * t.toNat + 1) sets
    let root ← rd zeros 0
    let g ← product gf root (fun i => ok (root + i - 1)) (2 * t.toNat)
    let gi ← toIndex gf g
    ok ⟨gf, t.toNat, gi⟩

/-! ## Encoder_BCH -/

/-- Members of `Encoder_BCH`, `include/Module/Encoder/BCH/Encoder_BCH.hpp:18-22`.  Elements of type `B` are
naturals (the generator's coefficients and every stored value are). -/
structure Enc where
  K : Nat
  N : Nat
  r : Nat
  g : List Nat
  infoPos : List Nat
  deriving DecidableEq, Repr

/-- `Encoder_BCH::Encoder_BCH`, `Encoder_BCH.cpp:12-30`, after the base constructor
(`include/Module/Encoder/Encoder.hxx:30-91`). -/
def Enc.mk? (K N : Int) (gen : Gen) : Exec Enc :=
  if K ≤ 0 then exc .invalidArgument
  else if N ≤ 0 then exc .invalidArgument
  else if K > N then exc .invalidArgument
  else if N - K ≠ (gen.g.length : Int) - 1 then exc .invalidArgument
  else ok ⟨K.toNat, N.toNat, gen.g.length - 1, gen.g, (List.range K.toNat).map (gen.g.length - 1 + ·)⟩

/-- Inner loop of `__encode`, `Encoder_BCH.cpp:50-51`. -/
def shiftBit (e : Enc) (fb : Nat) (j : Nat) (par : List Nat) : Exec (List Nat) := do
  let a ← rd par (j - 1)
  let gj ← rd e.g j
  wr par j (a ^^^ (gj &&& fb))

/-- Body of the loop of `__encode`, `Encoder_BCH.cpp:47-53`; `U_K = u + off`. -/
def encBit (e : Enc) (u : List Nat) (off : Nat) (i : Nat) (par : List Nat) : Exec (List Nat) := do
  let ui ← rd u (off + i)
  let top ← rd par (e.r - 1)
  let par ← forN (e.r - 1) (fun k => shiftBit e (ui ^^^ top) (e.r - 1 - k)) par
  let g0 ← rd e.g 0
  wr par 0 (if ui ^^^ top ≠ 0 then (if g0 ≠ 0 ∧ ui ^^^ top ≠ 0 then 1 else 0) else 0)

/-- `Encoder_BCH::__encode`, `Encoder_BCH.cpp:42-55`. -/
def encPar (e : Enc) (u : List Nat) (off : Nat) (par : List Nat) : Exec (List Nat) := do
  let par ← forN e.r (fun i p => wr p i 0) par
  forDown e.K (encBit e u off) par

/-- `Encoder_BCH::_encode`, `Encoder_BCH.cpp:57-66`: `x` is the output buffer. -/
def encode (e : Enc) (u x : List Nat) : Exec (List Nat) := do
  let x ← encPar e u 0 x
  copyTo u 0 e.K x e.r

/-- The comparison loop, `Encoder_BCH.cpp:74-75` and `Encoder_RS.cpp:118-119`: the final `p`. -/
def firstDiff {α : Type _} [DecidableEq α] (x bb : List α) (r : Nat) : Nat → Nat → Exec Nat
  | 0, p => ok p
  | fuel + 1, p =>
    if p < r then do
      let a ← rd x p
      let b ← rd bb p
      if a = b then firstDiff x bb r fuel (p + 1) else ok p
    else ok p

/-- `Encoder_BCH::is_codeword`, `Encoder_BCH.cpp:68-78`; `bb` is the member buffer. -/
def isCodeword (e : Enc) (x bb : List Nat) : Exec Bool := do
  let bb ← encPar e x e.r bb
  let p ← firstDiff x bb e.r (e.r + 1) 0
  ok (decide (p = e.r))

/-! ## Encoder_RS -/

/-- Members of `Encoder_RS`, `include/Module/Encoder/RS/Encoder_RS.hpp:28-38`. -/
structure RsEnc where
  K : Nat
  N : Nat
  gf : GF
  r : Nat
  g : List Int
  infoPos : List Nat
  deriving DecidableEq, Repr

/-- `Encoder_RS<B>::Encoder_RS`, `Encoder_RS.cpp:14-50`, for `B` of `w` bits: `K` and `N` count symbols, the base
constructor checks `K * m` and `N * m`. -/
def RsEnc.mk? (w : Nat) (K N : Int) (gen : RsGen) : Exec RsEnc :=
  let m : Int := gen.gf.m
  if K * m ≤ 0 then exc .invalidArgument
  else if N * m ≤ 0 then exc .invalidArgument
  else if K * m > N * m then exc .invalidArgument
  else if N - K ≠ (gen.g.length : Int) - 1 then exc .invalidArgument
  else if w < gen.gf.m then exc .invalidArgument
  else ok ⟨K.toNat, N.toNat, gen.gf, gen.g.length - 1, gen.g,
    (List.range (K.toNat * gen.gf.m)).map (gen.g.length - 1 + ·)⟩

/-- `alpha_to[x % N_rs]`: the encoder reduces exponents modulo its own length, `Encoder_RS.cpp:76,79`. -/
def RsEnc.expAt (e : RsEnc) (x : Int) : Exec Nat :=
  if x.tmod e.N < 0 then ub else rd e.gf.alphaTo (x.tmod e.N).toNat

/-- Inner loop with a non-zero feedback, `Encoder_RS.cpp:74-78`. -/
def rsShift (e : RsEnc) (fb : Int) (j : Nat) (par : List Nat) : Exec (List Nat) := do
  let a ← rd par (j - 1)
  let gj ← rd e.g j
  if gj ≠ -1 then e.expAt (gj + fb) >>= fun v => wr par j (a ^^^ v)
  else wr par j a

/-- Inner loop with a zero feedback, `Encoder_RS.cpp:83-84`. -/
def rsShift0 (j : Nat) (par : List Nat) : Exec (List Nat) := rd par (j - 1) >>= fun a => wr par j a

/-- Body of the loop of `__encode`, `Encoder_RS.cpp:67-87`; `U_K = u + off`. -/
def rsEncSym (e : RsEnc) (u : List Nat) (off : Nat) (i : Nat) (par : List Nat) : Exec (List Nat) := do
  let ui ← rd u (off + i)
  let top ← rd par (e.r - 1)
  let fb ← rd e.gf.indexOf (ui ^^^ top)
  if fb ≠ -1 then do
    let par ← forN (e.r - 1) (fun k => rsShift e fb (e.r - 1 - k)) par
    let g0 ← rd e.g 0
    let v ← e.expAt (g0 + fb)
    wr par 0 v
  else do
    let par ← forN (e.r - 1) (fun k => rsShift0 (e.r - 1 - k)) par
    wr par 0 0

/-- `Encoder_RS::__encode`, `Encoder_RS.cpp:61-88`, on symbols. -/
def rsEncPar (e : RsEnc) (u : List Nat) (off : Nat) (par : List Nat) : Exec (List Nat) := do
  let par ← forN e.r (fun i p => wr p i 0) par
  forDown e.K (rsEncSym e u off) par

/-- Value of a symbol of the signed type `S` (`w` bits) when it is used as a number; a negative one ends up as an
index. -/
def symVal {w : Nat} (s : BitVec w) : Exec Nat := toI w s.toNat

/-- A vector of symbols as numbers. -/
def symVals {w : Nat} (l : List (BitVec w)) : Exec (List Nat) :=
  forN l.length (fun i o => rd l i >>= fun s => symVal s >>= fun v => wr o i v) (l.map fun _ => 0)

/-- `Encoder_RS<B>::_encode`, `Encoder_RS.cpp:90-103`: `x` is the output buffer; the member buffers start at 0. -/
def rsEncode (w : Nat) (e : RsEnc) (u x : List Int) : Exec (List Int) := do
  let pu ← BitPacker.pack w false e.gf.m (e.K * e.gf.m) 1 u (List.replicate e.K 0#w)
  let su ← symVals pu
  let bb ← rsEncPar e su 0 (List.replicate e.r 0)
  let x ← BitPacker.unpack false e.gf.m (e.r * e.gf.m) 1 (bb.map (BitVec.ofNat w)) x
  copyTo u 0 (e.K * e.gf.m) x (e.r * e.gf.m)

/-- `Encoder_RS<B>::is_codeword`, `Encoder_RS.cpp:105-116`. -/
def rsIsCodeword (w : Nat) (e : RsEnc) (x : List Int) : Exec Bool := do
  let px ← BitPacker.pack w false e.gf.m (e.N * e.gf.m) 1 x (List.replicate e.N 0#w)
  let sx ← symVals px
  let bb ← rsEncPar e sx e.r (List.replicate e.r 0)
  let p ← firstDiff sx bb e.r (e.r + 1) 0
  ok (decide (p = e.r))

end Verif.BCH
