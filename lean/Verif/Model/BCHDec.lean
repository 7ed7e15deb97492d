import Mathlib.Data.Int.Bitwise
import Verif.Model.BCH

/-!
# Algebraic decoders of BCH codes

Models `src/Module/Decoder/BCH/Decoder_BCH.cpp` and `src/Module/Decoder/BCH/Standard/Decoder_BCH_std.cpp`; the
iterative computation of the error location polynomial is the same text in
`src/Module/Decoder/RS/Standard/Decoder_RS_std.cpp` (lines 75-164, 168-195).

The members `elp`, `discrepancy`, `l`, `u_lu`, `s`, `loc`, `reg` are `int`s and keep their contents between calls.  The
`do … while` loop gets a fuel argument; running out of it is `ub`.  No value but the product `i * j` of the syndrome
loop can leave the range of `int` (the others are below `3 * 2^20`): only that overflow is modelled.
-/

namespace Verif.BCHDec
open Exec Verif.Galois Verif.BCH

/-- `l[i]` for an index computed with `int`s. -/
def rdI {α : Type} (l : List α) (i : Int) : Exec α := if i < 0 then ub else rd l i.toNat

/-- `l[i] = v` for an index computed with `int`s. -/
def wrI {α : Type} (l : List α) (i : Int) (v : α) : Exec (List α) := if i < 0 then ub else wr l i.toNat v

/-- `e[i][j]`. -/
def rd2 (e : List (List Int)) (i : Nat) (j : Int) : Exec Int := do
  let row ← rd e i
  rdI row j

/-- `e[i][j] = v`. -/
def wr2 (e : List (List Int)) (i : Nat) (j : Int) (v : Int) : Exec (List (List Int)) := do
  let row ← rd e i
  let row ← wrI row j v
  wr e i row

/-- What the algorithm reads of its decoder: the tables, `N_p2_1` and `t`. -/
structure Core where
  gf : GF
  np : Nat
  t : Nat
  deriving DecidableEq, Repr

/-- `alpha_to[i]`. -/
def Core.alpha (c : Core) (i : Int) : Exec Int := do
  let v ← rdI c.gf.alphaTo i
  ok (v : Int)

/-- `alpha_to[x % N_p2_1]`. -/
def Core.alphaMod (c : Core) (x : Int) : Exec Int := c.alpha (x.tmod c.np)

/-- `index_of[i]`. -/
def Core.index (c : Core) (i : Int) : Exec Int := rdI c.gf.indexOf i

/-- The tables of the iterative algorithm, `include/Module/Decoder/BCH/Standard/Decoder_BCH_std.hpp:25-29`. -/
structure Tab where
  elp : List (List Int)
  disc : List Int
  l : List Int
  ulu : List Int
  s : List Int
  deriving DecidableEq, Repr

/-- `elp[0][i] = -1; elp[1][i] = 0`, `Decoder_BCH_std.cpp:87-88`. -/
def initRow (i : Nat) (elp : List (List Int)) : Exec (List (List Int)) := do
  let elp ← wr2 elp 0 i (-1)
  wr2 elp 1 i 0

/-- "initialise table entries", `Decoder_BCH_std.cpp:81-93`. -/
def initTab (c : Core) (b : Tab) : Exec Tab := do
  let disc ← wr b.disc 0 0
  let s1 ← rd b.s 1
  let disc ← wr disc 1 s1
  let elp ← wr2 b.elp 0 0 0
  let elp ← wr2 elp 1 0 1
  let elp ← forRange 1 (2 * c.t) initRow elp
  let l ← wr b.l 0 0
  let l ← wr l 1 0
  let ulu ← wr b.ulu 0 (-1)
  let ulu ← wr ulu 1 0
  ok ⟨elp, disc, l, ulu, b.s⟩

/-- Body of the loop of a null discrepancy, `Decoder_BCH_std.cpp:105-106`. -/
def copyRow (c : Core) (u i : Nat) (elp : List (List Int)) : Exec (List (List Int)) := do
  let x ← rd2 elp u i
  let elp ← wr2 elp (u + 1) i x
  let y ← c.index x
  wr2 elp u i y

/-- `while ((discrepancy[q] == -1) && (q > 0)) q--`, `Decoder_BCH_std.cpp:112-113`. -/
def lastNZ (disc : List Int) : Nat → Exec Nat
  | 0 => do
    let _ ← rd disc 0
    ok 0
  | q + 1 => do
    let d ← rd disc (q + 1)
    if d = -1 then lastNZ disc q else ok (q + 1)

/-- Body of the loop over `j`, `Decoder_BCH_std.cpp:121-122`. -/
def better (disc ulu : List Int) (j q : Nat) : Exec Nat := do
  let d ← rd disc j
  if d ≠ -1 then do
    let a ← rd ulu q
    let b ← rd ulu j
    ok (if a < b then j else q)
  else ok q

/-- The row used by the correction, `Decoder_BCH_std.cpp:111-125`. -/
def search (disc ulu : List Int) (u : Nat) : Exec Nat := do
  let q ← lastNZ disc (u - 1)
  forDown q (better disc ulu) q

/-- `elp[u + 1][i + u - q] = …`, `Decoder_BCH_std.cpp:141-143`. -/
def shiftRow (c : Core) (du dq : Int) (u q i : Nat) (elp : List (List Int)) : Exec (List (List Int)) := do
  let x ← rd2 elp q i
  if x ≠ -1 then do
    let v ← c.alphaMod (du + c.np - dq + x)
    wr2 elp (u + 1) (i + u - q) v
  else ok elp

/-- Body of the last loop, `Decoder_BCH_std.cpp:146-147`. -/
def addRow (c : Core) (u i : Nat) (elp : List (List Int)) : Exec (List (List Int)) := do
  let a ← rd2 elp (u + 1) i
  let x ← rd2 elp u i
  let elp ← wr2 elp (u + 1) i (Int.xor a x)
  let y ← c.index x
  wr2 elp u i y

/-- `Decoder_BCH_std.cpp:162-163`. -/
def discStep (c : Core) (s : List Int) (elp : List (List Int)) (u i : Nat) (d : Int) : Exec Int := do
  let si ← rdI s ((u : Int) + 1 - i)
  let e ← rd2 elp (u + 1) i
  if si ≠ -1 ∧ e ≠ 0 then do
    let ix ← c.index e
    let v ← c.alphaMod (si + ix)
    ok (Int.xor d v)
  else ok d

/-- `s != -1 ? alpha_to[s] : 0`, `Decoder_BCH_std.cpp:156-159`. -/
def synVal (c : Core) (s : Int) : Exec Int := if s ≠ -1 then c.alpha s else ok 0

/-- "form (u+1)th discrepancy", `Decoder_BCH_std.cpp:156-165`. -/
def nextDisc (c : Core) (s : List Int) (elp : List (List Int)) (l : List Int) (u : Nat) : Exec Int := do
  let su ← rd s (u + 1)
  let d ← synVal c su
  let lu ← rd l (u + 1)
  let d ← forRange 1 (lu + 1).toNat (discStep c s elp u) d
  c.index d

/-- The new length and the new row, `Decoder_BCH_std.cpp:100-149`. -/
def newRow (c : Core) (u : Nat) (b : Tab) : Exec (List (List Int) × List Int) := do
  let du ← rd b.disc u
  let lu ← rd b.l u
  if du = -1 then do
    let l ← wr b.l (u + 1) lu
    let elp ← forN (lu + 1).toNat (copyRow c u) b.elp
    ok (elp, l)
  else do
    let q ← search b.disc b.ulu u
    let lq ← rd b.l q
    let dq ← rd b.disc q
    let l ← wr b.l (u + 1) (if lu > lq + u - q then lu else lq + u - q)
    let elp ← forN (2 * c.t) (fun i elp => wr2 elp (u + 1) i 0) b.elp
    let elp ← forN (lq + 1).toNat (shiftRow c du dq u q) elp
    let elp ← forN (lu + 1).toNat (addRow c u) elp
    ok (elp, l)

/-- One iteration for the row `u`, `Decoder_BCH_std.cpp:100-166`. -/
def step (c : Core) (u : Nat) (b : Tab) : Exec Tab := do
  let r ← newRow c u b
  let l1 ← rd r.2 (u + 1)
  let ulu ← wr b.ulu (u + 1) (u - l1)
  if u < 2 * c.t then do
    let d ← nextDisc c b.s r.1 r.2 u
    let disc ← wr b.disc (u + 1) d
    ok ⟨r.1, disc, r.2, ulu, b.s⟩
  else ok ⟨r.1, b.disc, r.2, ulu, b.s⟩

/-- The loop, `Decoder_BCH_std.cpp:96-168`: `u` and the tables at its end. -/
def loop (c : Core) : Nat → Nat → Tab → Exec (Nat × Tab)
  | 0, _, _ => ub
  | fuel + 1, u, b => do
    let b ← step c (u + 1) b
    let l ← rd b.l (u + 2)
    if u + 1 < 2 * c.t ∧ l ≤ c.t then loop c fuel (u + 1) b else ok (u + 1, b)

/-- `for (i = 0; i <= l[u]; i++) elp[u][i] = index_of[elp[u][i]]`, `Decoder_BCH_std.cpp:174-175`. -/
def toIndexRow (c : Core) (u i : Nat) (elp : List (List Int)) : Exec (List (List Int)) := do
  let x ← rd2 elp u i
  let y ← c.index x
  wr2 elp u i y

/-- `reg[i] = elp[u][i]`, `Decoder_BCH_std.cpp:179`. -/
def fillReg (elp : List (List Int)) (u i : Nat) (reg : List Int) : Exec (List Int) := do
  let x ← rd2 elp u i
  wr reg i x

/-- Body of the loop over `j` of the Chien search, `Decoder_BCH_std.cpp:186-190`; the state is `reg` and `q`. -/
def chienTerm (c : Core) (j : Nat) (st : List Int × Int) : Exec (List Int × Int) := do
  let r ← rd st.1 j
  if r ≠ -1 then do
    let reg ← wr st.1 j ((r + j).tmod c.np)
    let v ← c.alpha ((r + j).tmod c.np)
    ok (reg, Int.xor st.2 v)
  else ok st

/-- State of the Chien search: `reg`, `loc`, `count`. -/
structure Chien where
  reg : List Int
  loc : List Int
  count : Nat
  deriving DecidableEq, Repr

/-- Body of the loop over `i` of the Chien search, `Decoder_BCH_std.cpp:184-201`. -/
def chienStep (c : Core) (lu : Int) (i : Nat) (st : Chien) : Exec Chien := do
  let r ← forRange 1 (lu + 1).toNat (chienTerm c) (st.reg, 1)
  if r.2 = 0 then
    if st.count ≥ st.loc.length then exc .invalidArgument
    else do
      let loc ← wr st.loc st.count ((c.np : Int) - i)
      ok ⟨r.1, loc, st.count + 1⟩
  else ok ⟨r.1, st.loc, st.count⟩

/-! ## Decoder_BCH_std -/

/-- `int` overflow of a product of non-negative numbers. -/
def mulInt (a b : Nat) : Exec Nat := if a * b < 2 ^ 31 then ok (a * b) else ub

/-- Body of the loop over `j` of the syndromes, `Decoder_BCH_std.cpp:59-60`. -/
def synStep (c : Core) (y : List Nat) (i j : Nat) (x : Int) : Exec Int := do
  let v ← rd y j
  if v ≠ 0 then do
    let p ← mulInt i j
    let a ← c.alphaMod p
    ok (Int.xor x a)
  else ok x

/-- The syndromes, `Decoder_BCH_std.cpp:55-65`: the state is `s` and `syn_error`. -/
def synLoop (c : Core) (n : Nat) (y : List Nat) (i : Nat) (st : List Int × Bool) : Exec (List Int × Bool) := do
  let x ← forN n (synStep c y i) 0
  let ix ← c.index x
  let s ← wr st.1 i ix
  ok (s, st.2 || decide (x ≠ 0))

/-- `if (loc[i] < N) Y_N[loc[i]] ^= 1`, `Decoder_BCH_std.cpp:210-211`. -/
def flip (n : Nat) (loc : List Int) (i : Nat) (y : List Nat) : Exec (List Nat) := do
  let p ← rd loc i
  if p < n then do
    let v ← rdI y p
    wrI y p (v ^^^ 1)
  else ok y

/-- The members used as work space. -/
structure Buf where
  tab : Tab
  loc : List Int
  reg : List Int
  deriving DecidableEq, Repr

/-- Outcome of `_decode`: the status is `SUCCESS`, `last_is_codeword`, `Y_N`, the work space. -/
structure Res where
  success : Bool
  lastCw : Bool
  y : List Nat
  buf : Buf
  deriving DecidableEq, Repr

/-- "May correct errors", `Decoder_BCH_std.cpp:170-219`. -/
def correct (c : Core) (n : Nat) (y : List Nat) (u : Nat) (b : Buf) : Exec Res := do
  let lu ← rd b.tab.l u
  if lu ≤ c.t then do
    let elp ← forN (lu + 1).toNat (toIndexRow c u) b.tab.elp
    let reg ← forRange 1 (lu + 1).toNat (fillReg elp u) b.reg
    let st ← forRange 1 (c.np + 1) (chienStep c lu) ⟨reg, b.loc, 0⟩
    if (st.count : Int) = lu then do
      let y ← forN lu.toNat (flip n st.loc) y
      ok ⟨true, true, y, ⟨{ b.tab with elp := elp }, st.loc, st.reg⟩⟩
    else ok ⟨false, false, y, ⟨{ b.tab with elp := elp }, st.loc, st.reg⟩⟩
  else ok ⟨false, false, y, b⟩

/-- `Decoder_BCH_std::_decode`, `Decoder_BCH_std.cpp:48-223`. -/
def decodeCore (c : Core) (n : Nat) (y : List Nat) (b : Buf) : Exec Res := do
  let r ← forRange 1 (2 * c.t + 1) (synLoop c n y) (b.tab.s, false)
  if r.2 then do
    let tab ← initTab c { b.tab with s := r.1 }
    let p ← loop c (2 * c.t + 1) 0 tab
    correct c n y (p.1 + 1) { b with tab := p.2 }
  else ok ⟨true, true, y, { b with tab := { b.tab with s := r.1 } }⟩

/-- `tools::next_power_of_2`, `include/Tools/Math/utils.hxx:93-102`; the first argument after `x` is the number of
doublings that fit in the type (30 for `int`), plus one. -/
def nextPow2 (x : Nat) : Nat → Nat → Exec Nat
  | 0, _ => ub
  | fuel + 1, n => if n ≤ x then nextPow2 x fuel (n * 2) else ok n

/-- A decoder: what does not change. -/
structure Dec where
  K : Nat
  N : Nat
  core : Core
  deriving DecidableEq, Repr

/-- The constructor: `src/Module/Decoder/Decoder.cpp:11-46`, `Decoder_BCH.cpp:12-26`, `Decoder_BCH_std.cpp:12-37`.  `int` has
32 bits. -/
def Dec.mk? (K N : Int) (gen : Gen) : Exec Dec :=
  if K ≤ 0 then exc .invalidArgument
  else if N ≤ 0 then exc .invalidArgument
  else if K > N then exc .invalidArgument
  else do
    let p ← nextPow2 N.toNat 31 1
    if K ≤ 3 then exc .invalidArgument
    else if N - K ≠ (gen.g.length : Int) - 1 then exc .invalidArgument
    else ok ⟨K.toNat, N.toNat, gen.gf, p - 1, gen.t⟩

/-- The work space of a new decoder, `Decoder_BCH_std.cpp:17-24`. -/
def Dec.fresh (d : Dec) : Buf :=
  let np := d.core.np
  ⟨⟨List.replicate (np + 2) (List.replicate np 0), List.replicate (np + 2) 0, List.replicate (np + 2) 0,
    List.replicate (np + 2) 0, List.replicate (2 * d.core.t + 1) 0⟩, List.replicate (d.core.t + 1) 0,
    List.replicate (d.core.t + 1) 0⟩

/-- Outcome of a task: status is `SUCCESS`, `CWD[0]`, the output socket, the work space. -/
structure Out where
  success : Bool
  cwd : Nat
  v : List Nat
  buf : Buf
  deriving DecidableEq, Repr

/-- `CWD[0] = !status`. -/
def cwdOf (r : Res) : Nat := if r.success then 1 else 0

/-- `_decode_hiho`, `Decoder_BCH_std.cpp:226-238`; `yh` is the member `YH_N`, `v` the output buffer.  The stale
contents of `YH_N`, overwritten by every call, are an argument. -/
def decodeHiho (d : Dec) (b : Buf) (y yh v : List Nat) : Exec Out := do
  let yh ← copyTo y 0 d.N yh 0
  let r ← decodeCore d.core d.N yh b
  let v ← copyTo r.y (d.N - d.K) d.K v 0
  ok ⟨r.success, cwdOf r, v, r.buf⟩

/-- `_decode_hiho_cw`, `Decoder_BCH_std.cpp:240-252`. -/
def decodeHihoCw (d : Dec) (b : Buf) (y yh v : List Nat) : Exec Out := do
  let yh ← copyTo y 0 d.N yh 0
  let r ← decodeCore d.core d.N yh b
  let v ← copyTo r.y 0 d.N v 0
  ok ⟨r.success, cwdOf r, v, r.buf⟩

/-- `hard_decide`, element-wise (see C46). -/
def harden {R : Type} (neg : R → Bool) (x : List R) (n : Nat) (out : List Nat) : Exec (List Nat) :=
  forN n (fun i o => rd x i >>= fun v => wr o i (if neg v then 1 else 0)) out

/-- `_decode_siho`, `Decoder_BCH_std.cpp:254-266`. -/
def decodeSiho {R : Type} (neg : R → Bool) (d : Dec) (b : Buf) (y : List R) (yh v : List Nat) : Exec Out := do
  let yh ← harden neg y d.N yh
  let r ← decodeCore d.core d.N yh b
  let v ← copyTo r.y (d.N - d.K) d.K v 0
  ok ⟨r.success, cwdOf r, v, r.buf⟩

/-- `_decode_siho_cw`, `Decoder_BCH_std.cpp:268-280`. -/
def decodeSihoCw {R : Type} (neg : R → Bool) (d : Dec) (b : Buf) (y : List R) (yh v : List Nat) : Exec Out := do
  let yh ← harden neg y d.N yh
  let r ← decodeCore d.core d.N yh b
  let v ← copyTo r.y 0 d.N v 0
  ok ⟨r.success, cwdOf r, v, r.buf⟩

end Verif.BCHDec
