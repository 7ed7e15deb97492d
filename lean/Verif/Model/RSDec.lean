import Verif.Model.BCHDec

/-!
# Algebraic decoder of Reed–Solomon codes

Models `src/Module/Decoder/RS/Decoder_RS.cpp` and `src/Module/Decoder/RS/Standard/Decoder_RS_std.cpp`.  The computation of
the error location polynomial (`Decoder_RS_std.cpp:75-168` and the inner loop of the Chien search) is the text of the
BCH decoder: `Verif.BCHDec.initTab`, `loop`, `toIndexRow`, `fillReg` and `chienTerm` are used for both.

Symbols are read as numbers once the frame is packed; a negative symbol is `ub`, as its use as an index in the loop of
the syndromes (the generators have `t ≥ 1`, so every symbol is used).  `int` overflow is modelled where a product or a
sum of several terms can reach it (`int32`).
-/

namespace Verif.RSDec
open Exec Verif.Galois Verif.BCH Verif.BCHDec

/-- The result of an operation on `int`s. -/
def int32 (x : Int) : Exec Int := if -2 ^ 31 ≤ x ∧ x < 2 ^ 31 then ok x else ub

/-- Body of the loop over `j` of the syndromes, `Decoder_RS_std.cpp:51-53`. -/
def synStep (c : Core) (y : List Nat) (i j : Nat) (x : Int) : Exec Int := do
  let v ← rd y j
  let ix ← c.index v
  if ix ≠ -1 then do
    let p ← int32 ((i * j : Nat) : Int)
    let q ← int32 (ix + p)
    let a ← c.alphaMod q
    ok (Int.xor x a)
  else ok x

/-- The syndromes, `Decoder_RS_std.cpp:46-59`: the state is `s` and `syn_error`. -/
def synLoop (c : Core) (n : Nat) (y : List Nat) (i : Nat) (st : List Int × Bool) : Exec (List Int × Bool) := do
  let x ← forN n (synStep c y i) 0
  let ix ← c.index x
  let s ← wr st.1 i ix
  ok (s, st.2 || decide (x ≠ 0))

/-- State of the Chien search: `reg`, `root`, `loc`, `count`. -/
structure Chien where
  reg : List Int
  root : List Int
  loc : List Int
  count : Nat
  deriving DecidableEq, Repr

/-- Body of the loop over `i` of the Chien search, `Decoder_RS_std.cpp:181-194`; unlike in the BCH decoder the size of
`loc` is not tested. -/
def chienStep (c : Core) (lu : Int) (i : Nat) (st : Chien) : Exec Chien := do
  let r ← forRange 1 (lu + 1).toNat (chienTerm c) (st.reg, 1)
  if r.2 = 0 then do
    let root ← wr st.root st.count (i : Int)
    let loc ← wr st.loc st.count ((c.np : Int) - i)
    ok ⟨r.1, root, loc, st.count + 1⟩
  else ok ⟨r.1, st.root, st.loc, st.count⟩

/-- The four cases of `z[i]`, `Decoder_RS_std.cpp:205-212`. -/
def zInit (c : Core) (si ei : Int) : Exec Int :=
  if si ≠ -1 ∧ ei ≠ -1 then do
    let a ← c.alpha si
    let b ← c.alpha ei
    ok (Int.xor a b)
  else if si ≠ -1 ∧ ei = -1 then c.alpha si
  else if si = -1 ∧ ei ≠ -1 then c.alpha ei
  else ok 0

/-- `Decoder_RS_std.cpp:215-216`. -/
def zTerm (c : Core) (s : List Int) (elp : List (List Int)) (u i j : Nat) (x : Int) : Exec Int := do
  let sj ← rd s j
  let e ← rd2 elp u ((i : Int) - j)
  if sj ≠ -1 ∧ e ≠ -1 then do
    let v ← c.alphaMod (e + sj)
    ok (Int.xor x v)
  else ok x

/-- "form polynomial z(x)", `Decoder_RS_std.cpp:205-218`. -/
def zStep (c : Core) (s : List Int) (elp : List (List Int)) (u i : Nat) (z : List Int) : Exec (List Int) := do
  let si ← rd s i
  let ei ← rd2 elp u i
  let x ← zInit c si ei
  let x ← forRange 1 i (zTerm c s elp u i) x
  let ix ← c.index x
  wr z i ix

/-- `err[loc[i]] ^= alpha_to[(z[j] + j * root[i]) % N_p2_1]`, `Decoder_RS_std.cpp:228-229`. -/
def numTerm (c : Core) (z : List Int) (r : Int) (j : Nat) (e : Int) : Exec Int := do
  let zj ← rd z j
  if zj ≠ -1 then do
    let p ← int32 (j * r)
    let q ← int32 (zj + p)
    let v ← c.alphaMod q
    ok (Int.xor e v)
  else ok e

/-- `q += index_of[1 ^ alpha_to[(loc[j] + root[i]) % N_p2_1]]`, `Decoder_RS_std.cpp:237-238`. -/
def denTerm (c : Core) (loc : List Int) (r : Int) (i j : Nat) (q : Int) : Exec Int := do
  if j ≠ i then do
    let p ← rd loc j
    let a ← c.alphaMod (p + r)
    let ix ← c.index (Int.xor 1 a)
    int32 (q + ix)
  else ok q

/-- One correction, `Decoder_RS_std.cpp:226-243`; the state is `Y_N` and `err`.  `err[loc[i]]` is the accumulator of the
numerator: the model writes it at the end of the loop over `j`.  `Y_N[loc[i]]` is out of bounds when
`loc[i] >= N_rs`. -/
def fixStep (c : Core) (lu : Int) (z loc root : List Int) (i : Nat) (st : List Nat × List Int) :
    Exec (List Nat × List Int) := do
  let p ← rd loc i
  let r ← rd root i
  let e ← forRange 1 (lu + 1).toNat (numTerm c z r) 1
  let err ← wrI st.2 p e
  if e ≠ 0 then do
    let ix ← c.index e
    let q ← forN lu.toNat (denTerm c loc r i) 0
    let v ← c.alphaMod (ix - q.tmod c.np + c.np)
    let err ← wrI err p v
    let o ← rdI st.1 p
    let y ← wrI st.1 p (o ^^^ v.toNat)
    ok (y, err)
  else ok (st.1, err)

/-- The members used as work space, `include/Module/Decoder/RS/Standard/Decoder_RS_std.hpp:29-38`. -/
structure Buf where
  tab : Tab
  loc : List Int
  root : List Int
  reg : List Int
  z : List Int
  err : List Int
  deriving DecidableEq, Repr

/-- Outcome of `_decode`: the status is `SUCCESS`, `last_is_codeword`, `Y_N`, the work space. -/
structure Res where
  success : Bool
  lastCw : Bool
  y : List Nat
  buf : Buf
  deriving DecidableEq, Repr

/-- "Can correct errors", `Decoder_RS_std.cpp:167-249`; `std::fill` of `err` is line 222. -/
def correct (c : Core) (y : List Nat) (u : Nat) (b : Buf) : Exec Res := do
  let lu ← rd b.tab.l u
  if lu ≤ c.t then do
    let elp ← forN (lu + 1).toNat (toIndexRow c u) b.tab.elp
    let reg ← forRange 1 (lu + 1).toNat (fillReg elp u) b.reg
    let st ← forRange 1 (c.np + 1) (chienStep c lu) ⟨reg, b.root, b.loc, 0⟩
    if (st.count : Int) = lu then do
      let z ← forRange 1 (lu + 1).toNat (zStep c b.tab.s elp u) b.z
      let r ← forN lu.toNat (fixStep c lu z st.loc st.root) (y, List.replicate b.err.length 0)
      ok ⟨true, true, r.1, ⟨{ b.tab with elp := elp }, st.loc, st.root, st.reg, z, r.2⟩⟩
    else ok ⟨false, false, y, ⟨{ b.tab with elp := elp }, st.loc, st.root, st.reg, b.z, b.err⟩⟩
  else ok ⟨false, false, y, b⟩

/-- `Decoder_RS_std::_decode`, `Decoder_RS_std.cpp:40-254`. -/
def decodeCore (c : Core) (n : Nat) (y : List Nat) (b : Buf) : Exec Res := do
  let r ← forRange 1 (2 * c.t + 1) (synLoop c n y) (b.tab.s, false)
  if r.2 then do
    let tab ← initTab c { b.tab with s := r.1 }
    let p ← loop c (2 * c.t + 1) 0 tab
    correct c y (p.1 + 1) { b with tab := p.2 }
  else ok ⟨true, true, y, { b with tab := { b.tab with s := r.1 } }⟩

/-- A decoder: what does not change.  `K`, `N` and `r` count symbols. -/
structure Dec where
  K : Nat
  N : Nat
  r : Nat
  core : Core
  deriving DecidableEq, Repr

/-- The constructor: `src/Module/Decoder/Decoder.cpp:11-46` on `K * m` and `N * m`, `Decoder_RS.cpp:15-39`,
`Decoder_RS_std.cpp:11-29`.  The products `K * m` and `N * m` do not overflow (a simplification). -/
def Dec.mk? (K N : Int) (gen : RsGen) : Exec Dec :=
  let m : Int := gen.gf.m
  if K * m ≤ 0 then exc .invalidArgument
  else if N * m ≤ 0 then exc .invalidArgument
  else if K * m > N * m then exc .invalidArgument
  else do
    let p ← nextPow2 N.toNat 31 1
    if N - K ≠ (gen.g.length : Int) - 1 then exc .invalidArgument
    else ok ⟨K.toNat, N.toNat, gen.g.length - 1, gen.gf, p - 1, gen.t⟩

/-- The work space of a new decoder, `Decoder_RS_std.cpp:14-24`. -/
def Dec.fresh (d : Dec) : Buf :=
  let np := d.core.np
  let t := d.core.t
  ⟨⟨List.replicate (np + 2) (List.replicate np 0), List.replicate (np + 2) 0, List.replicate (np + 2) 0,
    List.replicate (np + 2) 0, List.replicate (2 * t + 1) 0⟩, List.replicate (t + 1) 0, List.replicate (t + 1) 0,
    List.replicate (t + 1) 0, List.replicate (t + 1) 0, List.replicate np 0⟩

/-- Outcome of a task: status is `SUCCESS`, `CWD[0]`, the output socket, the work space. -/
structure Out where
  success : Bool
  cwd : Nat
  v : List Int
  buf : Buf
  deriving DecidableEq, Repr

/-- `CWD[0] = !status`. -/
def cwdOf (r : Res) : Nat := if r.success then 1 else 0

/-- `_decode_hiho`, `Decoder_RS.cpp:48-69`, for `B` of `w` bits; `yh` is the member `YH_N`, whose stale contents are
overwritten by every call, `v` the output buffer. -/
def decodeHiho (w : Nat) (d : Dec) (b : Buf) (y : List Int) (yh : List (BitVec w)) (v : List Int) : Exec Out := do
  let yh ← BitPacker.pack w false d.core.gf.m (d.N * d.core.gf.m) 1 y yh
  let s ← symVals yh
  let r ← decodeCore d.core d.N s b
  let v ← BitPacker.unpack false d.core.gf.m (d.K * d.core.gf.m) 1 ((r.y.map (BitVec.ofNat w)).drop d.r) v
  ok ⟨r.success, cwdOf r, v, r.buf⟩

/-- `_decode_hiho_cw`, `Decoder_RS.cpp:71-92`. -/
def decodeHihoCw (w : Nat) (d : Dec) (b : Buf) (y : List Int) (yh : List (BitVec w)) (v : List Int) : Exec Out := do
  let yh ← BitPacker.pack w false d.core.gf.m (d.N * d.core.gf.m) 1 y yh
  let s ← symVals yh
  let r ← decodeCore d.core d.N s b
  let v ← BitPacker.unpack false d.core.gf.m (d.N * d.core.gf.m) 1 (r.y.map (BitVec.ofNat w)) v
  ok ⟨r.success, cwdOf r, v, r.buf⟩

/-- `hard_decide`, element-wise (see C46); `out` is the member `YH_Nb`. -/
def harden {R : Type} (neg : R → Bool) (x : List R) (n : Nat) (out : List Int) : Exec (List Int) :=
  forN n (fun i o => rd x i >>= fun v => wr o i (if neg v then 1 else 0)) out

/-- `_decode_siho`, `Decoder_RS.cpp:94-116`. -/
def decodeSiho {R : Type} (neg : R → Bool) (w : Nat) (d : Dec) (b : Buf) (y : List R) (yb : List Int)
    (yh : List (BitVec w)) (v : List Int) : Exec Out := do
  let yb ← harden neg y (d.N * d.core.gf.m) yb
  decodeHiho w d b yb yh v

/-- `_decode_siho_cw`, `Decoder_RS.cpp:118-141`. -/
def decodeSihoCw {R : Type} (neg : R → Bool) (w : Nat) (d : Dec) (b : Buf) (y : List R) (yb : List Int)
    (yh : List (BitVec w)) (v : List Int) : Exec Out := do
  let yb ← harden neg y (d.N * d.core.gf.m) yb
  decodeHihoCw w d b yb yh v

end Verif.RSDec
