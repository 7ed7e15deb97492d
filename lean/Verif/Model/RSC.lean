import Verif.Prelude.Exec

/-!
# Recursive systematic convolutional encoders

Models `src/Module/Encoder/RSC/Encoder_RSC_sys.cpp`, `Encoder_RSC_generic_sys.cpp` and
`Encoder_RSC3_CPE_sys.cpp`.  Elements of type `B` are mathematical integers (every value the encoders store is
0 or 1, or at most 15 for the CPE symbols, so no narrowing happens).
-/

namespace Verif.RSC
open Exec

/-- Array read with a C++ `int` index: a negative index is undefined behaviour. -/
def rdI {α : Type _} (l : List α) (i : Int) : Exec α := if i < 0 then ub else rd l i.toNat

/-- The two virtual functions of `Encoder_RSC_sys` and the number of flip-flops,
`include/Module/Encoder/RSC/Encoder_RSC_sys.hpp:21-43`.  `inner bit state` returns the parity and the new
state. -/
structure Machine where
  nff : Nat
  inner : Int → Nat → Exec (Int × Nat)
  tail : Nat → Exec Int

/-- Members of `Encoder_RSC_sys` (`Encoder_RSC_sys.hpp:21-24`) and `info_bits_pos` of `Encoder`. -/
structure Enc where
  K : Nat
  N : Nat
  mch : Machine
  buffered : Bool
  infoPos : List Nat

/-- `info_bits_pos` set by the constructor, `Encoder_RSC_sys.cpp:34-36` (initially `0, 1, 2, ...`). -/
def initPos (K : Nat) (buffered : Bool) : Exec (List Nat) :=
  if !buffered then forN K (fun k p => wr p k (2 * k)) (List.range K) else ok (List.range K)

/-- `Encoder_RSC_sys::Encoder_RSC_sys`, `Encoder_RSC_sys.cpp:10-37`, after the base constructor
(`include/Module/Encoder/Encoder.hxx:30-91`). -/
def Enc.mk? (K N : Int) (nff : Int) (buffered : Bool) (mch : Machine) : Exec Enc :=
  if K ≤ 0 then exc .invalidArgument
  else if N ≤ 0 then exc .invalidArgument
  else if K > N then exc .invalidArgument
  else if nff ≤ 0 then exc .invalidArgument
  else if N - 2 * nff ≠ 2 * K then exc .invalidArgument
  else do
    let pos ← initPos K.toNat buffered
    ok { K := K.toNat, N := N.toNat, mch, buffered, infoPos := pos }

/-- Offsets and strides chosen by `_encode` and `is_codeword`, `Encoder_RSC_sys.cpp:55-69` and `205-219`. -/
structure Layout where
  sys : Nat
  tailSys : Nat
  par : Nat
  tailPar : Nat
  stride : Nat
  strideTail : Nat

/-- `Encoder_RSC_sys.cpp:55-69`. -/
def Enc.layout (e : Enc) : Layout :=
  if e.buffered then ⟨0, 1 * e.K, 1 * e.K + e.mch.nff, 2 * e.K + e.mch.nff, 1, 1⟩
  else ⟨0, 2 * e.K, 1, 2 * e.K + 1, 2, 2⟩

/-- `Encoder_RSC_sys::__encode`, `Encoder_RSC_sys.cpp:112-150`.  The null-pointer branches are not modelled:
both callers pass four non-null pointers into `X_N`. -/
def Enc.encode' (e : Enc) (L : Layout) (uK xN : List Int) : Exec (List Int) := do
  let x ← forN e.K (fun i x => do
    let u ← rd uK i
    wr x (L.sys + i * L.stride) u) xN
  let s ← forN e.K (fun i (s : Nat × List Int) => do
    let u ← rd uK i
    let r ← e.mch.inner u s.1
    let x ← wr s.2 (L.par + i * L.stride) r.1
    ok (r.2, x)) (0, x)
  let s ← forN e.mch.nff (fun i (s : Nat × List Int) => do
    let b ← e.mch.tail s.1
    let x ← wr s.2 (L.tailSys + i * L.strideTail) b
    let r ← e.mch.inner b s.1
    let x ← wr x (L.tailPar + i * L.strideTail) r.1
    ok (r.2, x)) s
  if s.1 ≠ 0 then exc .runtimeError else ok s.2

/-- `Encoder_RSC_sys::_encode`, `Encoder_RSC_sys.cpp:51-70`. -/
def Enc.encode (e : Enc) (uK xN : List Int) : Exec (List Int) := e.encode' e.layout uK xN

/-- Body of the first loop of `_is_codeword`, `Encoder_RSC_sys.cpp:160-165`; `none` = `return false`. -/
def Enc.checkMain (e : Enc) (L : Layout) (xN : List Int) (i : Nat) (s : Option Nat) : Exec (Option Nat) :=
  match s with
  | none => ok none
  | some st => do
    let u ← rd xN (L.sys + i * L.stride)
    let r ← e.mch.inner u st
    let p ← rd xN (L.par + i * L.stride)
    if p ≠ r.1 then ok none else ok (some r.2)

/-- Body of the tail loop of `_is_codeword`, `Encoder_RSC_sys.cpp:173-187`. -/
def Enc.checkTail (e : Enc) (L : Layout) (xN : List Int) (i : Nat) (s : Option Nat) : Exec (Option Nat) :=
  match s with
  | none => ok none
  | some st => do
    let b ← e.mch.tail st
    let v ← rd xN (L.tailSys + i * L.strideTail)
    if v ≠ b then ok none
    else do
      let r ← e.mch.inner b st
      let p ← rd xN (L.tailPar + i * L.strideTail)
      if p ≠ r.1 then ok none else ok (some r.2)

/-- `Encoder_RSC_sys::is_codeword`, `Encoder_RSC_sys.cpp:152-220`. -/
def Enc.isCodeword (e : Enc) (xN : List Int) : Exec Bool := do
  let L := e.layout
  let s ← forN e.K (e.checkMain L xN) (some 0)
  let s ← forN e.mch.nff (e.checkTail L xN) s
  ok s.isSome

/-- The rows of the trellis tables and the vector `occurrence` of `get_trellis`, `Encoder_RSC_sys.cpp:76-78`. -/
structure Trellis where
  rows : List (List Int)
  occ : List Bool
  deriving DecidableEq, Repr

/-- `trellis[r][s] = v`. -/
def Trellis.put (t : Trellis) (r s : Nat) (v : Int) : Exec Trellis := do
  let row ← rd t.rows r
  let row ← wr row s v
  let rows ← wr t.rows r row
  ok { t with rows }

/-- C++ `^` on the 0/1 values of the encoder. -/
def xorI (a b : Int) : Int := ((a.toNat ^^^ b.toNat : Nat) : Int)

/-- One half of the body of `get_trellis`: branch out of state `i` with systematic bit `b`; `coeff` is the
gamma coefficient, `r` the first of the two outgoing rows, `Encoder_RSC_sys.cpp:82-92` and `94-105`. -/
def Machine.trellisHalf (m : Machine) (i : Nat) (b coeff : Int) (r : Nat) (t : Trellis) : Exec Trellis := do
  let p ← m.inner b i
  let state := p.2
  let o ← rd t.occ state
  let d := if o then 3 else 0
  let t ← t.put (0 + d) state i
  let t ← t.put (1 + d) state coeff
  let t ← t.put (2 + d) state (xorI b p.1)
  let t ← t.put r i state
  let t ← t.put (r + 1) i (xorI b p.1)
  let occ ← wr t.occ state true
  ok { t with occ }

/-- `Encoder_RSC_sys::get_trellis`, `Encoder_RSC_sys.cpp:72-110`. -/
def Machine.getTrellis (m : Machine) : Exec (List (List Int)) := do
  let n := 1 <<< m.nff
  let t ← forN n (fun i t => do
    let t ← m.trellisHalf i 0 1 6 t
    m.trellisHalf i 1 (-1) 8 t) ⟨List.replicate 10 (List.replicate n 0), List.replicate n false⟩
  ok t.rows

/-- The inner loop of the generic constructor, `Encoder_RSC_generic_sys.cpp:42-47`. -/
def tapSum (nff poly s : Nat) : Nat :=
  loopN nff (fun i acc => acc ^^^ (((s >>> i) &&& 1) &&& ((poly >>> i) &&& 1))) 0

/-- Members `out_parity`, `next_state`, `sys_tail` of `Encoder_RSC_generic_sys`. -/
structure Tables where
  outParity : List Nat
  nextState : List Nat
  sysTail : List Nat
  deriving DecidableEq, Repr

/-- The table loop of the constructor, `Encoder_RSC_generic_sys.cpp:39-56`. -/
def genTables (nff poly0 poly1 : Nat) : Tables :=
  loopN (1 <<< nff) (fun s t =>
    let tl := tapSum nff poly0 s
    let pr := tapSum nff poly1 s
    { outParity := t.outParity ++ [tl ^^^ pr, (1 - tl) ^^^ pr]
      sysTail := t.sysTail ++ [tl]
      nextState := t.nextState ++ [(s >>> 1) ^^^ (tl <<< (nff - 1)), (s >>> 1) ^^^ ((1 - tl) <<< (nff - 1))] })
    ⟨[], [], []⟩

/-- `Encoder_RSC_generic_sys::inner_encode` and `tail_bit_sys`, `Encoder_RSC_generic_sys.cpp:68-81`. -/
def tableMachine (nff : Nat) (t : Tables) : Machine where
  nff := nff
  inner bit state := do
    let p ← rdI t.outParity (2 * (state : Int) + bit)
    let n ← rdI t.nextState (2 * (state : Int) + bit)
    ok ((p : Int), n)
  tail state := do
    let b ← rd t.sysTail state
    ok (b : Int)

/-- Constructor of `Encoder_RSC_generic_sys`, `Encoder_RSC_generic_sys.cpp:12-57`.  `poly[0]` is read before
the size of `poly` is checked; `log2(0)` is minus infinity, whose conversion to `int` is undefined.
Polynomials are naturals (negative ones would convert a NaN); `floor(log2(p))` in `double` is exact for
31-bit values. -/
def genericEnc (K N : Int) (buffered : Bool) (poly : List Nat) : Exec Enc := do
  let p0 ← rd poly 0
  if p0 = 0 then ub
  else do
    let nff := Nat.log2 p0
    let e ← Enc.mk? K N nff buffered ⟨nff, fun _ _ => ub, fun _ => ub⟩
    if poly.length < 2 then exc .lengthError
    else do
      let p1 ← rd poly 1
      if p1 = 0 ∨ Nat.log2 p0 ≠ Nat.log2 p1 then exc .invalidArgument
      else ok { e with mch := tableMachine nff (genTables nff p0 p1) }

/-- `Encoder_RSC3_CPE_sys::inner_encode` and `tail_bit_sys`, `Encoder_RSC3_CPE_sys.cpp:26-50`.  Shifting a
negative `bit_sys` is excluded (`ub`; only 0/1 values are meaningful). -/
def cpeMachine : Machine where
  nff := 3
  inner bit state :=
    if bit < 0 then ub else
    let b := bit.toNat
    let symbol := (b <<< 3) ||| 0
    let symbol := (((state >>> 2) &&& 1) <<< 2) ||| symbol
    let symbol := (((state >>> 1) &&& 1) <<< 1) ||| symbol
    let symbol := (((state >>> 0) &&& 1) <<< 0) ||| symbol
    let last := state &&& 1
    ok ((symbol : Int), (b <<< 2) ||| ((state >>> 1) ^^^ last))
  tail state :=
    if ((state &&& 1) ^^^ ((state >>> 1) &&& 1) ^^^ ((state >>> 2) &&& 1)) &&& 1 ≠ 0 then ok 1 else ok 0

/-- Constructor of `Encoder_RSC3_CPE_sys`, `Encoder_RSC3_CPE_sys.cpp:8-14`. -/
def cpeEnc (K N : Int) (buffered : Bool) : Exec Enc := Enc.mk? K N 3 buffered cpeMachine

end Verif.RSC
