import Verif.Prelude.Exec
import Verif.Model.InterleaverTables

/-!
# Interleavers

Models `include/Tools/Interleaver/Interleaver_core.hxx`, the `gen_lut` methods of
`src/Tools/Interleaver/*`, and `include/Module/Interleaver/Interleaver.hxx`.
Simplification throughout: table entries and sizes are unbounded `Nat` (the C++ template parameter `T`
is an unsigned type assumed wide enough for `size`).
-/

namespace Verif.Interleaver
open Exec

/-- State of an `Interleaver_core` (`include/Tools/Interleaver/Interleaver_core.hpp`, members
`size, n_frames, uniform, initialized, pi, pi_inv`). -/
structure Core where
  size : Nat
  nFrames : Nat
  uniform : Bool
  initialized : Bool
  pi : List Nat
  piInv : List Nat
  deriving DecidableEq, Repr

/-- A table generator `gen_lut(lut, frame_id)`: given the frame id and the old content of the `size`
entries of the buffer, returns their new content (or throws). -/
abbrev GenLut := Nat → List Nat → Exec (List Nat)

/-- Constructor, `Interleaver_core.hxx:11-30` (the name check is dropped: names are non-empty literals). -/
def Core.mk? (size : Int) (uniform : Bool) : Exec Core :=
  if size ≤ 0 then exc .invalidArgument
  else
    let n := size.toNat
    ok { size := n, nFrames := 1, uniform, initialized := false,
         pi := List.replicate (n * 1) 0, piInv := List.replicate (n * 1) 0 }

/-- `gen_lut(pi.data() + off, f)`: run the generator on the slice `[off, off+size)` of `pi`. -/
def genSlice (gen : GenLut) (size f off : Nat) (pi : List Nat) : Exec (List Nat) :=
  if off + size ≤ pi.length then do
    let l ← gen f ((pi.drop off).take size)
    copyTo l 0 size pi off
  else ub

/-- `for (i = 0; i < size; i++) pi_inv[off + pi[off + i]] = i`, `Interleaver_core.hxx:135-136,146-147`. -/
def invSlice (size off : Nat) (pi piInv : List Nat) : Exec (List Nat) :=
  forN size (fun i inv => rd pi (off + i) >>= fun p => wr inv (off + p) i) piInv

/-- `Interleaver_core::refresh`, `Interleaver_core.hxx:130-158`. -/
def Core.refresh (c : Core) (gen : GenLut) : Exec Core := do
  let pi ← genSlice gen c.size 0 0 c.pi
  let piInv ← invSlice c.size 0 pi c.piInv
  if c.uniform then
    let s ← forRange 1 c.nFrames (fun f (s : List Nat × List Nat) => do
      let off := f * c.size
      let pi ← genSlice gen c.size f off s.1
      let piInv ← invSlice c.size off pi s.2
      ok (pi, piInv)) (pi, piInv)
    ok { c with pi := s.1, piInv := s.2 }
  else
    let s ← forRange 1 c.nFrames (fun f (s : List Nat × List Nat) => do
      let pi ← copyTo s.1 0 c.size s.1 (f * c.size)
      let piInv ← copyTo s.2 0 c.size s.2 (f * c.size)
      ok (pi, piInv)) (pi, piInv)
    ok { c with pi := s.1, piInv := s.2 }

/-- `Interleaver_core::init`, `Interleaver_core.hxx:122-128`. -/
def Core.init (c : Core) (gen : GenLut) : Exec Core := do
  let c ← c.refresh gen
  ok { c with initialized := true }

/-- `std::vector::resize(n, 0)`. -/
def resize (l : List Nat) (n : Nat) : List Nat :=
  l.take n ++ List.replicate (n - l.length) 0

/-- `Interleaver_core::set_n_frames`, `Interleaver_core.hxx:72-99`. -/
def Core.setNFrames (c : Core) (gen : GenLut) (n : Nat) : Exec Core :=
  if n = 0 then exc .invalidArgument
  else if c.nFrames ≠ n then
    Core.init { c with
      initialized := false, nFrames := n,
      pi := resize c.pi ((c.pi.length / c.nFrames) * n),
      piInv := resize c.piInv ((c.piInv.length / c.nFrames) * n) } gen
  else ok c

/-- `get_lut`, `Interleaver_core.hxx:32-43`. -/
def Core.getLut (c : Core) : Exec (List Nat) := if c.initialized then ok c.pi else exc .runtimeError

/-- `get_lut_inv`, `Interleaver_core.hxx:45-56`. -/
def Core.getLutInv (c : Core) : Exec (List Nat) := if c.initialized then ok c.piInv else exc .runtimeError

/-- `Interleaver::_interleave`, `include/Module/Interleaver/Interleaver.hxx:214-243`.
`npw` is `get_n_frames_per_wave()`, `nf` is the module's `get_n_frames()`. -/
def interleaveRaw {α : Type _} (c : Core) (npw nf : Nat) (lut : List Nat) (frameId : Nat)
    (inV outV : List α) : Exec (List α) :=
  if c.uniform = false then
    forN npw (fun f out =>
      let off := f * c.size
      forN c.size (fun i out => do
        let p ← rd lut i
        let v ← rd inV (off + p)
        wr out (off + i) v) out) outV
  else do
    let s ← forN npw (fun f (s : Nat × List α) => do
      let cur := s.1
      let off := f * c.size
      let out ← forN c.size (fun i out => do
        let p ← rd lut (cur * c.size + i)
        let v ← rd inV (off + p)
        wr out (off + i) v) s.2
      ok (((cur + 1) % nf) % c.nFrames, out)) ((frameId % nf) % c.nFrames, outV)
    ok s.2

/-- Task `interleave` (`Interleaver.hxx:59-72`). -/
def interleave {α : Type _} (c : Core) (npw nf frameId : Nat) (inV outV : List α) : Exec (List α) := do
  let lut ← c.getLut
  interleaveRaw c npw nf lut frameId inV outV

/-- Task `deinterleave` (`Interleaver.hxx:89-102`). -/
def deinterleave {α : Type _} (c : Core) (npw nf frameId : Nat) (inV outV : List α) : Exec (List α) := do
  let lut ← c.getLutInv
  interleaveRaw c npw nf lut frameId inV outV

/-- `Interleaver::_interleave_reordering`, `Interleaver.hxx:245-282`.  The vectorised branch
(`n_frames_per_wave == nElReg`) is modelled lane by lane; `nElReg` is the SIMD width. -/
def interleaveReorderingRaw {α : Type _} (c : Core) (npw nf nElReg : Nat) (lut : List Nat)
    (frameId : Nat) (inV outV : List α) : Exec (List α) :=
  if c.uniform = false then
    if npw = nElReg then
      forN c.size (fun i out => do
        let p ← rd lut i
        forN nElReg (fun f out => do
          let v ← rd inV (p * nElReg + f)
          wr out (i * nElReg + f) v) out) outV
    else
      forN c.size (fun i out => do
        let p ← rd lut i
        forN npw (fun f out => do
          let v ← rd inV (p * nf + f)
          wr out (i * nf + f) v) out) outV
  else do
    let s ← forN npw (fun f (s : Nat × List α) => do
      let cur := s.1
      let out ← forN c.size (fun i out => do
        let p ← rd lut (cur * c.size + i)
        let v ← rd inV (p * nf + f)
        wr out (i * npw + f) v) s.2
      ok (((cur + 1) % nf) % c.nFrames, out)) ((frameId % nf) % c.nFrames, outV)
    ok s.2

/-- Task `interleave_reordering` (`Interleaver.hxx:74-87`). -/
def interleaveReordering {α : Type _} (c : Core) (npw nf nElReg frameId : Nat) (inV outV : List α) :
    Exec (List α) := do
  let lut ← c.getLut
  interleaveReorderingRaw c npw nf nElReg lut frameId inV outV

/-- Task `deinterleave_reordering` (`Interleaver.hxx:104-117`). -/
def deinterleaveReordering {α : Type _} (c : Core) (npw nf nElReg frameId : Nat) (inV outV : List α) :
    Exec (List α) := do
  let lut ← c.getLutInv
  interleaveReorderingRaw c npw nf nElReg lut frameId inV outV

/-! ## The table generators -/

/-- `std::iota(lut, lut + size, 0)`. -/
def iota (size : Nat) (lut : List Nat) : Exec (List Nat) :=
  forN size (fun i l => wr l i i) lut

/-- `Interleaver_core_NO::gen_lut`, `src/Tools/Interleaver/NO/Interleaver_core_NO.cpp:24-29`. -/
def genNO (size : Nat) : GenLut := fun _ lut => iota size lut

/-- `READ_ORDER` of the row-column / column-row interleavers. -/
inductive ReadOrder | topLeft | topRight | bottomLeft | bottomRight
  deriving DecidableEq, Repr

/-- The four nested loops shared by the two `gen_lut`s: outer over columns, inner over rows, in the
directions selected by the read order; `body i j idx lut` with column `i` and row `j`. -/
def orderedLoops (nRows nCols : Nat) (o : ReadOrder)
    (body : Nat → Nat → Nat → List Nat → Exec (List Nat)) (lut : List Nat) : Exec (List Nat) := do
  let b := fun i j (s : Nat × List Nat) => body i j s.1 s.2 >>= fun l => ok (s.1 + 1, l)
  let s ← match o with
    | .topLeft => forN nCols (fun i => forN nRows (fun j => b i j)) (0, lut)
    | .topRight => forDown nCols (fun i => forN nRows (fun j => b i j)) (0, lut)
    | .bottomLeft => forN nCols (fun i => forDown nRows (fun j => b i j)) (0, lut)
    | .bottomRight => forDown nCols (fun i => forDown nRows (fun j => b i j)) (0, lut)
  ok s.2

/-- `Interleaver_core_row_column::gen_lut`,
`src/Tools/Interleaver/Row_column/Interleaver_core_row_column.cpp:57-85`. -/
def genRowColumn (nRows nCols : Nat) (o : ReadOrder) : GenLut := fun _ lut =>
  orderedLoops nRows nCols o (fun i j idx l => wr l idx (j * nCols + i)) lut

/-- `Interleaver_core_column_row::gen_lut`,
`src/Tools/Interleaver/Column_row/Interleaver_core_column_row.cpp:57-85`. -/
def genColumnRow (nRows nCols : Nat) (o : ReadOrder) : GenLut := fun _ lut =>
  orderedLoops nRows nCols o (fun i j idx l => wr l (j * nCols + i) idx) lut

/-- `Interleaver_core_random::gen_lut`, `src/Tools/Interleaver/Random/Interleaver_core_random.cpp:27-33`.
`std::shuffle` is a parameter: `shuffle f` is what the f-th call does to the buffer; the only thing
assumed about it (in the theorems) is that it permutes its argument. -/
def genRandom (size : Nat) (shuffle : Nat → List Nat → List Nat) : GenLut := fun f lut => do
  let l ← iota size lut
  ok (shuffle f l)

/-- `Interleaver_core_golden::gen_lut`, `src/Tools/Interleaver/Golden/Interleaver_core_golden.cpp:29-47`.
`std::sort` with the floating-point key comparison is a parameter that permutes its argument. -/
def genGolden (size : Nat) (sort : Nat → List Nat → List Nat) : GenLut := fun f lut => do
  let l ← iota size lut
  ok (sort f l)

/-- `Interleaver_core_random_column::gen_lut`,
`src/Tools/Interleaver/Random_column/Interleaver_core_random_column.cpp:36-52`. -/
def genRandomColumn (nCols colSize : Nat) (shuffle : Nat → Nat → List Nat → List Nat) : GenLut :=
  fun f lut => do
    let s ← forN nCols (fun column (s : List Nat × List Nat) => do
      let tmp ← forN colSize (fun c t => wr t c (c + column * colSize)) s.1
      let tmp := shuffle f column tmp
      let lut ← forN colSize (fun c l => rd tmp c >>= fun v => wr l (c + column * colSize) v) s.2
      ok (tmp, lut)) (List.replicate colSize 0, lut)
    ok s.2

/-- `pi_LTE`, `src/Tools/Interleaver/LTE/Interleaver_core_LTE.cpp:235-242`. -/
def piLTE (i f1 f2 K : Nat) : Nat := (((f1 + f2 * i) % K) * i) % K

/-- `Interleaver_core_LTE::gen_lut`, `Interleaver_core_LTE.cpp:26-233`. -/
def genLTE (size : Nat) : GenLut := fun _ lut =>
  match lteTable.find? (fun r => r.1 == size) with
  | some (_, f1, f2) => forN size (fun i l => wr l i (piLTE i f1 f2 size)) lut
  | none => exc .runtimeError

/-- The primes `p[8]` of `Interleaver_core_CCSDS.cpp:56`. -/
def ccsdsP : List Nat := [31, 37, 43, 47, 53, 59, 61, 67]

/-- `pi_CCSDS`, `src/Tools/Interleaver/CCSDS/Interleaver_core_CCSDS.cpp:52-66` (index `q < 8` always). -/
def piCCSDS (index k1 k2 : Nat) : Nat :=
  let m := index % 2
  let i := index / (2 * k2)
  let j := index / 2 - i * k2
  let t := (19 * i + 1) % (k1 / 2)
  let q := t % 8
  let c := (ccsdsP.getD q 0 * j + 21 * m) % k2
  2 * (t + c * (k1 / 2) + 1) - m - 1

/-- `Interleaver_core_CCSDS::gen_lut`, `Interleaver_core_CCSDS.cpp:26-50`. -/
def genCCSDS (size : Nat) : GenLut := fun _ lut =>
  match ccsdsTable.find? (fun r => r.1 == size) with
  | some (_, k1, k2) => forN size (fun i l => wr l i (piCCSDS i k1 k2)) lut
  | none => exc .runtimeError

/-- Body of `Interleaver_core_ARP_DVB_RCS1::gen_lut`,
`src/Tools/Interleaver/ARP/Interleaver_core_ARP_DVB_RCS1.cpp:107-132`. -/
def piRCS1 (size p0 p1 p2 p3 i : Nat) : Nat :=
  let p := match i % 4 with
    | 0 => 0
    | 1 => size / 2 + p1
    | 2 => p2
    | _ => size / 2 + p3
  (p0 * i + p + 1) % size

/-- `Interleaver_core_ARP_DVB_RCS1` constructor + `gen_lut` (unknown sizes throw). -/
def genRCS1 (size : Nat) : GenLut := fun _ lut =>
  match rcs1Table.find? (fun r => r.1 == size) with
  | some (_, p0, p1, p2, p3) => forN size (fun i l => wr l i (piRCS1 size p0 p1 p2 p3 i)) lut
  | none => exc .runtimeError

/-- Body of `Interleaver_core_ARP_DVB_RCS2::gen_lut`,
`src/Tools/Interleaver/ARP/Interleaver_core_ARP_DVB_RCS2.cpp:224-249`. -/
def piRCS2 (size p q0 q1 q2 q3 i : Nat) : Nat :=
  let q := match i % 4 with
    | 0 => 0
    | 1 => 4 * q1
    | 2 => 4 * q0 * p + 4 * q2
    | _ => 4 * q0 * p + 4 * q3
  (p * i + q + 3) % size

/-- `Interleaver_core_ARP_DVB_RCS2` constructor + `gen_lut` (unknown sizes throw). -/
def genRCS2 (size : Nat) : GenLut := fun _ lut =>
  match rcs2Table.find? (fun r => r.1 == size) with
  | some (_, p, q0, q1, q2, q3) => forN size (fun i l => wr l i (piRCS2 size p q0 q1 q2 q3 i)) lut
  | none => exc .runtimeError

/-- Reading one user table, `src/Tools/Interleaver/User/Interleaver_core_user.cpp:43-78`.
`vals` is the sequence of values the successive `file >> val` yield (whatever the stream state). -/
def readUserTable (size : Nat) (vals : Nat → Nat) : Exec (List Nat) :=
  forN size (fun i (t : List Nat) =>
    let val := vals i
    if val < size then
      if t.contains val then exc .runtimeError else ok (t ++ [val])
    else exc .runtimeError) []

/-- `Interleaver_core_user` constructor, `Interleaver_core_user.cpp:13-110`: `nItl` is the first number of
the file, `vals 0` must be the size, then `nItl` tables. Returns the `pi_buffer` tables and `uniform`. -/
def readUser (size : Nat) (nItl : Int) (vals : Nat → Nat) : Exec (List (List Nat) × Bool) :=
  if nItl > 0 then
    if vals 0 = size then do
      let n := nItl.toNat
      let ts ← forN n (fun itl (ts : List (List Nat)) => do
        let t ← readUserTable size (fun i => vals (1 + itl * size + i))
        ok (ts ++ [t])) []
      ok (ts, decide (nItl > 1))
    else exc .runtimeError
  else exc .runtimeError

/-- `Interleaver_core_user::gen_lut`, `Interleaver_core_user.cpp:120-126`: the `c`-th call (counting from 0
since `reinitialize`) copies table `c % n`. -/
def genUser (tables : List (List Nat)) : GenLut := fun c lut => do
  let t ← rd tables (c % tables.length)
  copyTo t 0 t.length lut 0

end Verif.Interleaver
