import Verif.Model.Sparse

/-!
# Reading and writing parity-check matrices in AList files

Models `src/Tools/Code/LDPC/AList/AList.cpp` and `split`, `getline` of `src/Tools/general_utils.cpp:23-43`.

A file is a list of lines that all end with an end of line, a line is a list of words.  A word is a decimal number that fits
in an `int`, or something that does not begin with a number.  Memory exhaustion (a matrix whose announced size is huge) is not
modelled, nor is the warning about rows of degree 0.
-/

namespace Verif.AList
open Exec Sparse

/-- A word of a line. -/
inductive Word where
  | num (z : Int)
  | junk
  deriving DecidableEq, Repr

/-- A line: `# Positions of the information bits in the codewords:`, another line that begins with `#`, or words. -/
inductive Line where
  | title
  | comment
  | words (l : List Word)
  deriving DecidableEq, Repr

/-- The lines of a text stream. -/
abbrev File := List Line

/-- The words that `operator>>` sees in a line. -/
def Line.toks : Line → List Word
  | .words l => l
  | _ => [.junk]

/-- Conversion of an `int` to `unsigned`. -/
def u32 (z : Int) : Nat := (z % 2 ^ 32).toNat

/-- `unsigned v = 0; stream >> v;`: after a failure the stream stays in the failed state, and every value is 0. -/
def pop : List Word → Nat × List Word
  | [] => (0, [])
  | .num z :: s => (u32 z, s)
  | .junk :: _ => (0, [])

/-! ## `write` -/

/-- One line of `write`, `AList.cpp:82-91` and `97-105`. -/
def wline (mx : Nat) (pad : Bool) (l : List Nat) : List Word :=
  l.map (fun (c : Nat) => Word.num (c + 1)) ++
    if pad then List.replicate (mx - l.length) (Word.num 0)
    else if l.length = 0 then [Word.num 0] else []

/-- `AList::write`, `AList.cpp:66-107`. -/
def write (m : Mat) (pad : Bool) : File :=
  [.words [.num m.nRows, .num m.nCols], .words [],
   .words [.num m.rowsMax, .num m.colsMax], .words [],
   .words (m.r2c.map fun r => Word.num r.length), .words [],
   .words (m.c2r.map fun c => Word.num c.length), .words []] ++
  (m.r2c.map fun r => Line.words (wline m.rowsMax pad r)) ++ [.words []] ++
  m.c2r.map fun c => Line.words (wline m.colsMax pad c)

/-! ## `read_format1` -/

/-- The loops over the degrees, `AList.cpp:226-241` and `244-259`. -/
def degs1 (mx : Nat) : Nat → List Word → Exec (List Nat × List Word)
  | 0, s => ok ([], s)
  | n + 1, s =>
    let p := pop s
    if p.1 = 0 ∨ p.1 > mx then exc .runtimeError
    else degs1 mx n p.2 >>= fun r => ok (p.1 :: r.1, r.2)

/-- The loop over the connections of row `i`, `AList.cpp:263-281`: `n` iterations from `j` on. -/
def row1 (i deg : Nat) : Nat → Nat → Mat → List Word → Exec (Mat × List Word)
  | 0, _, m, s => ok (m, s)
  | n + 1, j, m, s =>
    let p := pop s
    if (p.1 > 0 ∧ j < deg) ∨ (p.1 = 0 ∧ j ≥ deg) then
      (if p.1 ≠ 0 then orThrow (add m i (p.1 - 1)) else ok m) >>= fun m => row1 i deg n (j + 1) m p.2
    else exc .runtimeError

/-- The loop over the rows from row `i` on, `AList.cpp:261-282`, given their degrees. -/
def rows1 (mx : Nat) : List Nat → Nat → Mat → List Word → Exec (Mat × List Word)
  | [], _, m, s => ok (m, s)
  | d :: ds, i, m, s => row1 i d mx 0 m s >>= fun r => rows1 mx ds (i + 1) r.1 r.2

/-- `AList::read_format1`, `AList.cpp:210-327`, on the words of the file. -/
def format1 (s : List Word) : Exec Mat :=
  let a := pop s
  let b := pop a.2
  let c := pop b.2
  let d := pop c.2
  if a.1 > 0 ∧ b.1 > 0 ∧ c.1 > 0 ∧ d.1 > 0 then
    degs1 c.1 a.1 d.2 >>= fun r =>
    degs1 d.1 b.1 r.2 >>= fun q =>
    rows1 c.1 r.1 0 (new a.1 b.1) q.2 >>= fun t => ok t.1
  else exc .runtimeError

/-! ## `read_format2` -/

/-- The loop of `tools::getline`, `general_utils.cpp:40-42`, followed by `split`: the words of the first line that is neither
a comment nor blank and the lines after it; at the end of the file an empty line and the failed state `none`. -/
def skip : File → List Word × Option File
  | [] => ([], none)
  | .words (w :: l) :: f => (w :: l, some f)
  | _ :: f => skip f

/-- `tools::getline(stream, line); values = split(line);`. -/
def next : Option File → Exec (List Word × Option File)
  | none => exc .runtimeError
  | some f => ok (skip f)

/-- `std::stoi`: throws `std::invalid_argument`. -/
def stoi : Word → Exec Int
  | .num z => ok z
  | .junk => exc .invalidArgument

/-- Two `unsigned` values read from a line of at least two words, `AList.cpp:336-348`, `360-370` and `518-530`. -/
def two (l : List Word) : Exec (Nat × Nat) :=
  if l.length < 2 then exc .runtimeError
  else rd l 0 >>= stoi >>= fun a => rd l 1 >>= stoi >>= fun b => ok (u32 a, u32 b)

/-- The loops over the degrees, `AList.cpp:391-409`, `422-434` and `553-565`: `lo` is the least value accepted. -/
def degs (lo mx : Nat) (l : List Word) : Nat → Nat → Exec (List Nat)
  | 0, _ => ok []
  | n + 1, i => rd l i >>= stoi >>= fun z =>
    if lo ≤ u32 z ∧ u32 z ≤ mx then degs lo mx l n (i + 1) >>= fun r => ok (u32 z :: r) else exc .runtimeError

/-- The loop over the connections of row `i`, `AList.cpp:449-464`: `n` iterations from `j` on.  A negative `col_index` becomes a
huge column index, that `add_connection` refuses. -/
def row2 (i deg : Nat) (l : List Word) : Nat → Nat → Mat → Exec Mat
  | 0, _, m => ok m
  | n + 1, j, m =>
    (if j < l.length then rd l j >>= stoi else ok 0) >>= fun z =>
    if (z > 0 ∧ j < deg) ∨ (z ≤ 0 ∧ j ≥ deg) then
      (if z < 0 then exc .invalidArgument else if z ≠ 0 then orThrow (add m i (z - 1).toNat) else ok m) >>= fun m =>
        row2 i deg l n (j + 1) m
    else exc .runtimeError

/-- The loop over the rows from row `i` on, `AList.cpp:436-465`. -/
def rows2 (mx : Nat) : List Nat → Nat → Mat → Option File → Exec Mat
  | [], _, m, _ => ok m
  | d :: ds, i, m, f => next f >>= fun v =>
    if v.1.length < d then exc .runtimeError
    else row2 i d v.1 mx 0 m >>= fun m => rows2 mx ds (i + 1) m v.2

/-- `AList::read_format2`, `AList.cpp:329-510`. -/
def format2 (f : File) : Exec Mat :=
  next (some f) >>= fun v1 => two v1.1 >>= fun s =>
  if s.1 = 0 ∨ s.2 = 0 then exc .runtimeError
  else next v1.2 >>= fun v2 => two v2.1 >>= fun d =>
    if d.1 = 0 ∨ d.2 = 0 then exc .runtimeError
    else next v2.2 >>= fun v3 =>
      if v3.1.length < s.1 then exc .runtimeError
      else degs 0 d.1 v3.1 s.1 0 >>= fun rd => next v3.2 >>= fun v4 =>
        if v4.1.length < s.2 then exc .runtimeError
        else degs 0 d.2 v4.1 s.2 0 >>= fun _ => rows2 d.1 rd 0 (new s.1 s.2) v4.2

/-! ## `read_format3` -/

/-- The loop over the connections of column `i`, `AList.cpp:580-584`. -/
def col3 (i : Nat) (l : List Word) : Nat → Nat → Mat → Exec Mat
  | 0, _, m => ok m
  | n + 1, j, m => rd l j >>= stoi >>= fun z => orThrow (add m (u32 z) i) >>= fun m => col3 i l n (j + 1) m

/-- The loop over the columns from column `i` on, `AList.cpp:567-585`. -/
def cols3 : List Nat → Nat → Mat → Option File → Exec Mat
  | [], _, m, _ => ok m
  | d :: ds, i, m, f => next f >>= fun v =>
    if v.1.length < d then exc .runtimeError
    else col3 i v.1 d 0 m >>= fun m => cols3 ds (i + 1) m v.2

/-- `AList::read_format3`, `AList.cpp:512-588`. -/
def format3 (f : File) : Exec Mat :=
  next (some f) >>= fun v1 => two v1.1 >>= fun s =>
  if s.2 = 0 ∨ s.1 = 0 then exc .runtimeError
  else next v1.2 >>= fun v2 =>
    if v2.1.length < s.2 then exc .runtimeError
    else degs 1 s.2 v2.1 s.1 0 >>= fun cd => cols3 cd 0 (new s.2 s.1) v2.2

/-- The `try`/`catch` of `read`: an exception of the first call is replaced by the outcome of the second one. -/
def orElse (x y : Exec Mat) : Exec Mat :=
  match x with
  | exc _ => y
  | r => r

/-- `AList::read`, `AList.cpp:14-64`. -/
def read (f : File) : Exec Mat :=
  orElse (format1 (f.flatMap Line.toks)) (orElse (format2 f) (orElse (format3 f) (exc .runtimeError)))

/-! ## Positions of the information bits -/

/-- `AList::write_info_bits_pos`, `AList.cpp:200-208`. -/
def writeInfo (pos : List Nat) : File :=
  [.title, .words [.num pos.length], .words (pos.map fun (p : Nat) => Word.num p)]

/-- The search of the title, `AList.cpp:133-135`: the lines after it, `none` at the end of the file. -/
def findTitle : File → Option File
  | [] => none
  | .title :: f => some f
  | _ :: f => findTitle f

/-- The loop over the positions, `AList.cpp:158-173`. -/
def positions : List Word → List Nat → Exec (List Nat)
  | [], acc => ok acc
  | w :: l, acc => stoi w >>= fun z =>
    if u32 z ∈ acc then exc .runtimeError else positions l (acc ++ [u32 z])

/-- `AList::read_info_bits_pos(stream)`, `AList.cpp:127-174`. -/
def readInfo (f : File) : Exec (List Nat) :=
  next (findTitle f) >>= fun v =>
  if v.1.length ≠ 1 then exc .runtimeError
  else rd v.1 0 >>= stoi >>= fun z => next v.2 >>= fun w =>
    if w.1.length ≠ u32 z then exc .runtimeError else positions w.1 []

/-- `AList::read_info_bits_pos(stream, K, N)`, `AList.cpp:176-198`. -/
def readInfoKN (f : File) (K N : Int) : Exec (List Nat) :=
  readInfo f >>= fun pos =>
  if pos.length ≠ u32 K then exc .runtimeError
  else if pos.any fun p => decide (p ≥ u32 N) then exc .runtimeError
  else ok pos

end Verif.AList
