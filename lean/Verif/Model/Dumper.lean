import Verif.Model.User

/-!
# Recording of frames

Models `src/Tools/Display/Dumper/Dumper.cpp`, `Dumper_reduction.cpp` and the binary reader of
`src/Module/Channel/User/Channel_user.cpp`.

Memory is a list of bytes.  A text file is the list of the numbers it contains; only integer types are modelled in text files.
-/

namespace Verif.Dumper
open Exec User

/-- One registered area: what `register_data` pushes in the vectors `registered_data_*`. -/
structure Data where
  size : Nat
  sizeof : Nat
  signed : Bool
  ext : String
  bin : Bool
  head : List Nat
  nFrames : Nat
  deriving DecidableEq, Repr

/-- `Dumper`. -/
structure Dumper where
  thr : Nat
  data : List Data
  buffer : List (List (List Nat))
  headers : Bool
  deriving DecidableEq, Repr

/-- `Dumper::Dumper`, `Dumper.cpp:14-18`. -/
def Dumper.new : Dumper := ⟨0, [], [], true⟩

/-- `Dumper::register_data`, `Dumper.cpp:26-61`; `null` says that the pointer is null. -/
def Dumper.register (D : Dumper) (null : Bool) (thr : Nat) (d : Data) : Exec Dumper :=
  if null then exc .invalidArgument
  else if d.size = 0 then exc .invalidArgument
  else if d.ext = "" then exc .invalidArgument
  else if d.nFrames = 0 then exc .invalidArgument
  else ok { D with thr, data := D.data ++ [d], buffer := D.buffer ++ [[]] }

/-- `bytes`, `Dumper.cpp:92`: a product of two `unsigned`. -/
def Data.bytes (d : Data) : Nat := d.size * d.sizeof % 2 ^ 32

/-- `std::copy` of `n` bytes from the offset `o`. -/
def slice (m : List Nat) (o n : Nat) : Exec (List Nat) := if o + n ≤ m.length then ok ((m.drop o).take n) else ub

/-- The body of the loop of `Dumper::add`, `Dumper.cpp:89-100`; `mem i` is the memory that starts at the pointer `i`. -/
def addOne (f : Nat) (mem : Nat → List Nat) (i : Nat) (B : List (List (List Nat))) (d : Data) : Exec (List (List (List Nat))) :=
  if f % 2 ^ 32 < d.nFrames then
    slice (mem i) (d.bytes * f) d.bytes >>= fun b => rd B i >>= fun bs => wr B i (bs ++ [b])
  else ok B

/-- `Dumper::add`, `Dumper.cpp:82-102`. -/
def Dumper.add (D : Dumper) (nErr f : Nat) (mem : Nat → List Nat) : Exec Dumper :=
  if nErr < D.thr then ok D
  else forN D.data.length (fun i B => rd D.data i >>= fun d => addOne f mem i B d) D.buffer >>= fun B => ok { D with buffer := B }

/-- `Dumper::clear`, `Dumper.cpp:142-157`. -/
def Dumper.clear (D : Dumper) : Dumper := { D with buffer := D.buffer.map fun _ => [] }

/-- A call, with the memory at that time for `add`. -/
inductive Op where
  | add (nErr f : Nat) (mem : Nat → List Nat)
  | clear

/-- Several calls one after the other. -/
def Dumper.run (D : Dumper) : List Op → Exec Dumper
  | [] => ok D
  | .add nErr f mem :: l => D.add nErr f mem >>= fun D => Dumper.run D l
  | .clear :: l => Dumper.run D.clear l

/-- The number stored in bytes, the least significant one first. -/
def leNat : List Nat → Nat
  | [] => 0
  | b :: bs => b + 256 * leNat bs

/-- The `k` bytes of a number. -/
def leBytes : Nat → Nat → List Nat
  | 0, _ => []
  | k + 1, n => n % 256 :: leBytes k (n / 256)

/-- The integer stored in bytes. -/
def leInt (signed : Bool) (bs : List Nat) : Int :=
  if signed ∧ 2 ^ (8 * bs.length) ≤ 2 * leNat bs then (leNat bs : Int) - 2 ^ (8 * bs.length) else leNat bs

/-- The numbers of one frame in `_write_body_text`, `Dumper.cpp:194-197`. -/
def textFrame (d : Data) (b : List Nat) : Exec (List Int) :=
  if d.size * d.sizeof ≤ b.length then
    ok ((List.range d.size).map fun i => leInt d.signed ((b.drop (i * d.sizeof)).take d.sizeof))
  else ub

/-- `_write_body_text`, `Dumper.cpp:188-201`. -/
def textBody (d : Data) : List (List Nat) → Exec (List Int)
  | [] => ok []
  | b :: bs => textFrame d b >>= fun r => textBody d bs >>= fun q => ok (r ++ q)

/-- The contents of a file. -/
inductive File where
  | text (l : List Int)
  | bin (l : List Nat)
  deriving DecidableEq, Repr

/-- The contents of the file of one area, `Dumper.cpp:119-138` with the headers `:159-169, 203-211` and the bodies `:213-218`. -/
def contents (headers : Bool) (d : Data) (bs : List (List Nat)) : Exec File :=
  let h := if headers then bs.length % 2 ^ 32 :: d.size :: d.head else []
  if d.bin then ok (.bin (h.flatMap (leBytes 4) ++ bs.flatten))
  else textBody d bs >>= fun l => ok (.text (h.map (fun (x : Nat) => (x : Int)) ++ l))

/-- The files by their paths. -/
def Files := String → Option File

/-- The loop of `dump`, `Dumper.cpp:110-139`.  `canOpen` says which paths can be opened for writing; nothing is reported for the
others. -/
def dumpAll (headers : Bool) (canOpen : String → Bool) (base : String) : List (Data × List (List Nat)) → Files → Exec Files
  | [], fs => ok fs
  | (d, bs) :: l, fs =>
    contents headers d bs >>= fun c =>
    dumpAll headers canOpen base l (fun p => if p = base ++ "." ++ d.ext ∧ canOpen p then some c else fs p)

/-- `Dumper::dump`, `Dumper.cpp:104-140`. -/
def Dumper.dump (D : Dumper) (canOpen : String → Bool) (base : String) (fs : Files) : Exec Files :=
  if base = "" then exc .invalidArgument
  else dumpAll D.headers canOpen base (D.data.zip D.buffer) fs

/-! ## `Dumper_reduction` -/

/-- `Dumper_reduction::checks`, `Dumper_reduction.cpp:18-119`. -/
def redChecks : List Dumper → Exec Unit
  | [] => exc .runtimeError
  | d :: ds =>
    if ∃ e ∈ ds, e.buffer.length ≠ d.buffer.length then exc .runtimeError
    else if ∃ e ∈ ds, e.data ≠ d.data then exc .runtimeError
    else ok ()

/-- The frames of the area `i` of each dumper, one dumper after the other, `Dumper_reduction.cpp:145-190`. -/
def gather (ds : List Dumper) (i : Nat) : List (List Nat) := ds.flatMap fun d => d.buffer.getD i []

/-- `Dumper_reduction::dump`, `Dumper_reduction.cpp:127-194`: the own buffers of the reduction are empty; `headers` is its own
`write_headers`. -/
def redDump (headers : Bool) (ds : List Dumper) (canOpen : String → Bool) (base : String) (fs : Files) : Exec Files :=
  redChecks ds >>= fun _ =>
  if base = "" then exc .invalidArgument
  else match ds with
    | [] => exc .runtimeError
    | d :: _ => dumpAll headers canOpen base (d.data.zip ((List.range d.data.length).map (gather ds))) fs

/-! ## Reading of binary files of noise -/

/-- White space. -/
def isWs (c : Nat) : Bool := c = 32 || (9 ≤ c && c ≤ 13)

/-- Decimal digits. -/
def isDigit (c : Nat) : Bool := 48 ≤ c && c ≤ 57

/-- `file >> n` on bytes: the number, `none` when there is none, and what is left.  Numbers out of range are not modelled. -/
def scanInt (bs : List Nat) : Option Int × List Nat :=
  let s := bs.dropWhile isWs
  let neg := s.head? = some 45
  let s := if s.head? = some 45 ∨ s.head? = some 43 then s.tail else s
  let ds := s.takeWhile isDigit
  if ds = [] then (none, s)
  else
    let v : Int := ds.foldl (fun (a : Int) (c : Nat) => 10 * a + (c - 48 : Nat)) 0
    (some (if neg then -v else v), s.dropWhile isDigit)

/-- The file as `read_as_text` sees it, `Channel_user.cpp:93-94`: `vals` and `eol` are what follows. -/
def asText {R : Type} (bs : List Nat) (vals : List (Tok R)) (eol : Bool) : NoiseFile R :=
  let a := scanInt bs
  ⟨a.1, if a.1 = none then none else (scanInt a.2).1, vals, eol⟩

/-- The frames of `n * size` values of `s` bytes; a value that is cut by the end of the file is 0 (simplified; this needs
`n * size * s` to exceed 2^32). -/
def frames {R : Type} (zero : R) (dec : List Nat → R) (n size s : Nat) (body : List Nat) : List (List R) :=
  (List.range n).map fun i => (List.range size).map fun j =>
    let c := (body.drop ((i * size + j) * s)).take s
    if c.length = s then dec c else zero

/-- `read_as_binary`, `Channel_user.cpp:140-226`: `sR` is `sizeof(R)`, `decR`, `decD` and `decF` are the values of type `R` got from
the bytes of an `R`, a `double` and a `float`. -/
def readBinary {R : Type} (zero : R) (sR : Nat) (decR decD decF : List Nat → R) (N : Nat) (bs : List Nat) : Exec (List (List R)) :=
  let n := leNat (bs.take 4)
  let size := leInt true (leBytes 4 (leNat ((bs.drop 4).take 4)))
  let body := bs.drop 8
  if n = 0 ∨ size ≤ 0 then exc .runtimeError
  else if n * size.toNat % 2 ^ 32 = 0 then ub
  else
    let sf := body.length % 2 ^ 32 / (n * size.toNat % 2 ^ 32)
    if size ≠ N then exc .runtimeError
    else if sf = sR then ok (frames zero decR n N sR body)
    else if sf = 8 then ok (frames zero decD n N 8 body)
    else if sf = 4 then ok (frames zero decF n N 4 body)
    else exc .runtimeError

end Verif.Dumper
