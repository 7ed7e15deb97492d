import Verif.Prelude.Exec
import Verif.Model.BitPacker

/-!
# Binary files of bits

Models `src/Module/Sink/User/Sink_user_binary.cpp` and `src/Module/Source/User/Source_user_binary.cpp`.
A file is its list of bytes (`CHAR_BIT = 8`).  Not modelled: `fifo_mode`, input/output errors other than the end of the
file (opening, writing and seeking succeed), files that change while they are read.  Frame lengths are `Nat`s: the base
classes reject `K <= 0` (`Sink.hxx:35-40`, `Source.hxx:35-40`).
-/

namespace Verif.BitFile
open Exec

/-! ## `Sink_user_binary` -/

/-- The members of `Sink_user_binary` (`Sink_user_binary.hpp:31-35`) and the content of its file. -/
structure Sink where
  K : Nat
  file : List (BitVec 8)
  chunk : List (BitVec 8)
  buf : List Int
  nLeft : Nat
  deriving DecidableEq

/-- The constructor on a file whose content was `old`, `Sink_user_binary.cpp:13-39`: the member initialiser of
`sink_file` opens (and truncates) the file before `K` is checked.  Returns the content of the file and the outcome. -/
def Sink.make (K : Nat) (_old : List (BitVec 8)) : List (BitVec 8) × Exec Sink :=
  ([], if K < 8 then exc .runtimeError
    else ok ⟨K, [], List.replicate K 0#8, List.replicate 8 0, 0⟩)

/-- `reset`, `Sink_user_binary.cpp:41-50`: the file is closed and opened again, which truncates it. -/
def Sink.reset (s : Sink) : Sink := { s with file := [], nLeft := 0 }

/-- `sink_file.write(bytes, n)`. -/
def writeBytes (file bytes : List (BitVec 8)) (n : Nat) : Exec (List (BitVec 8)) :=
  if n ≤ bytes.length then ok (file ++ bytes.take n) else ub

/-- Completing the byte left by the previous call, `Sink_user_binary.cpp:66-73`. -/
def Sink.complete (s : Sink) (V : List Int) (nCompleting : Nat) : Exec Sink :=
  if s.nLeft ≠ 0 then do
    let buf ← forN nCompleting (fun i b => rd V i >>= fun v => wr b (s.nLeft + i) v) s.buf
    let byte ← BitPacker.pack 8 false 8 8 1 buf [0#8]
    let file ← writeBytes s.file byte 1
    ok { s with buf := buf, file := file }
  else ok s

/-- Keeping the last bits of the frame, `Sink_user_binary.cpp:81-83`. -/
def keepRest (K : Nat) (V : List Int) (first : Nat) (buf : List Int) : Exec (List Int × Nat) :=
  forN (K - first) (fun i p => rd V (first + i) >>= fun v => wr p.1 p.2 v >>= fun b => ok (b, p.2 + 1)) (buf, 0)

/-- `_send`, `Sink_user_binary.cpp:52-84`. -/
def Sink.send (s : Sink) (V : List Int) : Exec Sink := do
  let nCompleting := (8 - s.nLeft) % 8
  let s ← s.complete V nCompleting
  let main := (s.K - nCompleting) / 8
  let chunk ← BitPacker.pack 8 false 8 (main * 8) 1 (V.drop nCompleting) s.chunk
  let file ← writeBytes s.file chunk main
  let rest ← keepRest s.K V (nCompleting + main * 8) s.buf
  ok { s with file := file, chunk := chunk, buf := rest.1, nLeft := rest.2 }

/-! ## `Source_user_binary` -/

/-- The members of `Source_user_binary` (`Source_user_binary.hpp:20-26`), with the content of the file, the position in
it and `eofbit` (which the modelled operations set together with `failbit`). -/
structure Source where
  K : Nat
  autoReset : Bool
  file : List (BitVec 8)
  pos : Nat
  eof : Bool
  done : Bool
  nLeft : Nat
  memblk : List (BitVec 8)
  left : List Int
  deriving DecidableEq

/-- The constructor, `Source_user_binary.cpp:8-32`. -/
def Source.make (K : Nat) (file : List (BitVec 8)) (autoReset : Bool) : Source :=
  ⟨K, autoReset, file, 0, false, false, 0, List.replicate K 0#8, List.replicate 8 0⟩

/-- `reset`, `Source_user_binary.cpp:34-45`. -/
def Source.reset (s : Source) : Source := { s with eof := false, pos := 0, done := false, nLeft := 0 }

/-- `is_done`, `Source_user_binary.cpp:47-52`. -/
def Source.isDone (s : Source) : Bool := s.done

/-- `source_file.read(memblk.data() + off, n)` with `gcount()`: reads what is left when less than `n` bytes are, and
sets `eofbit`; reads nothing when the stream already failed. -/
def Source.read (s : Source) (off n : Nat) : Exec (Source × Nat) :=
  if s.eof then ok (s, 0)
  else do
    let m := min n (s.file.length - s.pos)
    let memblk ← copyTo s.file s.pos m s.memblk off
    ok ({ s with memblk := memblk, pos := s.pos + m, eof := decide (m < n) }, m)

/-- The loop of `Source_user_binary.cpp:68-85`, at most `fuel` iterations; `none` when it has not ended by then. -/
def Source.readLoop : Nat → Nat → Source → Nat → Exec (Option (Source × Nat))
  | fuel, needed, s, nRead =>
    if nRead < needed then
      match fuel with
      | 0 => ok none
      | fuel + 1 => do
        let r ← s.read nRead (needed - nRead)
        if r.1.eof then
          if r.1.autoReset then Source.readLoop fuel needed r.1.reset (nRead + r.2)
          else ok (some (r.1, nRead + r.2))
        else Source.readLoop fuel needed r.1 (nRead + r.2)
    else ok (some (s, nRead))

/-- `Bit_packer::unpack(in, U + off, n)`. -/
def unpackAt (bytes : List (BitVec 8)) (U : List Int) (off n : Nat) : Exec (List Int) := do
  let o ← BitPacker.unpack false 8 n 1 bytes (U.drop off)
  ok (U.take off ++ o)

/-- `std::fill(U + a, U + b, 0)`. -/
def fillZero (U : List Int) (a b : Nat) : Exec (List Int) := forN (b - a) (fun i o => wr o (a + i) 0) U

/-- The number of bits left for the next call, `Source_user_binary.cpp:92-93, 102-103`. -/
def leftAfter (K nLeft nRead : Nat) : Nat := ((nRead : Int) * 8 - ((K : Int) - (nLeft : Int))).toNat

/-- The end of `_generate` once the bytes are read, `Source_user_binary.cpp:87-114`. -/
def Source.finish (s : Source) (U : List Int) (needed nRead : Nat) : Exec (List Int × Source) :=
  if s.nLeft + nRead * 8 ≤ s.K then do
    let U ← unpackAt s.memblk U s.nLeft (nRead * 8)
    let U ← fillZero U (s.nLeft + nRead * 8) s.K
    ok (U, { s with nLeft := leftAfter s.K s.nLeft nRead, done := s.done || (!s.autoReset && s.eof) })
  else do
    let U ← unpackAt s.memblk U s.nLeft (s.K - s.nLeft)
    let nl := leftAfter s.K s.nLeft nRead
    if nl ≠ 0 then
      if needed = 0 then ub
      else do
        let left ← BitPacker.unpack false 8 8 1 (s.memblk.drop (needed - 1)) s.left
        let left ← forN nl (fun i l => rd l (i + 8 - nl) >>= fun v => wr l i v) left
        ok (U, { s with nLeft := nl, left := left })
    else ok (U, { s with nLeft := nl })

/-- `_generate`, `Source_user_binary.cpp:54-116`, with at most `fuel` iterations of its reading loop: `none` when the
loop has not ended by then.  `U` is the output buffer. -/
def Source.generate (fuel : Nat) (s : Source) (U : List Int) : Exec (Option (List Int × Source)) :=
  if s.isDone then do
    let U ← fillZero U 0 s.K
    ok (some (U, s))
  else do
    let needed := (s.K + 8 - 1 - s.nLeft) / 8
    let U ← forN s.nLeft (fun i U => rd s.left i >>= fun v => wr U i v) U
    let r ← s.readLoop fuel needed 0
    match r with
    | none => ok none
    | some (s, nRead) => do
      let p ← s.finish U needed nRead
      ok (some p)

end Verif.BitFile
