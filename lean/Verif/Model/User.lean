import Verif.Prelude.Exec

/-!
# User files and the fast random source

Models `src/Module/Source/User/Source_user.cpp`, `src/Module/Encoder/User/Encoder_user.cpp`,
`src/Module/Channel/User/Channel_user{,_add,_be,_bs}.cpp` and `src/Module/Source/Random/Source_random_fast.cpp`.

A text file is given as the tokens that `operator>>` finds in it.  Reading follows the standard library: a number is
stored and consumed; a token that is not a number stores 0 and sets `failbit`; at the end of the file, or once `failbit`
is set, the variable is left as it was.  Not modelled: numbers out of the range of `int` and allocation failures.
-/

namespace Verif.User
open Exec

/-- What `operator>>` finds: a number or something else. -/
inductive Tok (α : Type) where
  | num (v : α)
  | bad
  deriving DecidableEq, Repr

/-- A text stream: the tokens left and the `failbit`. -/
structure Strm (α : Type) where
  toks : List (Tok α)
  fail : Bool
  deriving DecidableEq, Repr

/-- `file >> v`: the stream afterwards and the value stored, `none` when the variable is left unchanged. -/
def Strm.get {α : Type} (zero : α) (s : Strm α) : Strm α × Option α :=
  if s.fail then (s, none)
  else match s.toks with
    | [] => (⟨[], true⟩, none)
    | .num v :: r => (⟨r, false⟩, some v)
    | .bad :: r => (⟨.bad :: r, true⟩, some zero)

/-- `n` values read one after the other into a variable that is not initialised
(`int bit; file >> bit;`, `Source_user.cpp:45-50`, `Encoder_user.cpp:104-109`): using it when nothing was stored is undefined. -/
def readRow {α β : Type} (zero : α) (f : α → β) : Nat → Strm α → Exec (Strm α × List β)
  | 0, s => ok (s, [])
  | n + 1, s =>
    match s.get zero with
    | (s, some v) => readRow zero f n s >>= fun r => ok (r.1, f v :: r.2)
    | (_, none) => ub

/-- The two loops over the frames and their values. -/
def readRows {α β : Type} (zero : α) (f : α → β) (m : Nat) : Nat → Strm α → Exec (Strm α × List (List β))
  | 0, s => ok (s, [])
  | n + 1, s => readRow zero f m s >>= fun r => readRows zero f m n r.1 >>= fun q => ok (q.1, r.2 :: q.2)

/-! ## `Source_user` and `Encoder_user` -/

/-- Frames read from a file and the index of the next one (`source`/`codewords`, `src_counter`/`cw_counter`). -/
structure Frames (β : Type) where
  size : Nat
  rows : List (List β)
  counter : Int
  deriving DecidableEq, Repr

/-- `Source_user::Source_user`, `Source_user.cpp:11-66`, after `Source.hxx:37-42`; `file` is `none` when the name is empty
or the file cannot be opened. -/
def Frames.source (K : Int) (file : Option (Strm Int)) (start : Int) : Exec (Frames Nat) :=
  if K ≤ 0 then exc .invalidArgument
  else match file with
    | none => exc .invalidArgument
    | some s =>
      let a := s.get 0
      let b := a.1.get 0
      let n := a.2.getD 0
      let size := b.2.getD 0
      if n ≤ 0 ∨ size ≤ 0 then exc .runtimeError
      else if size = K then
        readRows 0 (fun v : Int => if v ≠ 0 then 1 else 0) size.toNat n.toNat b.1 >>= fun r =>
          ok ⟨K.toNat, r.2, start.tmod n⟩
      else exc .runtimeError

/-- `_generate`, `Source_user.cpp:79-86`, and `_encode`, `Encoder_user.cpp:155-162`: a negative index is undefined. -/
def Frames.next {β : Type} (s : Frames β) (U : List β) : Exec (Frames β × List β) :=
  if s.counter < 0 then ub
  else do
    let row ← rd s.rows s.counter.toNat
    let U ← copyTo row 0 row.length U 0
    ok ({ s with counter := (s.counter + 1).tmod s.rows.length }, U)

/-- Several calls one after the other; the outputs. -/
def Frames.run {β : Type} (s : Frames β) : List (List β) → Exec (Frames β × List (List β))
  | [] => ok (s, [])
  | U :: Us => s.next U >>= fun r => Frames.run r.1 Us >>= fun q => ok (q.1, r.2 :: q.2)

/-- A word of a line: what `std::stoi` makes of it. -/
inductive Word where
  | int (z : Int)
  | other
  deriving DecidableEq, Repr

/-- A line of the end of the file of an encoder: the title of the positions, or words. -/
inductive Line where
  | title
  | words (l : List Word)
  deriving DecidableEq, Repr

/-- The words of the next line, none when there is no line. -/
def lineWords : List Line → List Word
  | .words l :: _ => l
  | .title :: _ => [.other, .other, .other, .other, .other, .other, .other, .other, .other]
  | [] => []

/-- Conversion of an `int` to `uint32_t`. -/
def u32 (z : Int) : Nat := (z % 2 ^ 32).toNat

/-- The loop over the words of `read_info_bits_pos`, `Encoder_user.cpp:47-60`; `none` is an exception. -/
def readPos : List Word → List Nat → Option (List Nat)
  | [], acc => some acc
  | .int z :: l, acc => if u32 z ∈ acc then none else readPos l (acc ++ [u32 z])
  | .other :: _, _ => none

/-- `read_info_bits_pos`, `Encoder_user.cpp:15-63`, in a file that ends with an end of line. -/
def readInfo : List Line → Option (List Nat)
  | [] => none
  | .words _ :: l => readInfo l
  | .title :: l =>
    match lineWords l with
    | [.int z] => if (lineWords l.tail).length = u32 z then readPos (lineWords l.tail) [] else none
    | _ => none

/-- `Encoder_user::Encoder_user`, `Encoder_user.cpp:65-142`, after `Encoder.hxx:43-62, 88`: the frames and the positions of
the information bits; `cast` is `(B)symbol`, `lines` the lines after the symbols. -/
def encoder {β : Type} (cast : Int → β) (K N : Int) (file : Option (Strm Int × List Line)) (start : Int) :
    Exec (Frames β × List Nat) :=
  if K ≤ 0 then exc .invalidArgument
  else if N ≤ 0 then exc .invalidArgument
  else if K > N then exc .invalidArgument
  else match file with
    | none => exc .invalidArgument
    | some (s, lines) =>
      let a := s.get 0
      let b := a.1.get 0
      let c := b.1.get 0
      let n := a.2.getD 0
      let cw := b.2.getD 0
      let src := c.2.getD 0
      if n ≤ 0 ∨ src ≤ 0 ∨ cw ≤ 0 then exc .runtimeError
      else if cw < src then exc .runtimeError
      else if src = K ∧ cw = N then
        readRows 0 cast cw.toNat n.toNat c.1 >>= fun r =>
          let pos := (if r.1.fail then none else readInfo lines).getD (List.range K.toNat)
          if (pos.length : Int) ≠ K then exc .runtimeError
          else ok (⟨N.toNat, r.2, start.tmod n⟩, pos)
      else exc .runtimeError

/-! ## `Channel_user` -/

/-- A text file of noise: the header (`none`: not a number), the values and whether an end of line follows the last one. -/
structure NoiseFile (R : Type) where
  n : Option Int
  size : Option Int
  vals : List (Tok R)
  eol : Bool

/-- The values of one frame, `Channel_user.cpp:107-121`: `eof` is tested before each value.  It is set once the last token
is read when no end of line follows it, and once a value has been looked for at the end of the file. -/
def readNoiseRow {R : Type} (zero : R) (eol : Bool) : Nat → Strm R → Exec (Strm R × List R)
  | 0, s => ok (s, [])
  | n + 1, s =>
    if s.toks = [] ∧ eol = false then exc .runtimeError
    else match s.get zero with
      | (s, some v) => readNoiseRow zero eol n s >>= fun r => ok (r.1, v :: r.2)
      | (_, none) => ub

/-- The loop over the frames, `Channel_user.cpp:107-121`. -/
def readNoiseRows {R : Type} (zero : R) (eol : Bool) (m : Nat) : Nat → Strm R → Exec (Strm R × List (List R))
  | 0, s => ok (s, [])
  | n + 1, s => readNoiseRow zero eol m s >>= fun r => readNoiseRows zero eol m n r.1 >>= fun q => ok (q.1, r.2 :: q.2)

/-- `read_as_text`, `Channel_user.cpp:83-138`. -/
def readText {R : Type} (zero : R) (N : Nat) (f : NoiseFile R) : Exec (List (List R)) :=
  let n := u32 (f.n.getD 0)
  let size := if f.n = none then 0 else f.size.getD 0
  if n = 0 ∨ size ≤ 0 then exc .runtimeError
  else if size = N then
    readNoiseRows zero f.eol size.toNat n ⟨f.vals, false⟩ >>= fun r => ok r.2
  else exc .runtimeError

/-- A channel: `Channel.hxx:36-47` and `Channel_user.cpp:14-30`; `frames` is `n_frames` and `noised` the array
`noised_data` of `N * n_frames` values. -/
structure Chan (R : Type) where
  N : Nat
  frames : Nat
  rows : List (List R)
  counter : Nat
  addUsers : Bool
  noised : List R
  deriving DecidableEq, Repr

/-- `Channel_user::Channel_user`, `Channel_user.cpp:14-30`, with `read_noise_file`, `:69-81`: `binary` is the outcome of
`read_as_binary`, used when the text reading throws `runtime_error`; `file` is `none` when the name is empty or the
file cannot be opened.  `frames` is the number of frames set afterwards (`Channel.hxx:173-186`). -/
def Chan.mk? {R : Type} (zero : R) (N : Int) (frames : Nat) (file : Option (NoiseFile R)) (binary : Exec (List (List R)))
    (addUsers : Bool) : Exec (Chan R) :=
  if N ≤ 0 then exc .invalidArgument
  else match file with
    | none => exc .invalidArgument
    | some f =>
      let rows := match readText zero N.toNat f with
        | exc .runtimeError => binary
        | r => r
      rows >>= fun rows => ok ⟨N.toNat, frames, rows, 0, addUsers, List.replicate (N.toNat * frames) zero⟩

/-- `set_noise`, `Channel_user.cpp:58-67`. -/
def Chan.setNoise {R : Type} (c : Chan R) (f : Nat) : Exec (Chan R) := do
  let row ← rd c.rows c.counter
  let d ← copyTo row 0 row.length c.noised (f * c.N)
  ok { c with noised := d, counter := (c.counter + 1) % c.rows.length }

/-- `Channel_user::_add_noise`, `Channel_user.cpp:32-48`. -/
def Chan.replace {R : Type} (c : Chan R) (f : Nat) (_X Y : List R) : Exec (Chan R × List R) :=
  if c.addUsers ∧ c.frames > 1 then do
    let c ← c.setNoise 0
    let Y ← copyTo c.noised 0 c.N Y 0
    ok (c, Y)
  else do
    let c ← c.setNoise f
    let Y ← copyTo c.noised (f * c.N) c.N Y 0
    ok (c, Y)

/-- `Channel_user_add::_add_noise`, `Channel_user_add.cpp:29-49`. -/
def Chan.add {R : Type} (zero : R) (add : R → R → R) (c : Chan R) (f : Nat) (X Y : List R) : Exec (Chan R × List R) :=
  if c.addUsers ∧ c.frames > 1 then do
    let c ← c.setNoise 0
    let Y ← copyTo c.noised 0 c.N Y 0
    let Y ← forN c.N (fun i Y => wr Y i zero) Y
    let Y ← forN c.frames (fun g Y => forN c.N (fun i Y => do
      let a ← rd Y i
      let x ← rd X (g * c.N + i)
      wr Y i (add a x)) Y) Y
    ok (c, Y)
  else do
    let c ← c.setNoise f
    let Y ← forN c.N (fun i Y => do
      let x ← rd X i
      let e ← rd c.noised (f * c.N + i)
      wr Y i (add x e)) Y
    ok (c, Y)

/-- `Channel_user_be::_add_noise`, `Channel_user_be.cpp:27-49`.  `bits e` is the integer with the same memory as the real
`e`; a vector of `L` values is handled lane by lane, `blend(a, b, m)` is `m ? a : b`. -/
def Chan.erase {R : Type} (bits : R → Nat) (erased : R) (L : Nat) (c : Chan R) (f : Nat) (X Y : List R) :
    Exec (Chan R × List R) := do
  let c ← c.setNoise f
  let Y ← forN (c.N / L) (fun v Y => forN L (fun l Y => do
    let x ← rd X (v * L + l)
    let e ← rd c.noised (c.N * f + (v * L + l))
    wr Y (v * L + l) (if bits e = 0 then x else erased)) Y) Y
  let Y ← forRange (c.N / L * L) c.N (fun i Y => do
    let x ← rd X i
    let e ← rd c.noised (c.N * f + i)
    wr Y i (if bits e ≠ 0 then erased else x)) Y
  ok (c, Y)

/-- `Channel_user_bs::_add_noise`, `Channel_user_bs.cpp:29-58`; `isZero x` is `x == 0`.  In the scalar loop the event, an
integer, is compared with a Boolean. -/
def Chan.flip {R : Type} (bits : R → Nat) (isZero : R → Bool) (zero one : R) (L : Nat) (c : Chan R) (f : Nat) (X Y : List R) :
    Exec (Chan R × List R) := do
  let c ← c.setNoise f
  let Y ← forN (c.N / L) (fun v Y => forN L (fun l Y => do
    let x ← rd X (v * L + l)
    let e ← rd c.noised (c.N * f + (v * L + l))
    wr Y (v * L + l) (if xor (decide (bits e ≠ 0)) (isZero x) then zero else one)) Y) Y
  let Y ← forRange (c.N / L * L) c.N (fun i Y => do
    let x ← rd X i
    let e ← rd c.noised (c.N * f + i)
    wr Y i (if bits e ≠ (if isZero x then 1 else 0) then zero else one)) Y
  ok (c, Y)

/-- Several frames one after the other: the frame index, the input and the output buffer of each; the outputs. -/
def Chan.run {R : Type} (noise : Chan R → Nat → List R → List R → Exec (Chan R × List R)) (c : Chan R) :
    List (Nat × List R × List R) → Exec (Chan R × List (List R))
  | [] => ok (c, [])
  | (f, X, Y) :: l => noise c f X Y >>= fun r => Chan.run noise r.1 l >>= fun q => ok (q.1, r.2 :: q.2)

/-! ## `Source_random_fast` -/

/-- The two generators: `vec d l` is lane `l` of draw `d` of the vector generator, read as `w` bits, and `sca d` draw `d`
of the scalar one, on 32 bits. -/
structure Gens where
  vec : Nat → Nat → Nat
  sca : Nat → Nat

/-- The numbers of draws done so far. -/
structure Draws where
  v : Nat
  s : Nat
  deriving DecidableEq, Repr

/-- `_generate`, `Source_random_fast.cpp:34-71`, for an aligned output: `L` lanes (`nElReg<B>()`) of `w` bits
(`sizeof(B) * 8`). -/
def randomFast (g : Gens) (L w K : Nat) (d : Draws) (U : List Nat) : Exec (Draws × List Nat) := do
  let period := L * w
  let vecLoop := K / period * period
  let U ← forN (K / period) (fun i U => forN w (fun j U => forN L (fun l U =>
    wr U (i * period + j * L + l) ((g.vec (d.v + i) l >>> j) &&& 1)) U) U) U
  let groups := (K - vecLoop + (w - 1)) / w
  let U ← forN groups (fun q U => forN (min w (K - (vecLoop + q * w))) (fun j U =>
    wr U (vecLoop + q * w + j) ((g.sca (d.s + q) >>> j) &&& 1)) U) U
  ok (⟨d.v + K / period, d.s + groups⟩, U)

end Verif.User
