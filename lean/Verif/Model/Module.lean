import Verif.Prelude.Exec

/-!
# Module frame bookkeeping and task execution

Models `src/Module/Module.cpp` (numbers of frames and waves) and `src/Module/Task.cpp` (`Task::exec`, `Task::_exec`).
-/

namespace Verif.Module
open Exec

/-! ## binary32 conversion and division, as used for the number of waves -/

/-- `x / y` rounded to the nearest integer, ties to even (IEEE-754 default rounding of a significand). -/
def rne (x y : Nat) : Nat :=
  if 2 * (x % y) < y ∨ (2 * (x % y) = y ∧ (x / y) % 2 = 0) then x / y else x / y + 1

/-- `(float)n` of an unsigned integer: 24 significant bits. -/
def toF32 (n : Nat) : Nat :=
  if n < 2 ^ 24 then n else rne n (2 ^ (n.log2 - 23)) * 2 ^ (n.log2 - 23)

/-- `std::ceil(a / b)` where `a`, `b` are positive binary32 integers and the quotient is rounded to binary32: with
`s = 24 + ⌊log2 b⌋` the integer `a 2^s / b` has at least 24 bits, it is rounded to 24 bits, and divided by `2^s`.
(Quotients are between `2^-64` and `2^64`, so the exponent range of binary32 does not matter.) -/
def ceilDivF32 (a b : Nat) : Nat :=
  let s := 24 + b.log2
  let e := (a * 2 ^ s / b).log2 - 23
  (rne (a * 2 ^ s) (b * 2 ^ e) * 2 ^ e + (2 ^ s - 1)) / 2 ^ s

/-! ## Module -/

/-- What `set_n_frames` changes of a socket: its size in bytes, `status` tells whether it is the socket named "status",
`bound` whether `check_bound_socket` throws (`Socket.hxx:614-656`). -/
structure Sck where
  status : Bool
  bytes : Nat
  bound : Bool
  deriving DecidableEq, Repr

/-- Data members of `Module` used here; `socks` are the sockets of all its tasks, in order. -/
structure Mod where
  nFrames : Nat
  npw : Nat
  nWaves : Nat
  rest : Nat
  single : Bool
  socks : List Sck
  deriving DecidableEq, Repr

/-- Outcome of a method which may throw half way: the state reached, and the exception if any. -/
structure Res where
  mod : Mod
  err : Option Exn
  deriving DecidableEq, Repr

/-- `Module::Module`, `Module.cpp:11-21`, followed by `create_task`/`create_socket` with the given bytes per frame. -/
def Mod.init (bytes : List Nat) : Mod :=
  ⟨1, 1, 1, 0, false, bytes.map (fun b => ⟨false, b, false⟩) ++ [⟨true, 4, false⟩]⟩

/-- `Socket::set_databytes`, `Socket.hxx:594-602`: `none` is the exception. -/
def Sck.setBytes (s : Sck) (b : Nat) : Option Sck :=
  if b ≠ s.bytes then if s.bound then none else some { s with bytes := b } else some s

/-- Updates the sockets in order with `f`, stopping at the first exception: the sockets reached, and whether one threw. -/
def updSocks (f : Sck → Option Sck) : List Sck → List Sck × Bool
  | [] => ([], false)
  | s :: l =>
    match f s with
    | none => (s :: l, true)
    | some s' => let r := updSocks f l; (s' :: r.1, r.2)

/-- `Task::update_n_frames`, `Task.cpp:622-653`, on all tasks (`Module.cpp:63-64`).  Buffers are not represented. -/
def updFrames (nWaves old new : Nat) (s : Sck) : Option Sck :=
  if s.status then s.setBytes (nWaves * 4) else s.setBytes (s.bytes / old * new)

/-- `Task::update_n_frames_per_wave`, `Task.cpp:655-678`. -/
def updWave (nWaves : Nat) (s : Sck) : Option Sck :=
  if s.status then s.setBytes (nWaves * 4) else some s

/-- `Module::_set_n_frames`, `Module.cpp:49-65`. -/
def Mod.setFrames (m : Mod) (n : Nat) : Res :=
  if n = 0 then ⟨m, some .invalidArgument⟩
  else
    let w := ceilDivF32 (toF32 n) (toF32 m.npw)
    let r := updSocks (updFrames w m.nFrames n) m.socks
    ⟨{ m with nFrames := n, rest := n % m.npw, nWaves := w, socks := r.1 }, if r.2 then some .runtimeError else none⟩

/-- `Module::_set_n_frames_per_wave`, `Module.cpp:67-84`. -/
def Mod.setWave (m : Mod) (p : Nat) : Res :=
  if p = 0 then ⟨m, some .invalidArgument⟩
  else
    let w := ceilDivF32 (toF32 m.nFrames) (toF32 p)
    let r := updSocks (updWave w) m.socks
    ⟨{ m with npw := p, rest := m.nFrames % p, nWaves := w, socks := r.1 }, if r.2 then some .runtimeError else none⟩

/-- Sequencing of statements: the second runs if the first did not throw. -/
def Res.seq (r : Res) (f : Mod → Res) : Res := if r.err = none then f r.mod else r

mutual
/-- `Module::set_n_frames`, `Module.cpp:86-94`; `fuel` bounds the mutual recursion with `set_n_frames_per_wave`, of which
at most one nested call happens (the nested call finds both numbers equal). -/
def Mod.setNFrames (fuel : Nat) (m : Mod) (n : Nat) : Res :=
  Res.seq (if m.nFrames ≠ n then m.setFrames n else ⟨m, none⟩) fun m =>
    if m.single ∧ m.npw ≠ n then
      match fuel with
      | 0 => ⟨m, none⟩
      | f + 1 => Mod.setNpw f m n
    else ⟨m, none⟩

/-- `Module::set_n_frames_per_wave`, `Module.cpp:96-104`. -/
def Mod.setNpw (fuel : Nat) (m : Mod) (p : Nat) : Res :=
  Res.seq (if m.npw ≠ p then m.setWave p else ⟨m, none⟩) fun m =>
    if m.single ∧ m.nFrames ≠ p then
      match fuel with
      | 0 => ⟨m, none⟩
      | f + 1 => Mod.setNFrames f m p
    else ⟨m, none⟩
end

/-- `Module::set_single_wave`, `Module.cpp:106-112`. -/
def Mod.setSingle (fuel : Nat) (m : Mod) (b : Bool) : Res :=
  ((Mod.setNFrames fuel { m with single := b } m.nFrames).seq fun m' => Mod.setNpw fuel m' m'.nFrames)

/-- A call on a module. -/
inductive ModOp where
  | nFrames (n : Nat)
  | npw (n : Nat)
  | single (b : Bool)
  deriving DecidableEq, Repr

def Mod.op (fuel : Nat) (m : Mod) : ModOp → Res
  | .nFrames n => m.setNFrames fuel n
  | .npw n => m.setNpw fuel n
  | .single b => m.setSingle fuel b

/-! ## Task execution -/

/-- Status codes, `Task.hpp:28-31`. -/
def FAILURE_STOP : Int := -1
def UNKNOWN : Int := -2

/-- Numbers of frames of the module, read at the start of `_exec`, `Task.cpp:223-226`. -/
structure Conf where
  nFrames : Nat
  npw : Nat
  nWaves : Nat
  rest : Nat
  deriving DecidableEq, Repr

def Mod.conf (m : Mod) : Conf := ⟨m.nFrames, m.npw, m.nWaves, m.rest⟩

/-- Sockets of a task but the status: how many, direction and bytes per frame (`sockets_databytes_per_frame`). -/
structure Socks where
  n : Nat
  isOut : Nat → Bool
  bpf : Nat → Nat

/-- A socket's data pointer during `_exec`: into the buffer the socket was given (`user`) or into the task's own
`sockets_data`, at a byte offset. -/
structure Ptr where
  tmp : Bool
  off : Nat
  deriving DecidableEq, Repr

/-- The memory `_exec` works on: per socket, the buffer it points to (`user`) and `sockets_data` (`tmp`); the status
socket.  Buffers of different sockets do not overlap. -/
structure Mem (α : Type _) where
  user : Nat → List α
  tmp : Nat → List α
  status : List Int

/-- A codelet works on the `n_frames_per_wave` frames its sockets' data pointers designate: it is given the contents of
these windows and returns a status and the new contents of the output windows. -/
abbrev Codelet (α : Type _) := Nat → (Nat → List α) → Int × (Nat → List α)

/-- Overwrites `buf` from offset `off` with `w`; out of range is undefined. -/
def writeAt {α : Type _} (buf : List α) (off : Nat) (w : List α) : Exec (List α) :=
  if off + w.length ≤ buf.length then ok (buf.take off ++ w ++ buf.drop (off + w.length)) else ub

/-- Bytes `off` to `off + len` of `buf`; out of range is undefined. -/
def readAt {α : Type _} (buf : List α) (off len : Nat) : Exec (List α) :=
  if off + len ≤ buf.length then ok ((buf.drop off).take len) else ub

/-- Buffer behind a pointer of socket `s`. -/
def Mem.buf {α : Type _} (m : Mem α) (p : Ptr) (s : Nat) : List α := if p.tmp then m.tmp s else m.user s

def Mem.setBuf {α : Type _} (m : Mem α) (p : Ptr) (s : Nat) (b : List α) : Mem α :=
  if p.tmp then { m with tmp := fun t => if t = s then b else m.tmp t }
  else { m with user := fun t => if t = s then b else m.user t }

/-- `this->codelet(*this->module, *this, fid)` with the sockets pointing to `ptr`, the status being stored in
`status[w]`. -/
def call {α : Type _} (S : Socks) (npw : Nat) (cod : Codelet α) (ptr : Nat → Ptr) (fid w : Nat) (m : Mem α) :
    Exec (Mem α) := do
  let win ← forN S.n (fun s (win : Nat → List α) => readAt (m.buf (ptr s) s) (ptr s).off (npw * S.bpf s) >>= fun v =>
    ok (fun t => if t = s then v else win t)) (fun _ => [])
  let r := cod fid win
  let m ← forN S.n (fun s (m : Mem α) => if S.isOut s then
      writeAt (m.buf (ptr s) s) (ptr s).off (r.2 s) >>= fun b => ok (m.setBuf (ptr s) s b)
    else ok m) m
  wr m.status w r.1 >>= fun st => ok { m with status := st }

/-- The copies of input frames to `sockets_data`, `Task.cpp:255-262` and `:301-308`: for every input socket, frames `f`
to `f + k` of the socket go to frame `pos` of `sockets_data`. -/
def copyIn {α : Type _} (S : Socks) (f k pos : Nat) (m : Mem α) : Exec (Mem α) :=
  forN S.n (fun s (m : Mem α) => if S.isOut s then ok m else
    readAt (m.user s) (f * S.bpf s) (k * S.bpf s) >>= fun v => writeAt (m.tmp s) (pos * S.bpf s) v >>= fun b =>
      ok { m with tmp := fun t => if t = s then b else m.tmp t }) m

/-- The copies of output frames back, `Task.cpp:266-270` and `:312-316`: frames `pos` to `pos + k` of `sockets_data` go to
frame `f` of the socket. -/
def copyOut {α : Type _} (S : Socks) (f k pos : Nat) (m : Mem α) : Exec (Mem α) :=
  forN S.n (fun s (m : Mem α) => if S.isOut s then
    readAt (m.tmp s) (pos * S.bpf s) (k * S.bpf s) >>= fun v => writeAt (m.user s) (f * S.bpf s) v >>= fun b =>
      ok { m with user := fun t => if t = s then b else m.user t }
    else ok m) m

/-- Pointers of wave `w`, `Task.cpp:281-283`, `:293-295`. -/
def wavePtr (S : Socks) (npw w : Nat) : Nat → Ptr := fun s => ⟨false, w * npw * S.bpf s⟩

/-- Pointers to `sockets_data`. -/
def tmpPtr : Nat → Ptr := fun _ => ⟨true, 0⟩

/-- Pointers as the sockets were given. -/
def userPtr : Nat → Ptr := fun _ => ⟨false, 0⟩

/-- The loop over the waves but the last, `Task.cpp:277-287`: runs while `exec_status` is not `FAILURE_STOP`.  The state
is the memory, `w` and `exec_status`. -/
def waveLoop {α : Type _} (S : Socks) (npw : Nat) (cod : Codelet α) (n : Nat) (x : Mem α × Nat × Int) :
    Exec (Mem α × Nat × Int) :=
  forN n (fun _ x => if x.2.2 ≠ FAILURE_STOP then
    call S npw cod (wavePtr S npw x.2.1) (x.2.1 * npw) x.2.1 x.1 >>= fun m =>
      rd m.status x.2.1 >>= fun st => ok (m, x.2.1 + 1, st)
    else ok x) x

/-- The last wave, `Task.cpp:289-318`. -/
def lastWave {α : Type _} (S : Socks) (c : Conf) (cod : Codelet α) (w : Nat) (m : Mem α) : Exec (Mem α) :=
  if c.rest = 0 then call S c.npw cod (wavePtr S c.npw w) (w * c.npw) w m
  else do
    -- from frame `w * npw` to frame `n_frames`; a negative length is undefined
    if c.nFrames < w * c.npw then ub
    let m ← copyIn S (w * c.npw) (c.nFrames - w * c.npw) 0 m
    let m ← call S c.npw cod tmpPtr (w * c.npw) w m
    copyOut S (w * c.npw) c.rest 0 m

/-- The branch over waves, `Task.cpp:272-319`, from wave `start` to `stop`. -/
def waves {α : Type _} (S : Socks) (c : Conf) (cod : Codelet α) (start stop : Nat) (m : Mem α) : Exec (Mem α) := do
  let x ← waveLoop S c.npw cod (stop - 1 - start) (m, start, 0)
  if x.2.2 ≠ FAILURE_STOP then lastWave S c cod x.2.1 x.1 else ok x.1

/-- The condition of `Task.cpp:234-238`. -/
def direct (c : Conf) (fid : Int) (managed : Bool) : Bool :=
  (managed = false ∧ fid ≥ 0) ∨ (fid = -1 ∧ c.npw = c.nFrames) ∨ (fid = 0 ∧ c.npw = 1) ∨ (fid = 0 ∧ c.nWaves > 1) ∨
    (fid = 0 ∧ c.rest = 0)

/-- `Task::_exec`, `Task.cpp:220-325`.  The data pointers are restored at the end, so they are not part of the state. -/
def exec_ {α : Type _} (S : Socks) (c : Conf) (cod : Codelet α) (fid : Int) (managed : Bool) (m : Mem α) : Exec (Mem α) :=
  forN c.nWaves (fun w st => wr st w UNKNOWN) m.status >>= fun st =>
  let m := { m with status := st }
  if direct c fid managed then
    let real := if fid = -1 then 0 else fid.toNat
    call S c.npw cod userPtr real (real % c.nFrames / c.npw) m
  else if fid > 0 ∧ managed = true ∧ c.npw > 1 then do
    let f := fid.toNat % c.nFrames
    let pos := fid.toNat % c.npw
    let w := f / c.npw
    let m ← copyIn S f 1 pos m
    let m ← call S c.npw cod tmpPtr (w * c.npw) w m
    copyOut S f 1 pos m
  else if fid < 0 then waves S c cod 0 c.nWaves m
  else waves S c cod (fid.toNat % c.nWaves) (fid.toNat % c.nWaves + 1) m

/-- `Task::exec`, `Task.cpp:327-404` (neither statistics nor debug): `fast` skips the check of the frame identifier.  A
negative identifier other than -1 becomes a huge `size_t`.  All sockets are fed (else `runtime_error`). -/
def exec {α : Type _} (S : Socks) (c : Conf) (cod : Codelet α) (fast fed : Bool) (fid : Int) (managed : Bool) (m : Mem α) :
    Exec (Mem α) :=
  if fast then exec_ S c cod fid managed m
  else if fid ≠ -1 ∧ (fid < 0 ∨ (c.nFrames : Int) ≤ fid) then exc .lengthError
  else if fed then exec_ S c cod fid managed m
  else exc .runtimeError

end Verif.Module
