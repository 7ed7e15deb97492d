import Verif.Prelude.Loops
import Verif.Model.Distance
import Verif.Model.Module

/-!
# Monitors

Models `src/Module/Monitor/BFER/Monitor_BFER.cpp`, `include/Tools/Monitor/Monitor_reduction.hxx`,
`src/Tools/Monitor/Monitor_reduction.cpp` (without MPI), `include/Tools/Algo/Histogram.hxx` (counting part) and
`include/Tools/Algo/Callback/Callback.hxx`.
-/

namespace Verif.Monitor
open Exec

/-! ## Histogram -/

/-- `Histogram<int>`, `Histogram.hpp:22-33`: `hist` is the `std::map`, as the list of its entries in ascending order of
keys; `scale` is `stock_norm = 10^precision`.  Counts are not bounded (`size_t` in the code). -/
structure Hist where
  scale : Nat
  nValues : Nat
  hist : List (Int × Nat)
  deriving DecidableEq, Repr

/-- `Histogram::Histogram`, `Histogram.hxx:13-17`. -/
def Hist.mk' (precision : Nat) : Hist := ⟨10 ^ precision, 0, []⟩

/-- `hist.find(x)` then `hist[x] = w` or `it->second += w`, `Histogram.hxx:50-56`, `:83-87`, `:99-103`. -/
def upsert (x : Int) (w : Nat) : List (Int × Nat) → List (Int × Nat)
  | [] => [(x, w)]
  | (k, c) :: l => if x < k then (x, w) :: (k, c) :: l else if x = k then (k, c + w) :: l else (k, c) :: upsert x w l

/-- `Histogram<int>::add_value`, `Histogram.hxx:68-73` and `:75-92` for integers (`round` of an integer is itself). -/
def Hist.add (h : Hist) (v : Int) : Hist := { h with hist := upsert (v * h.scale) 1 h.hist, nValues := h.nValues + 1 }

/-- `Histogram::add_value` with a weight, `Histogram.hxx:94-107`. -/
def Hist.addW (h : Hist) (v : Int) (w : Nat) : Hist :=
  { h with hist := upsert (v * h.scale) w h.hist, nValues := h.nValues + w }

/-- `Histogram::add_values` from another histogram, `Histogram.hxx:37-60`; `none` is the exception. -/
def Hist.merge (h o : Hist) : Option Hist :=
  if h.scale ≠ o.scale then none
  else some { h with hist := o.hist.foldl (fun l e => upsert e.1 e.2 l) h.hist, nValues := h.nValues + o.nValues }

/-- `Histogram::operator=`, `Histogram.hxx:19-35`. -/
def Hist.assign (h o : Hist) : Option Hist :=
  if h.scale ≠ o.scale then none else some { h with hist := o.hist, nValues := o.nValues }

/-- `Histogram::reset`, `Histogram.hxx:212-218`. -/
def Hist.reset (h : Hist) : Hist := { h with hist := [], nValues := 0 }

/-! ## Callbacks -/

/-- `Callback`, `Callback.hpp`: the recorded functions (here: names of functions) with their identifiers.  Every method
holds the mutex, so the calls are a sequence. -/
abbrev Callback (F : Type _) := List (F × BitVec 32)

/-- `Callback::record`, `Callback.hxx:16-26`. -/
def Callback.record {F : Type _} (c : Callback F) (f : F) : Callback F × BitVec 32 :=
  let id := match c.getLast? with
    | none => 0#32
    | some e => e.2 + 1#32
  (c ++ [(f, id)], id)

/-- `Callback::unrecord`, `Callback.hxx:28-45`: erases the first entry with this identifier. -/
def Callback.unrecord {F : Type _} : Callback F → BitVec 32 → Callback F × Bool
  | [], _ => ([], false)
  | e :: c, id => if e.2 = id then (c, true) else (e :: (Callback.unrecord c id).1, (Callback.unrecord c id).2)

/-- `Callback::notify`, `Callback.hxx:55-62`: the functions called, in order. -/
def Callback.notify {F : Type _} (c : Callback F) : List F := c.map (·.1)

/-! ## Monitor_BFER -/

/-- `Monitor_BFER::Attributes`, `Monitor_BFER.hpp:34-43`: `unsigned long long` counters. -/
structure Attr where
  nFra : BitVec 64
  nBe : BitVec 64
  nFe : BitVec 64
  deriving DecidableEq, Repr

/-- `Attributes::reset`, `Monitor_BFER.cpp:523-530`. -/
def Attr.zero : Attr := ⟨0, 0, 0⟩

/-- `Attributes::operator+=`, `Monitor_BFER.cpp:512-521`. -/
def Attr.add (a b : Attr) : Attr := ⟨a.nFra + b.nFra, a.nBe + b.nBe, a.nFe + b.nFe⟩

/-- Construction arguments: element width and register width of the distance computation are those of the build; `sat`
is the unknown symbol of the type. -/
structure Args where
  K : Nat
  maxFe : Nat
  maxFra : Nat
  unk : Bool
  bits : Nat
  L : Nat
  sat : Int
  deriving DecidableEq, Repr

/-- A monitor, with the task's internal copies of the sockets (`sockets_data`, see `Model/Module.lean`). -/
structure Mnt where
  args : Args
  nFrames : Nat
  vals : Attr
  hist : Hist
  histOn : Bool
  tmp : Nat → List Int

/-- Calls of the callbacks. -/
inductive Ev where
  | fe (count : Nat) (frame : Nat)
  | check
  | feLimit
  deriving DecidableEq, Repr

/-- `Monitor_BFER::Monitor_BFER`, `Monitor_BFER.cpp:12-72`. -/
def Mnt.make (a : Args) : Exec Mnt :=
  if a.K = 0 then exc .invalidArgument else ok ⟨a, 1, Attr.zero, Hist.mk' 0, false, fun _ => []⟩

/-- `Boolean_diff<B,true>::apply`, `Boolean_diff.hxx:135-138`. -/
def booleanDiffUnk (sat a b : Int) : Bool := Distance.booleanDiff a b || a == sat || b == sat

/-- `hamming_distance` or `hamming_distance_unk`, `Monitor_BFER.cpp:251-254`, `hamming_distance.hxx:17-20` and `:41-44`. -/
def distance (a : Args) (x y : List Int) : Exec Nat :=
  if a.unk then
    if a.bits = 8 then Distance.distanceNarrow 8 4 a.L (booleanDiffUnk a.sat) x y a.K
    else if a.bits = 16 then Distance.distanceNarrow 16 2 a.L (booleanDiffUnk a.sat) x y a.K
    else Distance.distanceWide a.bits a.L (booleanDiffUnk a.sat) x y a.K
  else Distance.hammingDistance a.bits a.L x y a.K

/-- `Monitor_BFER::__check_errors`, `Monitor_BFER.cpp:245-271`: the number of errors, the monitor after, and the callbacks
called. -/
def Mnt.checkFrame (m : Mnt) (U V : List Int) (f : Nat) : Exec (Mnt × List Ev × Nat) :=
  distance m.args (U.drop (f * m.args.K)) (V.drop (f * m.args.K)) >>= fun e =>
    if e ≠ 0 then
      ok ({ m with
              vals := { nFra := m.vals.nFra + 1#64, nBe := m.vals.nBe + BitVec.ofNat 64 e, nFe := m.vals.nFe + 1#64 }
              hist := if m.histOn then m.hist.add e else m.hist }, [Ev.fe e f], e)
    else ok ({ m with vals := { m.vals with nFra := m.vals.nFra + 1#64 } }, [], e)

/-- `Monitor_BFER::fe_limit_achieved`, `Monitor_BFER.cpp:272-277`. -/
def Mnt.feLimit (m : Mnt) : Bool := m.args.maxFe ≠ 0 ∧ m.args.maxFe ≤ m.vals.nFe.toNat

/-- `Monitor_BFER::frame_limit_achieved`, `Monitor_BFER.cpp:279-284`. -/
def Mnt.frameLimit (m : Mnt) : Bool := m.args.maxFra ≠ 0 ∧ m.args.maxFra ≤ m.vals.nFra.toNat

/-- `Monitor_BFER::is_done`, `Monitor_BFER.cpp:286-291`. -/
def Mnt.isDone (m : Mnt) : Bool := m.feLimit || m.frameLimit

/-- `n_be_total += e` on an `int`: overflow is undefined. -/
def addInt (a b : Nat) : Exec Nat := if a + b < 2 ^ 31 then ok (a + b) else ub

/-- One turn of the loop of `_check_errors`, `Monitor_BFER.cpp:173-177`. -/
def Mnt.checkStep (U V : List Int) (f : Nat) (x : Mnt × List Ev × Nat) : Exec (Mnt × List Ev × Nat) :=
  x.1.checkFrame U V f >>= fun r => addInt x.2.2 r.2.2 >>= fun t => ok (r.1, x.2.1 ++ r.2.1, t)

/-- `Monitor_BFER::_check_errors`, `Monitor_BFER.cpp:167-185`; `_check_errors2` (`:211-243`) does the same and also writes
the counters to its output sockets. -/
def Mnt.checkAll (m : Mnt) (U V : List Int) : Exec (Mnt × List Ev × Nat) :=
  forN m.nFrames (Mnt.checkStep U V) (m, [], 0) >>= fun x =>
    ok (x.1, x.2.1 ++ (Ev.check :: if x.1.feLimit then [Ev.feLimit] else []), x.2.2)

/-- The sockets of the task `check_errors`: two inputs of `K` elements. -/
def sockets (K : Nat) : Module.Socks := ⟨2, fun _ => false, fun _ => K⟩

/-- `Monitor_BFER::check_errors`, `Monitor_BFER.cpp:156-165`, through `Task::_exec` (`Task.cpp:220-325`, see
`Module.exec_`) for a single wave (`n_frames_per_wave = n_frames`): the codelet works on the caller's buffers, or, for a
frame identifier greater than 0 with managed memory, on the task's copies in which that frame has been copied. -/
def Mnt.check (m : Mnt) (U V : List Int) (fid : Int) (managed : Bool) : Exec (Mnt × List Ev × Nat) :=
  if fid ≠ -1 ∧ (fid < 0 ∨ (m.nFrames : Int) ≤ fid) then exc .lengthError
  else if 0 < fid ∧ managed = true then
    let f := fid.toNat
    Module.copyIn (sockets m.args.K) f 1 f ⟨fun s => if s = 0 then U else V, m.tmp, []⟩ >>= fun mem =>
      ({ m with tmp := mem.tmp } : Mnt).checkAll (mem.tmp 0) (mem.tmp 1)
  else m.checkAll U V

/-- `Monitor_BFER::reset`, `Monitor_BFER.cpp:430-438`. -/
def Mnt.reset (m : Mnt) : Mnt := { m with vals := Attr.zero, hist := m.hist.reset }

/-- `Module::set_n_frames` of a single wave module; `sockets_data` are resized, `Task.cpp:668-676`. -/
def Mnt.setFrames (m : Mnt) (n : Nat) : Exec Mnt :=
  if n = 0 then exc .invalidArgument
  else ok { m with nFrames := n, tmp := fun s => if 1 < n then (m.tmp s).take (n * m.args.K) ++ List.replicate (n * m.args.K - (m.tmp s).length) 0 else [] }

/-- `Monitor_BFER::collect(const Monitor_BFER&, fully)`, `Monitor_BFER.cpp:456-463`. -/
def Mnt.collect (m o : Mnt) (fully : Bool) : Exec Mnt :=
  if fully then
    match m.hist.merge o.hist with
    | none => exc .runtimeError
    | some h => ok { m with vals := m.vals.add o.vals, hist := h }
  else ok { m with vals := m.vals.add o.vals }

/-- `Monitor_BFER::copy(const Monitor_BFER&, fully)`, `Monitor_BFER.cpp:487-494`. -/
def Mnt.copy (m o : Mnt) (fully : Bool) : Exec Mnt :=
  if fully then
    match m.hist.assign o.hist with
    | none => exc .runtimeError
    | some h => ok { m with vals := o.vals, hist := h }
  else ok { m with vals := o.vals }

/-! ## Monitor_reduction -/

/-- `Monitor_BFER::equivalent(m, true)`, `Monitor_BFER.cpp:107-154`: whether it does not throw. -/
def equivalent (a b : Args) : Bool := a.K = b.K ∧ a.maxFe = b.maxFe ∧ a.maxFra = b.maxFra ∧ a.unk = b.unk

/-- A reduction: its own monitor part, the monitors reduced and `collecter`.  The monitors belong to the caller, who goes
on using them. -/
structure Red where
  self : Mnt
  coll : Mnt
  mons : List Mnt

/-- `Monitor_reduction::reduce`, `Monitor_reduction.hxx:115-123`. -/
def Red.reduce (r : Red) (fully : Bool) : Exec Red :=
  forEach r.mons (fun m c => Mnt.collect c m fully) r.coll.reset >>= fun c =>
    r.self.copy c fully >>= fun s => ok { r with coll := c, self := s }

/-- `Monitor_reduction::Monitor_reduction`, `Monitor_reduction.hxx:26-67`; a null pointer is `none`.  The first one is
dereferenced by the copy constructor (line 30) before the test. -/
def Red.make (l : List (Option Mnt)) : Exec Red :=
  match l with
  | [] => exc .lengthError
  | none :: _ => ub
  | some m0 :: _ =>
    if l.all (fun o => match o with | none => false | some m => equivalent m0.args m.args) then
      Red.reduce ⟨m0, m0, l.filterMap id⟩ true
    else exc .runtimeError

/-- `Monitor_reduction::reset`, `Monitor_reduction.hxx:83-90`. -/
def Red.reset (r : Red) : Red := { r with self := r.self.reset, mons := r.mons.map Mnt.reset }

/-- `Monitor_reduction::_is_done`, `Monitor_reduction.hxx:99-113`; `now` is the condition of lines 104-106 (master thread
and period elapsed). -/
def Red.isDone (r : Red) (now : Bool) : Exec (Red × Bool) :=
  if now then r.reduce false >>= fun r => ok (r, r.self.isDone) else ok (r, r.self.isDone)

/-- The reductions of the program (`Monitor_reduction_static::monitors`) and `stop_loop`. -/
structure Reds where
  reds : List Red
  stop : Bool

/-- Applies `f` to all the reductions. -/
def mapExec {α β : Type _} (f : α → Exec β) : List α → Exec (List β)
  | [] => ok []
  | a :: l => f a >>= fun b => mapExec f l >>= fun t => ok (b :: t)

/-- `Monitor_reduction_static::is_done_all`, `Monitor_reduction.cpp:64-78` with `_reduce` (`:162-181`): `now` is the
condition of the latter.  It resets the date of the last reduction, so that the `_is_done` which follow do not reduce
again (unless the period elapses in between, which gives the same result or a more recent one). -/
def Reds.isDoneAll (s : Reds) (fully now : Bool) : Exec (Reds × Bool) :=
  (if now then mapExec (fun r => Red.reduce r fully) s.reds else ok s.reds) >>= fun rs =>
    let stop := s.stop || rs.any fun r => r.self.isDone
    ok (⟨rs, stop⟩, stop)

/-- `Monitor_reduction_static::last_reduce_all`, `Monitor_reduction.cpp:86-91`, without MPI (the loop runs once). -/
def Reds.lastReduceAll (s : Reds) (fully : Bool) : Exec Reds :=
  mapExec (fun r => Red.reduce r fully) s.reds >>= fun rs => ok ⟨rs, true⟩

/-- `Monitor_reduction_static::reset_all`, `Monitor_reduction.cpp:48-56`. -/
def Reds.resetAll (s : Reds) : Reds := ⟨s.reds.map Red.reset, false⟩

end Verif.Monitor
