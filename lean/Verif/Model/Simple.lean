import Verif.Prelude.Exec

/-!
# Modules with a plain treatment

Models `include/Module/Unaryop/Unaryop.hxx`, `include/Module/Binaryop/Binaryop.hxx`, `include/Module/Reducer/Reducer.hxx`,
`src/Module/Initializer/Initializer.cpp` and `src/Module/Finalizer/Finalizer.cpp`.  The operations are parameters.
-/

namespace Verif.Simple
open Exec

variable {I O T : Type}

/-- `Unaryop::_perform` for one frame, `Unaryop.hxx:89-95`. -/
def unary (uop : I → O) (n : Nat) (inp : List I) (out : List O) : Exec (List O) :=
  forN n (fun e out => do
    let x ← rd inp e
    wr out e (uop x)) out

/-- `Binaryop::_perform` for one frame, `Binaryop.hxx:94-100`. -/
def binary (bop : I → I → O) (n : Nat) (in1 in2 : List I) (out : List O) : Exec (List O) :=
  forN n (fun e out => do
    let x ← rd in1 e
    let y ← rd in2 e
    wr out e (bop x y)) out

/-- `Reducer::_reduce`, `Reducer.hxx:87-99`, for all the frames (single wave); `toO` and `toI` are the casts `(TO)` and `(TI)`. -/
def reduce (toO : I → O) (toI : O → I) (bop : I → I → O) (n frames : Nat) (inp : List I) (out : List O) : Exec (List O) := do
  let x0 ← rd inp 0
  let v ← forN frames (fun f v =>
    forRange (if f = 0 then 1 else 0) n (fun e v => do
      let x ← rd inp (f * n + e)
      ok (bop (toI v) x)) v) (toO x0)
  wr out 0 v

/-! ## Initializer -/

/-- `Initializer`: the number of frames and `init_data`. -/
structure Ini (T : Type) where
  frames : Nat
  data : List (List T)
  deriving DecidableEq, Repr

/-- The constructor, `Initializer.cpp:11-34`; a new module has one frame. -/
def Ini.mk? (zero : T) (n : Nat) : Exec (Ini T) :=
  if n = 0 then exc .invalidArgument else ok ⟨1, [List.replicate n zero]⟩

/-- The methods that change the data. -/
inductive IOp (T : Type) where
  | all (v : List T)
  | each (vs : List (List T))
  | frames (k : Nat)

/-- The loop of `set_init_data`, `Initializer.cpp:81-93`, from frame `f`: the data and whether it completed. -/
def setEach : List (List T) → Nat → List (List T) → Exec (List (List T) × Bool)
  | [], _, D => ok (D, true)
  | v :: vs, f, D => rd D f >>= fun old =>
    if v.length ≠ old.length then ok (D, false)
    else wr D f v >>= fun D => setEach vs (f + 1) D

/-- The methods `set_init_data` (two of them) and `set_n_frames`, `Initializer.cpp:53-108`: the object after the call and whether the call
returned normally (otherwise it has thrown `invalid_argument`).  `Module::set_n_frames` refuses 0 (`Module.cpp:52-57`). -/
def IOp.run (i : Ini T) : IOp T → Exec (Ini T × Bool)
  | .all v => do
    let d0 ← rd i.data 0
    if v.length ≠ d0.length then ok (i, false)
    else ok (⟨i.frames, i.data.map fun _ => v⟩, true)
  | .each vs =>
    if vs.length ≠ i.frames then ok (i, false)
    else do
      let r ← setEach vs 0 i.data
      ok (⟨i.frames, r.1⟩, r.2)
  | .frames k =>
    if i.frames = k then ok (i, true)
    else if k = 0 then ok (i, false)
    else do
      let D ← forRange i.frames k (fun f D => do
        let d0 ← rd D 0
        wr D f d0) (i.data.take k ++ List.replicate (k - i.data.length) [])
      ok (⟨k, D⟩, true)

/-- Several calls, whether they throw or not. -/
def Ini.runAll (i : Ini T) : List (IOp T) → Exec (Ini T)
  | [] => ok i
  | o :: l => o.run i >>= fun r => Ini.runAll r.1 l

/-- `_initialize`, `Initializer.cpp:118-125`. -/
def Ini.initialize (i : Ini T) (f : Nat) (out : List T) : Exec (List T) := do
  let d ← rd i.data f
  copyTo d 0 d.length out 0

/-! ## Finalizer -/

/-- `Finalizer`: the number of frames and `final_data`. -/
structure Fin' (T : Type) where
  frames : Nat
  data : List (List T)
  deriving DecidableEq, Repr

/-- The constructor, `Finalizer.cpp:9-32`. -/
def Fin'.mk? (zero : T) (n : Nat) : Exec (Fin' T) :=
  if n = 0 then exc .invalidArgument else ok ⟨1, [List.replicate n zero]⟩

/-- The calls on a finalizer. -/
inductive FOp (T : Type) where
  | finalize (f : Nat) (inp : List T)
  | frames (k : Nat)

/-- `_finalize`, `Finalizer.cpp:73-80`, and `set_n_frames`, `:51-62`; as for the initializer, 0 frames are refused without effect. -/
def FOp.run (zero : T) (i : Fin' T) : FOp T → Exec (Fin' T)
  | .finalize f inp => do
    let d0 ← rd i.data 0
    let d ← rd i.data f
    let d ← copyTo inp 0 d0.length d 0
    let D ← wr i.data f d
    ok ⟨i.frames, D⟩
  | .frames k =>
    if i.frames = k then ok i
    else if k = 0 then ok i
    else do
      let D ← forRange i.frames k (fun f D => do
        let d0 ← rd D 0
        let d ← rd D f
        wr D f (d.take d0.length ++ List.replicate (d0.length - d.length) zero)) (i.data.take k ++ List.replicate (k - i.data.length) [])
      ok ⟨k, D⟩

/-- Several calls. -/
def Fin'.runAll (zero : T) (i : Fin' T) : List (FOp T) → Exec (Fin' T)
  | [] => ok i
  | o :: l => o.run zero i >>= fun i => Fin'.runAll zero i l

end Verif.Simple
