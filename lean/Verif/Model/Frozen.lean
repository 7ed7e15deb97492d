import Verif.Model.AList

/-!
# Generators of the frozen bits of polar codes

Models `src/Tools/Code/Polar/Frozenbits_generator/Frozenbits_generator.cpp`, `_file.cpp`, `_5G.cpp`, `_BEC.cpp`, `_GA_Arikan.cpp`
and `src/Tools/Code/Polar/fb_assert.cpp`.

A channels file is a list of words (`Word` of `Model.AList`).  The numeric types of the channel qualities and the formulas of the
transforms are parameters.  The dump of the channels is modelled by the words it writes.  `Frozenbits_generator_TV` (external
program) and `Frozenbits_generator_GA` (density evolution through a multi-kernel decoder) are not modelled.
-/

namespace Verif.Frozen
open Exec AList

/-- `Frozenbits_generator`: `K`, `N` and `best_channels`. -/
structure Gen where
  K : Int
  N : Int
  best : List Nat
  deriving DecidableEq, Repr

/-- `Frozenbits_generator::Frozenbits_generator`, `Frozenbits_generator.cpp:17-27`: the sizes are not checked; a vector of negative
size throws `std::length_error`. -/
def mk? (K N : Int) : Exec Gen :=
  if N < 0 then exc .lengthError else ok ⟨K, N, List.range N.toNat⟩

/-- `Frozenbits_generator::generate`, `Frozenbits_generator.cpp:60-76`; `ev` is the virtual `evaluate`, applied to `best_channels`. -/
def Gen.generate (g : Gen) (ev : List Nat → Exec (List Nat)) (fb : List Bool) : Exec (Gen × List Bool) :=
  if (fb.length : Int) ≠ g.N then exc .lengthError
  else ev g.best >>= fun best =>
    forN g.K.toNat (fun i fb => rd best i >>= fun c => wr fb c false) (List.replicate fb.length true) >>= fun fb =>
    ok ({ g with best }, fb)

/-- `fb_assert`, `fb_assert.cpp:6-26`. -/
def fbAssert (fb : List Bool) (K N : Int) : Exec Unit :=
  if (fb.length : Int) ≠ N then exc .runtimeError
  else if K ≠ fb.countP (fun b => b == false) then exc .runtimeError
  else ok ()

/-! ## Channels files -/

/-- The loop of `load_channels_file`, `Frozenbits_generator_file.cpp:66-67`.  At the end of the file the values are left as they
are; a word that is not a number stores 0 and the following values are left as they are. -/
def readVals : List Nat → List Word → List Nat
  | [], _ => []
  | bs, [] => bs
  | _ :: bs, .num z :: ws => u32 z :: readVals bs ws
  | _ :: bs, .junk :: _ => 0 :: bs

/-- `load_channels_file`, `Frozenbits_generator_file.cpp:35-74`: `none` when the file cannot be opened. -/
def load (file : Option (List Word)) (best : List Nat) : Exec (Option (List Nat)) :=
  match file with
  | none => ok none
  | some [] => exc .runtimeError
  | some (.junk :: _) => exc .runtimeError
  | some (.num z :: ws) => if z ≠ best.length then exc .runtimeError else ok (some (readVals best (ws.drop 2)))

/-- `Frozenbits_generator_file::evaluate`, `Frozenbits_generator_file.cpp:28-33`. -/
def evalFile (file : Option (List Word)) (best : List Nat) : Exec (List Nat) :=
  load file best >>= fun r => match r with
    | none => exc .invalidArgument
    | some l => ok l

/-- The words written by `dump_best_channels`, `Frozenbits_generator.cpp:154-160`: the type and the value of the noise are words
that are not integers. -/
def dump (N : Nat) (best : List Nat) : List Word :=
  .num N :: .junk :: .junk :: best.map fun (c : Nat) => Word.num c

/-- `Frozenbits_generator_5G::Frozenbits_generator_5G`, `Frozenbits_generator_5G.cpp:14-23`. -/
def mk5G? (K N : Int) : Exec Gen := mk? K N >>= fun g => if N > 1024 then exc .invalidArgument else ok g

/-- The loop of `Frozenbits_generator_5G::evaluate`, `Frozenbits_generator_5G.cpp:45-49`. -/
def pick (N : Nat) : List Nat → Nat → List Nat → Exec (Nat × List Nat)
  | [], j, best => ok (j, best)
  | c :: cs, j, best => if c < N then wr best j c >>= pick N cs (j + 1) else pick N cs j best

/-- `Frozenbits_generator_5G::evaluate`, `Frozenbits_generator_5G.cpp:37-53`. -/
def eval5G (file : Option (List Word)) (N : Nat) (best : List Nat) : Exec (List Nat) :=
  load file (List.replicate 1024 0) >>= fun r => match r with
    | none => exc .invalidArgument
    | some mother => pick N mother 0 best >>= fun q => if q.1 ≠ N then exc .runtimeError else ok q.2

/-! ## Computed channels -/

/-- One stage: `idx k` is the place of the channel `k` among `2 n` channels, `Frozenbits_generator_BEC.cpp:47-52` and
`Frozenbits_generator_GA_Arikan.cpp:45-54`. -/
def stage {α : Type} (fm fp : α → α) (idx : Nat → Nat) (n : Nat) (z : List α) : Exec (List α) :=
  forN n (fun j z => rd z (idx (2 * j)) >>= fun t => wr z (idx (2 * j)) (fm t) >>= fun z => wr z (idx (2 * j + 1)) (fp t)) z

/-- `Frozenbits_generator_BEC::evaluate`, `Frozenbits_generator_BEC.cpp:41-53`: `z[0] = x` and the stages.  `stride = N / b` is a
`double`, the indexes are truncated products. -/
def polarBEC {α : Type} (fm fp : α → α) (N : Nat) (x : α) (z : List α) : Exec (List α) :=
  wr z 0 x >>= fun z => forN (Nat.log2 N) (fun l z => stage fm fp (fun k => k * N / 2 ^ (l + 1)) (2 ^ l) z) z

/-- `Frozenbits_generator_GA_Arikan::evaluate`, `Frozenbits_generator_GA_Arikan.cpp:37-55`. -/
def polarGA {α : Type} (fm fp : α → α) (N : Nat) (x : α) : Exec (List α) :=
  forN (Nat.log2 N) (fun l z => stage fm fp (fun k => k * 2 ^ (Nat.log2 N - (l + 1))) (2 ^ l) z)
    (List.replicate (2 ^ Nat.log2 N) x)

/-- The comparison of two channels, `Frozenbits_generator_BEC.cpp:55` and `Frozenbits_generator_GA_Arikan.cpp:58`. -/
def cmp {α : Type} (better : α → α → Bool) (z : List α) (a b : Nat) : Bool :=
  match z[a]?, z[b]? with
  | some x, some y => better x y
  | _, _ => false

/-- `std::iota` and `std::sort`, `Frozenbits_generator_BEC.cpp:39, 55` and `Frozenbits_generator_GA_Arikan.cpp:57-58`: `better a b` is the
comparison of two values.  `sort` is any sorting function: the order of equal channels is not specified.  With at least
two channels, `z` is read at each of them. -/
def sortBy {α : Type} (sort : (Nat → Nat → Bool) → List Nat → List Nat) (better : α → α → Bool) (z : List α) (N : Nat) :
    Exec (List Nat) :=
  if 2 ≤ N ∧ z.length < N then ub
  else ok (sort (cmp better z) (List.range N))

end Verif.Frozen
