import Verif.Model.ML

/-!
# Chase decoder

Models `src/Module/Decoder/Generic/Chase/Decoder_chase_std.cpp`, with one frame and `R = float` (8-bit and 16-bit inputs are exact
floats).  The encoder is a `Coder` of `Model/ML.lean`.
-/

namespace Verif.Chase
open Exec Verif.Float Verif.ML

/-- The members; `less_reliable_llrs`, `min_euclidean_dist` and `min_hamming_dist` are overwritten before each use and are local
here.  `sort` is what `std::partial_sort` does of the indexes `0 .. N-1` with the magnitudes of the inputs. -/
structure Dec where
  K : Nat
  N : Nat
  c : Coder
  flips : Nat
  hamming : Bool
  sort : List Fl → List Nat
  bestX : List Int
  best : Nat

/-- Constructor, `Decoder_chase_std.cpp:13-43`, `src/Module/Decoder/Decoder.cpp:24-43`. -/
def Dec.mk? (K N : Int) (c : Coder) (flips : Nat) (hamming : Bool) (sort : List Fl → List Nat) : Exec Dec :=
  if K ≤ 0 then exc .invalidArgument
  else if N ≤ 0 then exc .invalidArgument
  else if K > N then exc .invalidArgument
  else if flips > N.toNat then exc .invalidArgument
  else if flips > 31 then exc .invalidArgument
  else ok ⟨K.toNat, N.toNat, c, flips, hamming, sort, List.replicate N.toNat 0, 0⟩

/-- `V_N[index] = !V_N[index]`. -/
def flip1 (x : List Int) (i : Nat) : Exec (List Int) := do
  let v ← rd x i
  wr x i (if v = 0 then 1 else 0)

/-- `Decoder_chase_std.cpp:89-97,124-132`: flips the bits of the test and computes its distance, with
`add acc index`. -/
def flipsD {D : Type} (p : Nat) (l : List Nat) (t : Nat) (add : D → Nat → Exec D) (r : List Int × D) : Exec (List Int × D) :=
  forN p (fun b r =>
    if t.testBit b then do
      let i ← rd l b
      let x ← flip1 r.1 i
      let a ← add r.2 i
      ok (x, a)
    else ok r) r

/-- Flips the bits of a test, `Decoder_chase_std.cpp:107-109,112-114,142-144,147-149`. -/
def flips (p : Nat) (l : List Nat) (t : Nat) (x : List Int) : Exec (List Int) :=
  forN p (fun b x =>
    if t.testBit b then do
      let i ← rd l b
      flip1 x i
    else ok x) x

/-- The body of the loops on the tests, `Decoder_chase_std.cpp:87-110,122-145`; the state is the word, the least distance and
`best_test`. -/
def test {D : Type} (lt : D → D → Bool) (zero : D) (add : D → Nat → Exec D) (isCw : List Int → Bool) (p : Nat) (l : List Nat) (t : Nat)
    (s : List Int × D × Nat) : Exec (List Int × D × Nat) := do
  let r ← flipsD p l t add (s.1, zero)
  let q := if lt r.2 s.2.1 && isCw r.1 then (r.2, t) else s.2
  let x ← flips p l t r.1
  ok (x, q)

/-- `_decode_siho_cw_euclidean` and `_decode_siho_cw_hamming`, `Decoder_chase_std.cpp:82-115,117-150`. -/
def search {D : Type} (lt : D → D → Bool) (zero top : D) (add : D → Nat → Exec D) (isCw : List Int → Bool) (p : Nat) (l : List Nat) (x : List Int)
    (best : Nat) : Exec (List Int × Nat) := do
  let s ← forRange 2 (2 ^ p) (fun t s => test lt zero add isCw p l t s) (x, top, best)
  let x ← flips p l s.2.2 s.1
  ok (x, s.2.2)

/-- `cur_euclidean_dist += (float)std::abs(Y_N[index])`, `Decoder_chase_std.cpp:96`. -/
def addEuc (y : List Fl) (acc : Fl) (i : Nat) : Exec Fl := do
  let v ← rd y i
  ok (b32.add acc v.abs)

/-- `cur_hamming_dist++`, `Decoder_chase_std.cpp:131` (at most 31). -/
def addHam (acc : Nat) (_ : Nat) : Exec Nat := ok (acc + 1)

/-- The case of a hard decision that is not a codeword, `Decoder_chase_std.cpp:159-184`. -/
def Dec.repair (d : Dec) (y : List Fl) (x : List Int) : Exec (List Int × Nat) := do
  let l := d.sort y
  let i ← rd l 0
  let x ← flip1 x i
  if d.c.isCw x then ok (x, d.best)
  else do
    let x ← flip1 x i
    if d.hamming then search (fun a b => decide (a < b)) 0 (2 ^ 32 - 1) addHam d.c.isCw d.flips l x d.best
    else search Fl.lt (.fin 0) fltMax (addEuc y) d.c.isCw d.flips l x d.best

/-- `_decode_siho_cw`, `Decoder_chase_std.cpp:152-187`; `hard_decide` is element-wise (see C46). -/
def Dec.sihoCw (d : Dec) (y : List Fl) (v : List Int) : Exec (Dec × List Int) := do
  let x ← forN d.N (fun i o => do
    let a ← rd y i
    wr o i (if Fl.lt a (.fin 0) then 1 else 0)) v
  if d.flips ≠ 0 ∧ !d.c.isCw x then do
    let r ← d.repair y x
    ok ({ d with best := r.2 }, r.1)
  else ok (d, x)

/-- `_decode_siho`, `Decoder_chase_std.cpp:62-80`. -/
def Dec.siho (d : Dec) (y : List Fl) (v : List Int) : Exec (Dec × List Int) :=
  if !d.c.sys then exc .invalidArgument
  else do
    let r ← d.sihoCw y d.bestX
    let v ← forN d.K (fun k o => do
      let p ← rd d.c.infoPos k
      let a ← rd r.2 p
      wr o k a) v
    ok ({ r.1 with bestX := r.2 }, v)

end Verif.Chase
