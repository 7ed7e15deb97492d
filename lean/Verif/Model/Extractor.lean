import Verif.Prelude.Exec

/-!
# Extractors and cosets

Models `include/Module/Extractor/Extractor.hxx`, `src/Module/Extractor/{LDPC,Polar,RSC,Uncoded}/*.cpp` and
`src/Module/Coset/{Bit,Real}/*.cpp`.  The type `Q` of the LLRs is a parameter: `nonneg y` is `y >= 0` and `add` is the
conversion to `Q` of the sum of two of its values.  Output bits are `Int`s.  Buffers have the sizes of the sockets
(`Extractor.hxx:79-80, 93-94, 108-110, 124-126`).  Not modelled: the codelet of `get_sys_and_par_llr` captures by
reference local variables of the constructor (`Extractor.hxx:111`); the protected functions it should call are modelled.
-/

namespace Verif.Extractor
open Exec

/-- The constructor of the base class, `Extractor.hxx:47-75`: the accepted sizes `(K, N, tail_length)`. -/
def sizes (K N tail : Int) : Exec (Nat × Nat × Nat) :=
  if K ≤ 0 then exc .invalidArgument
  else if N ≤ 0 then exc .invalidArgument
  else if tail < 0 then exc .invalidArgument
  else ok (K.toNat, N.toNat, tail.toNat)

/-! ## Base class: extraction from the positions of the information bits -/

/-- `_get_sys_llr`, `Extractor.hxx:229-244`. -/
def getSysLlr {Q : Type _} (pos : List Nat) (K : Nat) (Y out : List Q) : Exec (List Q) :=
  if pos.length ≠ K then exc .lengthError
  else forN K (fun i o => do
    let p ← rd pos i
    let y ← rd Y p
    wr o i y) out

/-- `_get_sys_bit`, `Extractor.hxx:246-261`. -/
def getSysBit {Q : Type _} (nonneg : Q → Bool) (pos : List Nat) (K : Nat) (Y : List Q) (out : List Int) :
    Exec (List Int) :=
  if pos.length ≠ K then exc .lengthError
  else forN K (fun i o => do
    let p ← rd pos i
    let y ← rd Y p
    wr o i (if nonneg y then 0 else 1)) out

/-- `_get_sys_and_par_llr`, `Extractor.hxx:263-289`: the second loop keeps the positions that *are* in the list. -/
def getSysAndPar {Q : Type _} (pos : List Nat) (K N : Nat) (Y sys par : List Q) : Exec (List Q × List Q) :=
  if pos.length ≠ K then exc .lengthError
  else do
    let sys ← forN K (fun i o => do
      let p ← rd pos i
      let y ← rd Y p
      wr o i y) sys
    let r ← forN N (fun i (s : List Q × Nat) =>
      if i ∈ pos then do
        let y ← rd Y i
        let p ← wr s.1 s.2 y
        ok (p, s.2 + 1)
      else ok s) (par, 0)
    ok (sys, r.1)

/-- `_add_sys_and_ext_llr`, `Extractor.hxx:291-307`. -/
def addSysExt {Q : Type _} (add : Q → Q → Q) (pos : List Nat) (K N : Nat) (ext Y1 Y2 : List Q) : Exec (List Q) :=
  if pos.length ≠ K then exc .lengthError
  else do
    let Y2 ← copyTo Y1 0 N Y2 0
    forN K (fun i o => do
      let p ← rd pos i
      let y ← rd o p
      let e ← rd ext i
      wr o p (add y e)) Y2

/-! ## Positions of the subclasses -/

/-- `Extractor_uncoded`, `Extractor_uncoded.cpp:10-18` (`std::iota`). -/
def uncodedPos (K : Nat) : List Nat := List.range K

/-- The members of `Extractor_polar`. -/
structure Polar where
  K : Nat
  N : Nat
  frozen : List Bool
  pos : List Nat
  deriving DecidableEq

/-- `Extractor_polar::set_frozen_bits`, `Extractor_polar.cpp:29-38`. -/
def Polar.setFrozen (e : Polar) (fb : List Bool) : Exec Polar := do
  let frozen ← copyTo fb 0 fb.length e.frozen 0
  let r ← forN e.N (fun i (s : List Nat × Nat) => do
    let f ← rd frozen i
    if f = false then do
      let p ← wr s.1 s.2 i
      ok (p, s.2 + 1)
    else ok s) (e.pos, 0)
  ok { e with frozen := frozen, pos := r.1 }

/-- The constructor of `Extractor_polar`, `Extractor_polar.cpp:8-18`. -/
def Polar.make (K N : Int) (fb : List Bool) : Exec Polar := do
  let s ← sizes K N 0
  Polar.setFrozen ⟨s.1, s.2.1, fb, List.replicate s.1 0⟩ fb

/-- `Extractor_RSC::info_bits_pos`, `Extractor_RSC.cpp:18-23`. -/
def rscPos (K : Nat) (buffered : Bool) : List Nat :=
  if buffered then (List.range K).map fun i => i else (List.range K).map fun i => 2 * i

/-! ## `Extractor_RSC` -/

/-- `Extractor_RSC::_get_sys_and_par_llr`, `Extractor_RSC.cpp:35-56`. -/
def rscSysAndPar {Q : Type _} (buffered : Bool) (K N tail : Nat) (Y sys par : List Q) : Exec (List Q × List Q) :=
  let tb2 := tail / 2
  if buffered then do
    let sys ← copyTo Y 0 (K + tb2) sys 0
    let par ← copyTo Y (K + tb2) (N - (K + tb2)) par 0
    ok (sys, par)
  else forN (K + tb2) (fun i (s : List Q × List Q) => do
    let a ← rd Y (i * 2)
    let sys ← wr s.1 i a
    let b ← rd Y (i * 2 + 1)
    let par ← wr s.2 i b
    ok (sys, par)) (sys, par)

/-- `Extractor_RSC::_get_sys_llr`, `Extractor_RSC.cpp:58-67`. -/
def rscSysLlr {Q : Type _} (buffered : Bool) (K : Nat) (Y out : List Q) : Exec (List Q) :=
  if buffered then copyTo Y 0 K out 0
  else forN K (fun i o => rd Y (i * 2) >>= fun y => wr o i y) out

/-- `Extractor_RSC::_get_sys_bit`, `Extractor_RSC.cpp:81-91`. -/
def rscSysBit {Q : Type _} (nonneg : Q → Bool) (buffered : Bool) (K : Nat) (Y : List Q) (out : List Int) :
    Exec (List Int) :=
  if buffered then forN K (fun i o => rd Y i >>= fun y => wr o i (if nonneg y then 0 else 1)) out
  else forN K (fun i o => rd Y (2 * i) >>= fun y => wr o i (if nonneg y then 0 else 1)) out

/-! ## Cosets -/

/-- `Coset_bit::_apply`, `Coset_bit.cpp:25-29`: `out[i] = ref[i] ? !in[i] : in[i]`. -/
def cosetBit (size : Nat) (ref inp out : List Int) : Exec (List Int) :=
  forN size (fun i o => do
    let r ← rd ref i
    let v ← rd inp i
    wr o i (if r ≠ 0 then (if v = 0 then 1 else 0) else v)) out

/-- `Coset_real::_apply`, `Coset_real.cpp:25-29`, on floating-point values: `neg` flips the sign. -/
def cosetReal {D : Type _} (neg : D → D) (size : Nat) (ref : List Int) (inp out : List D) : Exec (List D) :=
  forN size (fun i o => do
    let r ← rd ref i
    let v ← rd inp i
    wr o i (if r ≠ 0 then neg v else v)) out

/-- The negation of a `w`-bit integer stored back in its type: `-in[i]` is computed on `int` and converted. -/
def negInt (w : Nat) (v : BitVec w) : BitVec w := BitVec.ofInt w (-v.toInt)

end Verif.Extractor
