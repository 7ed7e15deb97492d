import Verif.Prelude.Exec

/-!
# Hamming distance and hard decision

Models `include/Tools/Perf/distance/*.hxx` and `src/Tools/Perf/common/hard_decide.cpp`.

A SIMD register of `L` lanes is a list of `L` values; each MIPP operation is modelled lane by lane (the MIPP library
itself is not part of the repository).  Lane additions wrap around at the width of the lane.
-/

namespace Verif.Distance
open Exec

/-- `distance_seq`, `distance.hxx:12-21`, from position `start` on: `f` says whether `Fdiffcnt::apply` is 1. -/
def distanceSeq {α : Type _} (f : α → α → Bool) (x y : List α) (start n : Nat) : Exec Nat :=
  forN n (fun i d => rd x (start + i) >>= fun a => rd y (start + i) >>= fun b => ok (d + if f a b then 1 else 0)) 0

/-- Body of the vector loops: `counter += Fdiffcnt::apply(Reg(in1 + i), Reg(in2 + i))`, `distance.hxx:63`, `:106`,
`:171`; lanes of `w` bits. -/
def addDiff {α : Type _} {w : Nat} (L : Nat) (f : α → α → Bool) (x y : List α) (i : Nat) (c : List (BitVec w)) :
    Exec (List (BitVec w)) :=
  forN L (fun l c => rd x (i + l) >>= fun a => rd y (i + l) >>= fun b => rd c l >>= fun cl =>
    wr c l (cl + if f a b then 1#w else 0#w)) c

/-- `mipp::hadd`: sum of the lanes, modulo `2^w`. -/
def hadd {w : Nat} (c : List (BitVec w)) : BitVec w := c.foldl (· + ·) 0#w

/-- `Distance<T>::apply` for 32- and 64-bit lanes, `distance.hxx:53-70`.  The conversion of the sum to `size_t` is
that of a signed value. -/
def distanceWide {α : Type _} (w L : Nat) (f : α → α → Bool) (x y : List α) (size : Nat) : Exec Nat := do
  let c ← forN (size / L) (fun k => addDiff L f x y (k * L)) (List.replicate L 0#w)
  let tail ← distanceSeq f x y (size / L * L) (size - size / L * L)
  ok (((hadd c).signExtend 64).toNat + tail)

/-- `counter32 += cvt(...)` of all the parts of the narrow counter, `distance.hxx:108-109` and `:173-179`: lane `l` of
the narrow counter goes, sign extended, to lane `l % (L / q)` of the wide one. -/
def widen {w : Nat} (L q : Nat) (c : List (BitVec w)) (c32 : List (BitVec 32)) : Exec (List (BitVec 32)) :=
  forN L (fun l o => rd c l >>= fun v => rd o (l % (L / q)) >>= fun s => wr o (l % (L / q)) (s + v.signExtend 32)) c32

/-- One turn of the outer loop, `distance.hxx:101-110`, `:166-180`: blocks `it * M` to `min(nb, (it + 1) * M)`, where
`M = std::numeric_limits<T>::max()` and `nb` is the number of whole registers. -/
def narrowTurn {α : Type _} (w q L : Nat) (f : α → α → Bool) (x y : List α) (nb it : Nat) (c32 : List (BitVec 32)) :
    Exec (List (BitVec 32)) := do
  let M := 2 ^ (w - 1) - 1
  let c ← forN (min nb (it * M + M) - it * M) (fun k => addDiff L f x y ((it * M + k) * L)) (List.replicate L 0#w)
  widen L q c c32

/-- `Distance<int16_t>::apply` (`w = 16`, `q = 2`) and `Distance<int8_t>::apply` (`w = 8`, `q = 4`),
`distance.hxx:90-121` and `:155-192`. -/
def distanceNarrow {α : Type _} (w q L : Nat) (f : α → α → Bool) (x y : List α) (size : Nat) : Exec Nat := do
  let M := 2 ^ (w - 1) - 1
  let nb := if L < q then 0 else size / L
  let c ← forN ((nb + M - 1) / M) (narrowTurn w q L f x y nb) (List.replicate (L / q) 0#32)
  let tail ← distanceSeq f x y (nb * L) (size - nb * L)
  ok (((hadd c).signExtend 64).toNat + tail)

/-- `Boolean_diff<B,false>::apply`, `Boolean_diff.hxx:99-104`. -/
def booleanDiff (a b : Int) : Bool := (a != 0) ^^ (b != 0)

/-- `hamming_distance<B>`, `hamming_distance.hxx:17-20`, for 8-, 16-, 32- and 64-bit elements. -/
def hammingDistance (bits L : Nat) (x y : List Int) (size : Nat) : Exec Nat :=
  if bits = 8 then distanceNarrow 8 4 L booleanDiff x y size
  else if bits = 16 then distanceNarrow 16 2 L booleanDiff x y size
  else distanceWide bits L booleanDiff x y size

/-! ## Hard decision -/

/-- A real value as the code sees it: its sign bit and its magnitude (no NaN).  `⟨true, 0⟩` is the negative zero of a
floating-point type; fixed-point types have no such value. -/
structure Soft where
  sign : Bool
  mag : Nat
  deriving DecidableEq, Repr

/-- `v < 0`. -/
def Soft.neg (v : Soft) : Bool := v.sign && v.mag != 0

/-- `hard_decide_seq`, `hard_decide.cpp:7-11`. -/
def hardSeq (x : List Soft) (start n : Nat) (out : List Nat) : Exec (List Nat) :=
  forN n (fun i o => rd x (start + i) >>= fun a => wr o (start + i) (if a.neg then 1 else 0)) out

/-- One register of `hard_decide`, `hard_decide.cpp:19-21` and `:28-31`: the sign bit shifted down. -/
def hardReg (L : Nat) (x : List Soft) (k : Nat) (out : List Nat) : Exec (List Nat) :=
  forN L (fun l o => rd x (k * L + l) >>= fun a => wr o (k * L + l) (if a.sign then 1 else 0)) out

/-- `hard_decide`, `hard_decide.cpp:14-36` (the two branches differ only by alignment). -/
def hardDecide (L : Nat) (x : List Soft) (size : Nat) (out : List Nat) : Exec (List Nat) := do
  let out ← forN (size / L) (hardReg L x) out
  hardSeq x (size / L * L) (size - size / L * L) out

/-- `is_unknown_llr`, `noise_utils.hxx:66-70`: magnitude at most `tau` (`1e-5`, hence 0 for fixed-point types). -/
def Soft.unknown (tau : Nat) (v : Soft) : Bool := v.mag ≤ tau

/-- One register of `hard_decide_unk`, `hard_decide.cpp:57-61` and `:68-73`; `unk` is the unknown symbol. -/
def hardUnkReg (tau unk L : Nat) (x : List Soft) (k : Nat) (out : List Nat) : Exec (List Nat) :=
  forN L (fun l o => rd x (k * L + l) >>= fun a =>
    wr o (k * L + l) (if a.unknown tau then unk else if a.sign then 1 else 0)) out

/-- `hard_decide_unk`, `hard_decide.cpp:48-78`: the remaining elements go through `hard_decide_seq`, line 77. -/
def hardDecideUnk (tau unk L : Nat) (x : List Soft) (size : Nat) (out : List Nat) : Exec (List Nat) := do
  let out ← forN (size / L) (hardUnkReg tau unk L x) out
  hardSeq x (size / L * L) (size - size / L * L) out

end Verif.Distance
