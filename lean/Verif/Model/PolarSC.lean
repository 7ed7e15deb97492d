import Verif.Prelude.Loops
import Verif.Prelude.Float
import Verif.Model.Reorderer

/-!
# Polar successive cancellation decoders

Models `include/Module/Decoder/Polar/SC/Decoder_polar_SC_naive.hxx`, `Decoder_polar_SC_naive_sys.hxx`, the binary trees of
`include/Tools/Algo/Tree/Binary/Binary_tree.hxx`, and the elementary functions of
`include/Tools/Code/Polar/decoder_polar_functions.hxx`.  As in the code the decoder is parameterised by the type `R` of the
soft values and by the functions `F`, `G`, `H`; bits are words of `w` bits.
-/

namespace Verif.PolarSC
open Exec

/-- The template parameters `F`, `G`, `H`, `Decoder_polar_SC_naive.hpp:34-37`; `one` is `(R)1`, `mone` is `(R)-1`, `zero` the
value-initialised `R`. -/
structure Fns (R : Type) (w : Nat) where
  f : R → R → R
  g : R → R → BitVec w → R
  h : R → BitVec w
  zero : R
  one : R
  mone : R

/-- Binary trees whose nodes have a lane and contents, `Binary_node.hxx:8-19`; a leaf has no child. -/
inductive Bin (α : Type) where
  | leaf (lane : Nat) (c : α)
  | node (lane : Nat) (c : α) (l r : Bin α)
  deriving DecidableEq

/-- `get_contents()`, `get_c()`. -/
def Bin.c {α : Type} : Bin α → α
  | .leaf _ c => c
  | .node _ c _ _ => c

/-- `Contents_SC`, `Decoder_polar_SC_naive.hpp:20-32`. -/
structure Contents (R : Type) (w : Nat) where
  lam : List R
  s : List (BitVec w)
  frozen : Bool
  deriving DecidableEq

/-- `Binary_tree::create_nodes`, `Binary_tree.hxx:93-110`: the subtree of a node of lane `lane` whose children are at depth
`d`, with `k = depth - d` levels below. -/
def createNodes : Nat → Nat → Nat → List Nat → Exec (Bin Unit × List Nat)
  | 0, _, lane, lanes => ok (.leaf lane (), lanes)
  | k + 1, d, lane, lanes => do
    let a ← rd lanes d
    let lanes ← wr lanes d (a + 1)
    let b ← rd lanes d
    let lanes ← wr lanes d (b + 1)
    let p ← createNodes k (d + 1) a lanes
    let q ← createNodes k (d + 1) b p.2
    ok (.node lane () p.1 q.1, q.2)

/-- `Binary_tree::init`, `Binary_tree.hxx:31-41`, for the depth `m + 1`. -/
def createTree (m : Nat) : Exec (Bin Unit) := do
  let lanes := List.replicate (m + 2) 0
  let a ← rd lanes 0
  let p ← createNodes m 1 a lanes
  ok p.1

/-- `recursive_allocate_nodes_contents`, `Decoder_polar_SC_naive.hxx:185-196`. -/
def allocate {R : Type} {w : Nat} (zero : R) : Bin Unit → Nat → Bin (Contents R w)
  | .leaf lane _, size => .leaf lane ⟨List.replicate size zero, List.replicate size 0, false⟩
  | .node lane _ l r, size => .node lane ⟨List.replicate size zero, List.replicate size 0, false⟩ (allocate zero l (size / 2)) (allocate zero r (size / 2))

/-- `recursive_initialize_frozen_bits`, `Decoder_polar_SC_naive.hxx:198-212`. -/
def initFrozen {R : Type} {w : Nat} (fr : List Bool) : Bin (Contents R w) → Exec (Bin (Contents R w))
  | .leaf lane c => do
    let b ← rd fr lane
    ok (.leaf lane { c with frozen := b })
  | .node lane c l r => do
    let l ← initFrozen fr l
    let r ← initFrozen fr r
    ok (.node lane c l r)

/-- The loop that applies `F`, `Decoder_polar_SC_naive.hxx:226-228`: `lam` is the vector of the node, `o` that of its left
child. -/
def fLoop {R : Type} {w : Nat} (F : Fns R w) (lam : List R) (h : Nat) (o : List R) : Exec (List R) :=
  forN h (fun i o => do
    let a ← rd lam i
    let b ← rd lam (h + i)
    wr o i (F.f a b)) o

/-- The loop that applies `G`, `Decoder_polar_SC_naive.hxx:232-235`: `s` is the vector of bits of the left child, `o` the
vector of soft values of the right one. -/
def gLoop {R : Type} {w : Nat} (F : Fns R w) (lam : List R) (s : List (BitVec w)) (h : Nat) (o : List R) : Exec (List R) :=
  forN h (fun i o => do
    let a ← rd lam i
    let b ← rd lam (h + i)
    let u ← rd s i
    wr o i (F.g a b u)) o

/-- The loops that combine the bits, `Decoder_polar_SC_naive.hxx:239-243`. -/
def sLoop {w : Nat} (sl sr : List (BitVec w)) (h : Nat) (s : List (BitVec w)) : Exec (List (BitVec w)) := do
  let s ← forN h (fun i o => do
    let a ← rd sl i
    let b ← rd sr i
    wr o i (a ^^^ b)) s
  forN h (fun i o => do
    let b ← rd sr i
    wr o (h + i) b) s

/-- `recursive_decode`, `Decoder_polar_SC_naive.hxx:214-250`.  The second argument is the vector `lambda` of the node, which the
caller has written. -/
def decodeNode {R : Type} {w : Nat} (F : Fns R w) : Bin (Contents R w) → List R → Exec (Bin (Contents R w))
  | .leaf lane c, lam => do
    let x ← rd lam 0
    let s ← wr c.s 0 (if !c.frozen ∧ F.h x ≠ 0 then 1 else 0)
    ok (.leaf lane { c with lam := lam, s := s })
  | .node lane c l r, lam => do
    let h := lam.length / 2
    let ll ← fLoop F lam h l.c.lam
    let l ← decodeNode F l ll
    let lr ← gLoop F lam l.c.s h r.c.lam
    let r ← decodeNode F r lr
    let s ← sLoop l.c.s r.c.s h c.s
    ok (.node lane { c with lam := lam, s := s } l r)

/-- `recursive_store`, `Decoder_polar_SC_naive.hxx:252-266`: the state is `V_K` and `k`. -/
def storeNode {R : Type} {w : Nat} (fr : List Bool) : Bin (Contents R w) → List (BitVec w) × Nat → Exec (List (BitVec w) × Nat)
  | .leaf lane c, p => do
    let b ← rd fr lane
    if b then ok p
    else do
      let x ← rd c.s 0
      let v ← wr p.1 p.2 x
      ok (v, p.2 + 1)
  | .node _ _ l r, p => do
    let p ← storeNode fr l p
    storeNode fr r p

/-- The members of the decoder: `K`, `N`, `frozen_bits`, `polar_tree`, and `Y_N` of `Decoder_SIHO` (one frame per wave). -/
structure Dec (R : Type) (w : Nat) where
  K : Nat
  N : Nat
  frozen : List Bool
  tree : Bin (Contents R w)
  yN : List R
  deriving DecidableEq

/-- Constructor, `Decoder_polar_SC_naive.hxx:18-53`, `src/Module/Decoder/Decoder.cpp:24-43`; `std::log2` is exact on powers of
two (the tree of another size is not used). -/
def Dec.mk? {R : Type} {w : Nat} (F : Fns R w) (K N : Int) (frozen : List Bool) : Exec (Dec R w) :=
  if K ≤ 0 then exc .invalidArgument
  else if N ≤ 0 then exc .invalidArgument
  else if K > N then exc .invalidArgument
  else if !Reorderer.isPow2 N.toNat then exc .invalidArgument
  else if N ≠ frozen.length then exc .lengthError
  else if K ≠ (frozen.filter (· = false)).length then exc .runtimeError
  else do
    let t ← createTree (Nat.log2 N.toNat)
    let t ← initFrozen frozen (allocate F.zero t N.toNat)
    ok ⟨K.toNat, N.toNat, frozen, t, List.replicate N.toNat F.zero⟩

/-- `set_frozen_bits`, `Decoder_polar_SC_naive.hxx:97-104`, with `fb_assert` (`src/Tools/Code/Polar/fb_assert.cpp:6-27`). -/
def Dec.setFrozen {R : Type} {w : Nat} (d : Dec R w) (fb : List Bool) : Exec (Dec R w) :=
  if fb.length ≠ d.N then exc .runtimeError
  else if d.K ≠ (fb.filter (· = false)).length then exc .runtimeError
  else do
    let fr ← copyTo fb 0 fb.length d.frozen 0
    let t ← initFrozen fb d.tree
    ok { d with frozen := fr, tree := t }

/-- `_load` then `recursive_decode` on the root, `Decoder_polar_SC_naive.hxx:113-121,123-133`. -/
def Dec.run {R : Type} {w : Nat} (F : Fns R w) (d : Dec R w) (y : List R) : Exec (Dec R w) := do
  let lam ← forN d.N (fun i o => do
    let x ← rd y i
    wr o i x) d.tree.c.lam
  let t ← decodeNode F d.tree lam
  ok { d with tree := t }

/-- `_store(V, true)`, `Decoder_polar_SC_naive.hxx:178-182` (`Decoder_polar_SC_naive_sys.hxx:42`). -/
def Dec.storeCw {R : Type} {w : Nat} (d : Dec R w) (v : List (BitVec w)) : Exec (List (BitVec w)) := copyTo d.tree.c.s 0 d.N v 0

/-- `_store(V, false)`, `Decoder_polar_SC_naive.hxx:169-177`. -/
def Dec.store {R : Type} {w : Nat} (d : Dec R w) (v : List (BitVec w)) : Exec (List (BitVec w)) := do
  let p ← storeNode d.frozen d.tree (v, 0)
  ok p.1

/-- `_store(V, false)` of the systematic decoder, `Decoder_polar_SC_naive_sys.hxx:34-40`. -/
def Dec.storeSys {R : Type} {w : Nat} (d : Dec R w) (v : List (BitVec w)) : Exec (List (BitVec w)) := do
  let p ← forN d.N (fun i (p : List (BitVec w) × Nat) => do
    let b ← rd d.frozen i
    if b then ok p
    else do
      let x ← rd d.tree.c.s i
      let v ← wr p.1 p.2 x
      ok (v, p.2 + 1)) (v, 0)
  ok p.1

/-- Systematic or not: which class is used. -/
inductive Kind where
  | plain
  | sys
  deriving DecidableEq

/-- `_decode_siho`, `Decoder_polar_SC_naive.hxx:123-144`. -/
def Dec.siho {R : Type} {w : Nat} (F : Fns R w) (k : Kind) (d : Dec R w) (y : List R) (v : List (BitVec w)) : Exec (Dec R w × List (BitVec w)) := do
  let d ← d.run F y
  let v ← match k with
    | .plain => d.store v
    | .sys => d.storeSys v
  ok (d, v)

/-- `_decode_siho_cw`, `Decoder_polar_SC_naive.hxx:146-167`. -/
def Dec.sihoCw {R : Type} {w : Nat} (F : Fns R w) (d : Dec R w) (y : List R) (v : List (BitVec w)) : Exec (Dec R w × List (BitVec w)) := do
  let d ← d.run F y
  let v ← d.storeCw v
  ok (d, v)

/-- The conversion of hard inputs, `include/Module/Decoder/Decoder_SIHO.hxx:251-252,260-261`. -/
def Dec.harden {R : Type} {w : Nat} (F : Fns R w) (d : Dec R w) (y : List (BitVec w)) : Exec (Dec R w) := do
  let o ← forN d.N (fun i o => do
    let x ← rd y i
    wr o i (if x ≠ 0 then F.mone else F.one)) d.yN
  ok { d with yN := o }

/-- `_decode_hiho`, `Decoder_SIHO.hxx:247-254`. -/
def Dec.hiho {R : Type} {w : Nat} (F : Fns R w) (k : Kind) (d : Dec R w) (y v : List (BitVec w)) : Exec (Dec R w × List (BitVec w)) := do
  let d ← d.harden F y
  d.siho F k d.yN v

/-- `_decode_hiho_cw`, `Decoder_SIHO.hxx:256-263`. -/
def Dec.hihoCw {R : Type} {w : Nat} (F : Fns R w) (d : Dec R w) (y v : List (BitVec w)) : Exec (Dec R w × List (BitVec w)) := do
  let d ← d.harden F y
  d.sihoCw F d.yN v

/-! ## The functions used by the factory (`src/Factory/Module/Decoder/Polar/Decoder_polar.cpp:184,200`) -/

/-- `sgn`, `include/Tools/Math/utils.hxx:80-84`. -/
def sgn (x : Int) : Int := (if 0 < x then 1 else 0) - (if x < 0 then 1 else 0)

/-- Conversion to a signed type of `b` bits. -/
def wrap (b : Nat) (x : Int) : Int := (BitVec.ofInt b x).toInt

/-- `saturate`, `utils.hxx:67-71`. -/
def saturate (x lo hi : Int) : Int := min (max x lo) hi

/-- `f_LLR<int8_t>`, `f_LLR<int16_t>`, `decoder_polar_functions.hxx:86-114`: computed in `int`, converted to `b` bits. -/
def fInt (b : Nat) (x y : Int) : Int := wrap b (sgn x * sgn y * min (sgn x * x) (sgn y * y))

/-- `g_LLR<int8_t>`, `g_LLR<int16_t>`, `decoder_polar_functions.hxx:151-165`; `sat` is `sat_val`, `utils.hxx:51-53`. -/
def gInt {w : Nat} (sat x y : Int) (u : BitVec w) : Int := saturate ((if u = 0 then x else -x) + y) (-sat) sat

/-- `h_LLR`, `decoder_polar_functions.hxx:225-229`: `bit_init` is the word with its sign bit set. -/
def hInt (w : Nat) (x : Int) : BitVec w := if x < 0 then BitVec.ofNat w (2 ^ (w - 1)) else 0

/-- The functions for `int8_t`. -/
def int8 : Fns Int 8 := ⟨fInt 8, gInt 63, hInt 8, 0, 1, -1⟩

/-- The functions for `int16_t`. -/
def int16 : Fns Int 16 := ⟨fInt 16, gInt 16382, hInt 16, 0, 1, -1⟩

open Verif.Float in
/-- `(R)sgn<int,R>(x)`. -/
def sgnFl (x : Fl) : Fl := .fin ((if Fl.lt (.fin 0) x then 1 else 0) - (if Fl.lt x (.fin 0) then 1 else 0))

open Verif.Float in
/-- `std::min(a, b)`: `b < a ? b : a`. -/
def minFl (x y : Fl) : Fl := if Fl.lt y x then y else x

open Verif.Float in
/-- `f_LLR<float>`, `f_LLR<double>`, `decoder_polar_functions.hxx:31-39,75-84` (in the generic version `x >= 0 ? x : -x` is the
absolute value). -/
def fFl (F : Fmt) (x y : Fl) : Fl := F.mul (sgnFl (F.mul x y)) (minFl x.abs y.abs)

open Verif.Float in
/-- `g_LLR<float>`, `g_LLR<double>`, `decoder_polar_functions.hxx:145-149`. -/
def gFl {w : Nat} (F : Fmt) (x y : Fl) (u : BitVec w) : Fl := F.add (if u = 0 then x else x.neg) y

open Verif.Float in
/-- `h_LLR`, `decoder_polar_functions.hxx:225-229`. -/
def hFl (w : Nat) (x : Fl) : BitVec w := if Fl.lt x (.fin 0) then BitVec.ofNat w (2 ^ (w - 1)) else 0

open Verif.Float in
/-- The functions for `float` (bits are `int32_t`). -/
def flt : Fns Fl 32 := ⟨fFl b32, gFl b32, hFl 32, .fin 0, .fin 1, .fin (-1)⟩

open Verif.Float in
/-- The functions for `double` (bits are `int64_t`). -/
def dbl : Fns Fl 64 := ⟨fFl b64, gFl b64, hFl 64, .fin 0, .fin 1, .fin (-1)⟩

end Verif.PolarSC
