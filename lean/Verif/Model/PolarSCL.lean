import Verif.Model.PolarSC

/-!
# The polar successive cancellation list decoders

Models `include/Module/Decoder/Polar/SCL/Decoder_polar_SCL_naive.hxx`, `Decoder_polar_SCL_naive_sys.hxx` and `CRC/Decoder_polar_SCL_naive_CA.hxx`, `CRC/Decoder_polar_SCL_naive_CA_sys.hxx`, on one
frame.  A node of a tree is addressed by its depth and its lane: its father is at the previous depth, at half of the lane, its sons at the next one, at the double of the lane (that
`Binary_tree` builds such trees is proved in `Proof/PolarSC.lean`, `createTree_sat`).  The trees all have the same flags of frozen bits, which are not modelled apart from `frozen_bits`.
The sort of the standard library and the CRC are parameters.
-/

namespace Verif.PolarSCL
open Exec
open Verif.PolarSC (Fns fLoop gLoop sLoop)

/-- The arithmetic on the metrics: `phi` (`decoder_polar_functions.hxx:263-290`; the bit is given by whether it is not null), the subtraction, the comparison, and the least and greatest values of
`std::numeric_limits`. -/
structure Ar (R : Type) where
  phi : R → R → Bool → R
  sub : R → R → R
  lt : R → R → Bool
  init : R
  max : R

/-- `bit_init`, `include/Tools/Math/utils.hxx:61-65`. -/
def bitInit (w : Nat) : BitVec w := BitVec.ofNat w (2 ^ (w - 1))

/-- The contents of the nodes of a tree (`Contents_SCL`, `Decoder_polar_SCL_naive.hpp:22-32`), by depth and lane. -/
structure Tree (R : Type) (w : Nat) where
  lam : Nat → Nat → List R
  s : Nat → Nat → List (BitVec w)

/-- Assignment of the contents of a node. -/
def put {α : Type} (f : Nat → Nat → α) (d l : Nat) (v : α) : Nat → Nat → α := fun d' l' => if d' = d ∧ l' = l then v else f d' l'

/-- Assignment of an element of a vector. -/
def upd {α : Type} (f : Nat → α) (p : Nat) (v : α) : Nat → α := fun p' => if p' = p then v else f p'

/-- A hypothetic path: path, estimated bit, metric (`Decoder_polar_SCL_naive.hxx:164`). -/
structure Cand (R : Type) (w : Nat) where
  path : Nat
  bit : BitVec w
  met : R

/-- The members: `sys` says whether the decoder is systematic, `crc` is the check of the CRC, if there is one; `std::set` is a sorted list. -/
structure Dec (R : Type) (w : Nat) where
  K : Nat
  N : Nat
  m : Nat
  L : Nat
  sys : Bool
  crc : Option (List (BitVec w) → Bool)
  frozen : List Bool
  active : List Nat
  trees : Nat → Tree R w
  met : Nat → R

variable {R : Type} {w : Nat}

/-- Constructor (`Decoder_polar_SCL_naive.hxx:19-71`, `src/Module/Decoder/Decoder.cpp:24-43`, `CRC/Decoder_polar_SCL_naive_CA.hxx:12-27`; `crcSize` is the size of the CRC).  A negative `L` is the size of
a vector: `std::length_error`. -/
def Dec.mk? (F : Fns R w) (A : Ar R) (K N L : Int) (frozen : List Bool) (sys : Bool) (crc : Option (List (BitVec w) → Bool)) (crcSize : Nat) : Exec (Dec R w) :=
  if K ≤ 0 then exc .invalidArgument
  else if N ≤ 0 then exc .invalidArgument
  else if K > N then exc .invalidArgument
  else if L < 0 then exc .lengthError
  else if !Reorderer.isPow2 N.toNat then exc .invalidArgument
  else if N ≠ frozen.length then exc .lengthError
  else if L = 0 ∨ !Reorderer.isPow2 L.toNat then exc .invalidArgument
  else if K ≠ (frozen.filter (· = false)).length then exc .runtimeError
  else if crc.isSome ∧ K < crcSize then exc .invalidArgument
  else ok ⟨K.toNat, N.toNat, Nat.log2 N.toNat, L.toNat, sys, crc, frozen, [0],
    fun _ => ⟨fun d _ => List.replicate (N.toNat / 2 ^ d) F.zero, fun d _ => List.replicate (N.toNat / 2 ^ d) 0⟩, fun _ => A.init⟩

/-- `set_frozen_bits`, `Decoder_polar_SCL_naive.hxx:121-129`, with `fb_assert` (`src/Tools/Code/Polar/fb_assert.cpp:6-27`), which is applied to the previous frozen bits. -/
def Dec.setFrozen (d : Dec R w) (fb : List Bool) : Exec (Dec R w) :=
  if d.frozen.length ≠ d.N then exc .runtimeError
  else if d.K ≠ (d.frozen.filter (· = false)).length then exc .runtimeError
  else do
    let fr ← copyTo fb 0 fb.length d.frozen 0
    ok { d with frozen := fr }

/-- `_load`, `Decoder_polar_SCL_naive.hxx:138-155`. -/
def Dec.load (A : Ar R) (d : Dec R w) (y : List R) : Exec (Dec R w) := do
  let d ← forN d.L (fun p (d : Dec R w) => do
    let lam ← forN d.N (fun i o => do
      let x ← rd y i
      wr o i x) ((d.trees p).lam 0 0)
    ok { d with trees := upd d.trees p { d.trees p with lam := put (d.trees p).lam 0 0 lam }, met := upd d.met p A.init }) d
  ok { d with active := [0] }

/-- `compute_depth`, `decoder_polar_functions.hxx:292-305`: the loop, with `fuel` the number of iterations that `res <= tree_depth - 1` allows. -/
def depthLoop : Nat → Nat → Nat
  | 0, _ => 0
  | fuel + 1, i => if i % 2 = 1 then 0 else depthLoop fuel (i / 2) + 1

/-- `compute_depth`. -/
def computeDepth (i m : Nat) : Int := if i = 0 then (m : Int) - 1 else depthLoop m i

/-- `apply_f`, `Decoder_polar_SCL_naive.hxx:499-511`. -/
def applyF (F : Fns R w) (d l : Nat) (t : Tree R w) : Exec (Tree R w) := do
  let o ← fLoop F (t.lam d l) ((t.lam d l).length / 2) (t.lam (d + 1) (2 * l))
  ok { t with lam := put t.lam (d + 1) (2 * l) o }

/-- `apply_g`, `Decoder_polar_SCL_naive.hxx:513-527`. -/
def applyG (F : Fns R w) (d l : Nat) (t : Tree R w) : Exec (Tree R w) := do
  let o ← gLoop F (t.lam d l) (t.s (d + 1) (2 * l)) ((t.lam d l).length / 2) (t.lam (d + 1) (2 * l + 1))
  ok { t with lam := put t.lam (d + 1) (2 * l + 1) o }

/-- `compute_sums`, `Decoder_polar_SCL_naive.hxx:529-544`. -/
def computeSums (d l : Nat) (t : Tree R w) : Exec (Tree R w) := do
  let o ← sLoop (t.s (d + 1) (2 * l)) (t.s (d + 1) (2 * l + 1)) ((t.lam d l).length / 2) (t.s d l)
  ok { t with s := put t.s d l o }

/-- The end of `recursive_compute_llr`, `Decoder_polar_SCL_naive.hxx:346-350`, on the node of depth `d` and lane `l`. -/
def applyNode (F : Fns R w) (d l : Nat) (t : Tree R w) : Exec (Tree R w) :=
  match d with
  | 0 => ok t
  | d + 1 => if l % 2 = 0 then applyF F d (l / 2) t else applyG F d (l / 2) t

/-- `recursive_compute_llr`, `Decoder_polar_SCL_naive.hxx:339-351`, `k` being its argument `depth`: above the root there is no node. -/
def computeLlr (F : Fns R w) : Nat → Nat → Nat → Tree R w → Exec (Tree R w)
  | 0, d, l, t => applyNode F d l t
  | k + 1, d, l, t =>
    match d with
    | 0 => ub
    | d' + 1 => do
      let t ← computeLlr F k d' (l / 2) t
      applyNode F (d' + 1) l t

/-- `propagate_sums`, `Decoder_polar_SCL_naive.hxx:353-363`, on the node of depth `d` and lane `l` of a tree whose leaves are at depth `m`. -/
def propagate (m : Nat) : Nat → Nat → Tree R w → Exec (Tree R w)
  | 0, l, t => if 0 < m then computeSums 0 l t else ok t
  | d + 1, l, t => do
    let t ← if d + 1 < m then computeSums (d + 1) l t else ok t
    if l % 2 = 1 then propagate m d (l / 2) t else ok t

/-- `recursive_duplicate_tree_sums`, `Decoder_polar_SCL_naive.hxx:376-387`, from the father of the node of depth `d` and lane `l`, which is `node_caller`. -/
def dupSums (a : Tree R w) : Nat → Nat → Tree R w → Tree R w
  | 0, _, b => b
  | d + 1, l, b => dupSums a d (l / 2) (if 2 * (l / 2) ≠ l then { b with s := put b.s (d + 1) (2 * (l / 2)) (a.s (d + 1) (2 * (l / 2))) } else b)

/-- `recursive_duplicate_tree_llr`, `Decoder_polar_SCL_naive.hxx:365-374`: up to the sons of the root. -/
def dupLlr (a : Tree R w) : Nat → Nat → Tree R w → Tree R w
  | 0, _, b => b
  | d + 1, l, b => dupLlr a d (l / 2) { b with lam := put b.lam (d + 1) l (a.lam (d + 1) l) }

/-- The search of a new path, `Decoder_polar_SCL_naive.hxx:394-396`. -/
def freeFrom (l : List Nat) : Nat → Nat → Nat
  | 0, n => n
  | fuel + 1, n => if n ∈ l then freeFrom l fuel (n + 1) else n

/-- Insertion in a set of integers. -/
def ins (p : Nat) (l : List Nat) : List Nat := if p ∈ l then l else l.filter (· < p) ++ p :: l.filter (p < ·)

/-- `duplicate_path`, `Decoder_polar_SCL_naive.hxx:389-421`.  Using a tree that does not exist is undefined. -/
def dup (A : Ar R) (i : Nat) (p : Nat) (d : Dec R w) : Exec (Dec R w) :=
  let q := freeFrom d.active d.active.length 0
  if d.L ≤ q then ub
  else do
    let a := d.trees p
    let b := d.trees q
    let b := { b with s := fun x l => if x = d.m ∧ l < i then a.s x l else b.s x l }
    let b := dupSums a d.m i b
    let b := if i + 1 < d.N then dupLlr a d.m (i + 1) b else b
    let sb ← wr (b.s d.m i) 0 (bitInit w)
    let x ← rd (a.lam d.m i) 0
    let sa ← wr (a.s d.m i) 0 0
    ok { d with active := ins q d.active,
                trees := upd (upd d.trees q { b with s := put b.s d.m i sb }) p { a with s := put a.s d.m i sa },
                met := upd (upd d.met q (A.phi (d.met p) x true)) p (A.phi (d.met p) x false) }

/-- The choice of a bit, `Decoder_polar_SCL_naive.hxx:261-262`. -/
def choose (i : Nat) (c : Cand R w) (d : Dec R w) : Exec (Dec R w) := do
  let s ← wr ((d.trees c.path).s d.m i) 0 c.bit
  ok { d with trees := upd d.trees c.path { d.trees c.path with s := put (d.trees c.path).s d.m i s }, met := upd d.met c.path c.met }

/-- `std::min(a, b)`. -/
def minR (A : Ar R) (a b : R) : R := if A.lt b a then b else a

/-- The first loop on a frozen leaf, `Decoder_polar_SCL_naive.hxx:177-185`: the second component is `min_phi`. -/
def frozenPath (A : Ar R) (i : Nat) (p : Nat) (r : Dec R w × R) : Exec (Dec R w × R) := do
  let t := r.1.trees p
  let s ← wr (t.s r.1.m i) 0 0
  let x ← rd (t.lam r.1.m i) 0
  ok ({ r.1 with trees := upd r.1.trees p { t with s := put t.s r.1.m i s }, met := upd r.1.met p (A.phi (r.1.met p) x false) },
    minR A r.2 (A.phi (r.1.met p) x false))

/-- A frozen leaf, `Decoder_polar_SCL_naive.hxx:175-190`. -/
def frozenLeaf (A : Ar R) (i : Nat) (d : Dec R w) : Exec (Dec R w) := do
  let r ← forEach d.active (frozenPath A i) (d, A.max)
  ok { r.1 with met := d.active.foldl (fun met p => upd met p (A.sub (met p) r.2)) r.1.met }

/-- The hypothetic paths, `Decoder_polar_SCL_naive.hxx:194-206`.  The minimum `min_phi` is not modelled: it is only subtracted from copies of the elements (`209-210`). -/
def cands (A : Ar R) (i : Nat) (d : Dec R w) : Exec (List (Cand R w)) :=
  forEach d.active (fun p r => do
    let x ← rd ((d.trees p).lam d.m i) 0
    ok (r ++ [⟨p, 0, A.phi (d.met p) x false⟩, ⟨p, bitInit w, A.phi (d.met p) x true⟩])) []

/-- The removal of the paths found twice among the worst ones, `Decoder_polar_SCL_naive.hxx:227-238`. -/
def prune : List (Cand R w) → List Nat → List Nat
  | [], a => a
  | c :: rest, a => prune rest (if rest.any (fun x => x.path = c.path) then a.filter (· ≠ c.path) else a)

/-- The loop on the best ones, `Decoder_polar_SCL_naive.hxx:243-264`, with `fuel` at least the number of elements. -/
def keep (A : Ar R) (i : Nat) : Nat → List (Cand R w) → Dec R w → Exec (Dec R w)
  | 0, _, d => ok d
  | _ + 1, [], d => ok d
  | fuel + 1, c :: rest, d =>
    if rest.any (fun x => x.path = c.path) then do
      let d ← dup A i c.path d
      keep A i fuel (rest.eraseP (fun x => x.path = c.path)) d
    else do
      let d ← choose i c d
      keep A i fuel rest d

/-- A leaf of information, `Decoder_polar_SCL_naive.hxx:191-266`. -/
def infoLeaf (A : Ar R) (sort : List (Cand R w) → List (Cand R w)) (i : Nat) (d : Dec R w) : Exec (Dec R w) := do
  let c ← cands A i d
  if d.active.length ≤ d.L / 2 then forEach d.active (dup A i) d
  else
    let v := sort c
    keep A i v.length (v.take (v.length / 2)) { d with active := prune (v.drop (v.length / 2)) d.active }

/-- The update of the tree of a path. -/
def onTree (f : Tree R w → Exec (Tree R w)) (p : Nat) (d : Dec R w) : Exec (Dec R w) := do
  let t ← f (d.trees p)
  ok { d with trees := upd d.trees p t }

/-- The computation of the LLR of a leaf, `Decoder_polar_SCL_naive.hxx:171-172`; `recursive_compute_llr` with a negative depth goes up beyond the root. -/
def llrLeaf (F : Fns R w) (m i : Nat) (t : Tree R w) : Exec (Tree R w) := if computeDepth i m < 0 then ub else computeLlr F (computeDepth i m).toNat m i t

/-- One iteration of the loop on the leaves, `Decoder_polar_SCL_naive.hxx:168-271`. -/
def leaf (F : Fns R w) (A : Ar R) (sort : List (Cand R w) → List (Cand R w)) (i : Nat) (d : Dec R w) : Exec (Dec R w) := do
  let d ← forEach d.active (onTree (llrLeaf F d.m i)) d
  let fr ← rd d.frozen i
  let d ← if fr then frozenLeaf A i d else infoLeaf A sort i d
  forEach d.active (onTree (propagate d.m d.m i)) d

/-- `select_best_path`, `Decoder_polar_SCL_naive.hxx:423-437`. -/
def select (A : Ar R) (d : Dec R w) : Dec R w :=
  { d with active := [d.active.foldl (fun b p => if A.lt (d.met p) (d.met b) then p else b) (d.active.headD 0)] }

/-- The element `i` of the leaves (`Decoder_polar_SCL_naive.hxx:480-481`), or of the root (`Decoder_polar_SCL_naive_sys.hxx:35`). -/
def readBit (d : Dec R w) (p i : Nat) : Exec (BitVec w) := if d.sys then rd ((d.trees p).s 0 0) i else rd ((d.trees p).s d.m i) 0

/-- The elements of information positions, `CRC/Decoder_polar_SCL_naive_CA.hxx:56-58` (from the leaves) and `CRC/Decoder_polar_SCL_naive_CA_sys.hxx:39-40` (from the root). -/
def uTest (d : Dec R w) (p : Nat) : Exec (List (BitVec w)) :=
  forN d.N (fun i r => do
    let b ← rd d.frozen i
    if b then ok r
    else do
      let x ← readBit d p i
      ok (r ++ [x])) []

/-- `select_best_path` with a CRC (`CRC/Decoder_polar_SCL_naive_CA.hxx:46-66`, `CRC/Decoder_polar_SCL_naive_CA_sys.hxx:29-48`) or without. -/
def selectBest (A : Ar R) (d : Dec R w) : Exec (Dec R w) :=
  match d.crc with
  | none => ok (select A d)
  | some check => do
    let a ← forEach d.active (fun p a => do
      let u ← uTest d p
      ok (if check u then a else a.filter (· ≠ p))) d.active
    ok (select A { d with active := a })

/-- `_decode`, `Decoder_polar_SCL_naive.hxx:157-274`. -/
def Dec.decode (F : Fns R w) (A : Ar R) (sort : List (Cand R w) → List (Cand R w)) (d : Dec R w) : Exec (Dec R w) := do
  let d ← forN d.N (leaf F A sort) d
  selectBest A d

/-- `_load` and `_decode`, `Decoder_polar_SCL_naive.hxx:281-285`, `304-308`. -/
def Dec.run (F : Fns R w) (A : Ar R) (sort : List (Cand R w) → List (Cand R w)) (d : Dec R w) (y : List R) : Exec (Dec R w) := do
  let d ← d.load A y
  d.decode F A sort

/-- `_store(V, false)`: the leaves in order (`Decoder_polar_SCL_naive.hxx:329-330`, `468-482`), or the root (`Decoder_polar_SCL_naive_sys.hxx:33-36`, `CRC/Decoder_polar_SCL_naive_CA_sys.hxx:57-60`). -/
def Dec.store (d : Dec R w) (v : List (BitVec w)) : Exec (List (BitVec w)) := do
  let p ← forN d.N (fun i (p : List (BitVec w) × Nat) => do
    let b ← rd d.frozen i
    if b then ok p
    else do
      let x ← readBit d (d.active.headD 0) i
      let v ← wr p.1 p.2 (if x ≠ 0 then 1 else 0)
      ok (v, p.2 + 1)) (v, 0)
  ok p.1

/-- `_store(V, true)`: a copy (`Decoder_polar_SCL_naive.hxx:334-335`), or a loop (`Decoder_polar_SCL_naive_sys.hxx:39-40`, `CRC/Decoder_polar_SCL_naive_CA_sys.hxx:63-64`). -/
def Dec.storeCw (d : Dec R w) (v : List (BitVec w)) : Exec (List (BitVec w)) :=
  if d.sys then forN d.N (fun i v => do
    let x ← rd ((d.trees (d.active.headD 0)).s 0 0) i
    wr v i (if x ≠ 0 then 1 else 0)) v
  else copyTo ((d.trees (d.active.headD 0)).s 0 0) 0 d.N v 0

/-- `_decode_siho`, `Decoder_polar_SCL_naive.hxx:276-297`. -/
def Dec.siho (F : Fns R w) (A : Ar R) (sort : List (Cand R w) → List (Cand R w)) (d : Dec R w) (y : List R) (v : List (BitVec w)) : Exec (Dec R w × List (BitVec w)) := do
  let d ← d.run F A sort y
  let v ← d.store v
  ok (d, v)

/-- `_decode_siho_cw`, `Decoder_polar_SCL_naive.hxx:299-320`. -/
def Dec.sihoCw (F : Fns R w) (A : Ar R) (sort : List (Cand R w) → List (Cand R w)) (d : Dec R w) (y : List R) (v : List (BitVec w)) : Exec (Dec R w × List (BitVec w)) := do
  let d ← d.run F A sort y
  let v ← d.storeCw v
  ok (d, v)

/-! ## The arithmetic of the types -/

/-- `phi`, `decoder_polar_functions.hxx:263-276`, on integers converted to `b` bits. -/
def phiInt (b : Nat) (mu x : Int) (u : Bool) : Int :=
  if u = false ∧ x < 0 then PolarSC.wrap b (mu - x) else if u = true ∧ 0 < x then PolarSC.wrap b (mu + x) else mu

/-- `int8_t`: `phi` is saturated (`decoder_polar_functions.hxx:278-290`) after the conversion. -/
def ar8 : Ar Int := ⟨fun mu x u => PolarSC.saturate (phiInt 8 mu x u) (-128) 63, fun a b => PolarSC.wrap 8 (a - b), fun a b => a < b, -128, 127⟩

/-- `int16_t`. -/
def ar16 : Ar Int := ⟨phiInt 16, fun a b => PolarSC.wrap 16 (a - b), fun a b => a < b, -32768, 32767⟩

open Verif.Float in
/-- `phi`, `decoder_polar_functions.hxx:263-276`, on floating point numbers. -/
def phiFl (F : Fmt) (mu x : Fl) (u : Bool) : Fl :=
  if u = false ∧ Fl.lt x (.fin 0) then F.add mu x.neg else if u = true ∧ Fl.lt (.fin 0) x then F.add mu x else mu

open Verif.Float in
/-- `float`: the least value of `std::numeric_limits` is the least positive normal number. -/
def arFlt : Ar Fl := ⟨phiFl b32, fun a b => b32.add a b.neg, Fl.lt, .fin (2 ^ (-126 : ℤ)), .fin ((2 ^ 24 - 1) * 2 ^ 104)⟩

open Verif.Float in
/-- `double`. -/
def arDbl : Ar Fl := ⟨phiFl b64, fun a b => b64.add a b.neg, Fl.lt, .fin (2 ^ (-1022 : ℤ)), .fin ((2 ^ 53 - 1) * 2 ^ 971)⟩

end Verif.PolarSCL
