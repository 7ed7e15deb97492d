import Verif.Model.PolarSC

/-!
# Fast simplified successive cancellation decoder of polar codes

Models `include/Module/Decoder/Polar/SC/Decoder_polar_SC_fast_sys.hxx` with one frame per wave and the sequential functions
(`include/Tools/Code/Polar/API/API_polar_dynamic_seq.hxx`, `internal_functions/functions_polar_seq.hxx`), the parser of frozen
bits into patterns `src/Tools/Code/Polar/Pattern_polar_parser.cpp`, the patterns of `include/Tools/Code/Polar/Patterns`, and
`include/Tools/Code/Polar/fb_extract.hxx`.  The vectorised functions (`API_polar_*_inter*`, `API_polar_*_intra*`) are not modelled.
-/

namespace Verif.PolarFast
open Exec Verif.PolarSC

/-- `polar_node_t`, `include/Tools/Code/Polar/Patterns/Pattern_polar_i.hpp`. -/
inductive NT where
  | std
  | r0l
  | r0
  | r1
  | repl
  | rep
  | spc
  deriving DecidableEq, Repr

/-- A pattern: its type, `min_level` and `max_level` (`none` is `-1`), `Pattern_polar_i.hxx:70-89`. -/
structure Pat where
  t : NT
  lo : Nat
  hi : Option Nat
  deriving DecidableEq, Repr

/-- The pattern list of the first constructor, `Decoder_polar_SC_fast_sys.hxx:131-141`, with the default levels of the patterns
(`Pattern_polar_*.hpp`). -/
def defaultPats : List Pat :=
  [⟨.std, 0, none⟩, ⟨.r0l, 1, none⟩, ⟨.r0, 0, none⟩, ⟨.r1, 0, none⟩, ⟨.repl, 2, none⟩, ⟨.rep, 1, none⟩, ⟨.spc, 2, none⟩]

/-- `is_terminal`, `Pattern_polar_{r0,r1,rep,spc}.hxx` (true), `Pattern_polar_{std,r0_left,rep_left}.hxx` (false);
`Decoder_polar_SC_fast_sys.hxx:360-363`. -/
def NT.terminal : NT → Bool
  | .r0 | .r1 | .rep | .spc => true
  | _ => false

/-- `Pattern_polar_r0::recursive_check`, `Pattern_polar_r0.hxx:76-100`. -/
def r0Check : Bin (NT × Nat) → Bool
  | .leaf _ c => c.1 = .r0
  | .node _ _ l r => if l.c.1 = .r0 ∧ r.c.1 = .r0 then true else r0Check l && r0Check r

/-- `Pattern_polar_r1::recursive_check`, `Pattern_polar_r1.hxx:77-101`. -/
def r1Check : Bin (NT × Nat) → Bool
  | .leaf _ c => c.1 = .r1
  | .node _ _ l r => if l.c.1 = .r1 ∧ r.c.1 = .r1 then true else r1Check l && r1Check r

/-- `Pattern_polar_rep::recursive_check`, `Pattern_polar_rep.hxx:92-119`, at a node whose children are `l` and `r`; `d` is
`reverse_graph_depth`. -/
def repCheck (d : Nat) (l : Bin (NT × Nat)) : Bin (NT × Nat) → Bool
  | r@(.leaf _ _) =>
    if l.c.1 = .r0 ∨ r0Check l then
      if r.c.1 = .rep then true
      else if r.c.1 = .r1 ∧ d = 1 then true
      else false
    else false
  | r@(.node _ _ rl rr) =>
    if l.c.1 = .r0 ∨ r0Check l then
      if r.c.1 = .rep then true
      else if r.c.1 = .r1 ∧ d = 1 then true
      else repCheck (d - 1) rl rr
    else false

/-- `Pattern_polar_spc::recursive_check`, `Pattern_polar_spc.hxx:92-121`, at a node whose children are `l` and `r`. -/
def spcCheck (d : Nat) (r : Bin (NT × Nat)) : Bin (NT × Nat) → Bool
  | l@(.leaf _ _) =>
    if r.c.1 = .r1 ∨ r1Check r then
      if l.c.1 = .spc then true
      else if l.c.1 = .rep ∧ d = 2 then true
      else if l.c.1 = .r0 ∧ d = 1 then true
      else false
    else false
  | l@(.node _ _ ll lr) =>
    if r.c.1 = .r1 ∨ r1Check r then
      if l.c.1 = .spc then true
      else if l.c.1 = .rep ∧ d = 2 then true
      else if l.c.1 = .r0 ∧ d = 1 then true
      else spcCheck (d - 1) lr ll
    else false

/-- `_match` of each pattern: `Pattern_polar_std.hxx:76-82`, `Pattern_polar_r0_left.hxx:92-108`, `Pattern_polar_r0.hxx:102-106`,
`Pattern_polar_r1.hxx:103-107`, `Pattern_polar_rep_left.hxx:92-108`, `Pattern_polar_rep.hxx:121-125`, `Pattern_polar_spc.hxx:123-127`. -/
def matchType (d : Nat) (l r : Bin (NT × Nat)) : NT → Nat
  | .std => 1
  | .r0l => if l.c.1 = .r0 then 20 else 0
  | .r0 => if (if l.c.1 = .r0 ∧ r.c.1 = .r0 then true else r0Check l && r0Check r) then 100 else 0
  | .r1 => if (if l.c.1 = .r1 ∧ r.c.1 = .r1 then true else r1Check l && r1Check r) then 99 else 0
  | .repl => if l.c.1 = .rep then 19 else 0
  | .rep => if repCheck d l r then 50 else 0
  | .spc => if spcCheck d r l then 49 else 0

/-- `Pattern_polar_i::match`, `Pattern_polar_i.hxx:182-200` (the depth of an inner node is positive). -/
def matchVal (d : Nat) (l r : Bin (NT × Nat)) (p : Pat) : Nat :=
  if p.lo ≤ d ∧ p.hi.all (d ≤ ·) then matchType d l r p.t else 0

/-- The search of the biggest matching value, `Pattern_polar_parser.cpp:144-158`: the state is `matching_id` and
`best_matching_val`. -/
def bestMatch (d : Nat) (l r : Bin (NT × Nat)) (pats : List Pat) : Exec Nat := do
  let p ← forN pats.length (fun i (st : Nat × Nat) => do
    let p ← rd pats i
    ok (if matchVal d l r p > st.2 then (i, matchVal d l r p) else st)) (0, 0)
  ok p.1

/-- `recursive_allocate_nodes_patterns`, `Pattern_polar_parser.cpp:130-177`, on the subtree of a node whose
`reverse_graph_depth` is `k`; the contents are the type of the pattern and its size (`Pattern_polar_i.hxx:57-58`, for a
power of two). -/
def parse (pats : List Pat) (i0 i1 : Nat) (fr : List Bool) : Nat → Bin Unit → Exec (Bin (NT × Nat))
  | k, .leaf lane _ => do
    let b ← rd fr lane
    let p ← rd pats (if b then i0 else i1)
    ok (.leaf lane (p.t, 2 ^ k))
  | k, .node lane _ l r => do
    let l ← parse pats i0 i1 fr (k - 1) l
    let r ← parse pats i0 i1 fr (k - 1) r
    let id ← bestMatch k l r pats
    let p ← rd pats id
    if p.t.terminal then ok (.leaf lane (p.t, 2 ^ k))
    else ok (.node lane (p.t, 2 ^ k) l r)

/-- `pattern_types`, `generate_nodes_indexes`, `Pattern_polar_parser.cpp:179-193`. -/
def types : Bin (NT × Nat) → List NT
  | .leaf _ c => [c.1]
  | .node _ c l r => c.1 :: (types l ++ types r)

/-- `leaves_pattern_types`, `generate_nodes_indexes`, `Pattern_polar_parser.cpp:179-193`. -/
def leaves : Bin (NT × Nat) → List (NT × Nat)
  | .leaf _ c => [c]
  | .node _ _ l r => leaves l ++ leaves r

/-- The functions of the API on one frame: `F`, `G`, `H`, `G0`; `acc` is `sum += x` of `rep`; for `spc`, `smul s x` is
`(R)(s ? -1 : 1) * x`, `gt` the comparison `>` and `top` is `std::numeric_limits<R>::max()`. -/
structure Api (R : Type) (w : Nat) where
  fns : Fns R w
  g0 : R → R → R
  acc : R → R → R
  smul : Bool → R → R
  gt : R → R → Bool
  top : R

/-- `bit_init`, `include/Tools/Math/utils.hxx:61-65`: the word with its sign bit set. -/
def bitInit (w : Nat) : BitVec w := BitVec.ofNat w (2 ^ (w - 1))

variable {R : Type} {w : Nat}

/-- `f_seq::apply`, `functions_polar_seq.hxx:26-32`, with the offsets of `API_polar_dynamic_seq.hxx`: reads at `a` and `b`,
writes at `c`. -/
def fAt (A : Api R w) (l : List R) (a b c n : Nat) : Exec (List R) :=
  forN n (fun i l => do
    let x ← rd l (a + i)
    let y ← rd l (b + i)
    wr l (c + i) (A.fns.f x y)) l

/-- `g_seq::apply`, `functions_polar_seq.hxx:46-52`. -/
def gAt (A : Api R w) (s : List (BitVec w)) (l : List R) (a b o c n : Nat) : Exec (List R) :=
  forN n (fun i l => do
    let x ← rd l (a + i)
    let y ← rd l (b + i)
    let u ← rd s (o + i)
    wr l (c + i) (A.fns.g x y u)) l

/-- `g0_seq::apply`, `functions_polar_seq.hxx:66-72`. -/
def g0At (A : Api R w) (l : List R) (a b c n : Nat) : Exec (List R) :=
  forN n (fun i l => do
    let x ← rd l (a + i)
    let y ← rd l (b + i)
    wr l (c + i) (A.g0 x y)) l

/-- `gr_seq::apply`, `functions_polar_seq.hxx:87-94`. -/
def grAt (A : Api R w) (s : List (BitVec w)) (l : List R) (a b o c n : Nat) : Exec (List R) := do
  let u ← rd s o
  forN n (fun i l => do
    let x ← rd l (a + i)
    let y ← rd l (b + i)
    wr l (c + i) (A.fns.g x y u)) l

/-- `h_seq::apply`, `functions_polar_seq.hxx:108-114`. -/
def hAt (A : Api R w) (l : List R) (a : Nat) (s : List (BitVec w)) (o n : Nat) : Exec (List (BitVec w)) :=
  forN n (fun i s => do
    let x ← rd l (a + i)
    wr s (o + i) (A.fns.h x)) s

/-- `h0_seq::apply`, `functions_polar_seq.hxx:127-132`. -/
def h0At (s : List (BitVec w)) (o n : Nat) : Exec (List (BitVec w)) :=
  forN n (fun i s => wr s (o + i) 0) s

/-- `rep_seq::apply`, `functions_polar_seq.hxx:165-190`. -/
def repAt (A : Api R w) (l : List R) (a : Nat) (s : List (BitVec w)) (o n : Nat) : Exec (List (BitVec w)) := do
  let sum ← forN n (fun i z => do
    let x ← rd l (a + i)
    ok (A.acc z x)) A.fns.zero
  forN n (fun i s => wr s (o + i) (A.fns.h sum)) s

/-- The variables of `spc_seq::apply`. -/
structure Spc (R : Type) (w : Nat) where
  s : List (BitVec w)
  minAbs : R
  minPos : Option Nat
  odd : Bool

/-- The body of the loop of `spc_seq::apply`, `functions_polar_seq.hxx:231-244`: `odd` is `prod_sign < 0`. -/
def spcBody (A : Api R w) (l : List R) (a o i : Nat) (st : Spc R w) : Exec (Spc R w) := do
  let x ← rd l (a + i)
  let s ← wr st.s (o + i) (A.fns.h x)
  let neg := decide (A.fns.h x ≠ 0)
  let m := A.smul neg x
  if A.gt st.minAbs m then ok ⟨s, m, some i, st.odd ^^ neg⟩
  else ok ⟨s, st.minAbs, st.minPos, st.odd ^^ neg⟩

/-- `spc_seq::apply`, `functions_polar_seq.hxx:224-250`: the correction is at `cur_min_pos`, which is `-1` when no value is less
than the maximum of the type. -/
def spcAt (A : Api R w) (l : List R) (a : Nat) (s : List (BitVec w)) (o n : Nat) : Exec (List (BitVec w)) := do
  let st ← forN n (spcBody A l a o) ⟨s, A.top, none, false⟩
  if st.odd then
    match st.minPos with
    | some p => do
      let b ← rd st.s (o + p)
      wr st.s (o + p) (if b = 0 then bitInit w else 0)
    | none =>
      if o = 0 then ub
      else do
        let b ← rd st.s (o - 1)
        wr st.s (o - 1) (if b = 0 then bitInit w else 0)
  else ok st.s

/-- `xo_seq::apply` in place, `functions_polar_seq.hxx:264-270`, with `xo_STD` (`decoder_polar_functions.hxx:250-254`). -/
def xoAt (s : List (BitVec w)) (a b n : Nat) : Exec (List (BitVec w)) :=
  forN n (fun i s => do
    let x ← rd s (a + i)
    let y ← rd s (b + i)
    wr s (a + i) (x ^^^ y)) s

/-- `xo0_seq::apply`, `functions_polar_seq.hxx:287-296`. -/
def xo0At (s : List (BitVec w)) (b c n : Nat) : Exec (List (BitVec w)) :=
  forN n (fun i s => do
    let y ← rd s (b + i)
    wr s (c + i) y) s

/-- The `switch` on terminal nodes, `Decoder_polar_SC_fast_sys.hxx:402-411` (in a node of one element it is `:112-118`, whose
types are `RATE_0` and `RATE_1`). -/
def terminalNode (A : Api R w) (t : NT) (l : List R) (s : List (BitVec w)) (a o n : Nat) : Exec (List (BitVec w)) :=
  match t with
  | .r0 => h0At s o n
  | .r1 => hAt A l a s o n
  | .rep => repAt A l a s o n
  | .spc => spcAt A l a s o n
  | _ => ok s

/-- The `switch` before the left child, `Decoder_polar_SC_fast_sys.hxx:367-374`. -/
def beforeLeft (A : Api R w) (t : NT) (l : List R) (a n h : Nat) : Exec (List R) :=
  match t with
  | .std => fAt A l a (a + h) (a + n) h
  | .repl => fAt A l a (a + h) (a + n) h
  | _ => ok l

/-- The `switch` before the right child, `Decoder_polar_SC_fast_sys.hxx:378-386`. -/
def beforeRight (A : Api R w) (t : NT) (l : List R) (s : List (BitVec w)) (a o n h : Nat) : Exec (List R) :=
  match t with
  | .std => gAt A s l a (a + h) o (a + n) h
  | .r0l => g0At A l a (a + h) (a + n) h
  | .repl => grAt A s l a (a + h) o (a + n) h
  | _ => ok l

/-- The `switch` after the right child, `Decoder_polar_SC_fast_sys.hxx:390-398`. -/
def afterRight (t : NT) (s : List (BitVec w)) (o h : Nat) : Exec (List (BitVec w)) :=
  match t with
  | .std => xoAt s o (o + h) h
  | .r0l => xo0At s (o + h) o h
  | .repl => xoAt s o (o + h) h
  | _ => ok s

/-- `recursive_decode`, `Decoder_polar_SC_fast_sys.hxx:344-414`, and its version for small nodes, `:22-120`, which makes the same
calls with sizes known at compile time.  `k` is `reverse_depth`, `a` is `off_l`, `o` is `off_s`; the state is `l`, `s` and
`node_id`. -/
def decodeRec (A : Api R w) (ty : List NT) : Nat → Nat → Nat → List R × List (BitVec w) × Nat → Exec (List R × List (BitVec w) × Nat)
  | 0, a, o, (l, s, id) => do
    let t ← rd ty id
    let s ← terminalNode A t l s a o 1
    ok (l, s, id)
  | k + 1, a, o, (l, s, id) => do
    let t ← rd ty id
    if t.terminal then do
      let s ← terminalNode A t l s a o (2 ^ (k + 1))
      ok (l, s, id)
    else do
      let l ← beforeLeft A t l a (2 ^ (k + 1)) (2 ^ k)
      let st ← decodeRec A ty k (a + 2 ^ (k + 1)) o (l, s, id + 1)
      let l ← beforeRight A t st.1 st.2.1 a o (2 ^ (k + 1)) (2 ^ k)
      let st ← decodeRec A ty k (a + 2 ^ (k + 1)) (o + 2 ^ k) (l, st.2.1, st.2.2 + 1)
      let s ← afterRight t st.2.1 o (2 ^ k)
      ok (st.1, s, st.2.2)

/-- The body of the loop of `fb_extract`, `fb_extract.hxx:20-54`: the state is `V_K`, `off_s`, `sk_idx`. -/
def extractLeaf (s : List (BitVec w)) (c : NT × Nat) (p : List (BitVec w) × Nat × Nat) : Exec (List (BitVec w) × Nat × Nat) :=
  match c.1 with
  | .r0 => ok (p.1, p.2.1 + c.2, p.2.2)
  | .r1 => do
    let v ← copyTo s p.2.1 c.2 p.1 p.2.2
    ok (v, p.2.1 + c.2, p.2.2 + c.2)
  | .rep => do
    let v ← copyTo s (p.2.1 + c.2 - 1) 1 p.1 p.2.2
    ok (v, p.2.1 + c.2, p.2.2 + 1)
  | .spc => do
    let v ← copyTo s (p.2.1 + 1) (c.2 - 1) p.1 p.2.2
    ok (v, p.2.1 + c.2, p.2.2 + (c.2 - 1))
  | _ => exc .runtimeError

/-- `fb_extract`, `fb_extract.hxx:11-55`. -/
def extract (lv : List (NT × Nat)) (s v : List (BitVec w)) : Exec (List (BitVec w)) := do
  let p ← forN lv.length (fun i p => do
    let c ← rd lv i
    extractLeaf s c p) (v, 0, 0)
  ok p.1

/-- The members of the decoder: `K`, `N`, `frozen_bits`, the parser (patterns, indexes and the two lists it computes), the
vectors `l` and `s` (without their padding, which is not accessed), and `Y_N` of `Decoder_SIHO`. -/
structure Dec (R : Type) (w : Nat) where
  K : Nat
  N : Nat
  frozen : List Bool
  pats : List Pat
  i0 : Nat
  i1 : Nat
  ty : List NT
  lv : List (NT × Nat)
  l : List R
  s : List (BitVec w)
  yN : List R
  deriving DecidableEq

/-- `Pattern_polar_parser::set_frozen_bits`, `Pattern_polar_parser.cpp:110-122`. -/
def parseBits (pats : List Pat) (i0 i1 : Nat) (fr : List Bool) : Exec (List NT × List (NT × Nat)) := do
  let t ← createTree (Nat.log2 fr.length)
  let t ← parse pats i0 i1 fr (Nat.log2 fr.length) t
  ok (types t, leaves t)

/-- Constructors, `Decoder_polar_SC_fast_sys.hxx:122-217`, `src/Module/Decoder/Decoder.cpp:24-43` and
`Pattern_polar_parser.cpp:12-61`; the first constructor is that with `defaultPats`, `2` and `3`.  The parser is built before the
checks of `N`, with its own size `frozen_bits.size()`: without bits the conversion of `log2(0)` to `int` is undefined. -/
def Dec.mk? (A : Api R w) (K N : Int) (frozen : List Bool) (pats : List Pat) (i0 i1 : Nat) : Exec (Dec R w) :=
  if K ≤ 0 then exc .invalidArgument
  else if N ≤ 0 then exc .invalidArgument
  else if K > N then exc .invalidArgument
  else if frozen.length = 0 then ub
  else if i0 ≥ pats.length then exc .lengthError
  else if i1 ≥ pats.length then exc .lengthError
  else if i0 = i1 then exc .lengthError
  else do
    let p ← parseBits pats i0 i1 frozen
    if !Reorderer.isPow2 N.toNat then exc .invalidArgument
    else if N ≠ frozen.length then exc .lengthError
    else if K ≠ (frozen.filter (· = false)).length then exc .runtimeError
    else ok ⟨K.toNat, N.toNat, frozen, pats, i0, i1, p.1, p.2, List.replicate (2 * N.toNat) A.fns.zero, List.replicate N.toNat 0, List.replicate N.toNat A.fns.zero⟩

/-- `set_frozen_bits`, `Decoder_polar_SC_fast_sys.hxx:228-235`: `fb_assert` (`src/Tools/Code/Polar/fb_assert.cpp:6-27`) checks the
member, not the argument. -/
def Dec.setFrozen (d : Dec R w) (fb : List Bool) : Exec (Dec R w) :=
  if d.frozen.length ≠ d.N then exc .runtimeError
  else if d.K ≠ (d.frozen.filter (· = false)).length then exc .runtimeError
  else do
    let fr ← copyTo fb 0 fb.length d.frozen 0
    let p ← parseBits d.pats d.i0 d.i1 fr
    ok { d with frozen := fr, ty := p.1, lv := p.2 }

/-- `static_level`, `Decoder_polar_SC_fast_sys.hxx:29`. -/
def staticLevel : Nat := 6

/-- `_load` then `_decode`, `Decoder_polar_SC_fast_sys.hxx:244-282`. -/
def Dec.run (A : Api R w) (d : Dec R w) (y : List R) : Exec (Dec R w) := do
  let l ← copyTo y 0 d.N d.l 0
  if Nat.log2 d.N < staticLevel then exc .runtimeError
  else do
    let st ← decodeRec A d.ty (Nat.log2 d.N) 0 0 (l, d.s, 0)
    ok { d with l := st.1, s := st.2.1 }

/-- `_decode_siho`, `Decoder_polar_SC_fast_sys.hxx:284-312`, `_store`, `:416-423`. -/
def Dec.siho (A : Api R w) (d : Dec R w) (y : List R) (v : List (BitVec w)) : Exec (Dec R w × List (BitVec w)) := do
  let d ← d.run A y
  let v ← extract d.lv d.s v
  ok (d, v)

/-- `_decode_siho_cw`, `Decoder_polar_SC_fast_sys.hxx:314-342`, `_store_cw`, `:465-472`. -/
def Dec.sihoCw (A : Api R w) (d : Dec R w) (y : List R) (v : List (BitVec w)) : Exec (Dec R w × List (BitVec w)) := do
  let d ← d.run A y
  let v ← copyTo d.s 0 d.N v 0
  ok (d, v)

/-- The conversion of hard inputs, `include/Module/Decoder/Decoder_SIHO.hxx:251-252,260-261`. -/
def Dec.harden (A : Api R w) (d : Dec R w) (y : List (BitVec w)) : Exec (Dec R w) := do
  let o ← forN d.N (fun i o => do
    let x ← rd y i
    wr o i (if x ≠ 0 then A.fns.mone else A.fns.one)) d.yN
  ok { d with yN := o }

/-- `_decode_hiho`, `Decoder_SIHO.hxx:247-254`. -/
def Dec.hiho (A : Api R w) (d : Dec R w) (y v : List (BitVec w)) : Exec (Dec R w × List (BitVec w)) := do
  let d ← d.harden A y
  d.siho A d.yN v

/-- `_decode_hiho_cw`, `Decoder_SIHO.hxx:256-263`. -/
def Dec.hihoCw (A : Api R w) (d : Dec R w) (y v : List (BitVec w)) : Exec (Dec R w × List (BitVec w)) := do
  let d ← d.harden A y
  d.sihoCw A d.yN v

/-! ## The functions used by the factory -/

/-- `g0_LLR<int8_t>`, `g0_LLR<int16_t>`, `decoder_polar_functions.hxx:195-209`. -/
def g0Int (sat x y : Int) : Int := saturate (x + y) (-sat) sat

/-- `(R)sign * l_a[i]` of `spc` on integers: computed in `int`. -/
def smulInt (neg : Bool) (x : Int) : Int := if neg then -1 * x else 1 * x

/-- The functions for `int8_t`; `rep` accumulates in an `int` (no overflow for less than `2^24` elements). -/
def int8 : Api Int 8 := ⟨PolarSC.int8, g0Int 63, fun s x => s + x, smulInt, fun a b => a > b, 127⟩

/-- The functions for `int16_t`; `rep` accumulates in an `int16_t`. -/
def int16 : Api Int 16 := ⟨PolarSC.int16, g0Int 16382, fun s x => wrap 16 (s + x), smulInt, fun a b => a > b, 32767⟩

open Verif.Float in
/-- The functions for a floating-point type: `g0_LLR`, `decoder_polar_functions.hxx:189-193`. -/
def ofFl (F : Fmt) (top : ℚ) {w : Nat} (f : Fns Fl w) : Api Fl w :=
  ⟨f, F.add, F.add, fun neg x => F.mul (.fin (if neg then -1 else 1)) x, fun a b => Fl.lt b a, .fin top⟩

open Verif.Float in
/-- The functions for `float`. -/
def flt : Api Fl 32 := ofFl b32 ((2 - 2 ^ (-23 : Int)) * 2 ^ 127) PolarSC.flt

open Verif.Float in
/-- The functions for `double`. -/
def dbl : Api Fl 64 := ofFl b64 ((2 - 2 ^ (-52 : Int)) * 2 ^ 1023) PolarSC.dbl

end Verif.PolarFast
