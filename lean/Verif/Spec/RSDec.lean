import Verif.Spec.BCH
import Verif.Model.RSDec

/-! # Specification of the Reed–Solomon decoder -/

namespace Verif.RSDec
open Exec Verif.Galois Verif.BCH

/-- `x` is a word of symbols of the code: symbols of `m` bits, all `2t` syndromes vanish. -/
structure IsCodeword (gen : RsGen) (x : List Nat) : Prop where
  sym : ∀ v ∈ x, v < 2 ^ gen.gf.m
  syn : ∀ j, 1 ≤ j → j ≤ 2 * gen.t → syndrome gen.gf x j = 0

/-- `w` is a codeword of the full length `2^m - 1` which differs in at most `t` symbols from the received symbols,
completed with zeros when the code is shortened. -/
structure Within (gen : RsGen) (y w : List Nat) : Prop where
  len : w.length = gen.gf.N
  code : IsCodeword gen w
  near : hamming (y ++ List.replicate (gen.gf.N - y.length) 0) w ≤ gen.t

/-- The decoders of this specification, for bits of type `B` of `w` bits: a generator of the library, symbols narrower
than `B`, a number of symbols which needs as many bits as the field, no overflow of `int` products. -/
structure Usable (w : Nat) (M t : Int) (gen : RsGen) (K N : Int) (d : Dec) : Prop where
  made : rsGen M t = ok gen
  width : gen.gf.m < w
  dec : Dec.mk? K N gen = ok d
  low : (2 : Int) ^ (gen.gf.m - 1) ≤ N
  high : N < (2 : Int) ^ gen.gf.m
  int : (2 * t + 1) * 2 ^ gen.gf.m ≤ 2 ^ 31

/-- The `n` symbols of `m` bits of a frame of bits. -/
def symbols (m n : Nat) (x : List Int) : List Nat := (List.range n).map (symbolAt m x)

/-- The bits of a word of symbols of `m` bits, least significant bit first. -/
def bits (m : Nat) (x : List Nat) : List Int :=
  (List.range (x.length * m)).map fun i => if (x.getD (i / m) 0).testBit (i % m) then 1 else 0

/-- The calls to a decoder. -/
inductive Call (R : Type) where
  | hiho (y : List Int)
  | hihoCw (y : List Int)
  | siho (y : List R)
  | sihoCw (y : List R)

/-- Number of values of a frame. -/
def Call.size {R : Type} : Call R → Nat
  | .hiho y => y.length
  | .hihoCw y => y.length
  | .siho y => y.length
  | .sihoCw y => y.length

/-- The hard values a call decodes. -/
def Call.hard {R : Type} (neg : R → Bool) : Call R → List Int
  | .hiho y => y
  | .hihoCw y => y
  | .siho y => y.map fun v => if neg v then 1 else 0
  | .sihoCw y => y.map fun v => if neg v then 1 else 0

/-- Does the call output codewords of `N` symbols, or messages of `K` symbols? -/
def Call.cw {R : Type} : Call R → Bool
  | .hiho _ => false
  | .hihoCw _ => true
  | .siho _ => false
  | .sihoCw _ => true

/-- Number of symbols of the output of a call. -/
def Call.outSize {R : Type} (d : Dec) (k : Call R) : Nat := if k.cw then d.N else d.K

/-- The received symbols. -/
def Call.word {R : Type} (neg : R → Bool) (d : Dec) (k : Call R) : List Nat := symbols d.core.gf.m d.N (k.hard neg)

/-- Running a call on a work space `b`, with stale internal copies `yb`, `yh` and a stale output buffer `v`. -/
def Call.run {R : Type} (neg : R → Bool) (w : Nat) (d : Dec) (b : Buf) (yb : List Int) (yh : List (BitVec w)) (v : List Int) :
    Call R → Exec Out
  | .hiho y => decodeHiho w d b y yh v
  | .hihoCw y => decodeHihoCw w d b y yh v
  | .siho y => decodeSiho neg w d b y yb yh v
  | .sihoCw y => decodeSihoCw neg w d b y yb yh v

/-- The bits that a call outputs, for a word of `N` symbols: all of them, or those of the last `K` symbols. -/
def Call.part {R : Type} (d : Dec) (k : Call R) (x : List Nat) : List Int :=
  bits d.core.gf.m (if k.cw then x else x.drop (d.N - d.K))

/-- The sizes of the frames and of the buffers. -/
structure Call.Ok {R : Type} {w : Nat} (d : Dec) (k : Call R) (yb : List Int) (yh : List (BitVec w)) (v : List Int) : Prop where
  size : k.size = d.N * d.core.gf.m
  yb : yb.length = d.N * d.core.gf.m
  yh : yh.length = d.N
  v : v.length = k.outSize d * d.core.gf.m

/-- The work spaces a decoder goes through: those of a new decoder, then those left by any number of calls. -/
inductive Reach {R : Type} (neg : R → Bool) (w : Nat) (d : Dec) : Buf → Prop
  | fresh : Reach neg w d d.fresh
  | call {b : Buf} (k : Call R) (yb : List Int) (yh : List (BitVec w)) (v : List Int) {o : Out} : Reach neg w d b →
      k.Ok d yb yh v → k.run neg w d b yb yh v = ok o → Reach neg w d o.buf

end Verif.RSDec
