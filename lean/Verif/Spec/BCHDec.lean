import Verif.Spec.BCH
import Verif.Model.BCHDec

/-! # Specification of the BCH decoder -/

namespace Verif.BCHDec
open Exec Polynomial Verif.Galois Verif.BCH

/-- `w` is a codeword of the full length `2^m - 1` (a binary multiple of the generator polynomial) which differs in at
most `t` positions from the received word, completed with zeros when the code is shortened. -/
structure Within (gen : Gen) (y w : List Nat) : Prop where
  len : w.length = gen.gf.N
  bin : IsBin w
  dvd : bitPoly gen.g ∣ bitPoly w
  near : hamming (y ++ List.replicate (gen.gf.N - y.length) 0) w ≤ gen.t

/-- The decoders and the words of this specification: a generator of the library with a primitive polynomial, a length
which needs as many bits as the field, no overflow of `int` products. -/
structure Usable (w : Nat) (M t : Int) (p : List Nat) (gen : Gen) (K N : Int) (d : Dec) : Prop where
  made : bchGen w M t p = ok gen
  width : gen.gf.m < w
  prim : Primitive gen.gf.m (fieldPoly gen.gf.m gen.gf.p)
  dec : Dec.mk? K N gen = ok d
  low : (2 : Int) ^ (gen.gf.m - 1) ≤ N
  high : N < (2 : Int) ^ gen.gf.m
  int : 2 * t * (N - 1) < 2 ^ 31

/-- The calls to a decoder. -/
inductive Call (R : Type) where
  | hiho (y : List Nat)
  | hihoCw (y : List Nat)
  | siho (y : List R)
  | sihoCw (y : List R)

/-- Frames of the right size; hard values are bits. -/
def Call.Ok {R : Type} (N : Nat) : Call R → Prop
  | .hiho y => y.length = N ∧ IsBin y
  | .hihoCw y => y.length = N ∧ IsBin y
  | .siho y => y.length = N
  | .sihoCw y => y.length = N

/-- The bits a call decodes. -/
def Call.hard {R : Type} (neg : R → Bool) : Call R → List Nat
  | .hiho y => y
  | .hihoCw y => y
  | .siho y => y.map fun v => if neg v then 1 else 0
  | .sihoCw y => y.map fun v => if neg v then 1 else 0

/-- Does the call output codewords of `N` bits, or messages of `K` bits? -/
def Call.cw {R : Type} : Call R → Bool
  | .hiho _ => false
  | .hihoCw _ => true
  | .siho _ => false
  | .sihoCw _ => true

/-- Running a call on a work space `b`, with a stale internal copy `yh` and a stale output buffer `v`. -/
def Call.run {R : Type} (neg : R → Bool) (d : Dec) (b : Buf) (yh v : List Nat) : Call R → Exec Out
  | .hiho y => decodeHiho d b y yh v
  | .hihoCw y => decodeHihoCw d b y yh v
  | .siho y => decodeSiho neg d b y yh v
  | .sihoCw y => decodeSihoCw neg d b y yh v

/-- The part of a word of `N` bits that a call outputs: the whole word, or its last `K` bits. -/
def Call.part {R : Type} (d : Dec) (k : Call R) (x : List Nat) : List Nat := if k.cw then x else x.drop (d.N - d.K)

/-- The work spaces a decoder goes through: those of a new decoder, then those left by any number of calls. -/
inductive Reach {R : Type} (neg : R → Bool) (d : Dec) : Buf → Prop
  | fresh : Reach neg d d.fresh
  | call {b : Buf} (k : Call R) (yh v : List Nat) {o : Out} : Reach neg d b → k.Ok d.N → yh.length = d.N →
      v.length = (if k.cw then d.N else d.K) → k.run neg d b yh v = ok o → Reach neg d o.buf

end Verif.BCHDec
