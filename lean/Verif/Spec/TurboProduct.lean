import Verif.Model.TurboProduct
import Verif.Spec.BCH
import Verif.Spec.Interleaver

/-! # Specification of product codes

A word of a product code is a matrix whose rows all belong to a first code and whose columns all belong to a second one. -/

namespace Verif.TurboProduct
open Exec Verif.BCH Verif.Interleaver

/-- The BCH code of `N` bits with generator polynomial `g`. -/
def InBch (g : List Nat) (N : Nat) (c : List Nat) : Prop := c.length = N ∧ IsBin c ∧ bitPoly g ∣ bitPoly c

/-- An `Encoder_BCH` built with a `BCH_polynomial_generator` whose generator polynomial is `g`, over a field given by a primitive
polynomial. -/
def BchEnc (e : Enc) (g : List Nat) : Prop :=
  ∃ (w : Nat) (M t : Int) (p : List Nat) (gen : Gen) (K N : Int), bchGen w M t p = ok gen ∧ gen.gf.m < w ∧
    Galois.Primitive gen.gf.m (Galois.fieldPoly gen.gf.m gen.gf.p) ∧ Enc.mk? K N gen = ok e ∧ gen.g = g

/-- The same, extended (or not) with a bit that makes the number of ones even. -/
def InCode (ext : Bool) (g : List Nat) (N : Nat) (c : List Nat) : Prop :=
  if ext then ∃ b, InBch g N b ∧ c = b ++ [b.sum % 2] else InBch g N c

/-- Row `i` of a matrix stored row by row. -/
def row (cols : Nat) (x : List Nat) (i : Nat) : List Nat := (List.range cols).map fun j => x.getD (i * cols + j) 0

/-- Column `j` of a matrix of `rows` rows stored row by row. -/
def col (rows cols : Nat) (x : List Nat) (j : Nat) : List Nat := (List.range rows).map fun i => x.getD (i * cols + j) 0

/-- Length of an (extended) code. -/
def size (ext : Bool) (N : Nat) : Nat := N + if ext then 1 else 0

/-- Words of the product of the code of the rows (generator `gr`, `nr` bits) and of that of the columns (`gc`, `nc`). -/
structure IsProduct (ext : Bool) (gr : List Nat) (nr : Nat) (gc : List Nat) (nc : Nat) (x : List Nat) : Prop where
  len : x.length = size ext nc * size ext nr
  rows : ∀ i, i < size ext nc → InCode ext gr nr (row (size ext nr) x i)
  cols : ∀ j, j < size ext nr → InCode ext gc nc (col (size ext nc) (size ext nr) x j)

/-- Histories of a row-column interleaver core: its tables always come from the same generator. -/
def RcOp (rows cols : Nat) (o : ReadOrder) : Op → Prop
  | .setNFrames _ gen => gen = genRowColumn rows cols o
  | .refresh gen => gen = genRowColumn rows cols o

/-- The encoders that a history of calls can give, with a row-column interleaver: construction, encoding of any buffer, changes of the
number of frames and of the tables of the interleaver. -/
inductive Reach (er ec : Enc) (o : ReadOrder) : PEnc → Prop
  | make {rows cols nfr nfc nf : Nat} {ops : List Op} {core : Core} {e : PEnc} : (∀ op ∈ ops, RcOp rows cols o op) →
      history (rows * cols : Nat) false (genRowColumn rows cols o) ops = ok core → PEnc.mk? er nfr ec nfc core nf = ok e → cols = e.er.N + e.par → Reach er ec o e
  | encode {e e' : PEnc} {f : Nat} {u x x' : List Nat} : Reach er ec o e → e.encode f u x = ok (e', x') → Reach er ec o e'
  | frames {e : PEnc} {op : Op} {core : Core} {n : Nat} : Reach er ec o e → RcOp (e.ec.N + e.par) (e.er.N + e.par) o op → e.core.step op = ok core →
      Reach er ec o { e with core := core, nf := n }

/-- The messages are read column by column from the top. -/
def FromTop (o : ReadOrder) : Prop := o = .topLeft ∨ o = .topRight

end Verif.TurboProduct
