import Verif.Model.PolarMK
import Verif.Spec.Polar
import Mathlib.LinearAlgebra.Matrix.Determinant.Basic

/-! # Specification of the multi-kernel polar transform

The generator of the code whose stages use the kernels `K₀, K₁, …, Kₘ₋₁` is `Kₘ₋₁ ⊗ … ⊗ K₁ ⊗ K₀`, modulo 2. -/

namespace Verif.PolarMK

/-- Entry at row `a` and column `b` of a kernel. -/
def entry (K : Kernel) (a b : Nat) : Bool := (K.getD a []).getD b false

/-- Entry at row `a` and column `b` of `Kₘ₋₁ ⊗ … ⊗ K₁ ⊗ K₀`, for the list `[K₀, K₁, …, Kₘ₋₁]`: the product of
the entries of the kernels at the digits of `a` and `b`. -/
def kron : List Kernel → Nat → Nat → Bool
  | [], _, _ => true
  | K :: Ks, a, b => entry K (a % K.length) (b % K.length) && kron Ks (a / K.length) (b / K.length)

/-- Number of rows of the product. -/
def size (Ks : List Kernel) : Nat := (Ks.map List.length).prod

/-- The bit carried by a word (its lowest bit). -/
def bit {w : Nat} (u : List (BitVec w)) (a : Nat) : Bool := (u.getD a 0#w).getLsbD 0

/-- The row vector `u` times `Kₘ₋₁ ⊗ … ⊗ K₁ ⊗ K₀`, modulo 2. -/
def transform {w : Nat} (Ks : List Kernel) (u : List (BitVec w)) : List (BitVec w) :=
  (List.range (size Ks)).map fun b =>
    ofBit (decide (((List.range (size Ks)).filter fun a => bit u a && kron Ks a b).length % 2 = 1))

/-- The kernels of the stages of a code, in order. -/
def Code.stageKernels (c : Code) : List Kernel := c.stages.map fun s => c.kernels.getD s []

/-- Determinant of a kernel over the integers. -/
def det (K : Kernel) : Int := Matrix.det (Matrix.of fun i j : Fin K.length => if entry K i j then (1 : Int) else 0)

/-- All rows have as many elements as there are rows. -/
def Square (K : Kernel) : Prop := ∀ r ∈ K, r.length = K.length

instance (K : Kernel) : Decidable (Square K) := inferInstanceAs (Decidable (∀ r ∈ K, r.length = K.length))

/-- The product of the kernel by itself, modulo 2, is the identity. -/
def Involution (K : Kernel) : Prop :=
  ∀ i j, i < K.length → j < K.length →
    (((List.range K.length).filter fun t => entry K i t && entry K t j).length % 2 = 1 ↔ i = j)

/-- `x` is a codeword: the transform of a word that is zero on the frozen positions. -/
def IsCodeword {w : Nat} (Ks : List Kernel) (frozen : List Bool) (x : List (BitVec w)) : Prop :=
  ∃ u : List (BitVec w), u.length = size Ks ∧ (∀ i : Nat, frozen[i]? = some true → u[i]? = some 0#w) ∧
    transform Ks u = x

/-- The information bits come back to their positions: for all information positions `i` and `k`, the number of
frozen positions `j` with `G[i][j] = G[j][k] = 1` is even. -/
def NoLeak (Ks : List Kernel) (frozen : List Bool) : Prop :=
  ∀ i k : Nat, frozen[i]? = some false → frozen[k]? = some false →
    ((List.range (size Ks)).filter fun j => frozen.getD j false && kron Ks i j && kron Ks j k).length % 2 = 0

/-- A word of 0/1 values. -/
def IsBits {w : Nat} (l : List (BitVec w)) : Prop := ∀ v ∈ l, v = 0#w ∨ v = 1#w

end Verif.PolarMK
