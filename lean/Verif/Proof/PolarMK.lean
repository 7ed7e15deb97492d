import Verif.Spec.PolarMK
import Verif.Props.Polar
import Mathlib.Algebra.BigOperators.Fin
import Mathlib.Algebra.BigOperators.Ring.Finset
import Mathlib.Algebra.BigOperators.Intervals
import Mathlib.Data.ZMod.Basic

/-! # The multi-kernel polar transform -/

namespace Verif.PolarMK
open Exec Finset

variable {w : Nat}

/-! ## Algebra modulo 2 -/

/-- A bit in `ZMod 2`. -/
def zb (b : Bool) : ZMod 2 := if b then 1 else 0

theorem zb_and (a b : Bool) : zb (a && b) = zb a * zb b := by cases a <;> cases b <;> decide

theorem zb_inj {a b : Bool} (h : zb a = zb b) : a = b := by
  revert h; cases a <;> cases b <;> decide

theorem zb_parity (n : Nat) (p : Nat → Bool) :
    zb (decide (((List.range n).filter p).length % 2 = 1)) = ∑ a ∈ range n, zb (p a) := by
  have key : (((List.range n).filter p).length : ZMod 2) = ∑ a ∈ range n, zb (p a) := by
    induction n with
    | zero => simp
    | succ n ih =>
      rw [List.range_succ, List.filter_append, List.length_append, Nat.cast_add, ih, Finset.sum_range_succ]
      congr 1
      cases h : p n <;> simp [h, zb]
  rw [← key]
  generalize ((List.range n).filter p).length = m
  have h2 : (m : ZMod 2) = ((m % 2 : Nat) : ZMod 2) := (ZMod.natCast_mod m 2).symm
  rw [h2]
  rcases Nat.mod_two_eq_zero_or_one m with h | h <;> rw [h] <;> simp [zb]

/-- Lists of sizes and entries modulo 2. -/
abbrev Fam := List (Nat × (Nat → Nat → ZMod 2))

/-- Product of the sizes. -/
def fsize (F : Fam) : Nat := (F.map Prod.fst).prod

/-- Entries of the Kronecker product. -/
def G : Fam → Nat → Nat → ZMod 2
  | [], _, _ => 1
  | (k, e) :: F, a, b => e (a % k) (b % k) * G F (a / k) (b / k)

/-- The family of a list of kernels. -/
def fam (Ks : List Kernel) : Fam := Ks.map fun K => (K.length, fun a b => zb (entry K a b))

theorem fsize_fam (Ks : List Kernel) : fsize (fam Ks) = size Ks := by
  unfold fsize fam size
  rw [List.map_map]; rfl

theorem zb_kron (Ks : List Kernel) (a b : Nat) : zb (kron Ks a b) = G (fam Ks) a b := by
  induction Ks generalizing a b with
  | nil => rfl
  | cons K Ks ih => simp only [kron, zb_and, ih]; rfl

theorem fsize_snoc (F : Fam) (k : Nat) (e : Nat → Nat → ZMod 2) : fsize (F ++ [(k, e)]) = fsize F * k := by
  simp [fsize]

theorem fsize_cons (F : Fam) (k : Nat) (e : Nat → Nat → ZMod 2) : fsize ((k, e) :: F) = k * fsize F := by
  simp [fsize]

theorem G_snoc (F : Fam) (k : Nat) (e : Nat → Nat → ZMod 2) (a b : Nat) :
    G (F ++ [(k, e)]) a b = G F a b * e (a / fsize F % k) (b / fsize F % k) := by
  induction F generalizing a b with
  | nil => simp [G, fsize]
  | cons p F ih =>
    obtain ⟨k', e'⟩ := p
    rw [List.cons_append, G, ih, G, fsize_cons, Nat.div_div_eq_div_mul, Nat.div_div_eq_div_mul, mul_assoc]

theorem G_mod (F : Fam) (a b : Nat) : G F (a % fsize F) (b % fsize F) = G F a b := by
  induction F generalizing a b with
  | nil => rfl
  | cons p F ih =>
    obtain ⟨k, e⟩ := p
    rw [G, G, fsize_cons, Nat.mod_mul_right_mod, Nat.mod_mul_right_mod, Nat.mod_mul_right_div_self,
      Nat.mod_mul_right_div_self, ih]

theorem sum_mul (f : Nat → ZMod 2) (P k : Nat) :
    ∑ c ∈ range (P * k), f c = ∑ j ∈ range k, ∑ a ∈ range P, f (P * j + a) := by
  induction k with
  | zero => simp
  | succ k ih => rw [Nat.mul_succ, Finset.sum_range_add, ih, Finset.sum_range_succ]

/-- One stage on functions. -/
def st (P k : Nat) (e : Nat → Nat → ZMod 2) (x : Nat → ZMod 2) (i : Nat) : ZMod 2 :=
  ∑ j ∈ range k, x (i / (P * k) * (P * k) + P * j + i % P) * e j (i / P % k)

/-- The transform of each block of the product size. -/
def T (F : Fam) (u : Nat → ZMod 2) (i : Nat) : ZMod 2 :=
  ∑ a ∈ range (fsize F), u (i / fsize F * fsize F + a) * G F a (i % fsize F)

theorem T_nil (u : Nat → ZMod 2) (i : Nat) : T [] u i = u i := by simp [T, fsize, G]

theorem T_snoc (F : Fam) (k : Nat) (e : Nat → Nat → ZMod 2) (u : Nat → ZMod 2) (i : Nat) (hP : 0 < fsize F) (hk : 0 < k) :
    T (F ++ [(k, e)]) u i = st (fsize F) k e (T F u) i := by
  unfold st
  conv => lhs; unfold T
  rw [fsize_snoc, sum_mul]
  apply Finset.sum_congr rfl
  intro j hj
  have hj := Finset.mem_range.mp hj
  have e1 : (i / (fsize F * k) * (fsize F * k) + fsize F * j + i % fsize F) / fsize F = i / (fsize F * k) * k + j := by
    rw [show i / (fsize F * k) * (fsize F * k) + fsize F * j + i % fsize F =
      i % fsize F + fsize F * (i / (fsize F * k) * k + j) by ring, Nat.add_mul_div_left _ _ hP,
      Nat.div_eq_of_lt (Nat.mod_lt _ hP), Nat.zero_add]
  have e2 : (i / (fsize F * k) * (fsize F * k) + fsize F * j + i % fsize F) % fsize F = i % fsize F := by
    rw [show i / (fsize F * k) * (fsize F * k) + fsize F * j + i % fsize F =
      i % fsize F + fsize F * (i / (fsize F * k) * k + j) by ring, Nat.add_mul_mod_self_left, Nat.mod_mod]
  unfold T
  rw [e1, e2, Finset.sum_mul]
  apply Finset.sum_congr rfl
  intro a ha
  have ha := Finset.mem_range.mp ha
  rw [G_snoc, show i / (fsize F * k) * (fsize F * k) + (fsize F * j + a) =
    (i / (fsize F * k) * k + j) * fsize F + a by ring]
  rw [mul_assoc]
  congr 1
  have e3 : (fsize F * j + a) / fsize F = j := by
    rw [Nat.mul_add_div hP, Nat.div_eq_of_lt ha, Nat.add_zero]
  rw [e3, Nat.mod_eq_of_lt hj, Nat.mod_mul_right_div_self, Nat.mod_mod]
  congr 1
  rw [← G_mod F (fsize F * j + a), ← G_mod F a (i % fsize F), Nat.mul_add_mod, Nat.mod_mul_right_mod, Nat.mod_mod]

/-- Two families of the same sizes, inverse of one another size by size. -/
inductive Inv : Fam → Fam → Prop
  | nil : Inv [] []
  | cons {F F' : Fam} {k : Nat} {e e' : Nat → Nat → ZMod 2} (hk : 0 < k)
      (h : ∀ a c, a < k → c < k → ∑ b ∈ range k, e a b * e' b c = if a = c then 1 else 0) (t : Inv F F') :
      Inv ((k, e) :: F) ((k, e') :: F')

theorem Inv.size {F F' : Fam} (h : Inv F F') : fsize F = fsize F' := by
  induction h with
  | nil => rfl
  | cons hk h t ih => rw [fsize_cons, fsize_cons, ih]

theorem Inv.mul {F F' : Fam} (h : Inv F F') (a c : Nat) (ha : a < fsize F) (hc : c < fsize F) :
    ∑ b ∈ range (fsize F), G F a b * G F' b c = if a = c then 1 else 0 := by
  induction h generalizing a c with
  | nil => simp [fsize] at ha hc; simp [fsize, G, ha, hc]
  | @cons F F' k e e' hk h t ih =>
    rw [fsize_cons] at ha hc ⊢
    rw [sum_mul]
    have hj : ∀ j r, r < k → (k * j + r) / k = j ∧ (k * j + r) % k = r := by
      intro j r hr
      exact ⟨by rw [Nat.mul_add_div hk, Nat.div_eq_of_lt hr, Nat.add_zero], by
        rw [Nat.mul_add_mod, Nat.mod_eq_of_lt hr]⟩
    have e1 : ∀ j ∈ range (fsize F), ∑ r ∈ range k, G ((k, e) :: F) a (k * j + r) * G ((k, e') :: F') (k * j + r) c =
        (if a % k = c % k then 1 else 0) * (G F (a / k) j * G F' j (c / k)) := by
      intro j _
      rw [← h (a % k) (c % k) (Nat.mod_lt _ hk) (Nat.mod_lt _ hk), Finset.sum_mul]
      apply Finset.sum_congr rfl
      intro r hr
      obtain ⟨h1, h2⟩ := hj j r (Finset.mem_range.mp hr)
      simp only [G, h1, h2]
      ring
    rw [Finset.sum_congr rfl e1, ← Finset.mul_sum, ih _ _ (Nat.div_lt_of_lt_mul ha) (Nat.div_lt_of_lt_mul hc)]
    by_cases hac : a = c
    · subst hac; simp
    · rw [if_neg hac]
      by_cases h1 : a % k = c % k
      · rw [if_pos h1, if_neg, mul_zero]
        intro h2
        apply hac
        rw [← Nat.div_add_mod a k, ← Nat.div_add_mod c k, h1, h2]
      · rw [if_neg h1, zero_mul]

/-- The transform on one block of the product size. -/
theorem T_lt (F : Fam) (u : Nat → ZMod 2) (i : Nat) (hi : i < fsize F) :
    T F u i = ∑ a ∈ range (fsize F), u a * G F a i := by
  unfold T
  rw [Nat.div_eq_of_lt hi, Nat.mod_eq_of_lt hi]
  simp

/-- The inverse family undoes the transform. -/
theorem Inv.undo {F F' : Fam} (h : Inv F F') (u : Nat → ZMod 2) (c : Nat) (hc : c < fsize F) :
    ∑ b ∈ range (fsize F), (∑ a ∈ range (fsize F), u a * G F a b) * G F' b c = u c := by
  have e1 : ∀ b ∈ range (fsize F), (∑ a ∈ range (fsize F), u a * G F a b) * G F' b c =
      ∑ a ∈ range (fsize F), u a * (G F a b * G F' b c) := by
    intro b _
    rw [Finset.sum_mul]
    exact Finset.sum_congr rfl fun a _ => mul_assoc _ _ _
  rw [Finset.sum_congr rfl e1, Finset.sum_comm]
  have e2 : ∀ a ∈ range (fsize F), ∑ b ∈ range (fsize F), u a * (G F a b * G F' b c) = u a * if a = c then 1 else 0 := by
    intro a ha
    rw [← Finset.mul_sum, h.mul a c (Finset.mem_range.mp ha) hc]
  rw [Finset.sum_congr rfl e2]
  simp [hc]

end Verif.PolarMK
