import Mathlib.Algebra.Ring.Parity
import Mathlib.Data.Finset.Card
import Mathlib.Data.Finset.Range

/-! # Sums over GF(2) -/

namespace Verif

/-- Exclusive or of `g 0, …, g (n - 1)`. -/
def bsum : Nat → (Nat → Bool) → Bool
  | 0, _ => false
  | n + 1, g => bsum n g ^^ g n

theorem bsum_succ (n : Nat) (g : Nat → Bool) : bsum (n + 1) g = (bsum n g ^^ g n) := rfl

theorem bsum_congr {n : Nat} {f g : Nat → Bool} (h : ∀ i, i < n → f i = g i) : bsum n f = bsum n g := by
  induction n with
  | zero => rfl
  | succ n ih => rw [bsum_succ, bsum_succ, ih fun i hi => h i (by omega), h n (by omega)]

theorem bsum_false (n : Nat) : bsum n (fun _ => false) = false := by
  induction n with
  | zero => rfl
  | succ n ih => rw [bsum_succ, ih]; rfl

theorem bsum_zero {n : Nat} {g : Nat → Bool} (h : ∀ i, i < n → g i = false) : bsum n g = false := by
  rw [bsum_congr h, bsum_false]

theorem bsum_xor (n : Nat) (f g : Nat → Bool) : bsum n (fun i => f i ^^ g i) = (bsum n f ^^ bsum n g) := by
  induction n with
  | zero => rfl
  | succ n ih =>
    rw [bsum_succ, bsum_succ, bsum_succ, ih]
    cases bsum n f <;> cases bsum n g <;> cases f n <;> cases g n <;> rfl

theorem bsum_and_left (n : Nat) (b : Bool) (g : Nat → Bool) : bsum n (fun i => b && g i) = (b && bsum n g) := by
  cases b
  · simp [bsum_false]
  · simp

theorem bsum_and_right (n : Nat) (b : Bool) (g : Nat → Bool) : bsum n (fun i => g i && b) = (bsum n g && b) := by
  cases b
  · simp [bsum_false]
  · simp

theorem bsum_comm (n m : Nat) (f : Nat → Nat → Bool) :
    bsum n (fun i => bsum m (fun j => f i j)) = bsum m (fun j => bsum n (fun i => f i j)) := by
  induction n with
  | zero => exact (bsum_false m).symm
  | succ n ih => rw [bsum_succ, ih, ← bsum_xor]; rfl

theorem bsum_add (n m : Nat) (g : Nat → Bool) : bsum (n + m) g = (bsum n g ^^ bsum m (fun i => g (n + i))) := by
  induction m with
  | zero => simp [bsum]
  | succ m ih => rw [Nat.add_succ, bsum_succ, ih, bsum_succ, Bool.xor_assoc]

/-- Only one term. -/
theorem bsum_single {n a : Nat} (ha : a < n) {g : Nat → Bool} (h : ∀ i, i < n → i ≠ a → g i = false) : bsum n g = g a := by
  induction n with
  | zero => omega
  | succ n ih =>
    rw [bsum_succ]
    by_cases e : a = n
    · subst e
      rw [bsum_zero fun i hi => h i (by omega) (by omega), Bool.false_xor]
    · rw [ih (by omega) fun i hi => h i (by omega), h n (by omega) (by omega), Bool.xor_false]

theorem bsum_indicator {n a : Nat} (ha : a < n) (b : Bool) : bsum n (fun i => decide (i = a) && b) = b := by
  rw [bsum_single ha fun i _ hi => by simp [hi]]
  simp

/-- Exchanging two terms. -/
theorem bsum_swap {n a b : Nat} (ha : a < n) (hb : b < n) (g : Nat → Bool) :
    bsum n (fun i => g (if i = a then b else if i = b then a else i)) = bsum n g := by
  have h : ∀ i, i < n → g (if i = a then b else if i = b then a else i) =
      (g i ^^ ((decide (i = a) && (g a ^^ g b)) ^^ (decide (i = b) && (g a ^^ g b)))) := by
    intro i _
    by_cases h1 : i = a
    · subst h1
      by_cases h2 : i = b
      · subst h2; simp
      · simp [h2]
    · by_cases h2 : i = b
      · subst h2
        simp only [h1, if_false, decide_false, Bool.false_and, if_true, decide_true, Bool.true_and, Bool.false_xor]
        cases g a <;> cases g i <;> rfl
      · simp [h1, h2]
  rw [bsum_congr h, bsum_xor, bsum_xor, bsum_indicator ha, bsum_indicator hb]
  simp

theorem bsum_odd (n : Nat) (g : Nat → Bool) : bsum n g = decide (((Finset.range n).filter fun i => g i = true).card % 2 = 1) := by
  induction n with
  | zero => rfl
  | succ n ih =>
    rw [bsum_succ, ih, Finset.range_add_one, Finset.filter_insert]
    cases h : g n
    · simp
    · rw [if_pos rfl, Finset.card_insert_of_notMem (by simp), Bool.xor_true, ← decide_not]
      congr 1
      rw [eq_iff_iff]
      omega

theorem bsum_even {n : Nat} {g : Nat → Bool} : bsum n g = false ↔ Even ((Finset.range n).filter fun i => g i = true).card := by
  rw [bsum_odd, decide_eq_false_iff_not, Nat.even_iff]
  omega

end Verif
