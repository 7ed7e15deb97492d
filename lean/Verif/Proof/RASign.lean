import Verif.Proof.RACode
import Mathlib.Algebra.Order.Group.Abs
import Mathlib.Algebra.Order.Group.Defs

/-! # Exact repeat-accumulate decoding: symmetry and positivity -/

namespace Verif.RA
open Exec Verif.Interleaver Verif.Turbo

variable {R : Type} [AddCommGroup R] [LinearOrder R] [IsOrderedAddMonoid R]

/-- Sign change. -/
def fl (s : Bool) (v : R) : R := if s then -v else v

theorem chk_def (a b : R) : chk (exact R) a b =
    if decide (0 < a) ≠ decide (0 < b) then -(if |b| < |a| then |b| else |a|) else (if |b| < |a| then |b| else |a|) := rfl

theorem chk_zero_left (b : R) : chk (exact R) 0 b = 0 := by
  rw [chk_def, abs_zero, if_neg (not_lt.2 (abs_nonneg b)), neg_zero]
  split <;> rfl

theorem chk_zero_right (a : R) : chk (exact R) a 0 = 0 := by
  rw [chk_def, abs_zero]
  have : (if (0 : R) < |a| then 0 else |a|) = 0 := by
    split
    · rfl
    · rename_i h; exact le_antisymm (not_lt.1 h) (abs_nonneg a)
  rw [this, neg_zero]
  split <;> rfl

theorem abs_fl (s : Bool) (a : R) : |fl s a| = |a| := by
  cases s
  · rfl
  · exact abs_neg a

theorem pos_fl {s : Bool} {a : R} (h : a ≠ 0) : decide (0 < fl s a) = (s ^^ decide (0 < a)) := by
  cases s
  · simp [fl]
  · simp only [fl, if_true, Left.neg_pos_iff, Bool.true_xor]
    by_cases ha : 0 < a
    · rw [decide_eq_true ha, decide_eq_false (not_lt.2 ha.le)]; rfl
    · rw [decide_eq_false ha, decide_eq_true (lt_of_le_of_ne (not_lt.1 ha) h)]; rfl

theorem fl_zero (s : Bool) : fl s (0 : R) = 0 := by cases s <;> simp [fl]

theorem fl_add (s : Bool) (a b : R) : fl s a + fl s b = fl s (a + b) := by
  cases s
  · rfl
  · show -a + -b = -(a + b); rw [neg_add]

theorem fl_sub (s : Bool) (a b : R) : fl s a - fl s b = fl s (a - b) := by
  cases s
  · rfl
  · show -a - -b = -(a - b); rw [neg_sub, sub_neg_eq_add, neg_add_eq_sub]

theorem chk_fl (s t : Bool) (a b : R) : chk (exact R) (fl s a) (fl t b) = fl (s ^^ t) (chk (exact R) a b) := by
  by_cases ha : a = 0
  · subst ha; rw [fl_zero, chk_zero_left, chk_zero_left, fl_zero]
  by_cases hb : b = 0
  · subst hb; rw [fl_zero, chk_zero_right, chk_zero_right, fl_zero]
  rw [chk_def, chk_def, abs_fl, abs_fl, pos_fl ha, pos_fl hb]
  generalize (if |b| < |a| then |b| else |a|) = m
  cases s <;> cases t <;> cases decide (0 < a) <;> cases decide (0 < b) <;> simp [fl]

theorem chk_pos {a b : R} (ha : 0 < a) (hb : 0 < b) : 0 < chk (exact R) a b := by
  rw [chk_def, decide_eq_true ha, decide_eq_true hb, if_neg (by simp)]
  split
  · exact abs_pos.2 hb.ne'
  · exact abs_pos.2 ha.ne'

theorem chk_nonneg {a b : R} (ha : 0 < a) (hb : 0 ≤ b) : 0 ≤ chk (exact R) a b := by
  rcases hb.eq_or_lt with h | h
  · rw [← h, chk_zero_right]
  · exact (chk_pos ha h).le

/-! ## Symmetry -/

/-- Signs of the codeword `x` and of the repeated and interleaved message `b`. -/
structure Signs (N r : Nat) (π ρ : Nat → Nat) (x b u : Nat → Bool) : Prop where
  zero : x 0 = b 0
  succ : ∀ i, i + 1 < N → x (i + 1) = (x i ^^ b (i + 1))
  rep : ∀ i, i < N → b i = u (π i / r)

variable {N r : Nat} {π ρ : Nat → Nat} {x b u : Nat → Bool} {Y T Y' T' : Nat → R}

theorem fw_fl (hs : Signs N r π ρ x b u) (hY : ∀ i, i < N → Y' i = fl (x i) (Y i)) (hT : ∀ i, i < N → T' i = fl (b i) (T i)) :
    ∀ i, i < N → fwF (exact R) Y' T' i = fl (x i) (fwF (exact R) Y T i) := by
  intro i
  induction i with
  | zero => intro hi; show T' 0 = fl (x 0) (T 0); rw [hT 0 hi, hs.zero]
  | succ i ih =>
    intro hi
    show chk _ (fwF _ Y' T' i + Y' i) (T' (i + 1)) = fl _ (chk _ (fwF _ Y T i + Y i) (T (i + 1)))
    rw [ih (by omega), hY i (by omega), hT _ hi, fl_add, chk_fl, hs.succ i hi]

theorem bw_fl (hN : 2 ≤ N) (hs : Signs N r π ρ x b u) (hY : ∀ i, i < N → Y' i = fl (x i) (Y i))
    (hT : ∀ i, i < N → T' i = fl (b i) (T i)) :
    ∀ d, d ≤ N - 2 → bwF (exact R) N Y' T' d = fl (x (N - 2 - d)) (bwF (exact R) N Y T d) := by
  have hxor : ∀ i, i + 1 < N → (x (i + 1) ^^ b (i + 1)) = x i := fun i hi => by
    rw [hs.succ i hi]; cases x i <;> cases b (i + 1) <;> rfl
  intro d
  induction d with
  | zero =>
    intro _
    show chk _ (Y' (N - 1)) (T' (N - 1)) = fl _ (chk _ (Y (N - 1)) (T (N - 1)))
    rw [hY _ (by omega), hT _ (by omega), chk_fl]
    have := hxor (N - 2) (by omega)
    rw [show N - 2 + 1 = N - 1 by omega] at this
    rw [this, Nat.sub_zero]
  | succ d ih =>
    intro hd
    show chk _ (bwF _ N Y' T' d + Y' (N - 2 - d)) (T' (N - 2 - d)) =
      fl _ (chk _ (bwF _ N Y T d + Y (N - 2 - d)) (T (N - 2 - d)))
    rw [ih (by omega), hY _ (by omega), hT _ (by omega), fl_add, chk_fl]
    have := hxor (N - 2 - (d + 1)) (by omega)
    rw [show N - 2 - (d + 1) + 1 = N - 2 - d by omega] at this
    rw [this]

theorem tu_fl (hN : 2 ≤ N) (hs : Signs N r π ρ x b u) (hY : ∀ i, i < N → Y' i = fl (x i) (Y i))
    (hT : ∀ i, i < N → T' i = fl (b i) (T i)) :
    ∀ i, i < N → tuF (exact R) N Y' T' i = fl (b i) (tuF (exact R) N Y T i) := by
  intro i hi
  have hF := fw_fl hs hY hT
  have hB := bw_fl hN hs hY hT
  have hxor : ∀ i, i + 1 < N → (x (i + 1) ^^ x i) = b (i + 1) := fun i hi => by
    rw [hs.succ i hi]; cases x i <;> cases b (i + 1) <;> rfl
  unfold tuF
  by_cases h0 : i = 0
  · subst h0
    rw [if_pos rfl, if_pos rfl]
    show bwF _ N Y' T' (N - 2) + Y' 0 = fl _ (bwF _ N Y T (N - 2) + Y 0)
    rw [hB _ (Nat.le_refl _), hY 0 hi, Nat.sub_self, fl_add, hs.zero]
  rw [if_neg h0, if_neg h0]
  by_cases h1 : i = N - 1
  · rw [if_pos h1, if_pos h1]
    show chk _ (Y' (N - 1)) (Y' (N - 2) + fwF _ Y' T' (N - 2)) = fl _ (chk _ (Y (N - 1)) (Y (N - 2) + fwF _ Y T (N - 2)))
    rw [hY _ (by omega), hY _ (by omega), hF _ (by omega), fl_add, chk_fl, h1]
    have := hxor (N - 2) (by omega)
    rw [show N - 2 + 1 = N - 1 by omega] at this
    rw [this]
  · rw [if_neg h1, if_neg h1]
    show chk _ (fwF _ Y' T' (i - 1) + Y' (i - 1)) (bwF _ N Y' T' (N - 2 - i) + Y' i) =
      fl _ (chk _ (fwF _ Y T (i - 1) + Y (i - 1)) (bwF _ N Y T (N - 2 - i) + Y i))
    rw [hF _ (by omega), hY _ (by omega), hB _ (by omega), hY _ (by omega), fl_add, show N - 2 - (N - 2 - i) = i by omega, fl_add,
      chk_fl]
    have := hxor (i - 1) (by omega)
    rw [show i - 1 + 1 = i by omega] at this
    rw [Bool.xor_comm, this]

theorem sum_fl {w w' : Nat → R} {s : Bool} {n : Nat} (h : ∀ j, j < n → w' j = fl s (w j)) :
    sumF (exact R) w' n = fl s (sumF (exact R) w n) := by
  induction n with
  | zero => exact (fl_zero s).symm
  | succ n ih =>
    show sumF _ w' n + w' n = fl s (sumF _ w n + w n)
    rw [ih fun j hj => h j (by omega), h n (by omega), fl_add]

theorem tot_fl (hN : 2 ≤ N) {K : Nat} (hr : 0 < r) (hK : r * K = N) (hρ : ∀ i, i < N → ρ i < N ∧ π (ρ i) = i)
    (hs : Signs N r π ρ x b u) (hY : ∀ i, i < N → Y' i = fl (x i) (Y i)) (hT : ∀ i, i < N → T' i = fl (b i) (T i)) :
    ∀ k, k < K → totF (exact R) r N ρ Y' T' k = fl (u k) (totF (exact R) r N ρ Y T k) := by
  intro k hk
  refine sum_fl fun j hj => ?_
  have hlt : k * r + j < N := by
    have := Nat.mul_le_mul_right r (show k + 1 ≤ K from hk)
    rw [Nat.succ_mul] at this
    rw [← hK, Nat.mul_comm r K]; omega
  obtain ⟨h1, h2⟩ := hρ _ hlt
  rw [tu_fl hN hs hY hT _ h1, hs.rep _ h1, h2]
  rw [Nat.mul_comm k r, Nat.mul_add_div hr, Nat.div_eq_of_lt hj, Nat.add_zero]

theorem tdI_fl (hN : 2 ≤ N) {K : Nat} (hr : 0 < r) (hK : r * K = N) (hπ : ∀ i, i < N → π i < N)
    (hρ : ∀ i, i < N → ρ i < N ∧ π (ρ i) = i) (hs : Signs N r π ρ x b u) (hY : ∀ i, i < N → Y' i = fl (x i) (Y i)) (m : Nat) :
    ∀ i, i < N → tdI (exact R) r N π ρ Y' m i = fl (b i) (tdI (exact R) r N π ρ Y m i) := by
  induction m with
  | zero => intro i _; exact (fl_zero _).symm
  | succ m ih =>
    intro i hi
    show totF _ r N ρ Y' _ (π i / r) - tuF _ N Y' _ i = fl _ (totF _ r N ρ Y _ (π i / r) - tuF _ N Y _ i)
    have hk : π i / r < K := div_lt_of (by rw [hK]; exact hπ i hi)
    rw [tot_fl hN hr hK hρ hs hY ih _ hk, tu_fl hN hs hY ih i hi, ← hs.rep i hi, fl_sub]

/-! ## Positivity -/

theorem fw_nonneg (hY : ∀ i, i < N → 0 < Y i) (hT : ∀ i, i < N → 0 ≤ T i) : ∀ i, i < N → 0 ≤ fwF (exact R) Y T i := by
  intro i
  induction i with
  | zero => exact fun h => hT 0 h
  | succ i ih => exact fun h => chk_nonneg (add_pos_of_nonneg_of_pos (ih (by omega)) (hY i (by omega))) (hT _ h)

theorem bw_nonneg (hN : 2 ≤ N) (hY : ∀ i, i < N → 0 < Y i) (hT : ∀ i, i < N → 0 ≤ T i) :
    ∀ d, d ≤ N - 2 → 0 ≤ bwF (exact R) N Y T d := by
  intro d
  induction d with
  | zero => exact fun _ => chk_nonneg (hY _ (by omega)) (hT _ (by omega))
  | succ d ih => exact fun h => chk_nonneg (add_pos_of_nonneg_of_pos (ih (by omega)) (hY _ (by omega))) (hT _ (by omega))

theorem tu_pos (hN : 2 ≤ N) (hY : ∀ i, i < N → 0 < Y i) (hT : ∀ i, i < N → 0 ≤ T i) : ∀ i, i < N → 0 < tuF (exact R) N Y T i := by
  intro i hi
  have hF := fw_nonneg hY hT
  have hB := bw_nonneg hN hY hT
  unfold tuF
  by_cases h0 : i = 0
  · rw [if_pos h0]
    exact add_pos_of_nonneg_of_pos (hB _ (Nat.le_refl _)) (hY 0 (by omega))
  rw [if_neg h0]
  by_cases h1 : i = N - 1
  · rw [if_pos h1]
    exact chk_pos (hY _ (by omega)) (add_pos_of_pos_of_nonneg (hY _ (by omega)) (hF _ (by omega)))
  · rw [if_neg h1]
    exact chk_pos (add_pos_of_nonneg_of_pos (hF _ (by omega)) (hY _ (by omega)))
      (add_pos_of_nonneg_of_pos (hB _ (by omega)) (hY _ (by omega)))

theorem sum_ge {w : Nat → R} {n : Nat} (h : ∀ j, j < n → 0 < w j) :
    0 ≤ sumF (exact R) w n ∧ ∀ j, j < n → w j ≤ sumF (exact R) w n := by
  induction n with
  | zero => exact ⟨le_refl (0 : R), fun j hj => absurd hj (Nat.not_lt_zero j)⟩
  | succ n ih =>
    obtain ⟨h1, h2⟩ := ih fun j hj => h j (by omega)
    refine ⟨add_nonneg h1 (h n (by omega)).le, fun j hj => ?_⟩
    rcases Nat.lt_succ_iff_lt_or_eq.1 hj with h3 | rfl
    · exact (h2 j h3).trans (le_add_of_nonneg_right (h n (by omega)).le)
    · exact le_add_of_nonneg_left h1

theorem tot_ge (hN : 2 ≤ N) {K : Nat} (hK : r * K = N) (hρ : ∀ i, i < N → ρ i < N) (hY : ∀ i, i < N → 0 < Y i)
    (hT : ∀ i, i < N → 0 ≤ T i) {k : Nat} (hk : k < K) : ∀ j, j < r →
      tuF (exact R) N Y T (ρ (k * r + j)) ≤ totF (exact R) r N ρ Y T k := by
  have hlt : ∀ j, j < r → k * r + j < N := fun j hj => by
    have := Nat.mul_le_mul_right r (show k + 1 ≤ K from hk)
    rw [Nat.succ_mul] at this
    rw [← hK, Nat.mul_comm r K]; omega
  exact (sum_ge (w := fun j => tuF (exact R) N Y T (ρ (k * r + j))) fun j hj => tu_pos hN hY hT _ (hρ _ (hlt j hj))).2

theorem tot_pos (hN : 2 ≤ N) {K : Nat} (hr : 0 < r) (hK : r * K = N) (hρ : ∀ i, i < N → ρ i < N) (hY : ∀ i, i < N → 0 < Y i)
    (hT : ∀ i, i < N → 0 ≤ T i) {k : Nat} (hk : k < K) : 0 < totF (exact R) r N ρ Y T k := by
  refine lt_of_lt_of_le ?_ (tot_ge hN hK hρ hY hT hk 0 hr)
  refine tu_pos hN hY hT _ (hρ _ ?_)
  have := Nat.mul_le_mul_right r (show k + 1 ≤ K from hk)
  rw [Nat.succ_mul] at this
  rw [← hK, Nat.mul_comm r K]; omega

theorem tdI_nonneg (hN : 2 ≤ N) {K : Nat} (hr : 0 < r) (hK : r * K = N) (hπ : ∀ i, i < N → π i < N ∧ ρ (π i) = i)
    (hρ : ∀ i, i < N → ρ i < N) (hY : ∀ i, i < N → 0 < Y i) (m : Nat) :
    ∀ i, i < N → 0 ≤ tdI (exact R) r N π ρ Y m i := by
  induction m with
  | zero => exact fun _ _ => le_refl (0 : R)
  | succ m ih =>
    intro i hi
    obtain ⟨h1, h2⟩ := hπ i hi
    have hk : π i / r < K := div_lt_of (by rw [hK]; exact h1)
    have := tot_ge hN hK hρ hY ih hk (π i % r) (Nat.mod_lt _ hr)
    rw [Nat.div_add_mod', h2] at this
    exact sub_nonneg.2 this

end Verif.RA
