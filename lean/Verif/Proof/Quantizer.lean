import Verif.Spec.Quantizer
import Verif.Model.Quantizer

/-! # Proofs about quantizers -/

namespace Verif.Quantizer
open Exec Float

theorem roundAway_spec (q : ℚ) : NearestAway q (roundAway q) := by
  have key : ∀ x : ℚ, 0 ≤ x → NearestAway x ⌊x + 1 / 2⌋ := by
    intro x hx
    have h1 := Int.floor_le (x + 1 / 2)
    have h2 := Int.lt_floor_add_one (x + 1 / 2)
    refine ⟨abs_le.2 ⟨by linarith, by linarith⟩, fun h => ?_⟩
    have h3 : (⌊x + 1 / 2⌋ : ℚ) - x = 1 / 2 := by
      rcases abs_eq (by norm_num : (0 : ℚ) ≤ 1 / 2) |>.1 h with h | h
      · exact h
      · linarith
    rw [abs_of_nonneg hx, abs_of_nonneg (by linarith)]
    linarith
  unfold roundAway
  split
  · rename_i h
    obtain ⟨h1, h2⟩ := key (-q) (by linarith)
    refine ⟨?_, fun h => ?_⟩
    · push_cast
      rw [abs_sub_comm] at h1
      rw [show -(⌊-q + 1 / 2⌋ : ℚ) - q = -q - ⌊-q + 1 / 2⌋ by ring]
      exact h1
    · push_cast at h ⊢
      rw [abs_neg]
      rw [abs_neg] at h2
      refine h2 ?_
      rw [abs_sub_comm, show -q - (⌊-q + 1 / 2⌋ : ℚ) = -⌊-q + 1 / 2⌋ - q by ring]
      exact h
  · rename_i h
    exact key q (not_lt.1 h)

theorem nearestAway_unique {q : ℚ} {a b : ℤ} (ha : NearestAway q a) (hb : NearestAway q b) : a = b := by
  obtain ⟨a1, a2⟩ := ha
  obtain ⟨b1, b2⟩ := hb
  rw [abs_le] at a1 b1
  have h1 : (a : ℚ) - b ≤ 1 := by linarith
  have h2 : (b : ℚ) - a ≤ 1 := by linarith
  have h1 : a - b ≤ 1 := by exact_mod_cast h1
  have h2 : b - a ≤ 1 := by exact_mod_cast h2
  by_contra hne
  have key : ∀ a b : ℤ, a = b + 1 → (a : ℚ) - q ≤ 1 / 2 → -(1 / 2) ≤ (b : ℚ) - q →
      (|(a : ℚ) - q| = 1 / 2 → |q| < |(a : ℚ)|) → (|(b : ℚ) - q| = 1 / 2 → |q| < |(b : ℚ)|) → False := by
    intro a b e ha hb ha2 hb2
    have e' : (a : ℚ) = b + 1 := by exact_mod_cast e
    have eq1 : (a : ℚ) - q = 1 / 2 := by linarith
    have eq2 : (b : ℚ) - q = -(1 / 2) := by linarith
    have c1 := ha2 (by rw [eq1]; norm_num)
    have c2 := hb2 (by rw [eq2]; norm_num)
    have hz : 0 ≤ b ∨ b + 1 ≤ 0 := by omega
    rcases hz with hz | hz
    · have hz' : (0 : ℚ) ≤ b := by exact_mod_cast hz
      rw [abs_of_nonneg (by linarith), abs_of_nonneg hz'] at c2
      linarith
    · have hz' : (b : ℚ) + 1 ≤ 0 := by exact_mod_cast hz
      rw [abs_of_nonpos (by linarith), abs_of_nonpos (by linarith)] at c1
      linarith
  have : a = b + 1 ∨ b = a + 1 := by omega
  rcases this with e | e
  · exact key a b e a1.2 b1.1 a2 b2
  · exact key b a e b1.2 a1.1 b2 a2

theorem shl1_ok {k : Int} (h0 : 0 ≤ k) (h : k ≤ 30) : shl1 k = ok (2 ^ k.toNat) := if_pos ⟨h0, h⟩

theorem valMax_ok {s : Int} (h0 : 2 ≤ s) (h : s ≤ 32) : valMax s = ok (2 ^ (s - 1).toNat - 1) := by
  unfold valMax
  rw [shl1_ok (by omega) (by omega), bind_ok]
  refine congrArg ok ?_
  have : (s - 1).toNat = (s - 2).toNat + 1 := by omega
  rw [this, pow_succ]
  omega

theorem cast_int (bits : Nat) (z : ℤ) (h1 : -2 ^ (bits - 1) ≤ z) (h2 : z < 2 ^ (bits - 1)) : cast bits (.fin z) = ok z := by
  have hz : (if (z : ℚ) < 0 then -⌊-(z : ℚ)⌋ else ⌊(z : ℚ)⌋) = z := by
    split
    · rw [← Int.cast_neg, Int.floor_intCast, neg_neg]
    · rw [Int.floor_intCast]
  show (if _ then _ else _) = _
  simp only [hz]
  rw [if_pos ⟨h1, h2⟩]

theorem saturate_fin (v lo hi : ℚ) : saturate (.fin v) (.fin lo) (.fin hi) = .fin (min (max v lo) hi) := by
  unfold saturate fmin fmax Fl.lt
  by_cases h1 : v < lo
  · simp only [h1, decide_true, if_true, max_eq_right h1.le]
    by_cases h2 : hi < lo
    · simp only [h2, decide_true, if_true, min_eq_right h2.le]
    · simp only [h2, decide_false, Bool.false_eq_true, if_false, min_eq_left (not_lt.1 h2)]
  · simp only [h1, decide_false, Bool.false_eq_true, if_false, max_eq_left (not_lt.1 h1)]
    by_cases h2 : hi < v
    · simp only [h2, decide_true, if_true, min_eq_right h2.le]
    · simp only [h2, decide_false, Bool.false_eq_true, if_false, min_eq_left (not_lt.1 h2)]

theorem saturate_inf (s : Bool) (lo hi : ℚ) (h : lo ≤ hi) : saturate (.inf s) (.fin lo) (.fin hi) = .fin (if s then lo else hi) := by
  unfold saturate fmin fmax
  cases s
  · show (if Fl.lt (.fin hi) (if false = true then _ else _) = true then _ else _) = _
    simp [Fl.lt]
  · simp [Fl.lt, not_lt.2 h]

theorem of_int {F : Fmt} (hF : Std F) (z : ℤ) (h : |z| < 2 ^ 24) : F.of z = .fin z :=
  of_rep F (rep_int F z (lt_of_lt_of_le h (pow_le_pow_right₀ (by norm_num) hF.p)) hF.emin hF.emax)

/-- What the quantization computes from the product. -/
def settle (m : ℤ) : Fl → Option ℤ
  | .fin q => some (clampI (-m) m (roundAway q))
  | .inf s => some (if s then -m else m)
  | .nan => none

theorem quant_settle {F : Fmt} (hF : Std F) (bits : Nat) (m : ℤ) (hm0 : 0 ≤ m) (hm : m < 2 ^ (bits - 1)) (hb : bits ≤ 16) (x : Fl) (z : ℤ)
    (hx : settle m x = some z) : cast bits (saturate x.round (F.of (-m : ℤ)) (F.of m)) = ok z := by
  have h24 : (2 : ℤ) ^ (bits - 1) ≤ 2 ^ 15 := pow_le_pow_right₀ (by norm_num) (by omega)
  rw [of_int hF m (by rw [abs_of_nonneg hm0]; omega), of_int hF (-m) (by rw [abs_neg, abs_of_nonneg hm0]; omega)]
  cases x with
  | fin q =>
    show cast bits (saturate (.fin _) _ _) = _
    rw [saturate_fin]
    have hx := Option.some.inj hx
    have : (min (max (roundAway q : ℚ) ((-m : ℤ) : ℚ)) (m : ℚ)) = ((clampI (-m) m (roundAway q) : ℤ) : ℚ) := by
      unfold clampI; push_cast; rfl
    rw [this, hx, cast_int]
    · rw [← hx]; unfold clampI; omega
    · rw [← hx]; unfold clampI; omega
  | inf s =>
    show cast bits (saturate (.inf s) _ _) = _
    have hx : (if s then -m else m) = z := Option.some.inj hx
    rw [saturate_inf]
    · have : (if s then ((-m : ℤ) : ℚ) else (m : ℚ)) = ((if s then -m else m : ℤ) : ℚ) := by split <;> rfl
      rw [this, hx, cast_int]
      · rw [← hx]; split <;> omega
      · rw [← hx]; split <;> omega
    · exact_mod_cast (by omega : -m ≤ m)
  | nan => cases hx

theorem rnd_shift (F : Fmt) {y : ℚ} (hy : F.Rep y) (f : Nat) : F.rnd ((2 ^ f : ℤ) * y) = (2 ^ f : ℤ) * y := by
  obtain ⟨m, e, hm, he, rfl, -⟩ := hy
  have : ((2 ^ f : ℤ) : ℚ) * (m * 2 ^ e) = m * 2 ^ (e + f) := by
    push_cast
    rw [zpow_add₀ (by norm_num), zpow_natCast]
    ring
  rw [this]
  exact rnd_exact F m _ hm (by omega)

theorem of_inf {F : Fmt} {x : ℚ} {s : Bool} (h : F.of x = .inf s) : s = decide (x < 0) ∧ 2 ^ F.emax ≤ |F.rnd x| := by
  unfold Fmt.of at h
  split at h
  · rename_i ho
    exact ⟨(Fl.inf.inj h).symm, ho⟩
  · cases h

theorem of_fin {F : Fmt} {x q : ℚ} (h : F.of x = .fin q) : q = F.rnd x := by
  unfold Fmt.of at h
  split at h
  · cases h
  · exact (Fl.fin.inj h).symm

theorem of_not_nan (F : Fmt) (x : ℚ) : F.of x ≠ .nan := by
  unfold Fmt.of
  split <;> intro h <;> cases h

/-- A product with finite factors settles as the rounded product, even if it overflows. -/
theorem settle_of {F : Fmt} (hF : Std F) (m : ℤ) (hm : m < 2 ^ 15) (hm0 : 0 ≤ m) (x : ℚ) :
    settle m (F.of x) = some (clampI (-m) m (roundAway (F.rnd x))) := by
  cases h : F.of x with
  | fin q => rw [of_fin h]; rfl
  | nan => exact absurd h (of_not_nan F x)
  | inf s =>
    obtain ⟨hs, ho⟩ := of_inf h
    have hbig : ((2 ^ 24 : ℤ) : ℚ) ≤ |F.rnd x| := by
      refine le_trans ?_ ho
      have h24 : ((2 ^ 24 : ℤ) : ℚ) = 2 ^ (24 : ℤ) := by norm_num
      rw [h24]
      exact zpow_le_zpow_right₀ (by norm_num) (by have := hF.p; have := hF.emax; omega)
    show some (if s then -m else m) = _
    refine congrArg some ?_
    by_cases hx : x < 0
    · have hr : F.rnd x ≤ ((-2 ^ 24 : ℤ) : ℚ) := by
        by_cases hp : F.rnd x < 0
        · rw [abs_of_neg hp] at hbig
          push_cast at hbig ⊢
          linarith
        · exfalso
          have h0 : F.rnd x ≤ F.rnd 0 := rnd_mono F hx.le
          have h00 : F.rnd 0 = 0 := by unfold Fmt.rnd; rw [if_neg (lt_irrefl _), mag_zero]
          have : F.rnd x = 0 := by linarith
          rw [this] at hbig
          norm_num at hbig
      have := roundAway_mono hr
      rw [roundAway_int] at this
      rw [hs, decide_eq_true hx, if_pos rfl]
      unfold clampI
      omega
    · have hn : 0 ≤ F.rnd x := by
        by_contra hc
        exact hx (rnd_sign F (not_le.1 hc))
      rw [abs_of_nonneg hn] at hbig
      have := roundAway_mono hbig
      rw [roundAway_int] at this
      rw [hs, decide_eq_false hx, if_neg (by simp)]
      unfold clampI
      omega

theorem of_zero_mul {F : Fmt} : F.of 0 = .fin 0 := by
  refine of_rep F ⟨0, F.emin, ?_, le_refl _, by simp, ?_⟩
  · simp
  · simp only [abs_zero]; exact two_zpow_pos _

theorem count_sorted (l : List ℚ) (h : l.Pairwise fun a b => decide (a ≤ b) = true) (k : Nat) (hk : k < l.length) :
    k + 1 ≤ l.countP (fun v => decide (v ≤ l[k])) ∧ l.length - k ≤ l.countP (fun v => decide (l[k] ≤ v)) := by
  have hp := List.pairwise_iff_getElem.1 h
  generalize hx : l[k] = x
  constructor
  · have hlen : (l.take (k + 1)).length = k + 1 := by rw [List.length_take]; omega
    have : (l.take (k + 1)).countP (fun v => decide (v ≤ x)) = k + 1 := by
      rw [List.countP_eq_length.2, hlen]
      intro a ha
      obtain ⟨i, hi, rfl⟩ := List.getElem_of_mem ha
      rw [List.getElem_take]
      subst hx
      rcases Nat.lt_or_ge i k with h | h
      · exact hp i _ _ hk h
      · have : i = k := by omega
        subst this
        simp
    have h2 := List.countP_append (p := fun v => decide (v ≤ x)) (l₁ := l.take (k + 1)) (l₂ := l.drop (k + 1))
    rw [List.take_append_drop] at h2
    omega
  · have hlen : (l.drop k).length = l.length - k := by rw [List.length_drop]
    have : (l.drop k).countP (fun v => decide (x ≤ v)) = l.length - k := by
      rw [List.countP_eq_length.2, hlen]
      intro a ha
      obtain ⟨i, hi, rfl⟩ := List.getElem_of_mem ha
      rw [List.getElem_drop]
      subst hx
      rcases Nat.eq_zero_or_pos i with h | h
      · subst h; simp
      · exact hp _ _ hk _ (by omega)
    have h2 := List.countP_append (p := fun v => decide (x ≤ v)) (l₁ := l.take k) (l₂ := l.drop k)
    rw [List.take_append_drop] at h2
    omega

theorem nan_ub (F : Fmt) (bits : Nat) (m : ℤ) : cast bits (saturate Fl.nan.round (F.of (-m)) (F.of m)) = ub := by
  have h1 : ∀ x : Fl, Fl.nan.lt x = false := fun x => by cases x <;> rfl
  have h2 : ∀ x : Fl, x.lt Fl.nan = false := fun x => by cases x <;> rfl
  have : saturate Fl.nan.round (F.of (-m)) (F.of m) = .nan := by
    show fmin (fmax .nan _) _ = _
    unfold fmin fmax
    rw [h1]
    simp only [Bool.false_eq_true, if_false, h2]
  rw [this]
  rfl

end Verif.Quantizer
