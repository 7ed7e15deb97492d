import Verif.Proof.BCJRNum
import Verif.Proof.ModemReal

/-! # BCJR: the arithmetic of `short` and of floating point numbers -/

namespace Verif.BCJR
open Exec Verif.RSC Verif.Float

theorem wrap16 {x : Int} (h1 : -32768 ≤ x) (h2 : x ≤ 32767) : wrap 16 x = x := by
  unfold wrap
  rw [Int.bmod_def]
  norm_num
  split <;> omega

theorem coef_abs (b : Bool) (g : Int) : |coef b * g| = |g| := by
  cases b <;> simp [coef]

/-- `short`, for LLRs such that `(8 m + 26) M ≤ 16383` (here `X = m M`). -/
def s16 {X M : Int} (hX : 0 ≤ X) (hM : 0 ≤ M) (h : 8 * X + 26 * M ≤ 16383) : Sound a16 X M (2 * X + 8 * M) where
  emb := fun x => x
  llr := fun x => x
  embD := fun x => x
  Low c l r := |r + 16384 + c| ≤ l
  LowD r := r ≤ -(2 * (2 * X + 8 * M) + M)
  zero := rfl
  low := by simp [a16]
  lowD := by simp only [a16]; omega
  gsum s p hs := by
    have h1 := abs_le.1 (le_trans (abs_add_le s p) hs)
    exact wrap16 (x := s + p) (by omega) (by omega)
  gdiff s p hs := by
    have h1 := abs_le.1 (le_trans (abs_sub s p) hs)
    exact wrap16 (x := s - p) (by omega) (by omega)
  madd x g b _ _ hb := by
    rw [abs_le] at hb
    exact wrap16 (x := x + coef b * g) (by omega) (by omega)
  add x g _ _ hb := by
    rw [abs_le] at hb
    exact wrap16 (x := x + g) (by omega) (by omega)
  sub x g _ _ hb := by
    rw [abs_le] at hb
    exact wrap16 (x := x - g) (by omega) (by omega)
  maddL c l r g b hc hl hg hr := by
    have hg' : |coef b * g| ≤ M := by rw [coef_abs]; exact hg
    rw [abs_le] at hc hg' hr ⊢
    have : a16.madd r (coef b) g = r + coef b * g := wrap16 (by omega) (by omega)
    rw [this]
    omega
  addL c l r g hc hl hg hr := by
    rw [abs_le] at hc hg hr ⊢
    have : a16.add r g = r + g := wrap16 (by omega) (by omega)
    rw [this]
    omega
  subL c l r g hc hl hg hr := by
    rw [abs_le] at hc hg hr ⊢
    have : a16.sub r g = r - g := wrap16 (by omega) (by omega)
    rw [this]
    omega
  max1 x y _ _ := rfl
  max1L c l r x hc hl hr hx := by
    rw [abs_le] at hc hr hx
    simp only [a16]
    omega
  max1LL c l r r' hr hr' := by
    rcases max_choice r r' with e | e
    · show |max r r' + 16384 + c| ≤ l
      rw [e]; exact hr
    · show |max r r' + 16384 + c| ≤ l
      rw [e]; exact hr'
  nsub x v i _ _ _ hb := by
    rw [abs_le] at hb
    exact wrap16 (x := x - v) (by omega) (by omega)
  nsubL c l r v i _ hc hl hcv hv hr := by
    rw [abs_le] at hc hcv hr hv ⊢
    have : a16.nsub r v = r - v := wrap16 (by omega) (by omega)
    rw [this]
    omega
  sum3 a b g ha hb hg := by
    rw [abs_le] at ha hb hg
    exact wrap16 (x := a + b + g) (by omega) (by omega)
  dif3 a b g ha hb hg := by
    rw [abs_le] at ha hb hg
    exact wrap16 (x := a + b - g) (by omega) (by omega)
  sum3L c l r b g hc hl hr hb hg := by
    rw [abs_le] at hc hr hb hg
    have h1 : a16.sum3 r b g = r + b + g := wrap16 (by omega) (by omega)
    have h2 : a16.sum3 b r g = b + r + g := wrap16 (by omega) (by omega)
    rw [h1, h2]
    omega
  dif3L c l r b g hc hl hr hb hg := by
    rw [abs_le] at hc hr hb hg
    have h1 : a16.dif3 r b g = r + b - g := wrap16 (by omega) (by omega)
    have h2 : a16.dif3 b r g = b + r - g := wrap16 (by omega) (by omega)
    rw [h1, h2]
    omega
  max2 x y _ _ := rfl
  max2L r x hr hx := by
    rw [abs_le] at hx
    simp only [a16]
    omega
  max2LL r r' hr hr' := by
    simp only [a16]
    omega
  post x y k hx hy hk := by
    rw [abs_le] at hx hy
    have : wrap 16 (x - y) = x - y := wrap16 (by omega) (by omega)
    show wrap 16 (x - y) / 2 = k
    rw [this]
    omega
  fin k s hk hs := by
    rw [abs_le] at hk hs
    exact wrap16 (x := k - s) (by omega) (by omega)
  hadd k s hk hs := by
    rw [abs_le] at hk hs
    simp only [a16, sat]
    omega
  neg k _ := rfl

/-! ## Floating point -/

section
variable {F : Fmt}

theorem rne_near {z : ℤ} {q : ℚ} (h : |q - z| < 1 / 2) : rne q = z := by
  have h1 := rne_err q
  have h2 : |((rne q - z : ℤ) : ℚ)| < 1 := by
    push_cast
    have := abs_add_le ((rne q : ℚ) - q) (q - z)
    rw [show (rne q : ℚ) - q + (q - z) = rne q - z by ring] at this
    linarith
  have h3 : |rne q - z| < 1 := by exact_mod_cast h2
  rw [Int.abs_lt_one_iff] at h3
  omega

theorem maxF_lt (F : Fmt) : maxF F < 2 ^ F.emax := by
  unfold maxF
  have h2 := two_zpow_pos (F.emax - F.p)
  have : (2 : ℚ) ^ F.emax = 2 ^ F.p * 2 ^ (F.emax - F.p) := by
    rw [← zpow_natCast, ← zpow_add₀ (by norm_num)]; congr 1; ring
  rw [this]
  nlinarith

/-- Small numbers are absorbed. -/
theorem absorb (hp : 2 ≤ F.p) {δ : ℚ} (hδ : |δ| < 2 ^ (F.emax - F.p - 1)) : F.of (-maxF F + δ) = .fin (-maxF F) := by
  have h2 := two_zpow_pos (F.emax - F.p)
  have e1 : (2 : ℚ) ^ F.emax = 2 ^ F.p * 2 ^ (F.emax - F.p) := by
    rw [← zpow_natCast, ← zpow_add₀ (by norm_num)]; congr 1; ring
  have e2 : (2 : ℚ) ^ (F.emax - F.p - 1) = 2 ^ (F.emax - F.p) / 2 := by rw [zpow_sub_one₀ (by norm_num)]; ring
  have e3 : (2 : ℚ) ^ (F.emax - 1) = 2 ^ (F.p - 1) * 2 ^ (F.emax - F.p) := by
    rw [← zpow_natCast, ← zpow_add₀ (by norm_num)]; congr 1; omega
  have e4 : (2 : ℚ) ^ F.p = 2 * 2 ^ (F.p - 1) := by rw [← pow_succ']; congr 1; omega
  have h5 : (2 : ℚ) ≤ 2 ^ (F.p - 1) := by
    calc (2 : ℚ) = 2 ^ 1 := by norm_num
      _ ≤ 2 ^ (F.p - 1) := pow_le_pow_right₀ (by norm_num) (by omega)
  rw [e2] at hδ
  have hδ' := abs_lt.1 hδ
  have hy0 : 0 < maxF F - δ := by unfold maxF; nlinarith
  have hlo : (2 : ℚ) ^ (F.emax - 1) ≤ maxF F - δ := by unfold maxF; rw [e3]; nlinarith
  have hhi : maxF F - δ < 2 ^ F.emax := by unfold maxF; rw [e1]; nlinarith
  have hlog : Int.log 2 (maxF F - δ) = F.emax - 1 := by
    apply le_antisymm
    · have := (Int.lt_zpow_iff_log_lt (b := 2) (by decide) hy0 (x := F.emax)).1 (by exact_mod_cast hhi)
      omega
    · exact (Int.zpow_le_iff_le_log (b := 2) (by decide) hy0).1 (by exact_mod_cast hlo)
  have hulp : F.ulp (maxF F - δ) = F.emax - F.p := by
    unfold Fmt.ulp
    rw [hlog]
    have := F.min_le
    omega
  have hmag : F.mag (maxF F - δ) = maxF F := by
    unfold Fmt.mag
    rw [hulp]
    have : rne ((maxF F - δ) / 2 ^ (F.emax - F.p)) = (2 ^ F.p - 1 : ℤ) := by
      apply rne_near
      have : (maxF F - δ) / 2 ^ (F.emax - F.p) - ((2 ^ F.p - 1 : ℤ) : ℚ) = -δ / 2 ^ (F.emax - F.p) := by
        unfold maxF
        push_cast
        field_simp
        ring
      rw [this, abs_div, abs_neg, abs_of_pos h2, div_lt_iff₀ h2]
      linarith
    rw [this]
    unfold maxF
    push_cast
    ring
  have hr : F.rnd (-maxF F + δ) = -maxF F := by
    rw [show -maxF F + δ = -(maxF F - δ) by ring, rnd_neg]
    unfold Fmt.rnd
    rw [if_neg (by linarith), hmag]
  unfold Fmt.of
  rw [hr, if_neg]
  rw [abs_neg, not_le]
  have h0 : 0 ≤ maxF F := by unfold maxF; nlinarith
  rw [abs_of_nonneg h0]
  exact maxF_lt F

theorem of_scaled {F : Fmt} {x : ℤ} {e : ℤ} (hx : |x| < 2 ^ F.p) (he : F.emin ≤ e) (he' : F.p + e ≤ F.emax) :
    F.of (x * 2 ^ e) = .fin (x * 2 ^ e) := by
  apply of_rep
  refine ⟨x, e, hx, he, rfl, ?_⟩
  rw [abs_mul, abs_of_pos (two_zpow_pos e)]
  have h1 : |(x : ℚ)| < 2 ^ F.p := by exact_mod_cast hx
  have h2 := two_zpow_pos e
  calc |(x : ℚ)| * 2 ^ e < 2 ^ F.p * 2 ^ e := by gcongr
    _ = 2 ^ (F.p + e) := by rw [← zpow_natCast, ← zpow_add₀ (by norm_num)]
    _ ≤ 2 ^ F.emax := zpow_le_zpow_right₀ (by norm_num) he'

/-- What is used of the format and of the exponent of the LLRs. -/
structure FOk (F : Fmt) (e : ℤ) : Prop where
  p2 : 2 ≤ F.p
  e0 : F.emin ≤ -1
  e1 : F.p ≤ F.emax
  lo : F.emin + 1 ≤ e
  hi : e + 2 * F.p ≤ F.emax

theorem half_eq (e : ℤ) : (2 : ℚ) ^ (e - 1) * 2 = 2 ^ e := by rw [zpow_sub_one₀ (by norm_num)]; ring

theorem flMax_fin (a b : ℚ) : flMax (.fin a) (.fin b) = .fin (max a b) := by
  unfold flMax
  by_cases h : a < b
  · rw [if_pos (by simpa [Fl.lt] using h), max_eq_right h.le]
  · rw [if_neg (by simpa [Fl.lt] using h), max_eq_left (not_lt.1 h)]

/-- `float` and `double`, for LLRs that are multiples of `2 ^ e`. -/
def sF {F : Fmt} {e : ℤ} (hF : FOk F e) (X : Int) {M B : Int} (hM : 0 ≤ M) (hMB : M ≤ B) (h : 2 * B + 2 * M < 2 ^ F.p) : Sound (aF F) X M B := by
  have hp := hF.p2
  have hlo := hF.lo
  have hhi := hF.hi
  have hc := half_eq e
  have h2 := two_zpow_pos (e - 1)
  have ex : ∀ x : ℤ, |x| ≤ 2 * B + M → F.of ((x : ℚ) * 2 ^ (e - 1)) = .fin (x * 2 ^ (e - 1)) := fun x hx =>
    of_scaled (by omega) (by omega) (by omega)
  have ex' : ∀ x : ℤ, |x| ≤ 2 * B + 2 * M → F.of ((x : ℚ) * 2 ^ e) = .fin (x * 2 ^ e) := fun x hx =>
    of_scaled (by omega) (by omega) (by omega)
  have ab : ∀ x : ℤ, |x| ≤ B → F.of (-maxF F + (x : ℚ) * 2 ^ (e - 1)) = .fin (-maxF F) := by
    intro x hx
    apply absorb hp
    rw [abs_mul, abs_of_pos h2]
    have h1 : |x| < 2 ^ F.p := by omega
    have h1' : |(x : ℚ)| < 2 ^ F.p := by exact_mod_cast h1
    calc |(x : ℚ)| * 2 ^ (e - 1) < 2 ^ F.p * 2 ^ (e - 1) := by gcongr
      _ = 2 ^ (F.p + (e - 1)) := by rw [← zpow_natCast, ← zpow_add₀ (by norm_num)]
      _ ≤ 2 ^ (F.emax - F.p - 1) := zpow_le_zpow_right₀ (by norm_num) (by omega)
  have hhalf : F.of (1 / 2) = .fin (1 / 2) := by
    have := of_scaled (F := F) (x := 1) (e := -1) (by rw [abs_one]; exact one_lt_pow₀ (by norm_num) (by omega)) hF.e0 (by
      have := hF.e1; omega)
    simpa using this
  have hcoef : ∀ b, F.of (coef b : ℚ) = .fin (coef b) := by
    intro b
    have := of_scaled (F := F) (x := coef b) (e := 0) (by
      rw [show |coef b| = 1 by cases b <;> simp [coef]]; exact one_lt_pow₀ (by norm_num) (by omega)) (by have := hF.e0; omega) (by
      have := hF.e1; omega)
    simpa using this
  have lowlt : ∀ x : ℤ, |x| ≤ 2 * B + M → -maxF F < (x : ℚ) * 2 ^ (e - 1) := by
    intro x hx
    have h1 : |x| < 2 ^ F.p := by omega
    have h1' : |(x : ℚ)| < 2 ^ F.p := by exact_mod_cast h1
    have h3 : |(x : ℚ)| * 2 ^ (e - 1) < 2 ^ (F.emax - F.p) := by
      calc |(x : ℚ)| * 2 ^ (e - 1) < 2 ^ F.p * 2 ^ (e - 1) := by gcongr
        _ = 2 ^ (F.p + (e - 1)) := by rw [← zpow_natCast, ← zpow_add₀ (by norm_num)]
        _ ≤ 2 ^ (F.emax - F.p) := zpow_le_zpow_right₀ (by norm_num) (by omega)
    have h4 : (2 : ℚ) ^ (F.emax - F.p) ≤ maxF F := by
      unfold maxF
      have := two_zpow_pos (F.emax - F.p)
      have h5 : (2 : ℚ) ≤ 2 ^ F.p := by
        calc (2 : ℚ) = 2 ^ 1 := by norm_num
          _ ≤ 2 ^ F.p := pow_le_pow_right₀ (by norm_num) (by omega)
      nlinarith
    have h6 := neg_abs_le (x : ℚ)
    nlinarith
  have mul2 : ∀ x y : ℤ, max ((x : ℚ) * 2 ^ (e - 1)) (y * 2 ^ (e - 1)) = (max x y : ℤ) * 2 ^ (e - 1) := by
    intro x y
    rw [← max_mul_of_nonneg _ _ h2.le]
    push_cast
    rfl
  exact {
    emb := fun x => .fin (x * 2 ^ (e - 1))
    llr := fun x => .fin (x * 2 ^ e)
    embD := fun x => .fin (x * 2 ^ (e - 1))
    Low := fun _ _ r => r = .fin (-maxF F)
    LowD := fun r => r = .fin (-maxF F)
    zero := by simp [aF]
    low := rfl
    lowD := rfl
    gsum := by
      intro s p hs
      have h1 := le_trans (abs_add_le s p) hs
      show F.mul (F.of ((s : ℚ) * 2 ^ e + p * 2 ^ e)) (F.of (1 / 2)) = _
      rw [← add_mul, ← Int.cast_add, ex' _ (by omega), hhalf]
      show F.of (((s + p : ℤ) : ℚ) * 2 ^ e * (1 / 2)) = _
      rw [← hc, show ((s + p : ℤ) : ℚ) * (2 ^ (e - 1) * 2) * (1 / 2) = ((s + p : ℤ) : ℚ) * 2 ^ (e - 1) by ring, ex _ (by omega)]
    gdiff := by
      intro s p hs
      have h1 := le_trans (abs_sub s p) hs
      show F.mul (F.of ((s : ℚ) * 2 ^ e + -(p * 2 ^ e))) (F.of (1 / 2)) = _
      rw [← sub_eq_add_neg, ← sub_mul, ← Int.cast_sub, ex' _ (by omega), hhalf]
      show F.of (((s - p : ℤ) : ℚ) * 2 ^ e * (1 / 2)) = _
      rw [← hc, show ((s - p : ℤ) : ℚ) * (2 ^ (e - 1) * 2) * (1 / 2) = ((s - p : ℤ) : ℚ) * 2 ^ (e - 1) by ring, ex _ (by omega)]
    madd := by
      intro x g b hx hg hb
      have hg' : |coef b * g| ≤ M := by rw [coef_abs]; exact hg
      show F.add (.fin _) (F.mul (F.of (coef b : ℚ)) (.fin _)) = _
      rw [hcoef]
      show F.add (.fin _) (F.of ((coef b : ℚ) * (g * 2 ^ (e - 1)))) = _
      rw [← mul_assoc, ← Int.cast_mul, ex _ (by omega)]
      show F.of ((x : ℚ) * 2 ^ (e - 1) + (coef b * g : ℤ) * 2 ^ (e - 1)) = _
      rw [← add_mul, ← Int.cast_add, ex _ (by omega)]
    add := by
      intro x g hx hg hb
      show F.of ((x : ℚ) * 2 ^ (e - 1) + g * 2 ^ (e - 1)) = _
      rw [← add_mul, ← Int.cast_add, ex _ (by omega)]
    sub := by
      intro x g hx hg hb
      show F.of ((x : ℚ) * 2 ^ (e - 1) + -(g * 2 ^ (e - 1))) = _
      rw [← neg_mul, ← Int.cast_neg, ← add_mul, ← Int.cast_add, ex _ (by omega)]
    maddL := by
      rintro c l r g b hc hl hg rfl
      have hg' : |coef b * g| ≤ M := by rw [coef_abs]; exact hg
      show F.add (.fin _) (F.mul (F.of (coef b : ℚ)) (.fin _)) = _
      rw [hcoef]
      show F.add (.fin _) (F.of ((coef b : ℚ) * (g * 2 ^ (e - 1)))) = _
      rw [← mul_assoc, ← Int.cast_mul, ex _ (by omega)]
      exact ab _ (by omega)
    addL := by
      rintro c l r g hc hl hg rfl
      exact ab _ (by omega)
    subL := by
      rintro c l r g hc hl hg rfl
      show F.of (-maxF F + -(g * 2 ^ (e - 1))) = _
      rw [← neg_mul, ← Int.cast_neg]
      exact ab _ (by rw [abs_neg]; omega)
    max1 := by
      intro x y _ _
      show flMax _ _ = _
      rw [flMax_fin, mul2]
    max1L := by
      rintro c l r x _ _ rfl hx
      have := lowlt x (by omega)
      constructor
      · show flMax _ _ = _
        rw [flMax_fin, max_eq_right this.le]
      · show flMax _ _ = _
        rw [flMax_fin, max_eq_left this.le]
    max1LL := by
      rintro c l r r' rfl rfl
      show flMax _ _ = _
      rw [flMax_fin, max_self]
    nsub := by intro x v i hn; cases hn
    nsubL := by intro c l r v i hn; cases hn
    sum3 := by
      intro a b g ha hb hg
      have h1 := abs_add_le a b
      have h3 := abs_add_le (a + b) g
      show F.add (F.of ((a : ℚ) * 2 ^ (e - 1) + b * 2 ^ (e - 1))) (.fin (g * 2 ^ (e - 1))) = _
      rw [← add_mul, ← Int.cast_add, ex _ (by omega)]
      show F.of (((a + b : ℤ) : ℚ) * 2 ^ (e - 1) + g * 2 ^ (e - 1)) = _
      rw [← add_mul, ← Int.cast_add, ex _ (by omega)]
    dif3 := by
      intro a b g ha hb hg
      have h1 := abs_add_le a b
      have h3 := abs_add_le (a + b) (-g)
      rw [abs_neg] at h3
      show F.add (F.of ((a : ℚ) * 2 ^ (e - 1) + b * 2 ^ (e - 1))) (.fin (-(g * 2 ^ (e - 1)))) = _
      rw [← add_mul, ← Int.cast_add, ex _ (by omega)]
      show F.of (((a + b : ℤ) : ℚ) * 2 ^ (e - 1) + -(g * 2 ^ (e - 1))) = _
      rw [← neg_mul, ← Int.cast_neg, ← add_mul, ← Int.cast_add, ex _ (by omega)]
    sum3L := by
      rintro c l r b g _ _ rfl hb hg
      constructor
      · show F.add (F.of (-maxF F + b * 2 ^ (e - 1))) (.fin (g * 2 ^ (e - 1))) = _
        rw [ab _ (by omega)]
        exact ab _ (by omega)
      · show F.add (F.of (b * 2 ^ (e - 1) + -maxF F)) (.fin (g * 2 ^ (e - 1))) = _
        rw [add_comm, ab _ (by omega)]
        exact ab _ (by omega)
    dif3L := by
      rintro c l r b g _ _ rfl hb hg
      have hg' : F.of (-maxF F + -(g * 2 ^ (e - 1))) = .fin (-maxF F) := by
        rw [← neg_mul, ← Int.cast_neg]
        exact ab _ (by rw [abs_neg]; omega)
      constructor
      · show F.add (F.of (-maxF F + b * 2 ^ (e - 1))) (.fin (-(g * 2 ^ (e - 1)))) = _
        rw [ab _ (by omega)]
        exact hg'
      · show F.add (F.of (b * 2 ^ (e - 1) + -maxF F)) (.fin (-(g * 2 ^ (e - 1)))) = _
        rw [add_comm, ab _ (by omega)]
        exact hg'
    max2 := by
      intro x y _ _
      show flMax _ _ = _
      rw [flMax_fin, mul2]
    max2L := by
      rintro r x rfl hx
      have := lowlt x (by omega)
      constructor
      · show flMax _ _ = _
        rw [flMax_fin, max_eq_right this.le]
      · show flMax _ _ = _
        rw [flMax_fin, max_eq_left this.le]
    max2LL := by
      rintro r r' rfl rfl
      show flMax _ _ = _
      rw [flMax_fin, max_self]
    post := by
      intro x y k hx hy hk
      have h1 := abs_le.1 hx
      have h3 := abs_le.1 hy
      have hk' : |k| ≤ 2 * B + 2 * M := by rw [abs_le]; omega
      show F.of ((x : ℚ) * 2 ^ (e - 1) + -(y * 2 ^ (e - 1))) = _
      rw [← sub_eq_add_neg, ← sub_mul, ← Int.cast_sub, hk]
      push_cast
      rw [show (2 * (k : ℚ)) * 2 ^ (e - 1) = k * (2 ^ (e - 1) * 2) by ring, hc, ex' _ hk']
    fin := by
      intro k s hk hs
      have h1 := abs_sub k s
      show F.of ((k : ℚ) * 2 ^ e + -(s * 2 ^ e)) = _
      rw [← sub_eq_add_neg, ← sub_mul, ← Int.cast_sub, ex' _ (by omega)]
    hadd := by
      intro k s hk hs
      show F.of (((k - s : ℤ) : ℚ) * 2 ^ e + s * 2 ^ e) = _
      rw [← add_mul, ← Int.cast_add, show k - s + s = k by omega, ex' _ (by omega)]
    neg := by
      intro k _
      show decide ((k : ℚ) * 2 ^ e < 0) = decide (k < 0)
      have h3 := two_zpow_pos e
      congr 1
      apply propext
      rw [mul_neg_iff]
      constructor
      · rintro (⟨_, h⟩ | ⟨h, _⟩)
        · linarith
        · exact_mod_cast h
      · intro h
        exact Or.inr ⟨by exact_mod_cast h, h3⟩ }

end

end Verif.BCJR
