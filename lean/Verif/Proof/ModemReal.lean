import Verif.Proof.ModemUse

/-! # Metrics -/

namespace Verif.Modem
open Verif.Float Verif.Cstl Verif.ML Verif.Chase Exec

theorem rnd_zero (F : Fmt) : F.rnd 0 = 0 := by unfold Fmt.rnd; rw [if_neg (by norm_num), mag_zero]

theorem of_neg' (F : Fmt) (x : ℚ) : F.of (-x) = (F.of x).neg := by
  unfold Fmt.of
  rw [rnd_neg, abs_neg]
  split
  · rename_i h
    have hx : x ≠ 0 := by
      rintro rfl
      rw [rnd_zero, abs_zero] at h
      have := two_zpow_pos F.emax
      linarith
    show Fl.inf _ = Fl.inf _
    congr 1
    rcases lt_or_gt_of_ne hx with h | h
    · have h' : ¬ -x < 0 := by linarith
      simp [h, h']
    · have h' : ¬ x < 0 := by linarith
      simp [h, h']
  · rfl

theorem neg_mul' (F : Fmt) (a b : Fl) : F.mul a.neg b = (F.mul a b).neg := by
  cases a with
  | fin x =>
    cases b with
    | fin y => show F.of (-x * y) = _; rw [neg_mul, of_neg']; rfl
    | inf s =>
      show (if -x = 0 then Fl.nan else Fl.inf (s != decide (-x < 0))) = Fl.neg (if x = 0 then .nan else .inf (s != decide (x < 0)))
      by_cases hx : x = 0
      · rw [if_pos hx, if_pos (by rw [hx, neg_zero])]; rfl
      · rw [if_neg hx, if_neg (by rwa [neg_eq_zero])]
        rcases lt_or_gt_of_ne hx with h | h
        · have h' : ¬ -x < 0 := by linarith
          simp [h, h', Fl.neg]
        · have h' : ¬ x < 0 := by linarith
          simp [h, h', Fl.neg]
    | nan => rfl
  | inf s =>
    cases b with
    | fin y =>
      show (if y = 0 then Fl.nan else Fl.inf ((!s) != decide (y < 0))) = Fl.neg (if y = 0 then .nan else .inf (s != decide (y < 0)))
      split
      · rfl
      · show Fl.inf _ = Fl.inf _
        congr 1
        cases s <;> cases decide (y < 0) <;> rfl
    | inf t => show Fl.inf _ = Fl.inf _; congr 1; cases s <;> cases t <;> rfl
    | nan => rfl
  | nan => cases b <;> rfl

/-- The metric is the opposite of the cost. -/
theorem metric_eq (F : Fmt) (cplx : Bool) (inv : Fl) (y c : Pt) : metric F cplx inv y c = (cost F cplx inv y c).neg := by
  unfold metric cost
  split
  · rw [neg_mul']
  · rw [neg_mul', neg_mul']

theorem neg_lt (a b : Fl) : Fl.lt a.neg b.neg = Fl.lt b a := by
  cases a with
  | fin x =>
    cases b with
    | fin y => simp [Fl.lt, Fl.neg]
    | inf s => cases s <;> rfl
    | nan => rfl
  | inf s =>
    cases b with
    | fin y => cases s <;> rfl
    | inf t => cases s <;> cases t <;> rfl
    | nan => rfl
  | nan => cases b <;> rfl

theorem neg_ne {a : Fl} (h : a ≠ .nan) : a.neg ≠ .nan := by
  cases a with
  | fin x => exact Fl.noConfusion
  | inf s => exact Fl.noConfusion
  | nan => exact absurd rfl h

theorem metric_grid (F : Fmt) (cplx : Bool) (inv : Fl) (y c : Pt) : Grid F (metric F cplx inv y c) := by
  unfold metric; split <;> exact mul_grid _ _ _

/-! ## Real constellations -/

theorem sq_mono {F : Fmt} {a b : ℚ} (h : |a| ≤ |b|) : Fl.lt (F.mul (F.of b) (F.of b)) (F.mul (F.of a) (F.of a)) = false := by
  have habs : ∀ x, |F.rnd x| = F.rnd |x| := by
    intro x
    rcases le_total 0 x with h | h
    · rw [abs_of_nonneg h, abs_of_nonneg (rnd_nn h)]
    · rw [abs_of_nonpos h, rnd_neg, abs_of_nonpos]
      have := rnd_nn (F := F) (q := -x) (by linarith)
      rw [rnd_neg] at this; linarith
  have hr : |F.rnd a| ≤ |F.rnd b| := by rw [habs, habs]; exact rnd_mono F h
  by_cases hb : 2 ^ F.emax ≤ |F.rnd b|
  · have : F.of b = .inf (decide (b < 0)) := if_pos hb
    rw [this]
    show Fl.lt (.inf (_ != _)) _ = false
    rw [bne_self_eq_false]
    cases F.mul (F.of a) (F.of a) with
    | fin q => rfl
    | inf s => cases s <;> rfl
    | nan => rfl
  · have e1 : F.of b = .fin (F.rnd b) := if_neg hb
    have e2 : F.of a = .fin (F.rnd a) := if_neg (by linarith)
    rw [e1, e2]
    refine of_mono_nn (mul_self_nonneg _) ?_
    rw [← abs_mul_abs_self (F.rnd a), ← abs_mul_abs_self (F.rnd b)]
    exact mul_self_le_mul_self (abs_nonneg _) hr

theorem mul_pos_mono {F : Fmt} {x y : Fl} {v : ℚ} (hv : 0 < v) (hx : NN x) (hy : NN y) (h : Fl.lt y x = false) :
    Fl.lt (F.mul y (.fin v)) (F.mul x (.fin v)) = false := by
  have hv0 : v ≠ 0 := by linarith
  have hvn : ¬ v < 0 := by linarith
  cases y with
  | fin q =>
    cases x with
    | fin r =>
      have hq : 0 ≤ q := hy
      have hr : 0 ≤ r := hx
      have : r ≤ q := by simpa [Fl.lt] using h
      exact of_mono_nn (mul_nonneg hr hv.le) (by gcongr)
    | inf s =>
      have hs : s = false := hx
      subst hs
      simp [Fl.lt] at h
    | nan => exact hx.elim
  | inf s =>
    have hs : s = false := hy
    subst hs
    have : F.mul (.inf false) (.fin v) = .inf false := by
      show (if v = 0 then Fl.nan else .inf (false != decide (v < 0))) = _
      rw [if_neg hv0]; simp [hvn]
    rw [this]
    cases F.mul x (.fin v) with
    | fin q => rfl
    | inf s => cases s <;> rfl
    | nan => rfl
  | nan => exact hy.elim

theorem mul_pos_nn {F : Fmt} {x : Fl} {v : ℚ} (hv : 0 < v) (hx : NN x) : NN (F.mul x (.fin v)) := by
  cases x with
  | fin q => exact of_nn (mul_nonneg hx hv.le)
  | inf s =>
    have hs : s = false := hx
    subst hs
    have hv0 : v ≠ 0 := by linarith
    have hvn : ¬ v < 0 := by linarith
    show NN (if v = 0 then Fl.nan else .inf (false != decide (v < 0)))
    rw [if_neg hv0]; simp [hvn, NN]
  | nan => exact hx.elim

theorem cost_nn {F : Fmt} {v y c : ℚ} (hv : 0 < v) (im im' : Fl) : NN (cost F false (.fin v) ⟨.fin y, im⟩ ⟨.fin c, im'⟩) :=
  mul_pos_nn hv (sq_nn (of_ne_nan _ _))

theorem cost_mono {F : Fmt} {v y c d : ℚ} (hv : 0 < v) (h : |y - c| ≤ |y - d|) (im im' im'' : Fl) :
    Fl.lt (cost F false (.fin v) ⟨.fin y, im⟩ ⟨.fin d, im'⟩) (cost F false (.fin v) ⟨.fin y, im⟩ ⟨.fin c, im''⟩) = false :=
  mul_pos_mono hv (sq_nn (of_ne_nan _ _)) (sq_nn (of_ne_nan _ _)) (sq_mono (by rw [← sub_eq_add_neg, ← sub_eq_add_neg]; exact h))

/-- A positive cost for points which are not too close. -/
theorem cost_pos {F : Fmt} (hF : F = b32 ∨ F = b64) {v y c : ℚ} (hv : 1 / 2 ^ 60 ≤ v) (h1 : 1 / 2 ^ 30 ≤ |y - c|) (h2 : |y - c| ≤ 2 ^ 20) (im im' : Fl) :
    Fl.lt (.fin 0) (cost F false (.fin v) ⟨.fin y, im⟩ ⟨.fin c, im'⟩) = true := by
  have pow : ∀ e : ℤ, -130 ≤ e → e ≤ 120 → F.rnd (2 ^ e) = 2 ^ e := by
    intro e h1 h2
    have := rnd_exact F 1 e (by rw [abs_one]; exact one_lt_pow₀ (by norm_num) (by have := F.pos; omega)) (by
      rcases hF with rfl | rfl
      · show (-149 : ℤ) ≤ e; omega
      · show (-1074 : ℤ) ≤ e; omega)
    simpa using this
  have hm : (2 : ℚ) ^ (100 : ℤ) ≤ 2 ^ F.emax := zpow_le_zpow_right₀ (by norm_num) (by rcases hF with rfl | rfl <;> decide)
  have p30 : (1 / 2 ^ 30 : ℚ) = 2 ^ (-30 : ℤ) := by rw [zpow_neg]; norm_num
  have p60 : (1 / 2 ^ 60 : ℚ) = 2 ^ (-60 : ℤ) := by rw [zpow_neg]; norm_num
  have habs : ∀ x, |F.rnd x| = F.rnd |x| := by
    intro x
    rcases le_total 0 x with h | h
    · rw [abs_of_nonneg h, abs_of_nonneg (rnd_nn h)]
    · rw [abs_of_nonpos h, rnd_neg, abs_of_nonpos]
      have := rnd_nn (F := F) (q := -x) (by linarith)
      rw [rnd_neg] at this; linarith
  have a1 : (2 : ℚ) ^ (-30 : ℤ) ≤ |F.rnd (y - c)| := by
    rw [habs, ← pow (-30) (by decide) (by decide)]; exact rnd_mono F (by rw [← p30]; exact h1)
  have a2 : |F.rnd (y - c)| ≤ 2 ^ (20 : ℤ) := by
    rw [habs, ← pow 20 (by decide) (by decide)]; exact rnd_mono F (by exact_mod_cast h2)
  have e1 : F.of (y + -c) = .fin (F.rnd (y - c)) := by
    rw [← sub_eq_add_neg]
    refine of_fin (lt_of_le_of_lt a2 (lt_of_lt_of_le ?_ hm))
    exact zpow_lt_zpow_right₀ (by norm_num) (by norm_num)
  have b1 : (2 : ℚ) ^ (-60 : ℤ) ≤ F.rnd (F.rnd (y - c) * F.rnd (y - c)) := by
    rw [← pow (-60) (by decide) (by decide)]
    refine rnd_mono F ?_
    rw [← abs_mul_abs_self]
    calc (2 : ℚ) ^ (-60 : ℤ) = 2 ^ (-30 : ℤ) * 2 ^ (-30 : ℤ) := by rw [← zpow_add₀ (by norm_num)]; norm_num
      _ ≤ _ := mul_self_le_mul_self (two_zpow_pos _).le a1
  have b2 : F.rnd (F.rnd (y - c) * F.rnd (y - c)) ≤ 2 ^ (40 : ℤ) := by
    rw [← pow 40 (by decide) (by decide)]
    refine rnd_mono F ?_
    rw [← abs_mul_abs_self]
    calc _ ≤ (2 : ℚ) ^ (20 : ℤ) * 2 ^ (20 : ℤ) := mul_self_le_mul_self (abs_nonneg _) a2
      _ = _ := by norm_num
  have e2 : F.of (F.rnd (y - c) * F.rnd (y - c)) = .fin (F.rnd (F.rnd (y - c) * F.rnd (y - c))) := by
    refine of_fin ?_
    rw [abs_of_nonneg (le_trans (two_zpow_pos _).le b1)]
    exact lt_of_le_of_lt b2 (lt_of_lt_of_le (zpow_lt_zpow_right₀ (by norm_num) (by norm_num)) hm)
  have b3 : (2 : ℚ) ^ (-120 : ℤ) ≤ F.rnd (F.rnd (F.rnd (y - c) * F.rnd (y - c)) * v) := by
    rw [← pow (-120) (by decide) (by decide)]
    refine rnd_mono F ?_
    calc (2 : ℚ) ^ (-120 : ℤ) = 2 ^ (-60 : ℤ) * 2 ^ (-60 : ℤ) := by rw [← zpow_add₀ (by norm_num)]; norm_num
      _ ≤ _ := mul_le_mul b1 (by rw [← p60]; exact hv) (two_zpow_pos _).le (le_trans (two_zpow_pos _).le b1)
  have hD : sub F (.fin y) (.fin c) = F.of (y + -c) := rfl
  unfold cost
  rw [if_neg (by decide)]
  dsimp only
  rw [hD, e1]
  show Fl.lt _ (F.mul (F.of _) _) = true
  rw [e2]
  show Fl.lt _ (F.of _) = true
  have h0 := two_zpow_pos (-120)
  unfold Fmt.of
  split
  · have : ¬ F.rnd (F.rnd (y - c) * F.rnd (y - c)) * v < 0 := by
      intro hc
      have := rnd_nn (F := F) (q := -(F.rnd (F.rnd (y - c) * F.rnd (y - c)) * v)) (by linarith)
      rw [rnd_neg] at this
      linarith
    simp [Fl.lt, this]
  · simp only [Fl.lt, decide_eq_true_eq]
    linarith

theorem cost_self {F : Fmt} {v y : ℚ} (im im' : Fl) : cost F false (.fin v) ⟨.fin y, im⟩ ⟨.fin y, im'⟩ = .fin 0 := by
  have z : F.of 0 = .fin 0 := by
    rw [of_fin]
    · rw [rnd_zero]
    · rw [rnd_zero, abs_zero]; exact two_zpow_pos _
  unfold cost
  rw [if_neg (by decide)]
  have hD : sub F (.fin y) (.fin y) = .fin 0 := by
    show F.of (y + -y) = _
    rw [add_neg_cancel, z]
  dsimp only
  rw [hD]
  show F.mul (F.of (0 * 0)) _ = _
  rw [mul_zero, z]
  show F.of (0 * v) = _
  rw [zero_mul, z]

/-! ## Null priors -/

theorem mag_idem (F : Fmt) {x : ℚ} (h : 0 ≤ x) : F.mag (F.mag x) = F.mag x := by
  rcases eq_or_lt_of_le h with e | hx
  · rw [← e, mag_zero, mag_zero]
  have hu : F.emin ≤ F.ulp x := by unfold Fmt.ulp; omega
  have h2 := two_zpow_pos (F.ulp x)
  have hx2 : x < 2 ^ (Int.log 2 x + 1) := by exact_mod_cast Int.lt_zpow_succ_log_self (b := 2) (by decide) x
  have hux : Int.log 2 x - (F.p - 1) ≤ F.ulp x := by unfold Fmt.ulp; omega
  have a1 : x / 2 ^ F.ulp x ≤ ((2 ^ F.p : ℤ) : ℚ) := by
    rw [div_le_iff₀ h2]
    push_cast
    rw [← zpow_natCast, ← zpow_add₀ (by norm_num)]
    exact le_trans hx2.le (zpow_le_zpow_right₀ (by norm_num) (by omega))
  have b1 := rne_mono a1
  rw [rne_int] at b1
  have b0 := rne_nonneg (div_nonneg h h2.le)
  rcases eq_or_lt_of_le b1 with e | l
  · have e' : F.mag x = ((1 : ℤ) : ℚ) * 2 ^ (F.p + F.ulp x : ℤ) := by
      unfold Fmt.mag
      rw [e, zpow_add₀ (by norm_num), zpow_natCast]; push_cast; ring
    rw [e']
    exact mag_rep F 1 _ (by decide) (one_lt_pow₀ (by norm_num) (by have := F.pos; omega)) (by omega)
  · exact mag_rep F _ _ b0 l hu

theorem rnd_idem (F : Fmt) (x : ℚ) : F.rnd (F.rnd x) = F.rnd x := by
  rcases le_total 0 x with h | h
  · have e : F.rnd x = F.mag x := if_neg (by linarith)
    have hn : ¬ F.mag x < 0 := not_lt.2 (mag_nonneg F h)
    rw [e]
    unfold Fmt.rnd
    rw [if_neg hn]
    exact mag_idem F h
  · have e : F.rnd x = -F.mag (-x) := by
      have := rnd_neg F (-x)
      rw [neg_neg] at this
      rw [this]; congr 1; exact if_neg (by linarith)
    have hn : ¬ F.mag (-x) < 0 := not_lt.2 (mag_nonneg F (by linarith))
    rw [e, rnd_neg]
    congr 1
    unfold Fmt.rnd
    rw [if_neg hn]
    exact mag_idem F (by linarith)

/-- A value of the format. -/
def InF (F : Fmt) (x : Fl) : Prop := F.add x (.fin 0) = x

theorem of_inF (F : Fmt) (x : ℚ) : InF F (F.of x) := by
  by_cases h : 2 ^ F.emax ≤ |F.rnd x|
  · have : F.of x = .inf (decide (x < 0)) := if_pos h
    rw [this]; rfl
  · have e : F.of x = .fin (F.rnd x) := if_neg h
    rw [e]
    show F.of (F.rnd x + 0) = _
    rw [add_zero, of_fin]
    · rw [rnd_idem]
    · rw [rnd_idem]; exact not_le.1 h

theorem mul_inF (F : Fmt) (x y : Fl) : InF F (F.mul x y) := by
  cases x with
  | fin q =>
    cases y with
    | fin r => exact of_inF F _
    | inf s => simp only [Fmt.mul]; split <;> rfl
    | nan => rfl
  | inf s =>
    cases y with
    | fin r => simp only [Fmt.mul]; split <;> rfl
    | inf s => rfl
    | nan => rfl
  | nan => cases y <;> rfl

theorem cost_inF (F : Fmt) (cplx : Bool) (inv : Fl) (y c : Pt) : InF F (cost F cplx inv y c) := by
  unfold cost; split <;> exact mul_inF _ _ _

theorem priors_zero {g : Cfg} {y2 : List Fl} (h0 : ∀ i, i < g.N → y2.getD i .nan = .fin 0) {k : Nat} (hk : (k + 1) * g.c.nBps ≤ g.N) (b j : Nat) {t : Fl} (ht : InF g.F t) :
    withPriors g y2 k b j t = t := by
  unfold withPriors
  have key : ∀ l : List Nat, (∀ i ∈ l, i < g.c.nBps) → l.foldl (fun t l =>
    if l ≠ b ∧ bit j l = 1 then g.F.add t (if k * g.c.nBps + l < g.N then y2.getD (k * g.c.nBps + l) .nan else .inf false) else t) t = t := by
    intro l
    induction l with
    | nil => intro _; rfl
    | cons i l ih =>
      intro h
      have hi := h i (by simp)
      rw [List.foldl_cons]
      have : (if i ≠ b ∧ bit j i = 1 then g.F.add t (if k * g.c.nBps + i < g.N then y2.getD (k * g.c.nBps + i) .nan else .inf false) else t) = t := by
        have hN : k * g.c.nBps + i < g.N := by rw [Nat.add_mul] at hk; omega
        rw [if_pos hN, h0 _ hN]
        split
        · exact ht
        · rfl
      rw [this]
      exact ih fun i hi => h i (by simp [hi])
  exact key _ fun i hi => List.mem_range.1 hi

end Verif.Modem
