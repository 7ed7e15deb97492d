import Verif.Proof.PolarSC

/-! # The elementary functions keep the votes -/

namespace Verif.PolarSC
open Verif.Float

variable {w : Nat}

theorem sgn_pos {x : Int} (h : 0 < x) : sgn x = 1 := by unfold sgn; rw [if_pos h, if_neg (by omega)]; rfl
theorem sgn_neg {x : Int} (h : x < 0) : sgn x = -1 := by unfold sgn; rw [if_neg (by omega), if_pos h]; rfl

/-- Sign of a vote. -/
theorem votesInt_iff {b : Nat} {x : Int} {bit : BitVec w} (h10 : (1 : BitVec w) ≠ 0) (hb : bit = 0 ∨ bit = 1) :
    VotesInt b x bit ↔ (bit = 0 ∧ 0 < x ∧ x < 2 ^ (b - 1)) ∨ (bit = 1 ∧ -2 ^ (b - 1) < x ∧ x < 0) := by
  have hp : (0 : Int) < 2 ^ (b - 1) := by positivity
  unfold VotesInt
  rcases hb with rfl | rfl
  · constructor
    · rintro ⟨_, h2, h3, _⟩; exact Or.inl ⟨rfl, h3 rfl, h2⟩
    · rintro (⟨_, h2, h3⟩ | ⟨h1, _⟩)
      · exact ⟨by omega, h3, fun _ => h2, fun h => absurd rfl h⟩
      · exact absurd h1.symm h10
  · constructor
    · rintro ⟨h1, h2, _, h4⟩; exact Or.inr ⟨rfl, h1, h4 h10⟩
    · rintro (⟨h1, _⟩ | ⟨_, h2, h3⟩)
      · exact absurd h1 h10
      · exact ⟨h2, by omega, fun h => absurd h h10, fun _ => h3⟩

theorem sound_int {b : Nat} {sat : Int} (hb : b = 8 ∨ b = 16) (h10 : (1 : BitVec w) ≠ 0) (hh : BitVec.ofNat w (2 ^ (w - 1)) ≠ 0) (h0 : 0 < sat) (h1 : sat < 2 ^ (b - 1)) (z : Int) :
    Sound (w := w) ⟨fInt b, gInt sat, hInt w, z, 1, -1⟩ (VotesInt b) where
  f := by
    intro x y p q hx hy hp hq
    have hwrap : ∀ z : Int, -2 ^ (b - 1) < z → z < 2 ^ (b - 1) → wrap b z = z := by
      intro z z1 z2
      unfold wrap
      rw [BitVec.toInt_ofInt]
      rcases hb with rfl | rfl <;> simp only [Int.bmod] at z1 z2 ⊢ <;> norm_num at z1 z2 ⊢ <;> omega
    rw [votesInt_iff h10 hp] at hx
    rw [votesInt_iff h10 hq] at hy
    have hpq : p ^^^ q = 0 ∨ p ^^^ q = 1 := by rcases hp with rfl | rfl <;> rcases hq with rfl | rfl <;> simp
    rw [votesInt_iff h10 hpq]
    simp only [fInt]
    have hpp : (0 : Int) < 2 ^ (b - 1) := by positivity
    rcases hx with ⟨rfl, x1, x2⟩ | ⟨rfl, x1, x2⟩ <;> rcases hy with ⟨rfl, y1, y2⟩ | ⟨rfl, y1, y2⟩
    · rw [sgn_pos x1, sgn_pos y1, hwrap _ (by omega) (by omega)]
      exact Or.inl ⟨by simp, by omega, by omega⟩
    · rw [sgn_pos x1, sgn_neg y2, hwrap _ (by omega) (by omega)]
      exact Or.inr ⟨by simp, by omega, by omega⟩
    · rw [sgn_neg x2, sgn_pos y1, hwrap _ (by omega) (by omega)]
      exact Or.inr ⟨by simp, by omega, by omega⟩
    · rw [sgn_neg x2, sgn_neg y2, hwrap _ (by omega) (by omega)]
      exact Or.inl ⟨by simp, by omega, by omega⟩
  g := by
    intro x y p q hx hy hp hq
    have hpq : p ^^^ q = 0 ∨ p ^^^ q = 1 := by rcases hp with rfl | rfl <;> rcases hq with rfl | rfl <;> simp
    rw [votesInt_iff h10 hpq] at hx
    rw [votesInt_iff h10 hq] at hy
    rw [votesInt_iff h10 hq]
    simp only [gInt, saturate]
    rcases hp with rfl | rfl <;> rcases hy with ⟨rfl, y1, y2⟩ | ⟨rfl, y1, y2⟩ <;> rcases hx with ⟨x0, x1, x2⟩ | ⟨x0, x1, x2⟩
    · rw [if_pos rfl]; exact Or.inl ⟨rfl, by omega, by omega⟩
    · exact absurd x0.symm (by simpa using h10)
    · exact absurd x0 (by simpa using h10)
    · rw [if_pos rfl]; exact Or.inr ⟨rfl, by omega, by omega⟩
    · exact absurd x0 (by simpa using h10)
    · rw [if_neg h10]; exact Or.inl ⟨rfl, by omega, by omega⟩
    · rw [if_neg h10]; exact Or.inr ⟨rfl, by omega, by omega⟩
    · exact absurd x0.symm (by simpa using h10)
  h := by
    intro x p hx hp
    rw [votesInt_iff h10 hp] at hx
    simp only [hInt]
    rcases hx with ⟨rfl, x1, x2⟩ | ⟨rfl, x1, x2⟩
    · rw [if_neg (by omega)]
    · rw [if_pos x2]; exact ⟨fun _ => h10, fun _ => hh⟩
  one := by rw [votesInt_iff h10 (Or.inl rfl)]; exact Or.inl ⟨rfl, by simp only; omega, by simp only; omega⟩
  mone := by rw [votesInt_iff h10 (Or.inr rfl)]; exact Or.inr ⟨rfl, by simp only; omega, by simp only; omega⟩

theorem sound_int8 : Sound int8 (VotesInt 8) := sound_int (Or.inl rfl) (by decide) (by decide) (by decide) (by decide) 0
theorem sound_int16 : Sound int16 (VotesInt 16) := sound_int (Or.inr rfl) (by decide) (by decide) (by decide) (by decide) 0

/-! ## Floating point numbers -/

/-- Positive, at least `2^e`. -/
def Pos (e : Int) : Fl → Prop
  | .fin q => (2 : ℚ) ^ e ≤ q
  | .inf s => s = false
  | .nan => False

theorem votesFl_iff {e : Int} {x : Fl} {bit : BitVec w} (h10 : (1 : BitVec w) ≠ 0) (hb : bit = 0 ∨ bit = 1) :
    VotesFl e x bit ↔ (bit = 0 ∧ Pos e x) ∨ (bit = 1 ∧ Pos e x.neg) := by
  have hw : w ≠ 0 := by rintro rfl; exact h10 (by decide)
  rcases hb with rfl | rfl
  · cases x with
    | fin q => simp [VotesFl, Pos, Fl.neg, hw]
    | inf s => cases s <;> simp [VotesFl, Pos, Fl.neg, hw]
    | nan => simp [VotesFl, Pos, Fl.neg]
  · cases x with
    | fin q => simp [VotesFl, Pos, Fl.neg, hw, le_neg]
    | inf s => cases s <;> simp [VotesFl, Pos, Fl.neg, hw]
    | nan => simp [VotesFl, Pos, Fl.neg]

variable {F : Fmt}

theorem rnd_pow {e : Int} (he : F.emin ≤ e) {q : ℚ} (hq : (2 : ℚ) ^ e ≤ q) : (2 : ℚ) ^ e ≤ F.rnd q := by
  have h1 := rnd_exact (F := F) 1 e (by rw [abs_one]; exact one_lt_pow₀ (by norm_num) (by have := F.pos; omega)) he
  rw [Int.cast_one, one_mul] at h1
  rw [← h1]
  exact rnd_mono _ hq

theorem of_pos {e : Int} (he : F.emin ≤ e) {q : ℚ} (hq : (2 : ℚ) ^ e ≤ q) : Pos e (F.of q) := by
  have hp : (0 : ℚ) < 2 ^ e := two_zpow_pos e
  unfold Fmt.of
  split
  · simp only [Pos]; rw [decide_eq_false_iff_not]; linarith
  · exact rnd_pow he hq

theorem of_neg' {e : Int} (he : F.emin ≤ e) {q : ℚ} (hq : (2 : ℚ) ^ e ≤ -q) : Pos e (F.of q).neg := by
  have hp : (0 : ℚ) < 2 ^ e := two_zpow_pos e
  unfold Fmt.of
  split
  · simp only [Pos, Fl.neg]; rw [decide_eq_true (by linarith)]; rfl
  · show (2 : ℚ) ^ e ≤ -F.rnd q
    rw [← rnd_neg]
    exact rnd_pow he hq

theorem sgn_of_pos {e : Int} {z : Fl} (h : Pos e z) : sgnFl z = .fin 1 := by
  have hp : (0 : ℚ) < 2 ^ e := two_zpow_pos e
  unfold sgnFl
  cases z with
  | fin q => simp only [Pos] at h; simp only [Fl.lt, decide_eq_true_eq]; rw [if_pos (by linarith), if_neg (by linarith)]; norm_num
  | inf s => simp only [Pos] at h; subst h; simp [Fl.lt]
  | nan => exact h.elim

theorem sgn_of_neg {e : Int} {z : Fl} (h : Pos e z.neg) : sgnFl z = .fin (-1) := by
  have hp : (0 : ℚ) < 2 ^ e := two_zpow_pos e
  unfold sgnFl
  cases z with
  | fin q => simp only [Pos, Fl.neg] at h; simp only [Fl.lt, decide_eq_true_eq]; rw [if_neg (by linarith), if_pos (by linarith)]; norm_num
  | inf s => cases s <;> simp [Pos, Fl.neg, Fl.lt] at h ⊢
  | nan => exact h.elim

theorem abs_of_pos {e : Int} {z : Fl} (h : Pos e z) : z.abs = z := by
  have hp : (0 : ℚ) < 2 ^ e := two_zpow_pos e
  cases z with
  | fin q => simp only [Pos] at h; simp only [Fl.abs, abs_of_nonneg (show 0 ≤ q by linarith)]
  | inf s => simp only [Pos] at h; subst h; rfl
  | nan => exact h.elim

theorem abs_neg' (z : Fl) : z.abs = z.neg.abs := by
  cases z <;> simp [Fl.abs, Fl.neg]

theorem neg_neg' (z : Fl) : z.neg.neg = z := by cases z <;> simp [Fl.neg]

theorem min_pos {e : Int} {x y : Fl} (hx : Pos e x) (hy : Pos e y) : Pos e (minFl x y) := by
  unfold minFl; split <;> assumption

theorem mul_pos' {e : Int} (he : F.emin ≤ e + e) {x y : Fl} (hx : Pos e x) (hy : Pos e y) : Pos (e + e) (F.mul x y) := by
  have hp : (0 : ℚ) < 2 ^ e := two_zpow_pos e
  cases x with
  | fin q =>
    simp only [Pos] at hx
    cases y with
    | fin r =>
      simp only [Pos] at hy
      refine of_pos he ?_
      rw [zpow_add₀ (by norm_num)]
      exact mul_le_mul hx hy hp.le (by linarith)
    | inf s =>
      simp only [Pos] at hy; subst hy
      simp only [Fmt.mul]; rw [if_neg (by linarith)]
      simp only [Pos]; rw [decide_eq_false (by linarith)]; rfl
    | nan => exact hy.elim
  | inf s =>
    simp only [Pos] at hx; subst hx
    cases y with
    | fin r =>
      simp only [Pos] at hy
      simp only [Fmt.mul]; rw [if_neg (by linarith)]
      simp only [Pos]; rw [decide_eq_false (by linarith)]; rfl
    | inf s => simp only [Pos] at hy; subst hy; rfl
    | nan => exact hy.elim
  | nan => exact hx.elim

theorem mul_neg_left {e : Int} (he : F.emin ≤ e + e) {x y : Fl} (hx : Pos e x.neg) (hy : Pos e y) : Pos (e + e) (F.mul x y).neg := by
  have hp : (0 : ℚ) < 2 ^ e := two_zpow_pos e
  cases x with
  | fin q =>
    simp only [Pos, Fl.neg] at hx
    cases y with
    | fin r =>
      simp only [Pos] at hy
      refine of_neg' he ?_
      rw [zpow_add₀ (by norm_num), ← neg_mul]
      exact mul_le_mul hx hy hp.le (by linarith)
    | inf s =>
      simp only [Pos] at hy; subst hy
      simp only [Fmt.mul]; rw [if_neg (by linarith)]
      simp only [Pos, Fl.neg]; rw [decide_eq_true (by linarith)]; rfl
    | nan => exact hy.elim
  | inf s =>
    cases s
    · simp [Pos, Fl.neg] at hx
    cases y with
    | fin r =>
      simp only [Pos] at hy
      simp only [Fmt.mul]; rw [if_neg (by linarith)]
      simp only [Pos, Fl.neg]; rw [decide_eq_false (by linarith)]; rfl
    | inf s => simp only [Pos] at hy; subst hy; rfl
    | nan => exact hy.elim
  | nan => exact hx.elim

theorem mul_comm' (x y : Fl) : F.mul x y = F.mul y x := by
  cases x <;> cases y <;> simp [Fmt.mul, _root_.mul_comm, Bool.xor_comm]

theorem mul_neg_neg {e : Int} (he : F.emin ≤ e + e) {x y : Fl} (hx : Pos e x.neg) (hy : Pos e y.neg) : Pos (e + e) (F.mul x y) := by
  have h : Pos (e + e) (F.mul x.neg y.neg) := mul_pos' he hx hy
  have e1 : F.mul x.neg y.neg = F.mul x y := by
    cases x with
    | fin q =>
      cases y with
      | fin r => simp [Fmt.mul, Fl.neg]
      | inf s =>
        have hp : (0 : ℚ) < 2 ^ e := two_zpow_pos e
        simp only [Pos, Fl.neg] at hx
        simp only [Fmt.mul, Fl.neg]
        rw [if_neg (by linarith), if_neg (by linarith), decide_eq_false (by linarith), decide_eq_true (by linarith)]
        cases s <;> rfl
      | nan => exact hy.elim
    | inf s =>
      cases y with
      | fin r =>
        have hp : (0 : ℚ) < 2 ^ e := two_zpow_pos e
        simp only [Pos, Fl.neg] at hy
        simp only [Fmt.mul, Fl.neg]
        rw [if_neg (by linarith), if_neg (by linarith), decide_eq_false (by linarith), decide_eq_true (by linarith)]
        cases s <;> rfl
      | inf t => cases s <;> cases t <;> rfl
      | nan => exact hy.elim
    | nan => exact hx.elim
  rwa [e1] at h

theorem one_mul' {e : Int} (he : F.emin ≤ e) {z : Fl} (h : Pos e z) : Pos e (F.mul (.fin 1) z) := by
  cases z with
  | fin q => simp only [Pos] at h; simp only [Fmt.mul, _root_.one_mul]; exact of_pos he h
  | inf s => simp only [Pos] at h; subst h; simp [Fmt.mul, Pos]
  | nan => exact h.elim

theorem mone_mul {e : Int} (he : F.emin ≤ e) {z : Fl} (h : Pos e z) : Pos e (F.mul (.fin (-1)) z).neg := by
  cases z with
  | fin q => simp only [Pos] at h; simp only [Fmt.mul, _root_.neg_mul, _root_.one_mul]; exact of_neg' he (by rwa [neg_neg])
  | inf s => simp only [Pos] at h; subst h; simp [Fmt.mul, Pos, Fl.neg]
  | nan => exact h.elim

theorem add_pos' {e : Int} (he : F.emin ≤ e) {x y : Fl} (hx : Pos e x) (hy : Pos e y) : Pos e (F.add x y) := by
  have hp : (0 : ℚ) < 2 ^ e := two_zpow_pos e
  cases x with
  | fin q =>
    simp only [Pos] at hx
    cases y with
    | fin r => simp only [Pos] at hy; exact of_pos he (by linarith)
    | inf s => exact hy
    | nan => exact hy.elim
  | inf s =>
    simp only [Pos] at hx; subst hx
    cases y with
    | fin r => rfl
    | inf s => simp only [Pos] at hy; subst hy; rfl
    | nan => exact hy.elim
  | nan => exact hx.elim

theorem add_neg' {e : Int} (he : F.emin ≤ e) {x y : Fl} (hx : Pos e x.neg) (hy : Pos e y.neg) : Pos e (F.add x y).neg := by
  have hp : (0 : ℚ) < 2 ^ e := two_zpow_pos e
  cases x with
  | fin q =>
    simp only [Pos, Fl.neg] at hx
    cases y with
    | fin r => simp only [Pos, Fl.neg] at hy; exact of_neg' he (by linarith)
    | inf s => exact hy
    | nan => exact hy.elim
  | inf s =>
    cases s
    · simp [Pos, Fl.neg] at hx
    cases y with
    | fin r => rfl
    | inf s => cases s; (· simp [Pos, Fl.neg] at hy); rfl
    | nan => exact hy.elim
  | nan => exact hx.elim

theorem h_pos {e : Int} {z : Fl} (h : Pos e z) : hFl w z = 0 := by
  have hp : (0 : ℚ) < 2 ^ e := two_zpow_pos e
  unfold hFl
  cases z with
  | fin q => simp only [Pos] at h; simp only [Fl.lt, decide_eq_true_eq]; rw [if_neg (by linarith)]
  | inf s => simp only [Pos] at h; subst h; rfl
  | nan => exact h.elim

theorem h_neg {e : Int} {z : Fl} (h : Pos e z.neg) : hFl w z = BitVec.ofNat w (2 ^ (w - 1)) := by
  have hp : (0 : ℚ) < 2 ^ e := two_zpow_pos e
  unfold hFl
  cases z with
  | fin q => simp only [Pos, Fl.neg] at h; simp only [Fl.lt, decide_eq_true_eq]; rw [if_pos (by linarith)]
  | inf s => cases s; (· simp [Pos, Fl.neg] at h); rfl
  | nan => exact h.elim

theorem sound_fl {e : Int} (he : F.emin ≤ e + e) (he1 : F.emin ≤ e) (he0 : e ≤ 0) (h10 : (1 : BitVec w) ≠ 0) (hh : BitVec.ofNat w (2 ^ (w - 1)) ≠ 0) (z : Fl) :
    Sound (w := w) ⟨fFl F, gFl F, hFl w, z, .fin 1, .fin (-1)⟩ (VotesFl e) where
  f := by
    intro x y p q hx hy hp hq
    rw [votesFl_iff h10 hp] at hx
    rw [votesFl_iff h10 hq] at hy
    have hpq : p ^^^ q = 0 ∨ p ^^^ q = 1 := by rcases hp with rfl | rfl <;> rcases hq with rfl | rfl <;> simp
    rw [votesFl_iff h10 hpq]
    simp only [fFl]
    rcases hx with ⟨rfl, x1⟩ | ⟨rfl, x1⟩ <;> rcases hy with ⟨rfl, y1⟩ | ⟨rfl, y1⟩
    · rw [sgn_of_pos (mul_pos' he x1 y1), abs_of_pos x1, abs_of_pos y1]
      exact Or.inl ⟨by simp, one_mul' he1 (min_pos x1 y1)⟩
    · rw [sgn_of_neg (by rw [mul_comm']; exact mul_neg_left he y1 x1), abs_of_pos x1, abs_neg' y, abs_of_pos y1]
      exact Or.inr ⟨by simp, mone_mul he1 (min_pos x1 y1)⟩
    · rw [sgn_of_neg (mul_neg_left he x1 y1), abs_of_pos y1, abs_neg' x, abs_of_pos x1]
      exact Or.inr ⟨by simp, mone_mul he1 (min_pos x1 y1)⟩
    · rw [sgn_of_pos (mul_neg_neg he x1 y1), abs_neg' x, abs_neg' y, abs_of_pos x1, abs_of_pos y1]
      exact Or.inl ⟨by simp, one_mul' he1 (min_pos x1 y1)⟩
  g := by
    intro x y p q hx hy hp hq
    have hpq : p ^^^ q = 0 ∨ p ^^^ q = 1 := by rcases hp with rfl | rfl <;> rcases hq with rfl | rfl <;> simp
    rw [votesFl_iff h10 hpq] at hx
    rw [votesFl_iff h10 hq] at hy
    rw [votesFl_iff h10 hq]
    simp only [gFl]
    rcases hp with rfl | rfl <;> rcases hy with ⟨rfl, y1⟩ | ⟨rfl, y1⟩ <;> rcases hx with ⟨x0, x1⟩ | ⟨x0, x1⟩
    · rw [if_pos rfl]; exact Or.inl ⟨rfl, add_pos' he1 x1 y1⟩
    · exact absurd x0.symm (by simpa using h10)
    · exact absurd x0 (by simpa using h10)
    · rw [if_pos rfl]; exact Or.inr ⟨rfl, add_neg' he1 x1 y1⟩
    · exact absurd x0 (by simpa using h10)
    · rw [if_neg h10]; exact Or.inl ⟨rfl, add_pos' he1 x1 y1⟩
    · rw [if_neg h10]; exact Or.inr ⟨rfl, add_neg' he1 (by rwa [neg_neg']) y1⟩
    · exact absurd x0.symm (by simpa using h10)
  h := by
    intro x p hx hp
    rw [votesFl_iff h10 hp] at hx
    simp only
    rcases hx with ⟨rfl, x1⟩ | ⟨rfl, x1⟩
    · rw [h_pos x1]
    · rw [h_neg x1]; exact ⟨fun _ => h10, fun _ => hh⟩
  one := by
    rw [votesFl_iff h10 (Or.inl rfl)]
    exact Or.inl ⟨rfl, by simpa [Pos] using zpow_le_one_of_nonpos₀ (by norm_num : (1 : ℚ) ≤ 2) he0⟩
  mone := by
    rw [votesFl_iff h10 (Or.inr rfl)]
    exact Or.inr ⟨rfl, by simpa [Pos, Fl.neg] using zpow_le_one_of_nonpos₀ (by norm_num : (1 : ℚ) ≤ 2) he0⟩

theorem sound_flt : Sound flt (VotesFl (-74)) := sound_fl (by decide) (by decide) (by decide) (by decide) (by decide) _
theorem sound_dbl : Sound dbl (VotesFl (-537)) := sound_fl (by decide) (by decide) (by decide) (by decide) (by decide) _

end Verif.PolarSC
