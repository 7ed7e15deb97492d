import Verif.Spec.Modem
import Verif.Proof.ChaseUse
import Verif.Proof.ConstellationUse

/-! # Lemmas on the modem -/

namespace Verif.Modem
open Verif.Float Verif.Cstl Verif.ML Verif.Chase Exec

/-! ## The grid of a format -/

theorem mag_grid (F : Fmt) (x : ℚ) : ∃ k : ℤ, F.mag x = k * 2 ^ F.emin := by
  have hu : F.emin ≤ F.ulp x := by unfold Fmt.ulp; omega
  refine ⟨rne (x / 2 ^ F.ulp x) * 2 ^ (F.ulp x - F.emin).toNat, ?_⟩
  unfold Fmt.mag
  push_cast
  rw [mul_assoc, ← zpow_natCast, ← zpow_add₀ (by norm_num)]
  congr 2
  omega

theorem rnd_grid (F : Fmt) (x : ℚ) : ∃ k : ℤ, F.rnd x = k * 2 ^ F.emin := by
  unfold Fmt.rnd
  split
  · obtain ⟨k, h⟩ := mag_grid F (-x)
    exact ⟨-k, by rw [h]; push_cast; ring⟩
  · exact mag_grid F x

/-- A value which is a multiple of the smallest number. -/
def Grid (F : Fmt) : Fl → Prop
  | .fin q => ∃ k : ℤ, q = k * 2 ^ F.emin
  | _ => True

theorem of_grid (F : Fmt) (x : ℚ) : Grid F (F.of x) := by
  unfold Fmt.of
  split
  · trivial
  · exact rnd_grid F x

theorem mul_grid (F : Fmt) (x y : Fl) : Grid F (F.mul x y) := by
  cases x with
  | fin q =>
    cases y with
    | fin r => exact of_grid F _
    | inf s => simp only [Fmt.mul]; split <;> trivial
    | nan => trivial
  | inf s =>
    cases y with
    | fin r => simp only [Fmt.mul]; split <;> trivial
    | inf s => trivial
    | nan => trivial
  | nan => cases y <;> trivial

theorem add_grid (F : Fmt) (x y : Fl) : Grid F (F.add x y) := by
  cases x with
  | fin q =>
    cases y with
    | fin r => exact of_grid F _
    | inf s => trivial
    | nan => trivial
  | inf s =>
    cases y with
    | fin r => trivial
    | inf s => simp only [Fmt.add]; split <;> trivial
    | nan => trivial
  | nan => cases y <;> trivial

theorem neg_grid {F : Fmt} {x : Fl} (h : Grid F x) : Grid F x.neg := by
  cases x with
  | fin q => obtain ⟨k, rfl⟩ := h; exact ⟨-k, by push_cast; ring⟩
  | inf s => trivial
  | nan => trivial

theorem rnd_min (F : Fmt) : F.rnd (-(2 ^ F.emin)) = -(2 ^ F.emin) := by
  have := rnd_exact F (-1) F.emin (by
    rw [abs_neg, abs_one]; exact one_lt_pow₀ (by norm_num) (by have := F.pos; omega)) (le_refl _)
  push_cast at this
  simpa using this

theorem rnd_sub_neg {F : Fmt} {x y : ℚ} (hx : ∃ k : ℤ, x = k * 2 ^ F.emin) (hy : ∃ k : ℤ, y = k * 2 ^ F.emin) (h : x < y) : F.rnd (x + -y) < 0 := by
  obtain ⟨k, rfl⟩ := hx
  obtain ⟨l, rfl⟩ := hy
  have h2 := two_zpow_pos F.emin
  have hkl : k < l := by
    by_contra hc
    have : (l : ℚ) ≤ k := by exact_mod_cast not_lt.1 hc
    nlinarith
  have : (k : ℚ) + 1 ≤ l := by exact_mod_cast hkl
  have h3 := rnd_mono F (x := k * 2 ^ F.emin + -(l * 2 ^ F.emin)) (y := -(2 ^ F.emin)) (by nlinarith)
  rw [rnd_min] at h3
  linarith

theorem sub_lt {F : Fmt} {a b : Fl} (ha : Grid F a) (hb : Grid F b) (h : Fl.lt a b = true) : Fl.lt (sub F a b) (.fin 0) = true := by
  unfold sub
  cases a with
  | fin x =>
    cases b with
    | fin y =>
      have hxy : x < y := by simpa [Fl.lt] using h
      have := rnd_sub_neg ha hb hxy
      show Fl.lt (F.of (x + -y)) _ = true
      unfold Fmt.of
      split
      · have : x + -y < 0 := by linarith
        simp [Fl.lt, this]
      · simpa [Fl.lt] using this
    | inf s => cases s <;> simp_all [Fl.lt, Fl.neg, Fmt.add]
    | nan => simp [Fl.lt] at h
  | inf s =>
    cases b with
    | fin y => cases s <;> simp_all [Fl.lt, Fl.neg, Fmt.add]
    | inf t => cases s <;> cases t <;> simp_all [Fl.lt, Fl.neg, Fmt.add]
    | nan => simp [Fl.lt] at h
  | nan => simp [Fl.lt] at h

theorem sub_gt {F : Fmt} {a b : Fl} (ha : Grid F a) (hb : Grid F b) (h : Fl.lt b a = true) : Fl.lt (.fin 0) (sub F a b) = true := by
  unfold sub
  cases a with
  | fin x =>
    cases b with
    | fin y =>
      have hxy : y < x := by simpa [Fl.lt] using h
      have := rnd_sub_neg hb ha hxy
      rw [show y + -x = -(x + -y) by ring, rnd_neg] at this
      show Fl.lt _ (F.of (x + -y)) = true
      unfold Fmt.of
      split
      · have : ¬ x + -y < 0 := by linarith
        simp [Fl.lt, this]
      · have : 0 < F.rnd (x + -y) := by linarith
        simpa [Fl.lt] using this
    | inf s => cases s <;> simp_all [Fl.lt, Fl.neg, Fmt.add]
    | nan => simp [Fl.lt] at h
  | inf s =>
    cases b with
    | fin y => cases s <;> simp_all [Fl.lt, Fl.neg, Fmt.add]
    | inf t => cases s <;> cases t <;> simp_all [Fl.lt, Fl.neg, Fmt.add]
    | nan => simp [Fl.lt] at h
  | nan => simp [Fl.lt] at h

theorem sub_not_lt {F : Fmt} {a b : Fl} (h : Fl.lt a b = false) : Fl.lt (sub F a b) (.fin 0) = false := by
  unfold sub
  cases a with
  | fin x =>
    cases b with
    | fin y =>
      have hxy : y ≤ x := by simpa [Fl.lt] using h
      exact nn_lt_zero (of_nn (by linarith))
    | inf s => cases s <;> simp_all [Fl.lt, Fl.neg, Fmt.add]
    | nan => rfl
  | inf s =>
    cases b with
    | fin y => cases s <;> simp_all [Fl.lt, Fl.neg, Fmt.add]
    | inf t => cases s <;> cases t <;> simp_all [Fl.lt, Fl.neg, Fmt.add]
    | nan => rfl
  | nan => cases b <;> rfl

theorem sub_not_gt {F : Fmt} {a b : Fl} (h : Fl.lt b a = false) : Fl.lt (.fin 0) (sub F a b) = false := by
  unfold sub
  cases a with
  | fin x =>
    cases b with
    | fin y =>
      have hxy : x ≤ y := by simpa [Fl.lt] using h
      show Fl.lt _ (F.of (x + -y)) = false
      have h1 : F.rnd (x + -y) ≤ 0 := by
        have := rnd_nn (F := F) (q := -(x + -y)) (by linarith)
        rw [rnd_neg] at this; linarith
      unfold Fmt.of
      split
      · rename_i hc
        have : x + -y < 0 := by
          by_contra hc'
          have : x + -y = 0 := by linarith
          rw [this] at hc
          have h0 : F.rnd 0 = 0 := by unfold Fmt.rnd; rw [if_neg (by norm_num), mag_zero]
          rw [h0, abs_zero] at hc
          have := two_zpow_pos F.emax
          linarith
        simp [Fl.lt, this]
      · simpa [Fl.lt] using h1
    | inf s => cases s <;> simp_all [Fl.lt, Fl.neg, Fmt.add]
    | nan => rfl
  | inf s =>
    cases b with
    | fin y => cases s <;> simp_all [Fl.lt, Fl.neg, Fmt.add]
    | inf t => cases s <;> cases t <;> simp_all [Fl.lt, Fl.neg, Fmt.add]
    | nan => rfl
  | nan => cases b <;> rfl

/-! ## The loop on the symbols -/

/-- The two best values after the first `n` labels. -/
def scan (MAX : Fl → Fl → Fl) (n b : Nat) (m : Nat → Fl) : Fl × Fl :=
  loopN n (fun j (s : Fl × Fl) => if j / 2 ^ b % 2 = 0 then (MAX s.1 (m j), s.2) else (s.1, MAX s.2 (m j))) (.inf true, .inf true)

theorem llr_eq {F : Fmt} {MAX : Fl → Fl → Fl} {n b : Nat} {f : Nat → Exec Fl} {m : Nat → Fl} (h : ∀ j, j < n → f j = ok (m j)) :
    llr F MAX n b f = ok (sub F (scan MAX n b m).1 (scan MAX n b m).2) := by
  unfold llr
  rw [forN_ok (g := fun j (s : Fl × Fl) => if j / 2 ^ b % 2 = 0 then (MAX s.1 (m j), s.2) else (s.1, MAX s.2 (m j)))]
  · rfl
  · intro j s hj
    rw [h j hj, bind_ok]
    split <;> rfl

theorem lt_le {a b c : Fl} (hb : b ≠ .nan) (h1 : Fl.lt a b = false) (h2 : Fl.lt b c = false) : Fl.lt a c = false := by
  by_contra hc
  rw [Bool.not_eq_false] at hc
  have := lt_cot b hb a c hc h2
  rw [h1] at this
  exact Bool.noConfusion this

/-- The running maximum from minus infinity: either nothing was seen, or the greatest value. -/
def Run (S : Nat → Prop) (m : Nat → Fl) (v : Fl) : Prop :=
  ((∀ j, ¬ S j) ∧ v = .inf true) ∨ Best S m v

theorem inf_least (x : Fl) : Fl.lt x (.inf true) = false := by
  cases x with
  | fin q => rfl
  | inf s => cases s <;> rfl
  | nan => rfl

theorem inf_max {x : Fl} (hx : x ≠ .nan) : fmax (.inf true) x = x := by
  unfold fmax
  cases x with
  | fin q => rfl
  | inf s => cases s <;> rfl
  | nan => exact absurd rfl hx

theorem Best.ne {S : Nat → Prop} {m : Nat → Fl} {v : Fl} (hm : ∀ j, S j → m j ≠ .nan) (h : Best S m v) : v ≠ .nan := by
  obtain ⟨⟨j, h1, h2⟩, -⟩ := h
  rw [← h2]; exact hm j h1

theorem Run.step {S : Nat → Prop} {m : Nat → Fl} {v : Fl} {j : Nat} (hm : ∀ i, S i → m i ≠ .nan) (hj : m j ≠ .nan) (h : Run S m v) :
    Run (fun i => S i ∨ i = j) m (fmax v (m j)) := by
  right
  rcases h with ⟨h1, rfl⟩ | h
  · rw [inf_max hj]
    refine ⟨⟨j, .inr rfl, rfl⟩, ?_⟩
    rintro i (hi | rfl)
    · exact absurd hi (h1 i)
    · exact lt_irr _
  · have hv := h.ne hm
    unfold fmax
    obtain ⟨⟨i, h1, h2⟩, h3⟩ := h
    split
    · rename_i hlt
      refine ⟨⟨j, .inr rfl, rfl⟩, ?_⟩
      rintro k (hk | rfl)
      · refine lt_le hv ?_ (h3 k hk)
        by_contra hc
        rw [Bool.not_eq_false] at hc
        have := lt_trans' _ _ _ hlt hc
        rw [lt_irr] at this
        exact Bool.noConfusion this
      · exact lt_irr _
    · rename_i hlt
      refine ⟨⟨i, .inl h1, h2⟩, ?_⟩
      rintro k (hk | rfl)
      · exact h3 k hk
      · simpa using hlt

theorem Run.congr {S T : Nat → Prop} {m : Nat → Fl} {v : Fl} (h : ∀ j, S j ↔ T j) (hr : Run S m v) : Run T m v := by
  have : S = T := funext fun j => propext (h j)
  rw [← this]; exact hr

theorem scan_run {n b : Nat} {m : Nat → Fl} (hm : ∀ j, j < n → m j ≠ .nan) :
    Run (fun j => j < n ∧ bit j b = 0) m (scan fmax n b m).1 ∧ Run (fun j => j < n ∧ bit j b = 1) m (scan fmax n b m).2 := by
  induction n with
  | zero =>
    refine ⟨.inl ⟨fun j h => by omega, rfl⟩, .inl ⟨fun j h => by omega, rfl⟩⟩
  | succ n ih =>
    obtain ⟨h1, h2⟩ := ih fun j hj => hm j (by omega)
    unfold scan at *
    rw [loopN_succ]
    by_cases hb : n / 2 ^ b % 2 = 0
    · rw [if_pos hb]
      constructor
      · refine (h1.step (j := n) (fun i hi => hm i (by omega)) (hm n (by omega))).congr fun j => ?_
        unfold bit
        constructor
        · rintro (⟨h, h'⟩ | rfl)
          · exact ⟨by omega, h'⟩
          · exact ⟨by omega, hb⟩
        · rintro ⟨h, h'⟩
          rcases Nat.lt_succ_iff_lt_or_eq.1 h with h | h
          · exact .inl ⟨h, h'⟩
          · exact .inr h
      · refine h2.congr fun j => ?_
        unfold bit
        constructor
        · rintro ⟨h, h'⟩; exact ⟨by omega, h'⟩
        · rintro ⟨h, h'⟩
          rcases Nat.lt_succ_iff_lt_or_eq.1 h with h | rfl
          · exact ⟨h, h'⟩
          · omega
    · rw [if_neg hb]
      have hb1 : n / 2 ^ b % 2 = 1 := by omega
      constructor
      · refine h1.congr fun j => ?_
        unfold bit
        constructor
        · rintro ⟨h, h'⟩; exact ⟨by omega, h'⟩
        · rintro ⟨h, h'⟩
          rcases Nat.lt_succ_iff_lt_or_eq.1 h with h | rfl
          · exact ⟨h, h'⟩
          · omega
      · refine (h2.step (j := n) (fun i hi => hm i (by omega)) (hm n (by omega))).congr fun j => ?_
        unfold bit
        constructor
        · rintro (⟨h, h'⟩ | rfl)
          · exact ⟨by omega, h'⟩
          · exact ⟨by omega, hb1⟩
        · rintro ⟨h, h'⟩
          rcases Nat.lt_succ_iff_lt_or_eq.1 h with h | h
          · exact .inl ⟨h, h'⟩
          · exact .inr h

theorem bit_pow (b : Nat) : bit (2 ^ b) b = 1 := by
  unfold bit; rw [Nat.div_self (Nat.two_pow_pos b)]

/-- The LLR of a bit of a whole constellation. -/
theorem scan_best {n b : Nat} (hb : b < n) {m : Nat → Fl} (hm : ∀ j, j < 2 ^ n → m j ≠ .nan) :
    Best (fun j => j < 2 ^ n ∧ bit j b = 0) m (scan fmax (2 ^ n) b m).1 ∧ Best (fun j => j < 2 ^ n ∧ bit j b = 1) m (scan fmax (2 ^ n) b m).2 := by
  obtain ⟨h1, h2⟩ := scan_run (b := b) hm
  refine ⟨?_, ?_⟩
  · rcases h1 with ⟨h, -⟩ | h
    · exact absurd ⟨Nat.two_pow_pos n, by unfold bit; rw [Nat.zero_div]⟩ (h 0)
    · exact h
  · rcases h2 with ⟨h, -⟩ | h
    · exact absurd ⟨Nat.pow_lt_pow_right (by decide) hb, bit_pow b⟩ (h (2 ^ b))
    · exact h

end Verif.Modem
