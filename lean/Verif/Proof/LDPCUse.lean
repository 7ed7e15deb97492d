import Verif.Proof.LDPCRec

/-!
# From the messages to the decisions
-/

namespace Verif.LDPCBP
open Exec Verif.Sparse Verif.Float

variable {F : Fmt}

theorem minSum_corr {r : Rule Fz} (h : MinSum F r) : ∃ f, Corr F f ∧ r = msWith (opsFz F) f := by
  cases h with
  | ms => exact ⟨id, corr_id, rfl⟩
  | oms h ht => exact ⟨_, corr_oms h ht, rfl⟩
  | nms h h0 h1 => exact ⟨_, corr_nms h h0 h1, rfl⟩

theorem isFz_nn {x : Fz} (h : IsFz F x) (hn : x.mag ≠ .nan) : NumF F x := by
  obtain ⟨s, m⟩ := x
  unfold IsFz at h
  unfold NumF
  cases m with
  | nan => exact absurd rfl hn
  | inf t => exact h
  | fin q =>
    refine ⟨h.1, rnd_rep F h.2, ?_⟩
    obtain ⟨_, _, _, _, _, hb⟩ := h.2
    exact lt_of_le_of_lt (le_abs_self _) hb

theorem noError_clear {n : Nat} {b : Nat → Bool} {y : Nat → Fz} (h : NoError F n b y) : Clear F b n y := by
  intro v hv
  obtain ⟨h1, h2, h3⟩ := h v hv
  generalize y v = x at h1 h2 h3 ⊢
  generalize b v = c at h2 ⊢
  have hnn : x.mag ≠ .nan := by
    intro e
    have : x.val = .nan := by unfold Fz.val; rw [e]; cases x.neg <;> rfl
    unfold Agrees at h2
    rw [this] at h2
    exact h2
  have hN := isFz_nn h1 hnn
  have hnum := hN.num
  unfold Agrees at h2
  generalize hx : x.val = u at h2 h3 hnum
  refine ⟨⟨hN, ?_⟩, ?_⟩
  · rw [hx]
    cases u with
    | nan => exact h2.elim
    | inf s =>
      have : s = c := h2
      subst this
      cases s <;> rfl
    | fin q =>
      cases c with
      | false => exact ⟨h2, hnum.1, by have := hnum.2; rw [abs_of_nonneg h2] at this; exact this⟩
      | true =>
        have hq : q ≤ 0 := h2
        refine ⟨neg_nonneg.2 hq, by rw [rnd_neg, hnum.1], ?_⟩
        have := hnum.2
        rw [abs_of_nonpos hq] at this
        exact this
  · cases u with
    | nan => exact h2.elim
    | inf s => cases c <;> exact WithTop.coe_lt_top _
    | fin q =>
      have hq0 : q ≠ 0 := fun e => h3 (by rw [e])
      cases c with
      | false => exact WithTop.coe_lt_coe.2 (lt_of_le_of_ne h2 (Ne.symm hq0))
      | true =>
        have hq : q ≤ 0 := h2
        exact WithTop.coe_lt_coe.2 (neg_pos.2 (lt_of_le_of_ne hq hq0))

/-- The three tests on a number which is not null. -/
theorem tests {x : Fz} (h : NumF F x) (hz : x.val ≠ .fin 0) :
    (opsFz F).isNeg x = x.neg ∧ (opsFz F).sign x = x.neg ∧ (opsFz F).nonneg x = !x.neg := by
  obtain ⟨s, m⟩ := x
  unfold NumF at h
  cases m with
  | nan => exact (show False from h).elim
  | inf t =>
    have : t = false := h
    subst this
    cases s <;> exact ⟨rfl, rfl, rfl⟩
  | fin q =>
    have h0 : (0 : ℚ) ≤ q := h.1
    have hq : q ≠ 0 := by
      rintro rfl
      apply hz
      cases s <;> simp [Fz.val, Fl.neg]
    have hp : 0 < q := lt_of_le_of_ne h0 (Ne.symm hq)
    cases s with
    | false =>
      refine ⟨decide_eq_false (not_lt.2 h0), rfl, decide_eq_true h0⟩
    | true =>
      refine ⟨decide_eq_true (neg_lt_zero.2 hp), rfl, decide_eq_false ?_⟩
      show ¬ (0 : ℚ) ≤ -q
      linarith

theorem clear_neg {n : Nat} {b : Nat → Bool} {y : Nat → Fz} (h : Clear F b n y) {v : Nat} (hv : v < n) :
    NumF F (y v) ∧ (y v).val ≠ .fin 0 ∧ (y v).neg = b v := by
  obtain ⟨⟨h1, h2⟩, h3⟩ := h v hv
  generalize y v = x at h1 h2 h3 ⊢
  generalize b v = c at h2 h3 ⊢
  refine ⟨h1, ?_, ?_⟩
  · intro e
    rw [e] at h3
    cases c <;> simp [flip, Fl.neg, key] at h3
  · obtain ⟨s, m⟩ := x
    unfold NumF at h1
    cases m with
    | nan => exact (show False from h1).elim
    | inf t =>
      have : t = false := h1
      subst this
      cases s <;> cases c <;> first | rfl | (exfalso; revert h2; simp [flip, Fz.val, Fl.neg, Nn])
    | fin q =>
      have h0 : (0 : ℚ) ≤ q := h1.1
      cases s <;> cases c <;> first | rfl | (exfalso; simp [flip, Fz.val, Fl.neg, key] at h3; linarith)

theorem sy_tests {b : Bool} {x x' : Fz} (h : Sy F b x x') (hz : x.val ≠ .fin 0) :
    (opsFz F).isNeg x' = ((opsFz F).isNeg x ^^ b) ∧ (opsFz F).sign x' = ((opsFz F).isNeg x ^^ b) ∧
      (opsFz F).nonneg x' = !((opsFz F).isNeg x ^^ b) ∧ (opsFz F).sign x = (opsFz F).isNeg x ∧
      (opsFz F).nonneg x = !(opsFz F).isNeg x := by
  have hz' : x'.val ≠ .fin 0 := by
    rw [h.val]
    intro e
    apply hz
    have := congrArg (flip b) e
    rw [flip_flip] at this
    rw [this]
    cases b <;> simp [flip, Fl.neg]
  have hm : x.mag ≠ .fin 0 := by
    intro e
    apply hz
    obtain ⟨s, m⟩ := x
    dsimp only at e
    subst e
    cases s <;> simp [Fz.val, Fl.neg]
  obtain ⟨t1, t2, t3⟩ := tests h.num hz
  obtain ⟨u1, u2, u3⟩ := tests h.num' hz'
  have hs := sign_of_flip h.num h.num' h.val hm
  rw [t1, t2, t3, u1, u2, u3, hs]
  exact ⟨rfl, rfl, rfl, rfl, rfl⟩

theorem valid_congr {A : Conns} {H : Mat} (hA : Represents H A) {b x x' : Nat → Bool} (hb : Codeword A b)
    (h : ∀ v, v < A.rows → x' v = (x v ^^ b v)) : Codeword A x' ↔ Codeword A x := by
  refine forall_congr' fun c => imp_congr_right fun hc => ?_
  have hp := codeword_parity hA hb c
  rw [← parity_satisfied (nodup_vars hA c) (fun i => mem_vars hA c i) hA.range x',
    ← parity_satisfied (nodup_vars hA c) (fun i => mem_vars hA c i) hA.range x,
    parity_congr (b := fun v => x v ^^ b v) (fun v hv => h v (hA.range _ ((mem_vars hA c v).1 hv)).1), parity_xor, hp, Bool.xor_false]

theorem codeword_congr {A : Conns} {x x' : Nat → Bool} (h : ∀ v, v < A.rows → x' v = x v) : Codeword A x' ↔ Codeword A x := by
  refine forall_congr' fun c => imp_congr_right fun hc => ?_
  unfold Satisfied
  refine iff_of_eq (congrArg (fun s : Finset Nat => Even s.card) ?_)
  refine Finset.filter_congr fun v hv => ?_
  rw [h v (Finset.mem_range.1 hv)]

theorem stopsAt_unique {e : Bool} {s : Nat → Prop} {l n n' : Nat} (h : StopsAt e s l n) (h' : StopsAt e s l n') : n = n' := by
  rcases lt_trichotomy n n' with hl | hl | hl
  · obtain ⟨h1, h2⟩ := h.last (lt_of_lt_of_le hl h'.le)
    exact absurd h2 (h'.before h1 n h.pos hl)
  · exact hl
  · obtain ⟨h1, h2⟩ := h'.last (lt_of_lt_of_le hl h.le)
    exact absurd h2 (h.before h1 n' h'.pos hl)

theorem stopsAt_congr {e : Bool} {s s' : Nat → Prop} {l n : Nat} (hs : e = true → ∀ i, 1 ≤ i → i ≤ l → (s i ↔ s' i)) (h : StopsAt e s l n) :
    StopsAt e s' l n :=
  ⟨h.pos, h.le, fun he i h1 h2 h3 => h.before he i h1 h2 ((hs he i h1 (le_of_lt (lt_of_lt_of_le h2 h.le))).2 h3),
    fun hl => ⟨(h.last hl).1, (hs (h.last hl).1 n h.pos h.le).1 (h.last hl).2⟩⟩

theorem run_congr {v v' : Nat → Prop} {depth k n l : Nat} (hn : n ≤ l) (h : ∀ i, 1 ≤ i → i ≤ l → (v i ↔ v' i)) :
    Run v depth k n ↔ Run v' depth k n := by
  unfold Run
  refine and_congr_right fun _ => ?_
  constructor
  · intro g j h1 h2 h3; exact (h j h1 (by omega)).1 (g j h1 h2 h3)
  · intro g j h1 h2 h3; exact (h j h1 (by omega)).2 (g j h1 h2 h3)

end Verif.LDPCBP
