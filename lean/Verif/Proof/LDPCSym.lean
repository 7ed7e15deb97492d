import Verif.Proof.ModemReal
import Verif.Proof.LDPCRule

/-!
# Signs of the messages: symmetry of the channel, words without errors
-/

namespace Verif.LDPCBP
open Exec Verif.Sparse Verif.Float

/-! ## Arithmetic -/

/-- A number of the format or an infinity, not negative. -/
def Nn (F : Fmt) : Fl → Prop
  | .fin q => 0 ≤ q ∧ F.rnd q = q ∧ q < 2 ^ F.emax
  | .inf s => s = false
  | .nan => False

/-- A number of the format or an infinity. -/
def Num (F : Fmt) : Fl → Prop
  | .fin q => F.rnd q = q ∧ |q| < 2 ^ F.emax
  | .inf _ => True
  | .nan => False

def IsFin : Fl → Prop
  | .fin _ => True
  | _ => False

def key (x : Fl) : WithTop ℚ :=
  match x with
  | .fin q => (q : ℚ)
  | _ => ⊤

variable {F : Fmt}

theorem flip_flip (b : Bool) (v : Fl) : flip b (flip b v) = v := by
  cases b <;> cases v <;> simp [flip, Fl.neg]

theorem flip_add (b : Bool) (x y : Fl) : F.add (flip b x) (flip b y) = flip b (F.add x y) := by
  cases b with
  | false => rfl
  | true =>
    cases x with
    | nan => cases y <;> rfl
    | inf s =>
      cases y with
      | nan => rfl
      | fin q => rfl
      | inf t => cases s <;> cases t <;> rfl
    | fin p =>
      cases y with
      | nan => rfl
      | inf t => rfl
      | fin q =>
        show F.of (-p + -q) = (F.of (p + q)).neg
        rw [← Modem.of_neg', neg_add]

theorem flip_neg (b : Bool) (x : Fl) : flip b x.neg = (flip b x).neg := by
  cases b <;> rfl

theorem flip_fin {b : Bool} {x : Fl} : IsFin (flip b x) ↔ IsFin x := by
  cases b <;> cases x <;> simp [flip, IsFin, Fl.neg]

theorem val_of (v : Fl) (z : Bool) : (Fz.of v z).val = v := by
  cases v with
  | nan => cases z <;> rfl
  | inf s => cases s <;> rfl
  | fin q =>
    by_cases h : q = 0
    · subst h; cases z <;> simp [Fz.of, Fz.val, Fl.neg]
    · by_cases hq : q < 0
      · simp [Fz.of, Fz.val, h, hq, Fl.neg, abs_of_neg hq]
      · simp [Fz.of, Fz.val, h, hq, abs_of_nonneg (not_lt.1 hq)]

theorem val_opp (x : Fz) : x.opp.val = x.val.neg := by
  obtain ⟨s, m⟩ := x
  cases s <;> cases m <;> simp [Fz.opp, Fz.val, Fl.neg]

theorem val_add (x y : Fz) : ((opsFz F).add x y).val = F.add x.val y.val := val_of _ _

theorem val_sub (x y : Fz) : ((opsFz F).sub x y).val = F.add x.val y.val.neg := by
  show (Fz.add F x y.opp).val = _
  unfold Fz.add
  rw [val_of, val_opp]

/-- The value of a message without its sign is a number of the format. -/
def NumF (F : Fmt) (x : Fz) : Prop := Nn F x.mag

theorem NumF.num {x : Fz} (h : NumF F x) : Num F x.val := by
  obtain ⟨s, m⟩ := x
  unfold NumF at h
  cases m with
  | nan => exact (show False from h).elim
  | inf t => cases s <;> trivial
  | fin q =>
    obtain ⟨h1, h2, h3⟩ := h
    cases s with
    | false => exact ⟨h2, by rw [abs_of_nonneg h1]; exact h3⟩
    | true => exact ⟨by rw [rnd_neg, h2], by rw [abs_neg, abs_of_nonneg h1]; exact h3⟩

theorem NumF.isNum {x : Fz} (h : NumF F x) : IsNum x := by
  obtain ⟨s, m⟩ := x
  unfold NumF at h
  cases m with
  | nan => exact h
  | inf t => exact h
  | fin q => exact h.1

theorem num_of (v : Fl) (z : Bool) (h : Num F v) : NumF F (Fz.of v z) := by
  cases v with
  | nan => exact h
  | inf s => exact rfl
  | fin q =>
    refine ⟨abs_nonneg _, ?_, h.2⟩
    rcases abs_choice q with e | e
    · rw [e]; exact h.1
    · rw [e, rnd_neg, h.1]

theorem num_F_of (x : ℚ) : Num F (F.of x) := by
  unfold Fmt.of
  split
  · trivial
  · rename_i h
    exact ⟨Modem.rnd_idem F x, not_le.1 h⟩

theorem num_add {a b : Fl} (ha : Num F a) (hb : Num F b) (hf : IsFin a ∨ IsFin b) : Num F (F.add a b) := by
  cases a with
  | nan => exact ha.elim
  | inf s =>
    cases b with
    | nan => exact hb.elim
    | inf t => rcases hf with h | h <;> exact h.elim
    | fin q => trivial
  | fin p =>
    cases b with
    | nan => exact hb.elim
    | inf t => trivial
    | fin q => exact num_F_of _

theorem num_neg {a : Fl} (h : Num F a) : Num F a.neg := by
  cases a with
  | nan => exact h
  | inf s => trivial
  | fin q => exact ⟨by rw [rnd_neg, h.1], by rw [abs_neg]; exact h.2⟩

theorem numF_add {x y : Fz} (hx : NumF F x) (hy : NumF F y) (hf : IsFin x.val ∨ IsFin y.val) : NumF F ((opsFz F).add x y) :=
  num_of _ _ (num_add hx.num hy.num hf)

theorem numF_sub {x y : Fz} (hx : NumF F x) (hy : NumF F y) (hf : IsFin y.val) : NumF F ((opsFz F).sub x y) := by
  refine num_of _ _ ?_
  rw [val_opp]
  refine num_add hx.num (num_neg hy.num) (Or.inr ?_)
  revert hf
  cases y.val <;> simp [IsFin, Fl.neg]

theorem nn_of {x : ℚ} (h : 0 ≤ x) : Nn F (F.of x) := by
  unfold Fmt.of
  have h0 : 0 ≤ F.rnd x := by rw [← Modem.rnd_zero F]; exact rnd_mono F h
  split
  · exact decide_eq_false (not_lt.2 h)
  · rename_i hx
    exact ⟨h0, Modem.rnd_idem F x, by rw [not_le, abs_of_nonneg h0] at hx; exact hx⟩

theorem nn_add {a b : Fl} (ha : Nn F a) (hb : Nn F b) : Nn F (F.add a b) ∧ key a ≤ key (F.add a b) ∧ key b ≤ key (F.add a b) := by
  cases a with
  | nan => exact ha.elim
  | inf s =>
    have : s = false := ha
    subst this
    cases b with
    | nan => exact hb.elim
    | inf t =>
      have : t = false := hb
      subst this
      exact ⟨rfl, le_refl _, le_refl _⟩
    | fin q => exact ⟨rfl, le_refl _, le_top⟩
  | fin p =>
    cases b with
    | nan => exact hb.elim
    | inf t =>
      have : t = false := hb
      subst this
      exact ⟨rfl, le_top, le_refl _⟩
    | fin q =>
      have h1 : p ≤ F.rnd (p + q) := by conv_lhs => rw [← ha.2.1]
                                        exact rnd_mono F (by linarith [hb.1])
      have h2 : q ≤ F.rnd (p + q) := by conv_lhs => rw [← hb.2.1]
                                        exact rnd_mono F (by linarith [ha.1])
      refine ⟨nn_of (by linarith [ha.1, hb.1]), ?_⟩
      show _ ≤ key (F.of (p + q)) ∧ _ ≤ key (F.of (p + q))
      unfold Fmt.of
      split
      · exact ⟨le_top, le_top⟩
      · exact ⟨WithTop.coe_le_coe.2 h1, WithTop.coe_le_coe.2 h2⟩

theorem nn_sub {a b : Fl} (ha : Nn F a) (hb : Nn F b) (hf : IsFin b) (h : key b ≤ key a) : Nn F (F.add a b.neg) := by
  cases b with
  | nan => exact hb.elim
  | inf t => exact hf.elim
  | fin q =>
    cases a with
    | nan => exact ha.elim
    | inf s => exact ha
    | fin p =>
      have : q ≤ p := WithTop.coe_le_coe.1 h
      exact nn_of (x := p + -q) (by linarith)

theorem nn_zero : Nn F (.fin 0) := ⟨le_refl _, Modem.rnd_zero F, two_zpow_pos _⟩

/-! ## The rules -/

/-- A correction which only reduces the magnitudes. -/
def Corr (F : Fmt) (f : Fz → Fz) : Prop := ∀ q : ℚ, 0 ≤ q → F.rnd q = q → q < 2 ^ F.emax →
  ∃ q', (opsFz F).max (opsFz F).zero (f ⟨false, .fin q⟩) = ⟨false, .fin q'⟩ ∧ 0 ≤ q' ∧ q' ≤ q ∧ F.rnd q' = q'

theorem max_zero_of {v : Fl} {q : ℚ} {z : Bool} (hq : 0 ≤ q) (h : v = F.of q) (hb : F.rnd q < 2 ^ F.emax) :
    (opsFz F).max (opsFz F).zero (Fz.of v z) = ⟨false, .fin (F.rnd q)⟩ := by
  have h0 : 0 ≤ F.rnd q := by rw [← Modem.rnd_zero F]; exact rnd_mono F hq
  have e : v = .fin (F.rnd q) := by
    rw [h]; unfold Fmt.of
    rw [if_neg (by rw [abs_of_nonneg h0]; exact not_le.2 hb)]
  subst e
  have hlt : (opsFz F).lt (opsFz F).zero (Fz.of (.fin (F.rnd q)) z) = decide (0 < F.rnd q) := by
    show Fl.lt _ (Fz.of (.fin (F.rnd q)) z).val = _
    rw [val_of]; rfl
  unfold Ops.max
  by_cases hp : 0 < F.rnd q
  · rw [if_pos (by rw [hlt]; simpa using hp)]
    unfold Fz.of
    dsimp only
    rw [if_neg hp.ne', decide_eq_false (not_lt.2 h0), abs_of_nonneg h0]
  · rw [if_neg (by rw [hlt]; simpa using hp)]
    rw [le_antisymm (not_lt.1 hp) h0]
    rfl

theorem corr_id : Corr F id := by
  intro q h0 h1 h2
  refine ⟨q, ?_, h0, le_refl _, h1⟩
  have := (lawful_fz F).max_zero (a := ⟨false, .fin q⟩) ⟨rfl, h0⟩
  exact this

theorem corr_oms {offset : Fz} {t : ℚ} (h : offset.val = .fin t) (ht : 0 ≤ t) : Corr F fun x => (opsFz F).sub x offset := by
  intro q h0 h1 h2
  have e : (opsFz F).sub ⟨false, .fin q⟩ offset = Fz.of (F.of (q + -t)) (false && offset.opp.neg) := by
    show Fz.of (F.add _ offset.opp.val) _ = _
    rw [val_opp, h]; rfl
  dsimp only
  rw [e]
  by_cases hp : 0 ≤ q + -t
  · have hle : F.rnd (q + -t) ≤ q := by conv_rhs => rw [← h1]
                                        exact rnd_mono F (by linarith)
    refine ⟨F.rnd (q + -t), max_zero_of hp rfl (lt_of_le_of_lt hle h2), ?_, hle, Modem.rnd_idem F _⟩
    rw [← Modem.rnd_zero F]; exact rnd_mono F hp
  · refine ⟨0, ?_, le_refl _, h0, Modem.rnd_zero F⟩
    unfold Ops.max
    rw [if_neg]
    · rfl
    · show ¬ Fl.lt (.fin 0) (Fz.of _ _).val = true
      rw [val_of]
      unfold Fmt.of
      split
      · simp [Fl.lt]; linarith
      · simp only [Fl.lt, decide_eq_true_eq, not_lt]
        rw [← Modem.rnd_zero F]; exact rnd_mono F (by linarith)

theorem corr_nms {factor : Fz} {t : ℚ} (h : factor.val = .fin t) (ht : 0 ≤ t) (ht1 : t ≤ 1) : Corr F (normFz F factor) := by
  intro q h0 h1 h2
  have e : normFz F factor ⟨false, .fin q⟩ = Fz.of (F.of (q * t)) (false ^^ factor.neg) := by
    show Fz.of (F.mul _ factor.val) _ = _
    rw [h]; rfl
  have hp : 0 ≤ q * t := mul_nonneg h0 ht
  have hle : F.rnd (q * t) ≤ q := by conv_rhs => rw [← h1]
                                     exact rnd_mono F (by nlinarith)
  rw [e]
  refine ⟨F.rnd (q * t), max_zero_of hp rfl (lt_of_le_of_lt hle h2), ?_, hle, Modem.rnd_idem F _⟩
  rw [← Modem.rnd_zero F]; exact rnd_mono F hp

theorem maxFin_rep (F : Fmt) : F.rnd (maxFin F) = maxFin F ∧ maxFin F < 2 ^ F.emax := by
  constructor
  · have := rnd_exact F (2 ^ F.p - 1) (F.emax - F.p) (by
      have : (1 : ℤ) ≤ 2 ^ F.p := one_le_pow₀ (by norm_num)
      rw [abs_of_nonneg (by omega)]; omega) (by have := F.min_le; omega)
    unfold maxFin
    push_cast at this
    exact this
  · unfold maxFin
    have h := two_zpow_pos (F.emax - F.p)
    have e : (2 : ℚ) ^ F.emax = 2 ^ F.p * 2 ^ (F.emax - F.p) := by
      rw [← zpow_natCast, ← zpow_add₀ (by norm_num)]; congr 1; omega
    rw [e]
    nlinarith

theorem min_spec (l : List Fz) (hl : ∀ x ∈ l, NumF F x) :
    ∃ q, l.foldl (fun a x => (opsFz F).min a ((opsFz F).abs x)) (opsFz F).top = ⟨false, .fin q⟩ ∧ 0 ≤ q ∧ F.rnd q = q ∧ q < 2 ^ F.emax ∧
      ∀ x ∈ l, x.mag = .fin 0 → q = 0 := by
  induction l using List.reverseRecOn with
  | nil => exact ⟨maxFin F, rfl, maxFin_nonneg F, (maxFin_rep F).1, (maxFin_rep F).2, by simp⟩
  | append_singleton l a ih =>
    obtain ⟨q, e, h0, h1, h2, h3⟩ := ih fun x hx => hl x (by simp [hx])
    have ha := hl a (by simp)
    simp only [List.foldl_append, List.foldl_cons, List.foldl_nil]
    rw [e]
    obtain ⟨s, m⟩ := a
    cases m with
    | nan => exact ha.elim
    | inf t =>
      have : t = false := ha
      subst this
      refine ⟨q, rfl, h0, h1, h2, ?_⟩
      intro x hx hz
      rcases List.mem_append.1 hx with h | h
      · exact h3 x h hz
      · rw [List.mem_singleton.1 h] at hz; cases hz
    | fin r =>
      obtain ⟨a1, a2, a3⟩ := ha
      by_cases hr : r < q
      · refine ⟨r, ?_, a1, a2, a3, ?_⟩
        · show (if decide (r < q) = true then _ else _) = _
          rw [if_pos (by simpa using hr)]; rfl
        · intro x hx hz
          rcases List.mem_append.1 hx with h | h
          · have := h3 x h hz
            linarith
          · rw [List.mem_singleton.1 h] at hz; cases hz; rfl
      · refine ⟨q, ?_, h0, h1, h2, ?_⟩
        · show (if decide (r < q) = true then _ else _) = _
          rw [if_neg (by simpa using hr)]
        · intro x hx hz
          rcases List.mem_append.1 hx with h | h
          · exact h3 x h hz
          · rw [List.mem_singleton.1 h] at hz
            cases hz
            exact le_antisymm (not_lt.1 hr) h0

theorem mag_of_flip {x x' : Fz} {b : Bool} (hx : NumF F x) (hx' : NumF F x') (h : x'.val = flip b x.val) : x'.mag = x.mag := by
  obtain ⟨s, m⟩ := x
  obtain ⟨s', m'⟩ := x'
  unfold NumF at hx hx'
  cases m with
  | nan => exact hx.elim
  | inf t =>
    have : t = false := hx
    subst this
    cases m' with
    | nan => exact hx'.elim
    | inf t' =>
      have : t' = false := hx'
      subst this
      rfl
    | fin q => cases s <;> cases s' <;> cases b <;> simp [Fz.val, flip, Fl.neg] at h
  | fin q =>
    cases m' with
    | nan => exact hx'.elim
    | inf t' => cases s <;> cases s' <;> cases b <;> simp [Fz.val, flip, Fl.neg] at h
    | fin q' =>
      have h1 := hx.1
      have h2 := hx'.1
      have : q' = q := by
        cases s <;> cases s' <;> cases b <;> simp [Fz.val, flip, Fl.neg] at h <;> linarith
      rw [this]

theorem sign_of_flip {x x' : Fz} {b : Bool} (hx : NumF F x) (hx' : NumF F x') (h : x'.val = flip b x.val) (hz : x.mag ≠ .fin 0) :
    x'.neg = (x.neg ^^ b) := by
  have hm := mag_of_flip hx hx' h
  obtain ⟨s, m⟩ := x
  obtain ⟨s', m'⟩ := x'
  dsimp only at hm hz
  subst hm
  unfold NumF at hx
  cases m' with
  | nan => exact hx.elim
  | inf t => cases s <;> cases s' <;> cases b <;> simp_all [Fz.val, flip, Fl.neg]
  | fin q =>
    have hq : q ≠ 0 := fun e => hz (by rw [e])
    have h1 := hx.1
    have h2 : 0 < q := lt_of_le_of_ne h1 (Ne.symm hq)
    cases s <;> cases s' <;> cases b <;> simp [Fz.val, flip, Fl.neg] at h ⊢ <;> linarith

theorem parity_erase' (b : Nat → Bool) (l : List Nat) (i : Nat) (hi : i < l.length) :
    parity b (l.eraseIdx i) = (parity b l ^^ b l[i]) := by
  have := parity_erase (R := Nat) (o := ⟨0, 0, fun _ _ => 0, fun _ _ => 0, fun _ => 0, b, fun _ _ => 0, fun _ _ => false,
    fun _ _ => false, fun _ => false, fun _ => false⟩) l i hi
  exact this.symm

theorem fold_map_sign (q : Nat → Fz) (l : List Nat) :
    (l.map q).foldl (fun s x => s ^^ (opsFz F).sign x) false = parity (fun v => (q v).neg) l := by
  rw [List.foldl_map]; rfl

theorem parity_xor (a b : Nat → Bool) (l : List Nat) : parity (fun v => a v ^^ b v) l = (parity a l ^^ parity b l) := by
  induction l using List.reverseRecOn with
  | nil => rfl
  | append_singleton l x ih =>
    rw [parity_append, parity_append, parity_append, ih]
    cases parity a l <;> cases parity b l <;> cases a x <;> cases b x <;> rfl

theorem parity_congr {a b : Nat → Bool} {l : List Nat} (h : ∀ v ∈ l, a v = b v) : parity a l = parity b l := by
  induction l using List.reverseRecOn with
  | nil => rfl
  | append_singleton l x ih =>
    rw [parity_append, parity_append, ih fun v hv => h v (by simp [hv]), h x (by simp)]

/-- A message of a check, from the messages it receives. -/
theorem fromChk_eq {H : Mat} {f : Fz → Fz} (hf : Corr F f) {c v : Nat} (hv : v ∈ vars H c) (hn : (vars H c).Nodup) {q : Nat → Fz}
    (hq : ∀ u ∈ vars H c, NumF F (q u)) :
    ∃ r s : ℚ, minOther (opsFz F) ((vars H c).map q) ((vars H c).idxOf v) = ⟨false, .fin s⟩ ∧
      (opsFz F).max (opsFz F).zero (f ⟨false, .fin s⟩) = ⟨false, .fin r⟩ ∧ Nn F (.fin r) ∧
      (∀ u ∈ (vars H c).eraseIdx ((vars H c).idxOf v), (q u).mag = .fin 0 → r = 0) ∧
      fromChk (msWith (opsFz F) f) H c q v = ⟨parity (fun u => (q u).neg) ((vars H c).eraseIdx ((vars H c).idxOf v)), .fin r⟩ := by
  have hi := List.idxOf_lt_length_of_mem hv
  have hx : ∀ x ∈ (vars H c).map q, NumF F x := by
    intro x hx
    obtain ⟨u, hu, rfl⟩ := List.mem_map.1 hx
    exact hq u hu
  have e := msWith_eval (lawful_fz F) f (xs := (vars H c).map q) (fun x h => (hx x h).isNum) (i := (vars H c).idxOf v) (by simpa using hi)
  rw [List.getElem_map, List.getElem_idxOf] at e
  obtain ⟨s, e1, s0, s1, s2, s3⟩ := min_spec (F := F) (((vars H c).map q).eraseIdx ((vars H c).idxOf v))
    fun x h => hx x (List.mem_of_mem_eraseIdx h)
  obtain ⟨r, r1, r2, r3, r4⟩ := hf s s0 s1 s2
  refine ⟨r, s, e1, r1, ⟨r2, r4, lt_of_le_of_lt r3 s2⟩, ?_, ?_⟩
  · intro u hu hz
    have := s3 (q u) (by rw [List.eraseIdx_map]; exact List.mem_map_of_mem hu) hz
    linarith
  · unfold fromChk
    rw [e]
    unfold minOther
    rw [e1, r1]
    unfold signOther
    rw [List.eraseIdx_map, fold_map_sign]
    rfl

theorem mem_eraseIdx_ne {l : List Nat} {v u : Nat} (hu : u ∈ l.eraseIdx (l.idxOf v)) : u ∈ l := List.mem_of_mem_eraseIdx hu

/-- The rule of a check commutes with the flips of a codeword. -/
theorem chk_sym {H : Mat} {f : Fz → Fz} (hf : Corr F f) {c v : Nat} (hv : v ∈ vars H c) (hn : (vars H c).Nodup) {b : Nat → Bool}
    (hb : parity b (vars H c) = false) {q q' : Nat → Fz} (hq : ∀ u ∈ vars H c, NumF F (q u)) (hq' : ∀ u ∈ vars H c, NumF F (q' u))
    (h : ∀ u ∈ vars H c, (q' u).val = flip (b u) (q u).val) :
    NumF F (fromChk (msWith (opsFz F) f) H c q v) ∧ IsFin (fromChk (msWith (opsFz F) f) H c q v).val ∧
    NumF F (fromChk (msWith (opsFz F) f) H c q' v) ∧ IsFin (fromChk (msWith (opsFz F) f) H c q' v).val ∧
      (fromChk (msWith (opsFz F) f) H c q' v).val = flip (b v) (fromChk (msWith (opsFz F) f) H c q v).val := by
  have hi := List.idxOf_lt_length_of_mem hv
  obtain ⟨r, s, m1, m2, m3, m4, m5⟩ := fromChk_eq hf hv hn hq
  obtain ⟨r', s', m1', m2', m3', m4', m5'⟩ := fromChk_eq hf hv hn hq'
  have hmin : minOther (opsFz F) ((vars H c).map q') ((vars H c).idxOf v) = minOther (opsFz F) ((vars H c).map q) ((vars H c).idxOf v) := by
    unfold minOther
    rw [List.eraseIdx_map, List.eraseIdx_map, List.foldl_map, List.foldl_map]
    refine List.foldl_ext _ _ _ fun a u hu => ?_
    have hu' := mem_eraseIdx_ne hu
    show (opsFz F).min a ⟨false, (q' u).mag⟩ = (opsFz F).min a ⟨false, (q u).mag⟩
    rw [mag_of_flip (hq u hu') (hq' u hu') (h u hu')]
  rw [m1, m1'] at hmin
  cases hmin
  rw [m2] at m2'
  cases m2'
  have hfin : ∀ s : Bool, IsFin (Fz.val ⟨s, .fin r⟩) := by intro s; cases s <;> trivial
  rw [m5, m5']
  refine ⟨m3, hfin _, m3, hfin _, ?_⟩
  by_cases hr : r = 0
  · subst hr
    generalize parity _ _ = s1
    generalize parity _ _ = s2
    cases s1 <;> cases s2 <;> cases b v <;> simp [Fz.val, flip, Fl.neg]
  · have e : parity (fun u => (q' u).neg) ((vars H c).eraseIdx ((vars H c).idxOf v)) =
        (parity (fun u => (q u).neg) ((vars H c).eraseIdx ((vars H c).idxOf v)) ^^ b v) := by
      rw [parity_congr (b := fun u => (q u).neg ^^ b u), parity_xor, parity_erase' b _ _ hi, hb, List.getElem_idxOf, Bool.false_xor]
      intro u hu
      have hu' := mem_eraseIdx_ne hu
      exact sign_of_flip (hq u hu') (hq' u hu') (h u hu') fun hz => hr (m4 u hu hz)
    rw [e]
    generalize parity _ _ = s1
    cases s1 <;> cases b v <;> simp [Fz.val, flip, Fl.neg]

/-- A check whose messages have the signs of a codeword sends messages with these signs. -/
theorem chk_agree {H : Mat} {f : Fz → Fz} (hf : Corr F f) {c v : Nat} (hv : v ∈ vars H c) (hn : (vars H c).Nodup) {b : Nat → Bool}
    (hb : parity b (vars H c) = false) {q : Nat → Fz} (hq : ∀ u ∈ vars H c, Nn F (flip (b u) (q u).val)) (hm : ∀ u ∈ vars H c, NumF F (q u)) :
    NumF F (fromChk (msWith (opsFz F) f) H c q v) ∧ Nn F (flip (b v) (fromChk (msWith (opsFz F) f) H c q v).val) ∧
      IsFin (fromChk (msWith (opsFz F) f) H c q v).val := by
  have hval : ∀ u ∈ vars H c, (q u).val = flip (b u) (Fz.val ⟨false, (q u).mag⟩) := by
    intro u hu
    have h1 := hq u hu
    have h2 := hm u hu
    unfold NumF at h2
    clear hq hm
    generalize q u = x at h1 h2 ⊢
    generalize b u = bu at h1 ⊢
    obtain ⟨s, m⟩ := x
    cases m with
    | nan => exact h2.elim
    | inf t =>
      have : t = false := h2
      subst this
      cases s <;> cases bu <;> simp_all [Fz.val, flip, Fl.neg, Nn]
    | fin p =>
      have h3 := h2.1
      have h4 : s ≠ bu → p = 0 := by
        intro hne
        cases s <;> cases bu <;> simp_all [Fz.val, flip, Fl.neg, Nn] <;> linarith [h1.1]
      by_cases hne : s = bu
      · subst hne; cases s <;> rfl
      · rw [h4 hne]; cases s <;> cases bu <;> simp [Fz.val, flip, Fl.neg]
  obtain ⟨s1, s2, s3, s4, s5⟩ := chk_sym hf hv hn hb (q := fun u => ⟨false, (q u).mag⟩) (q' := q) hm hm hval
  refine ⟨s3, ?_, s4⟩
  rw [s5, flip_flip]
  obtain ⟨r, s, m1, m2, m3, m4, m5⟩ := fromChk_eq hf hv hn (q := fun u => ⟨false, (q u).mag⟩) hm
  rw [m5]
  have : parity (fun _ => false) ((vars H c).eraseIdx ((vars H c).idxOf v)) = false := by
    generalize (vars H c).eraseIdx _ = l
    induction l using List.reverseRecOn with
    | nil => rfl
    | append_singleton l x ih => rw [parity_append, ih]; rfl
  rw [this]
  exact m3

end Verif.LDPCBP
