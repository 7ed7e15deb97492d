import Verif.Proof.PolarSCLSafe

/-! # Recovery: the types -/

namespace Verif.PolarSCL
open Verif.Polar
open Verif.PolarSC (Fns soft zip3 Sound VotesInt VotesFl int8 int16 flt dbl Pos saturate gInt fInt gFl sound_int8 sound_int16 sound_flt sound_dbl votesInt_iff votesFl_iff of_pos wrap)

variable {R : Type} {w : Nat} {F : Fns R w} {A : Ar R} {m : Nat} {y : List R} {L : Nat} {V : R → Bool → Prop}

/-- A vote for a bit. -/
def vB (Votes : R → BitVec w → Prop) (r : R) (b : Bool) : Prop := Votes r (if b then 1 else 0)

theorem keeps_of_sound {Votes : R → BitVec w → Prop} (S : Sound F Votes) (hg : ∀ a b, F.g a b (bitInit w) = F.g a b 1) : Keeps F (vB Votes) := by
  have hx : ∀ p q : Bool, ((if p then 1 else 0) ^^^ (if q then 1 else 0) : BitVec w) = if xor p q then 1 else 0 := by
    intro p q; cases p <;> cases q <;> simp
  have hb : ∀ p : Bool, ((if p then 1 else 0 : BitVec w) = 0) ∨ ((if p then 1 else 0 : BitVec w) = 1) := by
    intro p; cases p <;> simp
  refine ⟨?_, ?_⟩
  · intro a b p q h1 h2
    have := S.f h1 h2 (hb p) (hb q)
    rw [hx] at this
    exact this
  · intro a b p q h1 h2
    unfold vB at h1
    rw [← hx] at h1
    have := S.g h1 h2 (hb p) (hb q)
    cases p
    · exact this
    · simp only [if_true] at this ⊢
      rw [hg]; exact this

/-! ## Exact metrics -/

variable {B : Int} {num : R → Int → Prop} {rep : Bool → R → Int → Prop}

theorem cost_true (E : Exact F A B num rep) (K : Keeps F V) (link : ∀ {l z b}, num l z → V l b → pen z b = 0 ∧ 0 < pen z (!b)) {z : List Int} (hn : List.Forall₂ num y z) (hz : z.length = 2 ^ m)
    (hB : tot z ≤ B) {u : List Bool} (hu : u.length = 2 ^ m) (hy : List.Forall₂ V y (boolT m u)) : ∀ (i : Nat), i ≤ 2 ^ m → costZ m z (u.take i) = 0
  | 0, _ => costZ_nil _ _
  | i + 1, hi => by
    rw [List.take_succ_eq_append_getElem (by omega), costZ_snoc (by simp; omega), cost_true E K link hn hz hB hu hy i (by omega)]
    have h1 := soft_num E hn hB hz (u := u.take i) (by simp; omega)
    have h2 := soft_votes K (i := i) hu (by omega) hy
    rw [List.length_take, Nat.min_eq_left (by omega)] at h1
    rw [(link h1 h2).1]; rfl

theorem cost_other (E : Exact F A B num rep) (K : Keeps F V) (link : ∀ {l z b}, num l z → V l b → pen z b = 0 ∧ 0 < pen z (!b)) {z : List Int} (hn : List.Forall₂ num y z) (hz : z.length = 2 ^ m)
    (hB : tot z ≤ B) {u : List Bool} (hu : u.length = 2 ^ m) (hy : List.Forall₂ V y (boolT m u)) (q : List Bool) : q.length ≤ 2 ^ m → q ≠ u.take q.length → 0 < costZ m z q := by
  induction q using List.reverseRecOn with
  | nil => intro _ h; exact absurd rfl h
  | append_singleton q b ih =>
    intro hq hne
    rw [List.length_append, List.length_singleton] at hq hne
    rw [costZ_snoc (by omega)]
    have p0 := pen_nonneg (softZ m z q) b
    by_cases h : q = u.take q.length
    · have c0 := costZ_nonneg m z q
      have h1 := soft_num E hn hB hz (u := q) (by omega)
      have h2 := soft_votes K (i := q.length) hu (by omega) hy
      rw [← h] at h2
      have hb : b = !(u[q.length]'(by omega)) := by
        have : b ≠ u[q.length]'(by omega) := by
          intro e
          apply hne
          rw [List.take_succ_eq_append_getElem (by omega), ← h, e]
        revert this; cases b <;> cases u[q.length]'(by omega) <;> simp
      have := (link h1 h2).2
      rw [← hb] at this
      omega
    · have := ih (by omega) h
      omega

theorem Lists.true_exact (E : Exact F A B num rep) (K : Keeps F V) (link : ∀ {l z b}, num l z → V l b → pen z b = 0 ∧ 0 < pen z (!b)) {z : List Int} (hn : List.Forall₂ num y z) (hz : z.length = 2 ^ m)
    (hB : tot z ≤ B) {u : List Bool} (hu : u.length = 2 ^ m) (hy : List.Forall₂ V y (boolT m u)) {fr : List Bool} {W : List (List Bool × R)} (h : Lists F A m y L fr W) (hfr : fr.length ≤ 2 ^ m)
    (hfz : ∀ i : Nat, fr[i]? = some true → u[i]? = some false) : ∃ mu, (u.take fr.length, mu) ∈ W := by
  induction h with
  | start => exact ⟨A.init, by simp⟩
  | @frozen fr W hW ih =>
    rw [List.length_append, List.length_singleton] at hfr ⊢
    obtain ⟨mu, h⟩ := ih (by omega) (fun i hi => hfz i (by rw [List.getElem?_append_left (List.getElem?_eq_some_iff.1 hi).1]; exact hi))
    have hui : u[fr.length]? = some false := hfz fr.length (by simp)
    have he : (extend F A m y false (u.take fr.length, mu)).1 = u.take (fr.length + 1) := by
      unfold extend
      rw [List.take_succ, hui]; rfl
    rw [← he]
    exact ⟨_, norm_mem.2 ⟨_, List.mem_map.2 ⟨_, h, rfl⟩, rfl⟩⟩
  | @info fr W hW _ ih =>
    rw [List.length_append, List.length_singleton] at hfr ⊢
    obtain ⟨mu, h⟩ := ih (by omega) (fun i hi => hfz i (by rw [List.getElem?_append_left (List.getElem?_eq_some_iff.1 hi).1]; exact hi))
    have he : (extend F A m y (u[fr.length]'(by omega)) (u.take fr.length, mu)).1 = u.take (fr.length + 1) := by
      unfold extend
      rw [List.take_succ_eq_append_getElem (by omega)]
    rw [← he]
    exact ⟨_, pairs_mem.2 ⟨_, h, u[fr.length]'(by omega), rfl⟩⟩
  | @prune fr W kept dropped hW _ hperm hlen hbest ih =>
    rw [List.length_append, List.length_singleton] at hfr ⊢
    obtain ⟨mu, h⟩ := ih (by omega) (fun i hi => hfz i (by rw [List.getElem?_append_left (List.getElem?_eq_some_iff.1 hi).1]; exact hi))
    have he : (extend F A m y (u[fr.length]'(by omega)) (u.take fr.length, mu)).1 = u.take (fr.length + 1) := by
      unfold extend
      rw [List.take_succ_eq_append_getElem (by omega)]
    have hmem := hperm.mem_iff.2 (pairs_mem.2 ⟨_, h, u[fr.length]'(by omega), rfl⟩)
    rcases List.mem_append.1 hmem with hm | hm
    · exact ⟨_, by rw [← he]; exact hm⟩
    · exfalso
      rcases hkp : kept with _ | ⟨q, kept'⟩
      · rw [hkp] at hlen
        exact hW.ne (List.length_eq_zero_iff.1 hlen.symm)
      · have hqk : q ∈ kept := by rw [hkp]; simp
        have hnd := (hperm.map Prod.fst).nodup_iff.2 (pairs_nodup hW.nodup)
        rw [List.map_append] at hnd
        have hdis := List.disjoint_of_nodup_append hnd
        have hqt : q.1 ≠ u.take (fr.length + 1) := fun e => hdis (List.mem_map_of_mem (f := Prod.fst) hqk) (by rw [e, ← he]; exact List.mem_map.2 ⟨_, hm, rfl⟩)
        have hb := hbest q hqk _ hm
        obtain ⟨k, o, ho, hc⟩ := hW.cost E hn hz hB (by omega)
        obtain ⟨a1, a2, a3⟩ := hW.ext_cost E hn hz hB (by omega) ho hc _ h (u[fr.length]'(by omega))
        obtain ⟨q', hq', b, rfl⟩ := pairs_mem.1 (hperm.subset (List.mem_append_left _ hqk))
        obtain ⟨b1, b2, b3⟩ := hW.ext_cost E hn hz hB (by omega) ho hc _ hq' b
        have hlen' : (extend F A m y b q').1.length = fr.length + 1 := by
          unfold extend
          simp [hW.len hq']
        rw [he] at a1 a2 a3
        rw [cost_true E K link hn hz hB hu hy _ (by omega)] at a1 a2 a3
        have := cost_other E K link hn hz hB hu hy (extend F A m y b q').1 (by omega) (by rw [hlen']; exact hqt)
        have := (E.lt a3 b3 (by omega) (by omega) (by omega) (by omega)).2 (by omega)
        rw [hb] at this
        cases this
  | perm _ hp ih =>
    obtain ⟨mu, h⟩ := ih hfr hfz
    exact ⟨mu, hp.mem_iff.1 h⟩

/-! ## What is chosen -/

/-- The path `u` is the only best one of the list. -/
def Wins (A : Ar R) (W : List (List Bool × R)) (u : List Bool) : Prop := ∃ mu, (u, mu) ∈ W ∧ ∀ p ∈ W, p.1 ≠ u → A.lt mu p.2 = true

theorem wins_chosen {W : List (List Bool × R)} {u v : List Bool} (h : Wins A W u) {crc : Option (List (BitVec w) → Bool)} {sys : Bool} {frozen : List Bool} (hc : Chosen A crc sys frozen m W v)
    (hp : ∀ check, crc = some check → check (seen sys frozen m u) = true) : v = u := by
  obtain ⟨mu, h1, h2⟩ := h
  obtain ⟨nu, c1, c2⟩ := hc
  by_contra hne
  have hlt := h2 _ c1 hne
  cases hcrc : crc with
  | none =>
    rw [hcrc] at c2
    have := c2 _ h1
    rw [hlt] at this
    cases this
  | some check =>
    rw [hcrc] at c2
    have := (c2 _ h1 (hp check hcrc)).2
    rw [hlt] at this
    cases this

theorem wins_robust (hA : Strict A) {D : R → Prop} {t : Bool → R} {O : Bool → R → Prop} {free : Bool} (S : Robust F A V D t O free) {u : List Bool} (hu : u.length = 2 ^ m)
    (hy : List.Forall₂ V y (boolT m u)) {fr : List Bool} {W : List (List Bool × R)} (h : Lists F A m y L fr W) (hfr : fr.length = 2 ^ m) (hz : ∀ i : Nat, fr[i]? = some true → u[i]? = some false)
    (h0 : free = true ∨ fr[0]? = some true) : Wins A W u := by
  obtain ⟨k, _, h1, h2⟩ := h.robust hA S hu hy (by omega) hz (h0.imp id fun h f hf => by rw [h] at hf; exact (Option.some.inj hf).symm)
  rw [List.take_of_length_le (by omega)] at h1 h2
  exact ⟨_, h1, fun p hp hne => S.lt (h2 p hp hne)⟩

theorem wins_exact (E : Exact F A B num rep) (K : Keeps F V) (link : ∀ {l z b}, num l z → V l b → pen z b = 0 ∧ 0 < pen z (!b)) {z : List Int} (hn : List.Forall₂ num y z) (hz : z.length = 2 ^ m)
    (hB : tot z ≤ B) {u : List Bool} (hu : u.length = 2 ^ m) (hy : List.Forall₂ V y (boolT m u)) {fr : List Bool} {W : List (List Bool × R)} (h : Lists F A m y L fr W) (hfr : fr.length = 2 ^ m)
    (hfz : ∀ i : Nat, fr[i]? = some true → u[i]? = some false) : Wins A W u := by
  obtain ⟨mu, h1⟩ := h.true_exact E K link hn hz hB hu hy (by omega) hfz
  rw [List.take_of_length_le (by omega)] at h1
  refine ⟨mu, h1, fun p hp hne => ?_⟩
  have hl := h.len hp
  have hb := h.best E hn hz hB (by omega) hp h1
  have c0 := cost_true E K link hn hz hB hu hy (2 ^ m) (by omega)
  rw [List.take_of_length_le (by omega)] at c0
  have c1 := cost_other E K link hn hz hB hu hy p.1 (by omega) (by rw [List.take_of_length_le (by omega)]; exact hne)
  by_contra hlt
  rw [Bool.not_eq_true] at hlt
  have := hb.1 hlt
  dsimp only at this
  omega

/-! ## The types -/

theorem one_ne (hw : 0 < w) : (1 : BitVec w) ≠ 0 := by
  intro e
  have := congrArg (fun v : BitVec w => v.toNat) e
  simp at this
  omega

theorem vB_int {b : Nat} {x : Int} {c : Bool} (hw : 0 < w) : vB (VotesInt (w := w) b) x c ↔ -2 ^ (b - 1) < x ∧ x < 2 ^ (b - 1) ∧ (c = false → 0 < x) ∧ (c = true → x < 0) := by
  unfold vB VotesInt
  have h1 := one_ne hw
  cases c
  · simp
  · simp [hw.ne']

/-- Metrics of the other paths, for `int8_t`. -/
def other8 (k : Bool) (r : Int) : Prop := (if k then 1 else -127) ≤ r ∧ r ≤ 63

theorem robust_int8 : Robust int8 ar8 (vB (VotesInt (w := 8) 8)) (fun x => |x| ≤ 63) (fun k => if k then 0 else -128) other8 false := by
  have ph : ∀ (mu l : Int) (b : Bool), -128 ≤ mu → mu + |l| ≤ 127 → ar8.phi mu l b = min (mu + pen l b) 63 := by
    intro mu l b h1 h2
    show saturate (phiInt 8 mu l b) (-128) 63 = _
    rw [phiInt_eq (by decide) (by norm_num; omega) (by norm_num; omega)]
    have := pen_nonneg l b
    unfold saturate
    omega
  refine { toKeeps := keeps_of_sound sound_int8 (fun a b => rfl), fD := ?_, gD := ?_, init := rfl, phi_t := ?_, phi_o := ?_, phi_O := ?_, lt := ?_, max := ?_, sub_t := ?_, sub_O := ?_ }
  · intro a b ha hb
    show |fInt 8 a b| ≤ 63
    rw [(PolarSC.C73_functions_int 8 (Or.inl rfl) 63 a b (by norm_num; omega) (by norm_num; omega) (by decide) (0 : BitVec 8) (by decide)).1, sign_fZ]
    unfold fZ
    have := abs_nonneg a
    have := abs_nonneg b
    split
    · rw [abs_of_nonneg (by omega)]; omega
    · rw [abs_neg, abs_of_nonneg (by omega)]; omega
  · intro a b v
    show |gInt 63 a b v| ≤ 63
    unfold gInt saturate
    rw [abs_le]
    omega
  · intro k l b h
    obtain ⟨h1, h2, h3, h4⟩ := (vB_int (by decide)).1 h
    norm_num at h1 h2
    have hl := abs_cases l
    have hpen : pen l b = 0 := by unfold pen; cases b <;> simp at * <;> omega
    cases k
    · show ar8.phi (-128) l b = -128
      rw [ph _ _ _ (by omega) (by omega), hpen]; rfl
    · show ar8.phi 0 l b = 0
      rw [ph _ _ _ (by omega) (by omega), hpen]; rfl
  · intro k l b h
    obtain ⟨h1, h2, h3, h4⟩ := (vB_int (by decide)).1 h
    norm_num at h1 h2
    have hl := abs_cases l
    have hpen : pen l b = |l| ∧ 1 ≤ |l| := by unfold pen; cases b <;> simp only [Bool.not_false, Bool.not_true, Bool.true_eq_false, Bool.false_eq_true, if_true, if_false, true_implies, false_implies] at * <;> omega
    unfold other8
    cases k
    · show _ ≤ ar8.phi (-128) l b ∧ _
      rw [show (if false = true then (0 : Int) else -128) = -128 from rfl, ph _ _ _ (by omega) (by omega), hpen.1]
      simp only [Bool.false_eq_true, if_false]
      omega
    · show _ ≤ ar8.phi 0 l b ∧ _
      rw [show (if true = true then (0 : Int) else -128) = 0 from rfl, ph _ _ _ (by omega) (by omega), hpen.1]
      simp only [if_true]
      omega
  · intro k mu l b h hD
    unfold other8 at *
    have hp := pen_nonneg l b
    have : -128 ≤ mu := by revert h; cases k <;> simp <;> omega
    rw [ph _ _ _ this (by omega)]
    omega
  · intro k mu h
    unfold other8 at h
    show decide (_ < mu) = true
    rw [decide_eq_true_eq]
    cases k <;> simp at * <;> omega
  · intro k
    cases k <;> rfl
  · intro k
    cases k <;> decide
  · intro k mu hk h
    have : k = true := by simpa using hk
    subst this
    unfold other8 at *
    simp only [if_true] at *
    show 1 ≤ wrap 8 (mu - 0) ∧ wrap 8 (mu - 0) ≤ 63
    rw [wrap_id (by decide) (by norm_num; omega) (by norm_num; omega)]
    omega

theorem link_int {b : Nat} (hw : 0 < w) {l z : Int} {c : Bool} (h1 : l = z) (h2 : vB (VotesInt (w := w) b) l c) : pen z c = 0 ∧ 0 < pen z (!c) := by
  subst h1
  obtain ⟨_, _, h3, h4⟩ := (vB_int hw).1 h2
  unfold pen
  cases c <;> simp at * <;> omega

section
open Verif.Float

theorem vB_fl {e : Int} {x : Fl} {c : Bool} (hw : 0 < w) : vB (VotesFl (w := w) e) x c ↔ Pos e (if c then x.neg else x) := by
  have h1 := one_ne hw
  unfold vB
  rw [votesFl_iff h1 (by cases c <;> simp)]
  cases c <;> simp [hw.ne']

variable {G : Fmt}

theorem pos_lt {e : Int} {q : ℚ} (hq : q < 2 ^ e) {x : Fl} (h : Pos e x) : Fl.lt (.fin q) x = true := by
  cases x with
  | fin p => simp only [Pos] at h; simp only [Fl.lt, decide_eq_true_eq]; linarith
  | inf s => simp only [Pos] at h; subst h; rfl
  | nan => exact h.elim

/-- Adding to a metric something positive. -/
theorem add_up {e : Int} (he : G.emin ≤ e) {mu l : Fl} {q : ℚ} (hq : 0 ≤ q) (hmu : mu = .fin q ∨ Pos e mu) (hl : Fl.lt (.fin 0) l = true) (hpos : Pos e mu ∨ Pos e l) : Pos e (G.add mu l) := by
  cases l with
  | nan => simp [Fl.lt] at hl
  | inf s =>
    have : s = false := by simpa [Fl.lt] using hl
    subst this
    cases mu with
    | nan => rcases hmu with h | h <;> simp [Pos] at h
    | inf s =>
      rcases hmu with h | h
      · cases h
      · simp only [Pos] at h; subst h; rfl
    | fin p => rfl
  | fin p =>
    have hp : 0 < p := by simpa [Fl.lt] using hl
    cases mu with
    | nan => rcases hmu with h | h <;> simp [Pos] at h
    | inf s =>
      rcases hmu with h | h
      · cases h
      · exact h
    | fin r =>
      show Pos e (G.of (r + p))
      apply of_pos he
      have hr : 0 ≤ r := by
        rcases hmu with h | h
        · injection h with h; rw [h]; exact hq
        · simp only [Pos] at h; have := two_zpow_pos e; linarith
      rcases hpos with h | h
      · simp only [Pos] at h; linarith
      · simp only [Pos] at h; linarith

theorem robust_fl {F : Fns Fl w} {A : Ar Fl} {e i : Int} (hw : 0 < w) (he : G.emin ≤ e - 1) (hi : i < e - 1) (hmax : i < G.emax - G.p) (hm0 : (0 : ℤ) ≤ G.emax - G.p)
    (hS : Sound F (VotesFl (w := w) e)) (hg : F.g = gFl G) (hphi : A.phi = phiFl G) (hlt : A.lt = Fl.lt) (hsub : A.sub = fun x y => G.add x y.neg) (hin : A.init = .fin (2 ^ i))
    (hmx : A.max = .fin ((2 ^ G.p - 1) * 2 ^ (G.emax - G.p))) :
    Robust F A (vB (VotesFl (w := w) e)) (fun _ => True) (fun k => if k then .fin 0 else .fin (2 ^ i)) (fun k x => Pos (if k then e - 1 else e) x) true := by
  have h2i := two_zpow_pos i
  have hie : (2 : ℚ) ^ i < 2 ^ (e - 1) := zpow_lt_zpow_right₀ (by norm_num) hi
  have hee : (2 : ℚ) ^ (e - 1) * 2 = 2 ^ e := by rw [← zpow_add_one₀ (by norm_num)]; congr 1; omega
  have hpe := two_zpow_pos (e - 1)
  have posmono : ∀ {x : Fl}, Pos e x → Pos (e - 1) x := by
    intro x h
    cases x with
    | fin q => simp only [Pos] at *; linarith
    | inf s => exact h
    | nan => exact h
  have posgt : ∀ {x : Fl}, Pos e x → Fl.lt (.fin 0) x = true := fun h => pos_lt (two_zpow_pos e) h
  have ltneg : ∀ {x : Fl}, Pos e x.neg → Fl.lt x (.fin 0) = true := by
    intro x h
    cases x with
    | fin q => simp only [Pos, Fl.neg] at h; simp only [Fl.lt, decide_eq_true_eq]; linarith
    | inf s => simp only [Pos, Fl.neg] at h; simpa [Fl.lt] using h
    | nan => exact h.elim
  have noboth : ∀ {x : Fl}, Pos e x → Fl.lt x (.fin 0) = false := by
    intro x h
    cases x with
    | fin q => simp only [Pos] at h; simp only [Fl.lt, decide_eq_false_iff_not]; linarith
    | inf s => simp only [Pos] at h; simpa [Fl.lt] using h
    | nan => exact h.elim
  have noboth' : ∀ {x : Fl}, Pos e x.neg → Fl.lt (.fin 0) x = false := by
    intro x h
    cases x with
    | fin q => simp only [Pos, Fl.neg] at h; simp only [Fl.lt, decide_eq_false_iff_not]; linarith
    | inf s => simp only [Pos, Fl.neg] at h; simpa [Fl.lt] using h
    | nan => exact h.elim
  have neglt : ∀ {x : Fl}, Fl.lt x (.fin 0) = true → Fl.lt (.fin 0) x.neg = true := by
    intro x h
    cases x with
    | fin q => simp only [Fl.lt, Fl.neg, decide_eq_true_eq] at *; linarith
    | inf s => simpa [Fl.lt, Fl.neg] using h
    | nan => simp [Fl.lt] at h
  have hp1 : (1 : ℚ) ≤ 2 ^ G.p - 1 := by
    have : (2 : ℚ) ^ 1 ≤ 2 ^ G.p := pow_le_pow_right₀ (by norm_num) G.pos
    linarith
  refine { toKeeps := keeps_of_sound hS (fun a b => ?_), fD := fun _ _ _ _ => trivial, gD := fun _ _ _ => trivial, init := hin, phi_t := ?_, phi_o := ?_, phi_O := ?_, lt := ?_, max := ?_, sub_t := ?_, sub_O := ?_ }
  · rw [hg]
    unfold gFl
    have h1 := one_ne hw
    rw [if_neg (bitInit_ne hw), if_neg h1]
  · intro k l b h
    rw [vB_fl hw] at h
    rw [hphi]
    unfold phiFl
    cases b
    · simp only [Bool.false_eq_true, if_false] at h
      simp [noboth h]
    · simp only [if_true] at h
      simp [noboth' h]
  · intro k l b h
    rw [vB_fl hw] at h
    rw [hphi]
    have key : ∀ l' : Fl, Pos e l' → Pos (if k then e - 1 else e) (G.add (if k then .fin 0 else .fin (2 ^ i)) l') := by
      intro l' h'
      cases k
      · exact add_up (q := 2 ^ i) (by simp only [Bool.false_eq_true, if_false]; omega) h2i.le (Or.inl rfl) (posgt h') (Or.inr h')
      · exact add_up (q := 0) (by simp only [if_true]; omega) le_rfl (Or.inl rfl) (posgt h') (Or.inr (posmono h'))
    cases b
    · simp only [Bool.not_false, if_true] at h
      have e0 : ∀ mu, phiFl G mu l false = G.add mu l.neg := fun mu => if_pos ⟨rfl, ltneg h⟩
      rw [e0]
      exact key _ h
    · simp only [Bool.not_true, Bool.false_eq_true, if_false] at h
      have e0 : ∀ mu, phiFl G mu l true = G.add mu l := fun mu => (if_neg (by simp)).trans (if_pos ⟨rfl, posgt h⟩)
      rw [e0]
      exact key _ h
  · intro k mu l b h _
    rw [hphi]
    have hk : G.emin ≤ (if k then e - 1 else e) := by cases k <;> simp <;> omega
    have hc : phiFl G mu l b = mu ∨ ∃ l', Fl.lt (.fin 0) l' = true ∧ phiFl G mu l b = G.add mu l' := by
      unfold phiFl
      split
      · rename_i hc
        exact Or.inr ⟨_, neglt hc.2, rfl⟩
      · split
        · rename_i hc
          exact Or.inr ⟨_, hc.2, rfl⟩
        · exact Or.inl rfl
    rcases hc with hc | ⟨l', h1, hc⟩
    · rw [hc]; exact h
    · rw [hc]; exact add_up (q := 0) hk le_rfl (Or.inr h) h1 (Or.inl h)
  · intro k mu h
    rw [hlt]
    cases k
    · exact pos_lt (e := e) (by linarith) h
    · exact pos_lt (e := e - 1) hpe h
  · intro k
    rw [hlt, hmx]
    have hM := two_zpow_pos (G.emax - G.p)
    cases k
    · have : (2 : ℚ) ^ i < 2 ^ (G.emax - G.p) := zpow_lt_zpow_right₀ (by norm_num) hmax
      simp only [Bool.false_eq_true, if_false, Fl.lt, decide_eq_true_eq]
      nlinarith
    · simp only [if_true, Fl.lt, decide_eq_true_eq]
      nlinarith
  · intro k
    rw [hsub]
    cases k
    · show G.of (2 ^ i + -2 ^ i) = .fin 0
      rw [add_neg_cancel, of_zero]
    · show G.of (0 + -0) = .fin 0
      rw [add_neg_cancel, of_zero]
  · intro k mu _ h
    rw [hsub]
    show Pos (e - 1) (G.add mu _)
    cases mu with
    | nan => exact h.elim
    | inf s =>
      simp only [Pos] at h
      subst h
      cases k <;> rfl
    | fin q =>
      cases k
      · simp only [Bool.false_eq_true, if_false, Pos] at h
        show Pos (e - 1) (G.of (q + -2 ^ i))
        exact of_pos he (by linarith)
      · simp only [if_true, Pos] at h
        show Pos (e - 1) (G.of (q + -0))
        exact of_pos he (by linarith)

theorem robust_flt : Robust flt arFlt (vB (VotesFl (w := 32) (-74))) (fun _ => True) (fun k => if k then .fin 0 else .fin (2 ^ (-126 : ℤ))) (fun k x => Pos (if k then -74 - 1 else -74) x) true :=
  robust_fl (G := b32) (by decide) (by decide) (by decide) (by decide) (by decide) sound_flt rfl rfl rfl rfl rfl rfl

theorem robust_dbl : Robust dbl arDbl (vB (VotesFl (w := 64) (-537))) (fun _ => True) (fun k => if k then .fin 0 else .fin (2 ^ (-1022 : ℤ))) (fun k x => Pos (if k then -537 - 1 else -537) x) true :=
  robust_fl (G := b64) (by decide) (by decide) (by decide) (by decide) (by decide) sound_dbl rfl rfl rfl rfl rfl rfl

end

end Verif.PolarSCL
