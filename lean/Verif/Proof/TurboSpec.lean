import Verif.Spec.TurboDec
import Verif.Proof.BCJRMain

/-! # Iterative decoding on integers: existence of the runs, and recovery -/

namespace Verif.Turbo
open Verif.RSC Verif.BCJR

/-- What the constructors of the encoders check of the polynomials. -/
structure Code.Ok (c : Code) : Prop where
  m : 0 < c.m
  g0 : c.g0.testBit c.m = true
  g1 : c.g1.testBit c.m = true

theorem sym01 {bf : Bool} {m g0 g1 K : Nat} {x : List Int} (hx : IsCodeword bf m g0 g1 K x) (j : Nat) : sym x j = 0 ∨ sym x j = 1 := by
  unfold sym
  rw [List.getD_eq_getElem?_getD]
  cases e : x[j]? with
  | none => simp
  | some v => exact codeword_bits hx v (List.mem_of_getElem? e)

theorem sym_eq {x : List Int} {j : Nat} {b : Int} (h : x[j]? = some b) : sym x j = b := by
  unfold sym
  rw [List.getD_eq_getElem?_getD, h]
  rfl

section
variable {c : Code} {K : Nat} {s p : Nat → Int}

theorem maxlog_exists (hc : c.Ok) {t : Nat} (ht : t < K) : ∃ h, MaxLog true c.m c.g0 c.g1 K s p t h := by
  obtain ⟨z0, h0⟩ := corrs_max (both (bf := true) (s := s) (p := p) hc.m hc.g0 hc.g1 ht false)
  obtain ⟨z1, h1⟩ := corrs_max (both (bf := true) (s := s) (p := p) hc.m hc.g0 hc.g1 ht true)
  obtain ⟨g, hg⟩ := maxlog_of (j := sysPos true t) h0 h1
  exact ⟨g, z0, z1, h0, h1, hg.symm⟩

theorem corr_abs {x : List Int} (hx : IsCodeword true c.m c.g0 c.g1 K x) {M : Int} (hM : ∀ t, t < K + c.m → |s t| + |p t| ≤ M) :
    |corr true (K + c.m) s p x| ≤ (K + c.m) * M := by
  unfold corr
  refine (Finset.abs_sum_le_sum_abs _ _).trans ?_
  have h : ∀ t ∈ Finset.range (K + c.m), |(1 - 2 * sym x (sysPos true t)) * s t + (1 - 2 * sym x (parPos true (K + c.m) t)) * p t| ≤ M := by
    intro t ht
    have a := hM t (Finset.mem_range.1 ht)
    refine (abs_add_le _ _).trans (le_trans (le_of_eq ?_) a)
    rw [abs_mul, abs_mul]
    rcases sym01 hx (sysPos true t) with e | e <;> rcases sym01 hx (parPos true (K + c.m) t) with e' | e' <;> rw [e, e'] <;> norm_num
  refine (Finset.sum_le_sum h).trans ?_
  simp

theorem maxlog_bound {M : Int} (hM : ∀ t, t < K + c.m → |s t| + |p t| ≤ M) {t : Nat} {h : Int} (hh : MaxLog true c.m c.g0 c.g1 K s p t h) :
    |h| ≤ (K + c.m) * M := by
  obtain ⟨z0, z1, ⟨⟨x0, c0, _, rfl⟩, _⟩, ⟨⟨x1, c1, _, rfl⟩, _⟩, e⟩ := hh
  have h0 := abs_le.1 (corr_abs c0 hM)
  have h1 := abs_le.1 (corr_abs c1 hM)
  rw [abs_le]
  constructor <;> omega

theorem maxlog_dvd {D : Int} (hs : ∀ t, t < K + c.m → D ∣ s t ∧ D ∣ p t) {t : Nat} {h : Int} (hh : MaxLog true c.m c.g0 c.g1 K s p t h) : D ∣ h := by
  obtain ⟨z0, z1, ⟨⟨x0, c0, _, rfl⟩, _⟩, ⟨⟨x1, c1, _, rfl⟩, _⟩, e⟩ := hh
  have h1 : corr true (K + c.m) s p x0 - corr true (K + c.m) s p x1 = 2 * ∑ t ∈ Finset.range (K + c.m),
      ((sym x1 (sysPos true t) - sym x0 (sysPos true t)) * s t + (sym x1 (parPos true (K + c.m) t) - sym x0 (parPos true (K + c.m) t)) * p t) := by
    unfold corr
    rw [← Finset.sum_sub_distrib, Finset.mul_sum]
    exact Finset.sum_congr rfl fun t _ => by ring
  have h2 : h = ∑ t ∈ Finset.range (K + c.m),
      ((sym x1 (sysPos true t) - sym x0 (sysPos true t)) * s t + (sym x1 (parPos true (K + c.m) t) - sym x0 (parPos true (K + c.m) t)) * p t) := by omega
  rw [h2]
  apply Finset.dvd_sum
  intro t ht
  have := hs t (Finset.mem_range.1 ht)
  exact dvd_add (Dvd.dvd.mul_left this.1 _) (Dvd.dvd.mul_left this.2 _)

/-- Signs agree weakly with a codeword. -/
def Agrees (c : Code) (K : Nat) (x : List Int) (s p : Nat → Int) : Prop :=
  (∀ t, t < K + c.m → 0 ≤ (1 - 2 * sym x t) * s t) ∧ ∀ t, t < K + c.m → 0 ≤ (1 - 2 * sym x (K + c.m + t)) * p t

theorem corr_flip {x x' : List Int} (hx : IsCodeword true c.m c.g0 c.g1 K x) (hx' : IsCodeword true c.m c.g0 c.g1 K x') (ha : Agrees c K x s p)
    {i : Nat} (hi : i < K) (hne : sym x' i = 1 - sym x i) :
    corr true (K + c.m) s p x' + 2 * ((1 - 2 * sym x i) * s i) ≤ corr true (K + c.m) s p x := by
  have hle : ∀ (j : Nat) (v : Int), 0 ≤ (1 - 2 * sym x j) * v → (1 - 2 * sym x' j) * v ≤ (1 - 2 * sym x j) * v := by
    intro j v hv
    rcases sym01 hx j with e | e <;> rcases sym01 hx' j with e' | e' <;> rw [e] at hv ⊢ <;> rw [e'] <;> omega
  unfold corr
  rw [← Finset.sum_erase_add _ _ (Finset.mem_range.2 (show i < K + c.m by omega)),
    ← Finset.sum_erase_add _ _ (Finset.mem_range.2 (show i < K + c.m by omega))]
  have h1 : ∑ t ∈ (Finset.range (K + c.m)).erase i, ((1 - 2 * sym x' (sysPos true t)) * s t + (1 - 2 * sym x' (parPos true (K + c.m) t)) * p t)
      ≤ ∑ t ∈ (Finset.range (K + c.m)).erase i, ((1 - 2 * sym x (sysPos true t)) * s t + (1 - 2 * sym x (parPos true (K + c.m) t)) * p t) := by
    apply Finset.sum_le_sum
    intro t ht
    have ht := Finset.mem_range.1 (Finset.mem_of_mem_erase ht)
    exact add_le_add (hle _ _ (ha.1 t ht)) (hle _ _ (ha.2 t ht))
  have h2 := hle (parPos true (K + c.m) i) (p i) (ha.2 i (by omega))
  have h3 : (1 - 2 * sym x' (sysPos true i)) * s i = -((1 - 2 * sym x i) * s i) := by
    show (1 - 2 * sym x' i) * s i = _
    rw [hne]
    ring
  have h4 : (1 - 2 * sym x (sysPos true i)) * s i = (1 - 2 * sym x i) * s i := rfl
  rw [h3, h4]
  linarith

/-- The posterior LLR is at least as reliable as the input. -/
theorem maxlog_signs {x : List Int} (hx : IsCodeword true c.m c.g0 c.g1 K x) (ha : Agrees c K x s p) {i : Nat} (hi : i < K) {h : Int}
    (hh : MaxLog true c.m c.g0 c.g1 K s p i h) : (1 - 2 * sym x i) * s i ≤ (1 - 2 * sym x i) * h := by
  obtain ⟨z0, z1, ⟨⟨x0, c0, e0, rfl⟩, u0⟩, ⟨⟨x1, c1, e1, rfl⟩, u1⟩, e⟩ := hh
  have hl : i < x.length := by rw [hx.1]; omega
  have hxi := List.getElem?_eq_getElem hl
  rcases codeword_bits hx _ (List.mem_of_getElem? hxi) with hb | hb <;> rw [hb] at hxi
  · have h1 := u0 ⟨x, hx, hxi, rfl⟩
    have h2 := corr_flip hx c1 ha hi (by rw [sym_eq e1, sym_eq hxi]; rfl)
    rw [sym_eq hxi] at h2 ⊢
    omega
  · have h1 := u1 ⟨x, hx, hxi, rfl⟩
    have h2 := corr_flip hx c0 ha hi (by rw [sym_eq e0, sym_eq hxi]; rfl)
    rw [sym_eq hxi] at h2 ⊢
    omega

end

/-- The scaling keeps the signs. -/
def Post.KeepsSigns : Post → Prop
  | .scale f => ∀ b ite x x', f b ite x = some x' → (0 ≤ x → 0 ≤ x') ∧ (x ≤ 0 → x' ≤ 0)
  | .crc _ _ => True

section
variable {K : Nat} {lim : Int} {ite : Nat} {L : Nat → Int} {ps : List Post} {e e' : Nat → Int} {u : Nat → Int}

theorem keep_sign {x x' b : Int} (hb : b = 0 ∨ b = 1) (h : (0 ≤ x → 0 ≤ x') ∧ (x ≤ 0 → x' ≤ 0)) (hx : 0 ≤ (1 - 2 * b) * x) : 0 ≤ (1 - 2 * b) * x' := by
  rcases hb with rfl | rfl
  · have := h.1 (by omega)
    omega
  · have := h.2 (by omega)
    omega

theorem signs_of {h : Nat → Int} (hu : ∀ t, t < K → u t = 0 ∨ u t = 1) (hs : ∀ t, t < K → 0 < (1 - 2 * u t) * h t) :
    signs K h = (List.range K).map u := by
  unfold signs
  apply List.map_congr_left
  intro t ht
  have ht := List.mem_range.1 ht
  have := hs t ht
  rcases hu t ht with e | e <;> rw [e] at this ⊢
  · rw [if_neg (by omega)]
  · rw [if_pos (by omega)]

theorem postN_signs {o : Option (List Int)} (h : PostN K lim ite L ps e e' o) (hu : ∀ t, t < K → u t = 0 ∨ u t = 1) (hps : ∀ q ∈ ps, q.KeepsSigns)
    (hL : ∀ t, t < K → 0 < (1 - 2 * u t) * L t) (he : ∀ t, t < K → 0 ≤ (1 - 2 * u t) * e t) :
    (∀ t, t < K → 0 ≤ (1 - 2 * u t) * e' t) ∧ ∀ v, o = some v → v = (List.range K).map u := by
  induction h with
  | nil => exact ⟨he, fun v h => by cases h⟩
  | scale h1 _ ih =>
    exact ih (fun q hq => hps q (List.mem_cons_of_mem _ hq)) fun t ht => keep_sign (hu t ht) (hps _ (List.mem_cons_self ..) _ _ _ _ (h1 t ht).1) (he t ht)
  | stop h1 h2 =>
    refine ⟨he, fun v h => ?_⟩
    injection h with h
    rw [← h]
    exact signs_of hu fun t ht => by
      rw [mul_add]
      have := hL t ht
      have := he t ht
      omega
  | go _ _ ih => exact ih (fun q hq => hps q (List.mem_cons_of_mem _ hq)) he

theorem postI_signs (h : PostI K lim ite L ps e e') (hu : ∀ t, t < K → u t = 0 ∨ u t = 1) (hps : ∀ q ∈ ps, q.KeepsSigns)
    (he : ∀ t, t < K → 0 ≤ (1 - 2 * u t) * e t) : ∀ t, t < K → 0 ≤ (1 - 2 * u t) * e' t := by
  induction h with
  | nil => exact he
  | scale h1 _ ih =>
    exact ih (fun q hq => hps q (List.mem_cons_of_mem _ hq)) fun t ht => keep_sign (hu t ht) (hps _ (List.mem_cons_self ..) _ _ _ _ (h1 t ht).1) (he t ht)
  | crc _ ih => exact ih (fun q hq => hps q (List.mem_cons_of_mem _ hq)) he

end

section
variable {cn ci : Code} {K : Nat} {π ρ : Nat → Nat} {M lim : Int} {ps : List Post} {r : Rx} {nIte : Nat}

theorem half_signs {c : Code} {x : List Int} {s p a h : Nat → Int} (hx : IsCodeword true c.m c.g0 c.g1 K x) (hag : Agrees c K x s p)
    (hst : ∀ t, t < K → 0 < (1 - 2 * sym x t) * s t) (ha : ∀ t, t < K → 0 ≤ (1 - 2 * sym x t) * a t) (hh : Half c K M (plus K s a) p h) :
    (∀ t, t < K → 0 < (1 - 2 * sym x t) * plus K s a t) ∧ ∀ t, t < K → 0 ≤ (1 - 2 * sym x t) * (h t - plus K s a t) := by
  have h1 : ∀ t, t < K → 0 < (1 - 2 * sym x t) * plus K s a t := by
    intro t ht
    unfold plus
    rw [if_pos ht, mul_add]
    have := hst t ht
    have := ha t ht
    omega
  refine ⟨h1, fun t ht => ?_⟩
  have h2 := maxlog_signs hx (s := plus K s a) (p := p) ⟨fun t ht => ?_, hag.2⟩ ht (hh.2 t ht)
  · rw [mul_sub]
    omega
  · by_cases hk : t < K
    · exact (h1 t hk).le
    · unfold plus
      rw [if_neg hk]
      exact hag.1 t ht

/-- LLRs of the signs of a turbo codeword are decoded to its message. -/
theorem run_recovery {xn xi : List Int} (hxn : IsCodeword true cn.m cn.g0 cn.g1 K xn) (hxi : IsCodeword true ci.m ci.g0 ci.g1 K xi)
    (hπ : ∀ k, k < K → sym xi k = sym xn (π k)) (hlt : ∀ k, k < K → π k < K) (hρ : ∀ k, k < K → ρ k < K ∧ π (ρ k) = k)
    (hn : Agrees cn K xn r.sn r.pn) (hi : Agrees ci K xi r.si r.pi) (sn : ∀ t, t < K → 0 < (1 - 2 * sym xn t) * r.sn t)
    (si : ∀ t, t < K → 0 < (1 - 2 * sym xi t) * r.si t) (hps : ∀ q ∈ ps, q.KeepsSigns) {ite : Nat} {a : Nat → Int} {v : List Int}
    (hr : Run cn ci K π M lim ps r nIte ite a v) (ha : ∀ t, t < K → 0 ≤ (1 - 2 * sym xn t) * a t) : v = (List.range K).map (sym xn) := by
  have un : ∀ t, t < K → sym xn t = 0 ∨ sym xn t = 1 := fun t _ => sym01 hxn t
  have ui : ∀ t, t < K → sym xi t = 0 ∨ sym xi t = 1 := fun t _ => sym01 hxi t
  induction hr with
  | stop _ hh hp =>
    obtain ⟨h1, h2⟩ := half_signs hxn hn sn ha hh
    exact (postN_signs hp un hps h1 h2).2 _ rfl
  | @last a h e b h' e' v hh hp hb hh' hp' hl hv =>
    obtain ⟨h1, h2⟩ := half_signs hxn hn sn ha hh
    have h3 := (postN_signs hp un hps h1 h2).1
    have h4 : ∀ t, t < K → 0 ≤ (1 - 2 * sym xi t) * b t := fun t ht => by rw [hb t ht, hπ t ht]; exact h3 _ (hlt t ht)
    obtain ⟨h5, h6⟩ := half_signs hxi hi si h4 hh'
    have h7 := postI_signs hp' ui hps h6
    apply List.ext_getElem?
    intro j
    by_cases hj : j < K
    · obtain ⟨g1, g2⟩ := hρ j hj
      have := hv (ρ j) g1
      rw [g2] at this
      rw [this, getElem?_mapRange, if_pos hj]
      have k1 := h5 _ g1
      have k2 := h7 _ g1
      have k3 : sym xi (ρ j) = sym xn j := by rw [hπ _ g1, g2]
      rw [k3] at k1 k2
      rcases un j hj with e | e <;> rw [e] at k1 k2 ⊢
      · rw [if_neg (by omega)]
      · rw [if_pos (by omega)]
    · rw [List.getElem?_eq_none (by omega), List.getElem?_eq_none (by simp; omega)]
  | @step ite a h e b h' e' a' v _ hh hp hb hh' hp' ha' _ ih =>
    obtain ⟨h1, h2⟩ := half_signs hxn hn sn ha hh
    have h3 := (postN_signs hp un hps h1 h2).1
    have h4 : ∀ t, t < K → 0 ≤ (1 - 2 * sym xi t) * b t := fun t ht => by rw [hb t ht, hπ t ht]; exact h3 _ (hlt t ht)
    obtain ⟨h5, h6⟩ := half_signs hxi hi si h4 hh'
    have h7 := postI_signs hp' ui hps h6
    refine ih fun t ht => ?_
    obtain ⟨g1, g2⟩ := hρ t ht
    have k2 := h7 _ g1
    rw [← ha' _ g1, hπ _ g1, g2] at k2
    exact k2

/-- The scaling is defined on the multiples of `w`, and does not increase the LLRs by more than one. -/
def Post.Total (w : Int) : Post → Prop
  | .scale f => ∀ b ite x j, w ^ (j + 1) ∣ x → ∃ x', f b ite x = some x' ∧ |x'| ≤ |x| + 1 ∧ w ^ j ∣ x'
  | .crc _ _ => True

/-- Multiples of `w ^ j` bounded by `B`. -/
def Bd (K : Nat) (w : Int) (j : Nat) (B : Int) (e : Nat → Int) : Prop := ∀ t, t < K → |e t| ≤ B ∧ w ^ j ∣ e t

theorem pow_dvd_of {w x : Int} {i j : Nat} (h : w ^ j ∣ x) (hij : i ≤ j) : w ^ i ∣ x := dvd_trans (pow_dvd_pow w hij) h

theorem postN_exists {w : Int} {ite : Nat} {L : Nat → Int} {l : Int} (hL : ∀ t, t < K → |L t| ≤ l) :
    ∀ {ps : List Post} {e : Nat → Int} {B : Int} {j : Nat}, (∀ q ∈ ps, q.Total w) → Bd K w (j + ps.length) B e → B + ps.length + l ≤ lim → 0 ≤ l →
      ∃ e' o, PostN K lim ite L ps e e' o ∧ Bd K w j (B + ps.length) e' := by
  intro ps
  induction ps with
  | nil => exact fun {e B j} _ he _ _ => ⟨e, none, .nil, fun t ht => by simpa using he t ht⟩
  | cons q ps ih =>
    intro e B j hq he hB hl
    simp only [List.length_cons] at hB he ⊢
    push_cast at hB ⊢
    cases q with
    | scale f =>
      have ht := hq _ (List.mem_cons_self ..)
      choose! g hg using fun t (ht' : t < K) => ht false ite (e t) (j + ps.length) (he t ht').2
      obtain ⟨e', o, h1, h2⟩ := ih (e := g) (B := B + 1) (j := j) (fun q h => hq q (List.mem_cons_of_mem _ h)) (fun t ht => by
        have := (hg t ht).2
        have := (he t ht).1
        exact ⟨by omega, (hg t ht).2.2⟩) (by omega) hl
      refine ⟨e', o, .scale (fun t ht => ⟨(hg t ht).1, ?_⟩) h1, fun t ht => ⟨by have := (h2 t ht).1; omega, (h2 t ht).2⟩⟩
      have a1 := (hg t ht).2.1
      have a2 := (he t ht).1
      have a3 := hL t ht
      have a4 := abs_add_le (g t) (L t)
      constructor <;> omega
    | crc start chk =>
      by_cases hs : start ≤ ite ∧ chk (signs K fun t => e t + L t) = true
      · exact ⟨e, _, .stop hs.1 hs.2, fun t ht => ⟨by have := (he t ht).1; omega, pow_dvd_of (he t ht).2 (by omega)⟩⟩
      · obtain ⟨e', o, h1, h2⟩ := ih (e := e) (B := B) (j := j) (fun q h => hq q (List.mem_cons_of_mem _ h))
          (fun t ht => ⟨(he t ht).1, pow_dvd_of (he t ht).2 (by omega)⟩) (by omega) hl
        exact ⟨e', o, .go hs h1, fun t ht => ⟨by have := (h2 t ht).1; omega, (h2 t ht).2⟩⟩

theorem postI_exists {w : Int} {ite : Nat} {L : Nat → Int} {l : Int} (hL : ∀ t, t < K → |L t| ≤ l) :
    ∀ {ps : List Post} {e : Nat → Int} {B : Int} {j : Nat}, (∀ q ∈ ps, q.Total w) → Bd K w (j + ps.length) B e → B + ps.length + l ≤ lim → 0 ≤ l →
      ∃ e', PostI K lim ite L ps e e' ∧ Bd K w j (B + ps.length) e' := by
  intro ps
  induction ps with
  | nil => exact fun {e B j} _ he _ _ => ⟨e, .nil, fun t ht => by simpa using he t ht⟩
  | cons q ps ih =>
    intro e B j hq he hB hl
    simp only [List.length_cons] at hB he ⊢
    push_cast at hB ⊢
    cases q with
    | scale f =>
      have ht := hq _ (List.mem_cons_self ..)
      choose! g hg using fun t (ht' : t < K) => ht true ite (e t) (j + ps.length) (he t ht').2
      obtain ⟨e', h1, h2⟩ := ih (e := g) (B := B + 1) (j := j) (fun q h => hq q (List.mem_cons_of_mem _ h)) (fun t ht => by
        have := (hg t ht).2
        have := (he t ht).1
        exact ⟨by omega, (hg t ht).2.2⟩) (by omega) hl
      refine ⟨e', .scale (fun t ht => ⟨(hg t ht).1, ?_⟩) h1, fun t ht => ⟨by have := (h2 t ht).1; omega, (h2 t ht).2⟩⟩
      have a1 := (hg t ht).2.1
      have a2 := (he t ht).1
      have a3 := hL t ht
      have a4 := abs_add_le (g t) (L t)
      constructor <;> omega
    | crc start chk =>
      obtain ⟨e', h1, h2⟩ := ih (e := e) (B := B) (j := j) (fun q h => hq q (List.mem_cons_of_mem _ h))
        (fun t ht => ⟨(he t ht).1, pow_dvd_of (he t ht).2 (by omega)⟩) (by omega) hl
      exact ⟨e', .crc h1, fun t ht => ⟨by have := (h2 t ht).1; omega, (h2 t ht).2⟩⟩

/-- Received LLRs: multiples of `w ^ J`, bounded by `Y`. -/
def Obs (n : Nat) (w : Int) (J : Nat) (Y : Int) (s p : Nat → Int) : Prop := ∀ t, t < n → |s t| + |p t| ≤ Y ∧ w ^ J ∣ s t ∧ w ^ J ∣ p t

/-- A half iteration from LLRs bounded by `F`. -/
theorem half_exists {c : Code} (hc : c.Ok) {w : Int} {J j : Nat} {s p a : Nat → Int} {Y E F : Int} (hs : Obs (K + c.m) w J Y s p) (ha : Bd K w j E a)
    (hj : j ≤ J) (hF : Y + E ≤ F) (h0 : 0 ≤ E) (hM : F ≤ M) :
    ∃ h, Half c K M (plus K s a) p h ∧ (∀ t, t < K → |plus K s a t| ≤ F) ∧ Bd K w j ((K + c.m + 1) * F) fun t => h t - plus K s a t := by
  have hb : ∀ t, t < K + c.m → |plus K s a t| + |p t| ≤ F := by
    intro t ht
    have := (hs t ht).1
    unfold plus
    split
    next hk =>
      have := (ha t hk).1
      have := abs_add_le (s t) (a t)
      omega
    · omega
  have hd : ∀ t, t < K + c.m → w ^ j ∣ plus K s a t ∧ w ^ j ∣ p t := by
    intro t ht
    refine ⟨?_, pow_dvd_of (hs t ht).2.2 hj⟩
    unfold plus
    split
    next hk => exact dvd_add (pow_dvd_of (hs t ht).2.1 hj) (ha t hk).2
    · exact pow_dvd_of (hs t ht).2.1 hj
  choose! h hh using fun t (ht : t < K) => maxlog_exists (s := plus K s a) (p := p) hc ht
  have hp : ∀ t, t < K → |plus K s a t| ≤ F := fun t ht => by
    have := hb t (by omega)
    have := abs_nonneg (p t)
    omega
  refine ⟨h, ⟨fun t ht => (hb t ht).trans hM, hh⟩, hp, fun t ht => ⟨?_, dvd_sub (maxlog_dvd hd (hh t ht)) (hd t (by omega)).1⟩⟩
  have h1 := maxlog_bound hb (hh t ht)
  have h2 := hp t ht
  have h3 := abs_sub (h t) (plus K s a t)
  show |h t - plus K s a t| ≤ _
  rw [add_mul, one_mul]
  omega

/-- Every half iteration multiplies the bound of the LLRs by at most this. -/
def growth (cn ci : Code) (K n : Nat) : Int := K + max cn.m ci.m + n + 2

theorem growth_ge {c cn ci : Code} {n : Nat} {F : Int} (hc : c.m ≤ max cn.m ci.m) (hF : 1 ≤ F) :
    (K + c.m + 1) * F + n + F ≤ growth cn ci K n * F := by
  unfold growth
  have h1 : (c.m : Int) * F ≤ (max cn.m ci.m : Nat) * F := mul_le_mul_of_nonneg_right (by exact_mod_cast hc) (by omega)
  have h2 : (n : Int) * 1 ≤ n * F := mul_le_mul_of_nonneg_left hF (by omega)
  push_cast at h1 ⊢
  linarith

theorem iteration_exists (hcn : cn.Ok) (hci : ci.Ok) {w : Int} (hps : ∀ q ∈ ps, q.Total w) (hlt : ∀ k, k < K → π k < K) {J j : Nat} {Y : Int} (hY : 0 ≤ Y)
    (hn : Obs (K + cn.m) w J Y r.sn r.pn) (hi : Obs (K + ci.m) w J Y r.si r.pi) {ite : Nat} {a : Nat → Int} {E F : Int}
    (hite : ite ≤ nIte) (ha : Bd K w (j + 2 * ps.length) E a) (hj : j + 2 * ps.length ≤ J) (hE : 0 ≤ E) (hF : Y + 1 + E ≤ F)
    (hM : F * growth cn ci K ps.length ^ 2 ≤ M) (hlim : M ≤ lim) :
    (∃ v, Run cn ci K π M lim ps r nIte ite a v) ∨ ∃ h e b h' e' E', Half cn K M (plus K r.sn a) r.pn h ∧
      PostN K lim ite (plus K r.sn a) ps (fun t => h t - plus K r.sn a t) e none ∧ (∀ t, t < K → b t = e (π t)) ∧
      Half ci K M (plus K r.si b) r.pi h' ∧ PostI K lim ite (plus K r.si b) ps (fun t => h' t - plus K r.si b t) e' ∧
      Bd K w j E' e' ∧ 0 ≤ E' ∧ Y + 1 + E' ≤ F * growth cn ci K ps.length ^ 2 := by
  have gn := growth_ge (K := K) (c := cn) (cn := cn) (ci := ci) (n := ps.length) (F := F) (Nat.le_max_left _ _) (by omega)
  have gi := growth_ge (K := K) (c := ci) (cn := cn) (ci := ci) (n := ps.length) (F := growth cn ci K ps.length * F) (Nat.le_max_right _ _)
  generalize hG : growth cn ci K ps.length = G at gn gi hM ⊢
  have hG2 : 2 ≤ G := by rw [← hG]; unfold growth; omega
  have hFG : F ≤ G * F := le_mul_of_one_le_left (by omega) (by omega)
  have hGG : G * F ≤ G * (G * F) := le_mul_of_one_le_left (by omega) (by omega)
  rw [show F * G ^ 2 = G * (G * F) by ring] at hM ⊢
  have gi := gi (by omega)
  have pos : ∀ (c : Code) (X : Int), 0 ≤ X → 0 ≤ (K + c.m + 1) * X := fun c X hX => mul_nonneg (by omega) hX
  have pn := pos cn F (by omega)
  have pi := pos ci (G * F) (by omega)
  rw [show j + 2 * ps.length = j + ps.length + ps.length by omega] at ha
  obtain ⟨h, h1, h2, h3⟩ := half_exists hcn hn ha (F := F) (M := M) (by omega) (by omega) hE (by omega)
  obtain ⟨e, o, h4, h5⟩ := postN_exists (lim := lim) (ite := ite) h2 hps h3 (by omega) (by omega)
  cases o with
  | some v => exact Or.inl ⟨v, .stop hite h1 h4⟩
  | none =>
    right
    obtain ⟨h', k1, k2, k3⟩ := half_exists hci hi (a := fun t => e (π t)) (F := G * F) (M := M) (fun t ht => h5 _ (hlt t ht)) (by omega) (by omega)
      (by omega) (by omega)
    obtain ⟨e', k4, k5⟩ := postI_exists (lim := lim) (ite := ite) k2 hps k3 (by omega) (by omega)
    exact ⟨h, e, fun t => e (π t), h', e', _, h1, h4, fun t _ => rfl, k1, k4, k5, by omega, by omega⟩

theorem run_exists (hcn : cn.Ok) (hci : ci.Ok) {w : Int} (hps : ∀ q ∈ ps, q.Total w) (hlt : ∀ k, k < K → π k < K)
    (hρ : ∀ k, k < K → ρ k < K ∧ π (ρ k) = k ∧ ρ (π k) = k) {Y : Int} {J : Nat} (hY : 0 ≤ Y) (hn : Obs (K + cn.m) w J Y r.sn r.pn)
    (hi : Obs (K + ci.m) w J Y r.si r.pi) :
    ∀ (k ite : Nat) (a : Nat → Int) (E F : Int), ite + k = nIte → Bd K w (2 * ps.length * (k + 1)) E a → 2 * ps.length * (k + 1) ≤ J → 0 ≤ E →
      Y + 1 + E ≤ F → F * growth cn ci K ps.length ^ (2 * k + 2) ≤ M → M ≤ lim → ∃ v, Run cn ci K π M lim ps r nIte ite a v := by
  intro k
  induction k with
  | zero =>
    intro ite a E F hk ha hJ hE hF hM hlim
    have hk : ite = nIte := by omega
    subst hk
    rcases iteration_exists (lim := lim) (nIte := ite) (j := 0) hcn hci hps hlt hY hn hi (Nat.le_refl _) (by simpa using ha) (by omega) hE hF hM hlim with h | h
    · exact h
    · obtain ⟨h, e, b, h', e', E', a1, a2, a3, a4, a5, _⟩ := h
      refine ⟨(List.range K).map fun j => if e' (ρ j) + plus K r.si b (ρ j) < 0 then 1 else 0, .last a1 a2 a3 a4 a5 (by simp) fun t ht => ?_⟩
      rw [getElem?_mapRange, if_pos (hlt t ht), (hρ t ht).2.2]
  | succ k ih =>
    intro ite a E F hk ha hJ hE hF hM hlim
    have hG1 : 1 ≤ growth cn ci K ps.length := by unfold growth; omega
    have hM2 : F * growth cn ci K ps.length ^ 2 ≤ M := by
      refine le_trans ?_ hM
      exact mul_le_mul_of_nonneg_left (pow_le_pow_right₀ hG1 (by omega)) (by omega)
    have e1 : 2 * ps.length * (k + 1 + 1) = 2 * ps.length * (k + 1) + 2 * ps.length := by ring
    rw [e1] at ha hJ
    rcases iteration_exists (lim := lim) (nIte := nIte) (ite := ite) hcn hci hps hlt hY hn hi (by omega) ha hJ hE hF hM2 hlim with h | h
    · exact h
    · obtain ⟨h, e, b, h', e', E', a1, a2, a3, a4, a5, a6, a7, a8⟩ := h
      obtain ⟨v, hv⟩ := ih (ite + 1) (fun j => e' (ρ j)) E' _ (by omega) (fun t ht => a6 _ (hρ t ht).1) (by omega) a7 a8 (by
        refine le_trans (le_of_eq ?_) hM
        rw [mul_assoc, ← pow_add]
        congr 2
        omega) hlim
      exact ⟨v, .step (by omega) a1 a2 a3 a4 a5 (fun t ht => by rw [(hρ t ht).2.2]) hv⟩

end
end Verif.Turbo
