import Verif.Proof.BCJRLink
import Verif.Proof.BCJRSound

/-! # BCJR: decoding of the codewords -/

namespace Verif.BCJR
open Exec Verif.RSC Verif.Float

/-- The decoders that calls can lead to from the constructor. -/
inductive Reach {R D : Type} (A : Arith R D) (fill : R) (K : Int) (T : List (List Int)) (bf : Bool) : Dec R → Prop
  | init {d} : Dec.mk? A fill K T bf = ok d → Reach A fill K T bf d
  | siho {d y r} : Reach A fill K T bf d → d.siho A y = ok r → Reach A fill K T bf r.1
  | sisoAlt {d sys par ext r} : Reach A fill K T bf d → d.sisoAlt A sys par ext = ok r → Reach A fill K T bf r.1
  | siso {d y out r} : Reach A fill K T bf d → d.siso A y out = ok r → Reach A fill K T bf r.1

variable {R D : Type}

theorem Reach.inv {A : Arith R D} {fill : R} {K : Int} {T : List (List Int)} {bf : Bool} {d : Dec R} {m : Nat}
    (hT : ∃ row, T[0]? = some row ∧ row.length = 2 ^ m) (h : Reach A fill K T bf d) : Inv A fill K.toNat (2 ^ m) m bf T d := by
  induction h with
  | init h =>
    obtain ⟨row, h1, h2⟩ := hT
    obtain ⟨row', h1', _, h3, h4⟩ := mk_inv h
    rw [h1] at h1'
    injection h1' with h1'
    subst h1'
    rw [h2] at h3 h4
    have := Nat.pow_right_injective (Nat.le_refl 2) h3
    rw [this] at h4
    exact h4
  | siho _ h ih => exact siho_inv ih h
  | sisoAlt _ h ih => exact (sisoAlt_inv ih h).1
  | siso _ h ih => exact siso_inv ih h

section
variable {bf : Bool} {m g0 g1 K : Nat} {s p : Nat → Int}

theorem maxlog_of {j : Nat} {z0 z1 : Int} (h0 : IsGreatest (Corrs bf m g0 g1 K s p j 0) z0) (h1 : IsGreatest (Corrs bf m g0 g1 K s p j 1) z1) :
    ∃ g, z0 - z1 = 2 * g := by
  obtain ⟨x, _, _, rfl⟩ := h0.1
  obtain ⟨x', _, _, rfl⟩ := h1.1
  exact corr_parity x x'

theorem both (hm : 0 < m) (h0 : g0.testBit m = true) (h1 : g1.testBit m = true) {i : Nat} (hi : i < K) (b : Bool) :
    (Corrs bf m g0 g1 K s p (sysPos bf i) (b2i b)).Nonempty := by
  obtain ⟨x, hx, hu⟩ := codeword_exists (bf := bf) (K := K) hm h0 h1 (fun _ => b)
  exact ⟨_, x, hx, hu i hi, rfl⟩

variable {A : Arith R D} {M B : Int} {W : Nat} (sd : Sound A (m * M) M B) {fill : R} {T : List (List Int)}

/-- What is required of the trellis, of the bounds and of the LLRs. -/
structure Hyp (A : Arith R D) (m g0 g1 K W : Nat) (M B : Int) (T : List (List Int)) (s p : Nat → Int) : Prop where
  hm : 0 < m
  h0 : g0.testBit m = true
  h1 : g1.testBit m = true
  tr : Tr (2 ^ m) T (nxG m g0) (pyB m g0 g1) (prG m) (pbG m g0)
  hM : ∀ t, |s t| + |p t| ≤ M
  hB : (2 * m + (W + 1)) * M ≤ B
  win : ∀ k' k, k' ≤ k → k ≤ K + m → (∀ t, k' < t → t ≤ k → A.nrm t = false) → k - k' ≤ W
  win' : ∀ k' k, k' ≤ k → k ≤ K + m → (∀ t, k' < t → t ≤ k → A.nrm (K + m - t) = false) → k - k' ≤ W

theorem Hyp.fwd (h : Hyp A m g0 g1 K W M B T s p) : Setup (ef (2 ^ m) (nxG m g0) (pyB m g0 g1) s p) (2 ^ m) (K + m) m W (m * M) M B A.nrm :=
  ⟨graph_G h.hm h.hM, by have := h.hm; omega, rfl, h.hB, h.win⟩

theorem Hyp.bwd (h : Hyp A m g0 g1 K W M B T s p) :
    Setup (eb (2 ^ m) (K + m) (nxG m g0) (pyB m g0 g1) s p) (2 ^ m) (K + m) m W (m * M) M B (fun k => A.nrm (K + m - k)) :=
  ⟨(graph_G h.hm h.hM).rev, by have := h.hm; omega, rfl, h.hB, h.win'⟩

include sd

/-- An extrinsic value is the posterior LLR minus the input. -/
theorem ext_sys (h : Hyp A m g0 g1 K W M B T s p) {i : Nat} (hi : i < K + m) (hb : ∀ b, (Corrs bf m g0 g1 K s p (sysPos bf i) (b2i b)).Nonempty)
    {x : R} (hx : ExtOk sd (2 ^ m) (K + m) (nxG m g0) (pyB m g0 g1) s p i selSys (s i) x) :
    ∃ g, x = sd.llr (g - s i) ∧ MaxLog bf m g0 g1 K s p (sysPos bf i) g := by
  obtain ⟨z0, h0⟩ := corrs_max (hb false)
  obtain ⟨z1, h1⟩ := corrs_max (hb true)
  obtain ⟨g, hg⟩ := maxlog_of (j := sysPos bf i) h0 h1
  refine ⟨g, (hx z0 z1 ?_ ?_ g hg).2, z0, z1, h0, h1, hg.symm⟩
  · rw [through_sys h.hm h.h0 h.h1 hi (bf := bf)]; exact h0
  · rw [through_sys h.hm h.h0 h.h1 hi (bf := bf)]; exact h1

theorem ext_par (h : Hyp A m g0 g1 K W M B T s p) {i : Nat} (hi : i < K + m)
    (hb : ∀ b, (Corrs bf m g0 g1 K s p (parPos bf (K + m) i) (b2i b)).Nonempty)
    {x : R} (hx : ExtOk sd (2 ^ m) (K + m) (nxG m g0) (pyB m g0 g1) s p i (pyB m g0 g1) (p i) x) :
    ∃ g, x = sd.llr (g - p i) ∧ MaxLog bf m g0 g1 K s p (parPos bf (K + m) i) g := by
  obtain ⟨z0, h0⟩ := corrs_max (hb false)
  obtain ⟨z1, h1⟩ := corrs_max (hb true)
  obtain ⟨g, hg⟩ := maxlog_of (j := parPos bf (K + m) i) h0 h1
  refine ⟨g, (hx z0 z1 ?_ ?_ g hg).2, z0, z1, h0, h1, hg.symm⟩
  · rw [through_par h.hm h.h0 h.h1 hi (bf := bf)]; exact h0
  · rw [through_par h.hm h.h0 h.h1 hi (bf := bf)]; exact h1

theorem main_alt (h : Hyp A m g0 g1 K W M B T s p) {d : Dec R} {bf' : Bool} (hd : Inv A fill K (2 ^ m) m bf' T d) {sys par ext : List R}
    (hs : ∀ t, t < K + m → sys[t]? = some (sd.llr (s t))) (hp : ∀ t, t < K + m → par[t]? = some (sd.llr (p t)))
    (he : ext.length = K) :
    (d.sisoAlt A sys par ext).Sat fun r => r.2.length = K ∧
      ∀ i, i < K → ∃ g, r.2[i]? = some (sd.llr (g - s i)) ∧ MaxLog bf m g0 g1 K s p (sysPos bf i) g := by
  refine (sisoAlt_sat sd hd h.tr h.fwd h.bwd (fun t _ => h.hM t) hs hp (by omega)).mono ?_
  rintro r ⟨h1, _, h3⟩
  refine ⟨by omega, fun i hi => ?_⟩
  obtain ⟨x, hx, hx'⟩ := h3 i hi
  obtain ⟨g, rfl, hg⟩ := ext_sys (bf := bf) sd h (by omega) (fun b => both h.hm h.h0 h.h1 hi b) hx'
  exact ⟨g, hx, hg⟩

theorem main_siso (h : Hyp A m g0 g1 K W M B T s p) {d : Dec R} (hd : Inv A fill K (2 ^ m) m true T d) (hmK : m ≤ K) {y out : List R}
    (hs : ∀ t, t < K + m → y[t]? = some (sd.llr (s t))) (hp : ∀ t, t < K + m → y[K + m + t]? = some (sd.llr (p t)))
    (he : out.length = 2 * (K + m)) :
    (d.siso A y out).Sat fun r => r.2.length = 2 * (K + m) ∧ ∀ i, i < K + m →
      ((∀ b, (Corrs true m g0 g1 K s p i (b2i b)).Nonempty) →
        ∃ g, r.2[i]? = some (sd.llr (g - s i)) ∧ MaxLog true m g0 g1 K s p i g) ∧
      ((∀ b, (Corrs true m g0 g1 K s p (K + m + i) (b2i b)).Nonempty) →
        ∃ g, r.2[K + m + i]? = some (sd.llr (g - p i)) ∧ MaxLog true m g0 g1 K s p (K + m + i) g) := by
  refine (siso_sat sd hd rfl h.tr h.fwd h.bwd hmK (fun t _ => h.hM t) hs hp he).mono ?_
  rintro r ⟨h1, h2, h3⟩
  refine ⟨h1, fun i hi => ⟨fun hb => ?_, fun hb => ?_⟩⟩
  · obtain ⟨x, hx, hx'⟩ := h2 i hi
    obtain ⟨g, rfl, hg⟩ := ext_sys (bf := true) sd h hi hb hx'
    exact ⟨g, hx, hg⟩
  · obtain ⟨x, hx, hx'⟩ := h3 i hi
    obtain ⟨g, rfl, hg⟩ := ext_par (bf := true) sd h hi hb hx'
    exact ⟨g, hx, hg⟩

theorem main_siho (h : Hyp A m g0 g1 K W M B T s p) {d : Dec R} (hd : Inv A fill K (2 ^ m) m bf T d) {y : List R} (hy : y.length = 2 * (K + m))
    (hs : ∀ t, t < K + m → y[sysPos bf t]? = some (sd.llr (s t)))
    (hp : ∀ t, t < K + m → ¬(bf = true ∧ K ≤ t) → y[parPos bf (K + m) t]? = some (sd.llr (p t)))
    (hpt : ∀ t, t < K + m → bf = true → K ≤ t → fill = sd.llr (p t)) :
    (d.siho A y).Sat fun r => r.2.length = K ∧ ∀ i, i < K → ∃ g, MaxLog bf m g0 g1 K s p (sysPos bf i) g ∧
      r.2[i]? = some (if g < 0 then 1 else 0) := by
  refine (siho_sat sd hd h.tr h.fwd h.bwd (fun t _ => h.hM t) hy hs hp hpt ?_ ?_).mono ?_
  · intro i z0 z1 hi g0' g1'
    rw [through_sys h.hm h.h0 h.h1 (by omega) (bf := bf)] at g0' g1'
    exact maxlog_of g0' g1'
  · intro i hi
    rw [through_sys h.hm h.h0 h.h1 (by omega) (bf := bf), through_sys h.hm h.h0 h.h1 (by omega) (bf := bf)]
    obtain ⟨z0, h0⟩ := corrs_max (both (s := s) (p := p) (bf := bf) h.hm h.h0 h.h1 hi false)
    obtain ⟨z1, h1⟩ := corrs_max (both (s := s) (p := p) (bf := bf) h.hm h.h0 h.h1 hi true)
    exact ⟨z0, z1, h0, h1⟩
  · rintro r ⟨h1, h2⟩
    refine ⟨h1, fun i hi => ?_⟩
    obtain ⟨z0, h0⟩ := corrs_max (both (s := s) (p := p) (bf := bf) h.hm h.h0 h.h1 hi false)
    obtain ⟨z1, h1⟩ := corrs_max (both (s := s) (p := p) (bf := bf) h.hm h.h0 h.h1 hi true)
    obtain ⟨g, hg⟩ := maxlog_of (j := sysPos bf i) h0 h1
    refine ⟨g, ⟨z0, z1, h0, h1, hg.symm⟩, ?_⟩
    rw [h2 i hi z0 z1 (by rw [through_sys h.hm h.h0 h.h1 (by omega) (bf := bf)]; exact h0)
      (by rw [through_sys h.hm h.h0 h.h1 (by omega) (bf := bf)]; exact h1)]
    by_cases hlt : g < 0
    · rw [if_pos hlt, if_pos (by omega)]
    · rw [if_neg hlt, if_neg (by omega)]

end

/-- The decisions are the message of the only best codeword. -/
theorem ml_decision {bf : Bool} {m g0 g1 K : Nat} {s p : Nat → Int} {x : List Int} (hx : IsCodeword bf m g0 g1 K x)
    (hu : ∀ x', IsCodeword bf m g0 g1 K x' → x' ≠ x → corr bf (K + m) s p x' < corr bf (K + m) s p x) {i : Nat} (hi : i < K) {g : Int}
    (hg : MaxLog bf m g0 g1 K s p (sysPos bf i) g) : x[sysPos bf i]? = some (if g < 0 then 1 else 0) := by
  obtain ⟨z0, z1, ⟨⟨x0, c0, e0, rfl⟩, u0⟩, ⟨⟨x1, c1, e1, rfl⟩, u1⟩, h⟩ := hg
  have hl : sysPos bf i < x.length := by rw [hx.1]; exact sysPos_lt (by omega)
  have e := List.getElem?_eq_getElem hl
  have hb := codeword_bits hx _ (List.mem_of_getElem? e)
  rcases hb with hb | hb <;> rw [hb] at e
  · have h1 := u0 ⟨x, hx, e, rfl⟩
    have h2 : x1 ≠ x := by rintro rfl; rw [e] at e1; cases e1
    have := hu x1 c1 h2
    rw [e, if_neg (by omega)]
  · have h1 := u1 ⟨x, hx, e, rfl⟩
    have h2 : x0 ≠ x := by rintro rfl; rw [e] at e0; cases e0
    have := hu x0 c0 h2
    rw [e, if_pos (by omega)]

/-- LLRs of the signs of a codeword make it the only best one. -/
theorem ml_of_signs {bf : Bool} {m g0 g1 K : Nat} (hm : 0 < m) (h0 : g0.testBit m = true) {s p : Nat → Int} {x : List Int}
    (hx : IsCodeword bf m g0 g1 K x)
    (h1 : ∀ t, t < K → 0 < (1 - 2 * sym x (sysPos bf t)) * s t) (h2 : ∀ t, t < K + m → 0 ≤ (1 - 2 * sym x (sysPos bf t)) * s t)
    (h3 : ∀ t, t < K + m → 0 ≤ (1 - 2 * sym x (parPos bf (K + m) t)) * p t) :
    ∀ x', IsCodeword bf m g0 g1 K x' → x' ≠ x → corr bf (K + m) s p x' < corr bf (K + m) s p x := by
  intro x' hx' hne
  have hb : ∀ {x}, IsCodeword bf m g0 g1 K x → ∀ j, sym x j = 0 ∨ sym x j = 1 := by
    intro x hx j
    unfold sym
    rw [List.getD_eq_getElem?_getD]
    cases e : x[j]? with
    | none => simp
    | some v => exact codeword_bits hx v (List.mem_of_getElem? e)
  have hd : ∃ k, k < K ∧ x'[sysPos bf k]? ≠ x[sysPos bf k]? := by
    by_contra hc
    push Not at hc
    exact hne (codeword_unique hm h0 hx' hx hc)
  obtain ⟨k, hk, hkne⟩ := hd
  have hsk : sym x' (sysPos bf k) ≠ sym x (sysPos bf k) := by
    intro e
    apply hkne
    have l1 : sysPos bf k < x.length := by rw [hx.1]; exact sysPos_lt (by omega)
    have l2 : sysPos bf k < x'.length := by rw [hx'.1]; exact sysPos_lt (by omega)
    rw [List.getElem?_eq_getElem l1, List.getElem?_eq_getElem l2]
    unfold sym at e
    rw [List.getD_eq_getElem?_getD, List.getD_eq_getElem?_getD, List.getElem?_eq_getElem l1, List.getElem?_eq_getElem l2] at e
    simpa using e
  have hle : ∀ (j : Nat) (v : Int), 0 ≤ (1 - 2 * sym x j) * v → (1 - 2 * sym x' j) * v ≤ (1 - 2 * sym x j) * v := by
    intro j v hv
    rcases hb hx j with e | e <;> rcases hb hx' j with e' | e' <;> rw [e] at hv ⊢ <;> rw [e'] <;> omega
  unfold corr
  apply Finset.sum_lt_sum
  · intro t ht
    rw [Finset.mem_range] at ht
    exact add_le_add (hle _ _ (h2 t ht)) (hle _ _ (h3 t ht))
  · refine ⟨k, Finset.mem_range.2 (by omega), add_lt_add_of_lt_of_le ?_ (hle _ _ (h3 k (by omega)))⟩
    have hp := h1 k hk
    rcases hb hx (sysPos bf k) with e | e <;> rcases hb hx' (sysPos bf k) with e' | e' <;> rw [e] at hp hsk ⊢ <;> rw [e'] at hsk ⊢ <;> omega

end Verif.BCJR
