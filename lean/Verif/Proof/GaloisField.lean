import Mathlib.RingTheory.AdjoinRoot
import Verif.Proof.GaloisPrim

/-! # The tables describe a field -/

namespace Verif.Galois
open Polynomial Exec

variable {m : Nat} {p : List Nat}

theorem exists_toPoly {f : (ZMod 2)[X]} (hf : f.degree < m) : ∃ a, a < 2 ^ m ∧ toPoly m a = f := by
  refine ⟨lowNum ((List.range m).map fun i => (f.coeff i).val) m, low_lt _ _, ?_⟩
  unfold lowNum
  rw [toPoly_lowNum _ m m (Nat.le_refl _)]
  ext j
  rw [finset_sum_coeff]
  have hz : ∀ c : ZMod 2, (if c.val ≠ 0 then (1 : ZMod 2) else 0) = c := by decide
  by_cases hj : j < m
  · rw [Finset.sum_eq_single j]
    · rw [getD_lt _ (by simpa using hj)]
      simp only [List.getElem_map, List.getElem_range]
      conv => rhs; rw [← hz (f.coeff j)]
      split
      · rw [coeff_X_pow, if_pos rfl]
      · rw [coeff_zero]
    · intro i _ hij
      split
      · rw [coeff_X_pow, if_neg (Ne.symm hij)]
      · exact coeff_zero _
    · intro h; exact absurd (Finset.mem_range.mpr hj) h
  · rw [coeff_eq_zero_of_degree_lt (lt_of_lt_of_le hf (by exact_mod_cast Nat.le_of_not_lt hj))]
    apply Finset.sum_eq_zero
    intro i hi
    have := Finset.mem_range.mp hi
    split
    · rw [coeff_X_pow, if_neg (by omega)]
    · exact coeff_zero _

theorem degree_fieldPoly : (fieldPoly m p).degree = m := by
  rw [degree_eq_natDegree (fieldPoly_monic m p).ne_zero, fieldPoly_natDegree]

theorem el_surj (x : Fld m p) : ∃ a, a < 2 ^ m ∧ el m p a = x := by
  obtain ⟨f, rfl⟩ := AdjoinRoot.mk_surjective x
  obtain ⟨a, ha, he⟩ := exists_toPoly (m := m) (f := f %ₘ fieldPoly m p)
    (by rw [← degree_fieldPoly (m := m) (p := p)]; exact degree_modByMonic_lt _ (fieldPoly_monic m p))
  refine ⟨a, ha, ?_⟩
  unfold el
  rw [he, AdjoinRoot.mk_eq_mk, modByMonic_eq_sub_mul_div]
  exact ⟨-(f /ₘ fieldPoly m p), by ring⟩

section
variable (hm : 2 ≤ m) (h : orderOf (al m p) = 2 ^ m - 1)
include hm h

theorem exists_pow {x : Fld m p} (hx : x ≠ 0) : ∃ i, i < 2 ^ m - 1 ∧ al m p ^ i = x := by
  obtain ⟨a, ha, rfl⟩ := el_surj x
  have ha0 : a ≠ 0 := fun e => hx (by rw [e, el_zero])
  obtain ⟨i, hi, e⟩ := powNum_surj hm h ha0 ha
  exact ⟨i, hi, by rw [← el_powNum (by omega), e]⟩

theorem irreducible : Irreducible (fieldPoly m p) := by
  refine ⟨fun hu => ?_, fun f g hfg => ?_⟩
  · rw [isUnit_iff_degree_eq_zero, degree_fieldPoly] at hu
    have : m = 0 := by exact_mod_cast hu
    omega
  · by_contra hc
    rw [not_or] at hc
    obtain ⟨hf, hg⟩ := hc
    have hne : fieldPoly m p ≠ 0 := (fieldPoly_monic m p).ne_zero
    have hf0 : f ≠ 0 := fun e => hne (by rw [hfg, e, zero_mul])
    have hg0 : g ≠ 0 := fun e => hne (by rw [hfg, e, mul_zero])
    have hd : m = f.natDegree + g.natDegree := by
      rw [← natDegree_mul hf0 hg0, ← hfg, fieldPoly_natDegree]
    rw [isUnit_iff_degree_eq_zero, degree_eq_natDegree hf0] at hf
    rw [isUnit_iff_degree_eq_zero, degree_eq_natDegree hg0] at hg
    have hf1 : f.natDegree ≠ 0 := fun e => hf (by rw [e]; rfl)
    have hg1 : g.natDegree ≠ 0 := fun e => hg (by rw [e]; rfl)
    have key : ∀ q : (ZMod 2)[X], q ≠ 0 → q.natDegree < m → AdjoinRoot.mk (fieldPoly m p) q ≠ 0 := by
      intro q hq hqd e
      apply hq
      have hdeg : q.degree < m := by rw [degree_eq_natDegree hq]; exact_mod_cast hqd
      apply mk_inj (p := p) hdeg (by rw [degree_zero]; exact WithBot.bot_lt_coe m)
      rw [e, map_zero]
    obtain ⟨i, _, ei⟩ := exists_pow hm h (key f hf0 (by omega))
    obtain ⟨j, _, ej⟩ := exists_pow hm h (key g hg0 (by omega))
    have h0 : AdjoinRoot.mk (fieldPoly m p) (f * g) = 0 := by rw [← hfg]; exact AdjoinRoot.mk_self
    rw [map_mul, ← ei, ← ej, ← pow_add] at h0
    exact al_ne_zero hm h _ h0

end

/-- The tables of a field: powers of `α` and their logarithms. -/
structure Good (g : GF) : Prop where
  hm : 2 ≤ g.m
  hm20 : g.m ≤ 20
  hN : g.N = 2 ^ g.m - 1
  ord : orderOf (al g.m g.p) = 2 ^ g.m - 1
  lenA : g.alphaTo.length = g.N + 1
  lenI : g.indexOf.length = g.N + 1
  lenP : g.p.length = g.m + 1
  alpha : ∀ i, i < g.N → g.alphaTo[i]? = some (powNum g.m (lowNum g.p g.m) i)
  index : ∀ i, i < g.N → g.indexOf[powNum g.m (lowNum g.p g.m) i]? = some (i : Int)
  index0 : g.indexOf[0]? = some (-1)

theorem ceilLog2_pred (hm : 2 ≤ m) : ceilLog2 (2 ^ m - 1) = m := by
  have h4 : 4 ≤ 2 ^ m := Nat.pow_le_pow_right (n := 2) (by omega) hm
  have h1 : 2 ^ m = 2 ^ (m - 1) * 2 := by rw [← Nat.pow_succ]; congr 1; omega
  unfold ceilLog2
  rw [if_neg (by omega)]
  have : (2 ^ m - 1 - 1).log2 = m - 1 := by
    rw [Nat.log2_eq_iff (by omega)]
    rw [show m - 1 + 1 = m by omega]
    omega
  omega

theorem ceilLog2_pow (hm : 1 ≤ m) : ceilLog2 (2 ^ m) = m := by
  have h4 : 2 ^ 1 ≤ 2 ^ m := Nat.pow_le_pow_right (by omega) hm
  have h1 : 2 ^ m = 2 ^ (m - 1) * 2 := by rw [← Nat.pow_succ]; congr 1; omega
  unfold ceilLog2
  rw [if_neg (by omega)]
  by_cases e : m = 1
  · subst e; decide
  have h2 : 2 ^ 1 ≤ 2 ^ (m - 1) := Nat.pow_le_pow_right (by omega) (by omega)
  have : (2 ^ m - 1).log2 = m - 1 := by
    rw [Nat.log2_eq_iff (by omega)]
    rw [show m - 1 + 1 = m by omega]
    omega
  omega

theorem selectPoly_length : (selectPoly m).length = m + 1 := by
  unfold selectPoly
  extract_lets p
  have hp : p.length = m + 1 := by simp [p]
  clear_value p
  have hite : ∀ (c : Prop) [Decidable c] (a b : List Nat), a.length = m + 1 → b.length = m + 1 →
      (if c then a else b).length = m + 1 := by
    intro c _ a b ha hb
    split
    · exact ha
    · exact hb
  repeat' apply hite
  all_goals simp only [List.length_set, hp]

theorem mk_spec {w : Nat} {N : Int} {q : List Nat} {g : GF} (h : GF.mk? w N q = ok g) :
    N = g.N ∧ 2 ≤ g.m ∧ g.m ≤ 20 ∧ g.m ≤ w ∧ g.N = 2 ^ g.m - 1 ∧ g.p = (if q = [] then selectPoly g.m else q) ∧
      g.p.length = g.m + 1 ∧
      generate w g.N g.m g.p (List.replicate (g.N + 1) 0) (List.replicate (g.N + 1) 0) =
        ok (g.alphaTo, g.indexOf) := by
  unfold GF.mk? at h
  split at h
  · cases h
  next hN =>
  simp only at h
  split_ifs at h with h1 h2 h3 h4 h5 h6 h7
  all_goals
    cases hr : generate w N.toNat (ceilLog2 N.toNat) (if q = [] then selectPoly (ceilLog2 N.toNat) else q)
      (List.replicate (N.toNat + 1) 0) (List.replicate (N.toNat + 1) 0) with
    | ok r =>
      simp only [h7, if_true, if_false] at hr
      rw [hr, bind_ok] at h
      injection h with h
      subst h
      refine ⟨by simp only; omega, by simp only; omega, by simp only; omega, by simp only; omega, ?_, ?_, ?_, ?_⟩
      · simp only; rw [Nat.shiftLeft_eq] at h5; omega
      · simp [h7]
      · simp only
        first
          | exact selectPoly_length
          | (simp only [not_and, not_not] at h6; exact h6 h7)
      · simp only; exact hr
    | exc e =>
      simp only [h7, if_true, if_false] at hr
      rw [hr] at h; cases h
    | ub =>
      simp only [h7, if_true, if_false] at hr
      rw [hr] at h; cases h

theorem good_of_mk {w : Nat} {N : Int} {q : List Nat} {g : GF} (h : GF.mk? w N q = ok g) (hw : g.m < w)
    (hprim : Primitive g.m (fieldPoly g.m g.p)) : Good g := by
  obtain ⟨_, hm, hm20, _, hN, hp, hpl, hg⟩ := mk_spec h
  have ho := order_of_primitive hm hprim
  obtain ⟨r, hr, ⟨t1, t2, t3, t4⟩, t5⟩ := generate_sat (w := w) (N := g.N) (p := g.p) hm hw hN (by omega)
    (fun i j hi hj => powNum_inj hm ho (by omega) (by omega)) (fun i _ => powNum_ne_zero hm ho i)
    (alpha := List.replicate (g.N + 1) 0) (index := List.replicate (g.N + 1) 0) (by simp) (by simp)
  rw [hg] at hr
  injection hr with hr
  subst hr
  exact ⟨hm, hm20, hN, ho, t1, t2, hpl, t3, t4, t5⟩

theorem mk_default {w : Nat} (hm : 2 ≤ m) (hm20 : m ≤ 20) (hw : m < w) {N : Int} (hN : N.toNat = 2 ^ m - 1) :
    ∃ g, GF.mk? w N [] = ok g ∧ g.m = m ∧ g.p = selectPoly m := by
  have h4 : 4 ≤ 2 ^ m := Nat.pow_le_pow_right (n := 2) (by omega) hm
  have ho := order_of_primitive hm (selectPoly_primitive hm hm20)
  obtain ⟨r, hr, _⟩ := generate_sat (w := w) (N := 2 ^ m - 1) (p := selectPoly m) hm hw rfl
    (by rw [selectPoly_length]; omega)
    (fun i j hi hj => powNum_inj hm ho (by omega) (by omega)) (fun i _ => powNum_ne_zero hm ho i)
    (alpha := List.replicate (2 ^ m - 1 + 1) 0) (index := List.replicate (2 ^ m - 1 + 1) 0) (by simp) (by simp)
  refine ⟨⟨2 ^ m - 1, m, r.1, r.2, selectPoly m⟩, ?_, rfl, rfl⟩
  unfold GF.mk?
  rw [if_neg (by omega), hN]
  simp only
  rw [ceilLog2_pred hm, show 2 ^ m - 1 + 1 = 2 ^ m by omega, ceilLog2_pow (by omega),
    if_neg (by simp), if_neg (by omega), if_neg (by omega), if_neg (by omega),
    if_neg (by rw [Nat.shiftLeft_eq]; omega), if_neg (by simp)]
  simp only [if_true]
  rw [show 2 ^ m - 1 + 1 = 2 ^ m by omega] at hr
  rw [hr, bind_ok]

end Verif.Galois
