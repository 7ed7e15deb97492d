import Mathlib.RingTheory.AdjoinRoot
import Mathlib.GroupTheory.OrderOfElement
import Mathlib.Algebra.CharP.Two
import Mathlib.Algebra.CharP.Algebra
import Mathlib.Algebra.Polynomial.Monic
import Mathlib.Algebra.Polynomial.BigOperators
import Verif.Prelude.Loops
import Verif.Spec.Galois

/-! # Lemmas on the Galois field tables -/

namespace Verif.Galois
open Exec Polynomial

theorem toPoly_xor (m a b : Nat) : toPoly m (a ^^^ b) = toPoly m a + toPoly m b := by
  unfold toPoly
  rw [← Finset.sum_add_distrib]
  apply Finset.sum_congr rfl
  intro i _
  rw [Nat.testBit_xor]
  cases a.testBit i <;> cases b.testBit i <;> simp [CharTwo.add_self_eq_zero]

theorem toPoly_zero (m : Nat) : toPoly m 0 = 0 := by
  unfold toPoly; simp

theorem coeff_toPoly (m a j : Nat) : (toPoly m a).coeff j = if j < m ∧ a.testBit j then 1 else 0 := by
  unfold toPoly
  rw [finset_sum_coeff]
  by_cases h : j < m
  · rw [Finset.sum_eq_single j]
    · cases a.testBit j <;> simp [h]
    · intro i _ hij
      split
      · rw [coeff_X_pow, if_neg (Ne.symm hij)]
      · simp
    · intro hn; exact absurd (Finset.mem_range.mpr h) hn
  · rw [if_neg (by simp [h])]
    apply Finset.sum_eq_zero
    intro i hi
    have := Finset.mem_range.mp hi
    split
    · rw [coeff_X_pow, if_neg (by omega)]
    · simp

theorem degree_toPoly (m a : Nat) : (toPoly m a).degree < m := by
  rw [degree_lt_iff_coeff_zero]
  intro j hj
  rw [coeff_toPoly, if_neg (by omega)]

theorem toPoly_inj {m a b : Nat} (ha : a < 2 ^ m) (hb : b < 2 ^ m) (h : toPoly m a = toPoly m b) : a = b := by
  apply Nat.eq_of_testBit_eq
  intro j
  by_cases hj : j < m
  · have := congrArg (fun q => q.coeff j) h
    simp only [coeff_toPoly] at this
    cases h1 : a.testBit j <;> cases h2 : b.testBit j <;> simp_all
  · rw [Nat.testBit_lt_two_pow (Nat.lt_of_lt_of_le ha (Nat.pow_le_pow_right (by omega) (by omega))),
      Nat.testBit_lt_two_pow (Nat.lt_of_lt_of_le hb (Nat.pow_le_pow_right (by omega) (by omega)))]

theorem toPoly_pow {m i : Nat} (hi : i < m) : toPoly m (2 ^ i) = X ^ i := by
  ext j
  rw [coeff_toPoly, coeff_X_pow, Nat.testBit_two_pow]
  by_cases h : j = i
  · subst h; simp [hi]
  · rw [if_neg (by simp; omega), if_neg h]

/-- Shifting a value whose top bit is clear. -/
theorem toPoly_shift {m a : Nat} (ha : a < 2 ^ (m - 1)) (hm : 0 < m) : toPoly m (a <<< 1) = X * toPoly m a := by
  ext j
  cases j with
  | zero => rw [coeff_toPoly]; simp
  | succ j =>
    rw [coeff_X_mul, coeff_toPoly, coeff_toPoly, Nat.testBit_shiftLeft]
    have : decide (j + 1 ≥ 1) = true := by simp
    rw [this, Nat.add_sub_cancel, Bool.true_and]
    by_cases h : j + 1 < m
    · have h' : j < m := by omega
      simp [h, h']
    · rw [if_neg (by simp [h])]
      symm
      rw [if_neg]
      rintro ⟨_, hb⟩
      rw [Nat.testBit_lt_two_pow (Nat.lt_of_lt_of_le ha (Nat.pow_le_pow_right (by omega) (by omega)))] at hb
      cases hb

/-- The low part of the field polynomial, as a number. -/
def lowNum (p : List Nat) (m : Nat) : Nat :=
  loopN m (fun i a => if p.getD i 0 ≠ 0 then a ^^^ 2 ^ i else a) 0

theorem lowNum_lt (p : List Nat) (m : Nat) : ∀ k, k ≤ m →
    loopN k (fun i a => if p.getD i 0 ≠ 0 then a ^^^ 2 ^ i else a) 0 < 2 ^ k := by
  intro k
  induction k with
  | zero => intro _; simp
  | succ k ih =>
    intro hk
    rw [loopN_succ]
    have h1 := ih (by omega)
    have h2 : 2 ^ (k + 1) = 2 ^ k * 2 := Nat.pow_succ ..
    split
    · apply Nat.xor_lt_two_pow
      · omega
      · have := Nat.two_pow_pos k; omega
    · omega

theorem toPoly_lowNum (p : List Nat) (m : Nat) : ∀ k, k ≤ m →
    toPoly m (loopN k (fun i a => if p.getD i 0 ≠ 0 then a ^^^ 2 ^ i else a) 0) =
      ∑ i ∈ Finset.range k, if p.getD i 0 ≠ 0 then X ^ i else 0 := by
  intro k
  induction k with
  | zero => intro _; rw [loopN_zero, toPoly_zero]; simp
  | succ k ih =>
    intro hk
    rw [loopN_succ, Finset.sum_range_succ, ← ih (by omega)]
    split
    · rw [toPoly_xor, toPoly_pow (by omega)]
    · rw [add_zero]

theorem low_lt (p : List Nat) (m : Nat) : lowNum p m < 2 ^ m := lowNum_lt p m m (Nat.le_refl _)

theorem fieldPoly_eq (m : Nat) (p : List Nat) : fieldPoly m p = X ^ m + toPoly m (lowNum p m) := by
  unfold fieldPoly lowNum
  rw [toPoly_lowNum p m m (Nat.le_refl _)]

theorem fieldPoly_monic (m : Nat) (p : List Nat) : (fieldPoly m p).Monic := by
  rw [fieldPoly_eq]
  exact monic_X_pow_add (degree_toPoly m _)

theorem fieldPoly_natDegree (m : Nat) (p : List Nat) : (fieldPoly m p).natDegree = m := by
  rw [fieldPoly_eq]
  have h := degree_toPoly m (lowNum p m)
  have h2 : (X ^ m + toPoly m (lowNum p m) : (ZMod 2)[X]).degree = m := by
    rw [degree_add_eq_left_of_degree_lt (by rw [degree_X_pow]; exact h), degree_X_pow]
  exact natDegree_eq_of_degree_eq_some h2

/-! ## The residue ring -/

/-- Polynomials modulo the field polynomial. -/
abbrev Fld (m : Nat) (p : List Nat) : Type := AdjoinRoot (fieldPoly m p)

/-- Element coded by a number. -/
noncomputable def el (m : Nat) (p : List Nat) (a : Nat) : Fld m p := AdjoinRoot.mk (fieldPoly m p) (toPoly m a)

/-- The class of `X`. -/
noncomputable def al (m : Nat) (p : List Nat) : Fld m p := AdjoinRoot.root (fieldPoly m p)

variable {m : Nat} {p : List Nat}

theorem el_xor (a b : Nat) : el m p (a ^^^ b) = el m p a + el m p b := by
  unfold el; rw [toPoly_xor, map_add]

theorem el_zero : el m p 0 = 0 := by unfold el; rw [toPoly_zero, map_zero]

theorem mk_inj {f g : (ZMod 2)[X]} (hf : f.degree < m) (hg : g.degree < m)
    (h : AdjoinRoot.mk (fieldPoly m p) f = AdjoinRoot.mk (fieldPoly m p) g) : f = g := by
  rw [AdjoinRoot.mk_eq_mk] at h
  have hd : (f - g).degree < (fieldPoly m p).degree := by
    rw [degree_eq_natDegree (fieldPoly_monic m p).ne_zero, fieldPoly_natDegree]
    exact lt_of_le_of_lt (degree_sub_le f g) (max_lt hf hg)
  have := eq_zero_of_dvd_of_degree_lt h hd
  exact sub_eq_zero.mp this

theorem el_inj {a b : Nat} (ha : a < 2 ^ m) (hb : b < 2 ^ m) (h : el m p a = el m p b) : a = b :=
  toPoly_inj ha hb (mk_inj (degree_toPoly m a) (degree_toPoly m b) h)

theorem el_one (hm : 0 < m) : el m p 1 = 1 := by
  unfold el
  rw [show (1 : Nat) = 2 ^ 0 from rfl, toPoly_pow hm, pow_zero, map_one]

theorem el_pow {i : Nat} (hi : i < m) : el m p (2 ^ i) = al m p ^ i := by
  unfold el al
  rw [toPoly_pow hi, map_pow, AdjoinRoot.mk_X]

theorem two_eq_zero : (2 : Fld m p) = 0 := by
  have : (2 : Fld m p) = algebraMap (ZMod 2) (Fld m p) 2 := (map_ofNat _ 2).symm
  rw [this, show (2 : ZMod 2) = 0 from rfl, map_zero]

theorem add_self (x : Fld m p) : x + x = 0 := by rw [← two_mul, two_eq_zero, zero_mul]

theorem eq_of_add {x y : Fld m p} (h : x + y = 0) : x = y := by
  have := congrArg (· + y) h
  simpa [add_assoc, add_self] using this

theorem el_low : el m p (lowNum p m) = al m p ^ m := by
  have h : AdjoinRoot.mk (fieldPoly m p) (X ^ m + toPoly m (lowNum p m)) = 0 := by
    rw [AdjoinRoot.mk_eq_zero, ← fieldPoly_eq]
  rw [map_add, map_pow, AdjoinRoot.mk_X] at h
  exact (eq_of_add h).symm

/-- Multiplication by `X` on numbers. -/
def xtime (m q a : Nat) : Nat := if a ≥ 2 ^ (m - 1) then q ^^^ ((a ^^^ 2 ^ (m - 1)) <<< 1) else a <<< 1

theorem xor_top {m a : Nat} (hm : 0 < m) (ha : a < 2 ^ m) (h : a ≥ 2 ^ (m - 1)) : a ^^^ 2 ^ (m - 1) < 2 ^ (m - 1) := by
  have h1 : a.testBit (m - 1) = true := by
    rw [Nat.testBit_eq_decide_div_mod_eq]
    have : a / 2 ^ (m - 1) = 1 := by
      apply Nat.div_eq_of_lt_le
      · omega
      · have : 2 ^ m = 2 ^ (m - 1) * 2 := by rw [← Nat.pow_succ]; congr 1; omega
        omega
    simp [this]
  have hx : a ^^^ 2 ^ (m - 1) < 2 ^ m := Nat.xor_lt_two_pow ha (Nat.pow_lt_pow_right (by omega) (by omega))
  apply Nat.lt_pow_two_of_testBit
  intro i hi
  by_cases e : i = m - 1
  · subst e
    rw [Nat.testBit_xor, h1, Nat.testBit_two_pow_self]; rfl
  · exact Nat.testBit_lt_two_pow (Nat.lt_of_lt_of_le hx (Nat.pow_le_pow_right (by omega) (by omega)))

theorem shl_lt {m a : Nat} (hm : 0 < m) (h : a < 2 ^ (m - 1)) : a <<< 1 < 2 ^ m := by
  have : 2 ^ m = 2 ^ (m - 1) * 2 := by rw [← Nat.pow_succ]; congr 1; omega
  rw [Nat.shiftLeft_eq]; omega

theorem xtime_lt {q a : Nat} (hm : 0 < m) (hq : q < 2 ^ m) (ha : a < 2 ^ m) : xtime m q a < 2 ^ m := by
  unfold xtime
  split
  · exact Nat.xor_lt_two_pow hq (shl_lt hm (xor_top hm ha (by assumption)))
  · exact shl_lt hm (by omega)

theorem el_xtime {a : Nat} (hm : 0 < m) (ha : a < 2 ^ m) : el m p (xtime m (lowNum p m) a) = al m p * el m p a := by
  have key : ∀ b, b < 2 ^ (m - 1) → el m p (b <<< 1) = al m p * el m p b := by
    intro b hb
    unfold el al
    rw [toPoly_shift hb hm, map_mul, AdjoinRoot.mk_X]
  unfold xtime
  split
  · next h =>
    rw [el_xor, key _ (xor_top hm ha h), el_xor, el_low, el_pow (by omega), mul_add, ← pow_succ',
      show m - 1 + 1 = m by omega]
    rw [add_comm (al m p ^ m), add_assoc, add_self, add_zero]
  · exact key a (by omega)

/-- Powers of `X` as numbers. -/
def powNum (m q : Nat) : Nat → Nat
  | 0 => 1
  | i + 1 => xtime m q (powNum m q i)

theorem powNum_lt {q : Nat} (hm : 0 < m) (hq : q < 2 ^ m) : ∀ i, powNum m q i < 2 ^ m
  | 0 => Nat.one_lt_two_pow (by omega)
  | i + 1 => xtime_lt hm hq (powNum_lt hm hq i)

theorem el_powNum (hm : 0 < m) : ∀ i, el m p (powNum m (lowNum p m) i) = al m p ^ i
  | 0 => by rw [powNum, el_one hm, pow_zero]
  | i + 1 => by
    rw [powNum, el_xtime hm (powNum_lt hm (low_lt p m) i), el_powNum hm i, pow_succ']

theorem powNum_small {q : Nat} (hm : 0 < m) : ∀ i, i < m → powNum m q i = 2 ^ i
  | 0, _ => rfl
  | i + 1, h => by
    rw [powNum, powNum_small hm i (by omega), xtime, if_neg]
    · rw [Nat.shiftLeft_eq, Nat.pow_one, Nat.pow_succ]
    · exact Nat.not_le.mpr (Nat.pow_lt_pow_right (by omega) (by omega))

theorem powNum_m {q : Nat} (hm : 0 < m) : powNum m q m = q := by
  obtain ⟨k, rfl⟩ : ∃ k, m = k + 1 := ⟨m - 1, by omega⟩
  rw [powNum, powNum_small hm k (by omega), xtime]
  simp

/-! ## The table generation loops -/

/-- The tables hold the powers below `k`. -/
def Tab (m q N k : Nat) (alpha : List Nat) (index : List Int) : Prop :=
  alpha.length = N + 1 ∧ index.length = N + 1 ∧ (∀ i, i < k → alpha[i]? = some (powNum m q i)) ∧
    ∀ i, i < k → index[powNum m q i]? = some (i : Int)

theorem toI_ok {w x : Nat} (h : x < 2 ^ (w - 1)) : toI w x = ok x := by unfold toI; rw [if_pos h]

theorem generate_sat {w N : Nat} (hm : 2 ≤ m) (hw : m < w) (hN : N = 2 ^ m - 1) (hp : m ≤ p.length)
    (hinj : ∀ i j, i < N → j < N → powNum m (lowNum p m) i = powNum m (lowNum p m) j → i = j)
    (hnz : ∀ i, i < N → powNum m (lowNum p m) i ≠ 0)
    {alpha : List Nat} {index : List Int} (ha : alpha.length = N + 1) (hi : index.length = N + 1) :
    (generate w N m p alpha index).Sat fun r =>
      Tab m (lowNum p m) N N r.1 r.2 ∧ r.2[0]? = some (-1) := by
  have hm0 : 0 < m := by omega
  have h2m : 2 ^ m ≤ 2 ^ (w - 1) := Nat.pow_le_pow_right (by omega) (by omega)
  have hmN : m < N := by
    have : ∀ k, 2 ≤ k → k + 2 ≤ 2 ^ k := by
      intro k hk
      induction k with
      | zero => omega
      | succ k ih =>
        by_cases e : k = 1
        · subst e; decide
        · have := ih (by omega); rw [Nat.pow_succ]; omega
    have := this m hm
    omega
  have hplt := fun i => powNum_lt hm0 (low_lt p m) i
  unfold generate
  rw [wr_lt (by omega), bind_ok]
  refine Sat.bind (P := fun s => s.mask = 2 ^ m ∧ Tab m (lowNum p m) N m s.alpha s.index ∧
      s.alpha[m]? = some (lowNum p m)) ?_ ?_
  · refine (forN_inv (fun k (s : GenState) => s.mask = 2 ^ k ∧ Tab m (lowNum p m) N k s.alpha s.index ∧
      s.alpha[m]? = some (loopN k (fun i a => if p.getD i 0 ≠ 0 then a ^^^ 2 ^ i else a) 0)) ?_ ?_).mono ?_
    · exact ⟨rfl, ⟨by simpa using ha, hi, fun i hi => by omega, fun i hi => by omega⟩, by
        rw [List.getElem?_set_self (by omega)]; rfl⟩
    · rintro k ⟨mask, al, ix⟩ hk ⟨h1, ⟨t1, t2, t3, t4⟩, h3⟩
      simp only at h1 t1 t2 t3 t4 h3
      subst h1
      have hlt : 2 ^ k < 2 ^ m := Nat.pow_lt_pow_right (by omega) hk
      have hpk : powNum m (lowNum p m) k = 2 ^ k := powNum_small hm0 k hk
      have htab : Tab m (lowNum p m) N (k + 1) (al.set k (2 ^ k)) (ix.set (2 ^ k) (k : Int)) := by
        refine ⟨by simpa using t1, by simpa using t2, fun i hi => ?_, fun i hi => ?_⟩
        · by_cases e : i = k
          · subst e; rw [List.getElem?_set_self (by omega), hpk]
          · rw [List.getElem?_set_ne (by omega)]; exact t3 i (by omega)
        · by_cases e : i = k
          · subst e; rw [hpk, List.getElem?_set_self (by omega)]
          · rw [List.getElem?_set_ne]
            · exact t4 i (by omega)
            · rw [← hpk]; exact fun hh => e (hinj _ _ (by omega) (by omega) hh.symm)
      unfold genLow
      simp only
      rw [toI_ok (by omega), bind_ok, wr_lt (by omega), bind_ok, wr_lt (by omega), bind_ok, rd_lt (by omega),
        bind_ok]
      have hg : p.getD k 0 = p[k]'(by omega) := getD_lt 0 (by omega)
      have h3' : (al.set k (2 ^ k))[m]? =
          some (loopN k (fun i a => if p.getD i 0 ≠ 0 then a ^^^ 2 ^ i else a) 0) := by
        rw [List.getElem?_set_ne (by omega)]; exact h3
      by_cases hpz : p[k]'(by omega) ≠ 0
      · rw [if_pos hpz, rd_eq h3', bind_ok, wr_lt (by simp; omega), bind_ok, sat_ok]
        refine ⟨by rw [Nat.shiftLeft_eq, Nat.pow_one, Nat.pow_succ], ?_, ?_⟩
        · refine ⟨by simpa using t1, htab.2.1, fun i hi => ?_, htab.2.2.2⟩
          simp only
          rw [List.getElem?_set_ne (by omega)]
          exact htab.2.2.1 i hi
        · simp only
          rw [List.getElem?_set_self (by simp; omega), loopN_succ, hg, if_pos hpz]
      · rw [if_neg hpz, sat_ok]
        refine ⟨by rw [Nat.shiftLeft_eq, Nat.pow_one, Nat.pow_succ], htab, ?_⟩
        simp only
        rw [h3', loopN_succ, hg, if_neg hpz]
    · rintro ⟨mask, al, ix⟩ h
      exact h
  rintro ⟨mask, al, ix⟩ ⟨h1, ⟨t1, t2, t3, t4⟩, h3⟩
  simp only at h1 t1 t2 t3 t4 h3 ⊢
  subst h1
  have hql := low_lt p m
  rw [rd_eq h3, bind_ok, toI_ok (by omega), bind_ok, wr_lt (by omega), bind_ok]
  have hshift : 2 ^ m >>> 1 = 2 ^ (m - 1) := by
    rw [Nat.shiftRight_eq_div_pow, Nat.pow_one]
    have : 2 ^ m = 2 ^ (m - 1) * 2 := by rw [← Nat.pow_succ]; congr 1; omega
    omega
  rw [hshift]
  refine Sat.bind (P := fun r => Tab m (lowNum p m) N N r.1 r.2) ?_ ?_
  · refine (forRange_inv (fun k (s : List Nat × List Int) => Tab m (lowNum p m) N k s.1 s.2 ∧
        s.1[m]? = some (lowNum p m)) (by omega) ?_ ?_).mono fun s h => h.1
    · refine ⟨⟨t1, by simpa using t2, fun i hi => ?_, fun i hi => ?_⟩, h3⟩
      · by_cases e : i = m
        · subst e; rw [powNum_m hm0]; exact h3
        · exact t3 i (by omega)
      · simp only
        by_cases e : i = m
        · subst e; rw [powNum_m hm0, List.getElem?_set_self (by omega)]
        · rw [List.getElem?_set_ne]
          · exact t4 i (by omega)
          · intro hh
            rw [← powNum_m (m := m) (q := lowNum p m) hm0] at hh
            rw [powNum_m (m := m) hm0] at hh
            exact e (hinj i m (by omega) hmN (by rw [powNum_m hm0]; exact hh.symm))
    · rintro k ⟨al, ix⟩ hk hkN ⟨⟨t1, t2, t3, t4⟩, h3⟩
      simp only at t1 t2 t3 t4 h3
      unfold genHigh
      simp only
      rw [rd_eq (t3 (k - 1) (by omega)), bind_ok, rd_eq h3, bind_ok]
      have hnext : (if powNum m (lowNum p m) (k - 1) ≥ 2 ^ (m - 1) then
          lowNum p m ^^^ ((powNum m (lowNum p m) (k - 1) ^^^ 2 ^ (m - 1)) <<< 1)
          else powNum m (lowNum p m) (k - 1) <<< 1) = powNum m (lowNum p m) k := by
        conv => rhs; rw [show k = (k - 1) + 1 by omega, powNum]
        rfl
      rw [hnext]
      have := hplt k
      rw [toI_ok (by omega), bind_ok, wr_lt (by omega), bind_ok, wr_lt (by omega), bind_ok, sat_ok]
      refine ⟨⟨by simpa using t1, by simpa using t2, fun i hi => ?_, fun i hi => ?_⟩, ?_⟩
      · simp only
        by_cases e : i = k
        · subst e; rw [List.getElem?_set_self (by omega)]
        · rw [List.getElem?_set_ne (by omega)]; exact t3 i (by omega)
      · simp only
        by_cases e : i = k
        · subst e; rw [List.getElem?_set_self (by omega)]
        · rw [List.getElem?_set_ne (fun hh => e (hinj _ _ (by omega) (by omega) hh.symm))]
          exact t4 i (by omega)
      · simp only
        rw [List.getElem?_set_ne (by omega)]; exact h3
  · rintro ⟨al, ix⟩ ⟨t1, t2, t3, t4⟩
    simp only at t1 t2 t3 t4 ⊢
    rw [wr_lt (by omega), bind_ok, sat_ok]
    refine ⟨⟨t1, by simpa using t2, t3, fun i hi => ?_⟩, ?_⟩
    · simp only
      rw [List.getElem?_set_ne (Ne.symm (hnz i hi))]
      exact t4 i hi
    · simp only
      rw [List.getElem?_set_self (by omega)]

/-! ## Primitive polynomials -/

theorem nontriv (hm : 0 < m) : Nontrivial (Fld m p) :=
  ⟨⟨el m p 0, el m p 1, fun h => absurd (el_inj (Nat.two_pow_pos m) (Nat.one_lt_two_pow (by omega)) h) (by omega)⟩⟩

theorem pow_eq_one_iff_dvd (k : Nat) : al m p ^ k = 1 ↔ fieldPoly m p ∣ X ^ k - 1 := by
  rw [← AdjoinRoot.mk_eq_zero, map_sub, map_pow, AdjoinRoot.mk_X, map_one, sub_eq_zero]
  rfl

theorem order_of_primitive (hm : 2 ≤ m) (h : Primitive m (fieldPoly m p)) : orderOf (al m p) = 2 ^ m - 1 := by
  have h4 : 4 ≤ 2 ^ m := Nat.pow_le_pow_right (n := 2) (by omega) hm
  rw [orderOf_eq_iff (by omega)]
  exact ⟨(pow_eq_one_iff_dvd _).mpr h.1, fun k hk hk0 he => h.2 k hk0 hk ((pow_eq_one_iff_dvd _).mp he)⟩

theorem primitive_of_order (hm : 2 ≤ m) (h : orderOf (al m p) = 2 ^ m - 1) : Primitive m (fieldPoly m p) := by
  have h4 : 4 ≤ 2 ^ m := Nat.pow_le_pow_right (n := 2) (by omega) hm
  rw [orderOf_eq_iff (by omega)] at h
  exact ⟨(pow_eq_one_iff_dvd _).mp h.1, fun k hk0 hk he => h.2 k hk hk0 ((pow_eq_one_iff_dvd _).mpr he)⟩

section
variable (hm : 2 ≤ m) (h : orderOf (al m p) = 2 ^ m - 1)
include hm h

theorem al_pow_N : al m p ^ (2 ^ m - 1) = 1 := by rw [← h]; exact pow_orderOf_eq_one _

theorem al_pow_mod (k : Nat) : al m p ^ (k % (2 ^ m - 1)) = al m p ^ k := by
  rw [← h]; exact pow_mod_orderOf _ _

theorem al_ne_zero (k : Nat) : al m p ^ k ≠ 0 := by
  have := nontriv (m := m) (p := p) (by omega)
  intro hz
  have h1 := al_pow_N hm h
  have h4 : 4 ≤ 2 ^ m := Nat.pow_le_pow_right (n := 2) (by omega) hm
  have : al m p ^ (k * (2 ^ m - 1)) = 1 := by rw [mul_comm, pow_mul, h1, one_pow]
  rw [pow_mul, hz, zero_pow (by omega)] at this
  exact zero_ne_one this

theorem powNum_inj {i j : Nat} (hi : i < 2 ^ m - 1) (hj : j < 2 ^ m - 1)
    (e : powNum m (lowNum p m) i = powNum m (lowNum p m) j) : i = j := by
  have e2 : al m p ^ i = al m p ^ j := by rw [← el_powNum (by omega), ← el_powNum (by omega), e]
  exact pow_injOn_Iio_orderOf (by rw [h]; exact hi) (by rw [h]; exact hj) e2

theorem powNum_ne_zero (i : Nat) : powNum m (lowNum p m) i ≠ 0 := by
  intro e
  apply al_ne_zero hm h i
  rw [← el_powNum (by omega), e, el_zero]

/-- Every non-zero element is a power. -/
theorem powNum_surj {a : Nat} (ha0 : a ≠ 0) (ha : a < 2 ^ m) : ∃ i, i < 2 ^ m - 1 ∧ powNum m (lowNum p m) i = a := by
  have hs : (Finset.range (2 ^ m - 1)).image (powNum m (lowNum p m)) = (Finset.range (2 ^ m)).erase 0 := by
    apply Finset.eq_of_subset_of_card_le
    · intro x hx
      obtain ⟨i, _, rfl⟩ := Finset.mem_image.mp hx
      exact Finset.mem_erase.mpr ⟨powNum_ne_zero hm h i, Finset.mem_range.mpr (powNum_lt (by omega) (low_lt p m) i)⟩
    · rw [Finset.card_erase_of_mem (Finset.mem_range.mpr (Nat.two_pow_pos m)), Finset.card_range,
        Finset.card_image_of_injOn, Finset.card_range]
      intro i hi j hj e
      exact powNum_inj hm h (Finset.mem_range.mp hi) (Finset.mem_range.mp hj) e
  have : a ∈ (Finset.range (2 ^ m)).erase 0 := Finset.mem_erase.mpr ⟨ha0, Finset.mem_range.mpr ha⟩
  rw [← hs] at this
  obtain ⟨i, hi, e⟩ := Finset.mem_image.mp this
  exact ⟨i, Finset.mem_range.mp hi, e⟩

end

end Verif.Galois
