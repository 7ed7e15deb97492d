import Mathlib.Data.Nat.ModEq
import Mathlib.Data.List.Nodup
import Mathlib.Tactic.Ring
import Mathlib.Data.Nat.Prime.Basic
import Verif.Prelude.Loops
import Verif.Model.BCH

/-! # Cycle sets modulo `2^m - 1` -/

namespace Verif.BCH
open Exec

variable {m N : Nat}

/-- Doubling modulo `N`, iterated. -/
def dbl (N f j : Nat) : Nat := f * 2 ^ j % N

theorem dbl_succ (f j : Nat) : dbl N f (j + 1) = dbl N f j * 2 % N := by
  unfold dbl
  rw [Nat.pow_succ, ← Nat.mul_assoc, Nat.mod_mul_mod]

theorem dbl_zero {f : Nat} (h : f < N) : dbl N f 0 = f := by
  unfold dbl
  rw [Nat.pow_zero, Nat.mul_one, Nat.mod_eq_of_lt h]

theorem dbl_lt (hN : 0 < N) (f j : Nat) : dbl N f j < N := Nat.mod_lt _ hN

theorem dbl_dbl (f i j : Nat) : dbl N (dbl N f i) j = dbl N f (i + j) := by
  unfold dbl
  rw [Nat.mod_mul_mod, Nat.pow_add, Nat.mul_assoc]

theorem two_pow_mod (hN : N = 2 ^ m - 1) : 2 ^ m ≡ 1 [MOD N] := by
  have h : 2 ^ m = N + 1 := by
    have := Nat.two_pow_pos m
    omega
  rw [h]
  simp [Nat.ModEq]

theorem dbl_m (hN : N = 2 ^ m - 1) {f : Nat} (h : f < N) : dbl N f m = f := by
  have := (two_pow_mod hN).mul_left f
  unfold dbl
  rw [this, Nat.mul_one, Nat.mod_eq_of_lt h]

/-- What the generation of one cycle set returns. -/
structure IsCoset (N front : Nat) (c : List Nat) : Prop where
  head : c[0]? = some front
  nodup : c.Nodup
  mem : ∀ x, x ∈ c ↔ ∃ j, x = dbl N front j

theorem dbl_mod_period {f k : Nat} (hp : dbl N f k = f) (j : Nat) : dbl N f (j + k) = dbl N f j := by
  rw [Nat.add_comm, ← dbl_dbl, hp]

theorem dbl_mul_period {f k : Nat} (hp : dbl N f k = f) (j : Nat) : ∀ q, dbl N f (j + k * q) = dbl N f j
  | 0 => by simp
  | q + 1 => by rw [Nat.mul_succ, ← Nat.add_assoc, dbl_mod_period hp, dbl_mul_period hp j q]

theorem isCoset_of_period {f k : Nat} (hf : f < N) (hk : 0 < k) (hp : dbl N f k = f)
    (hmin : ∀ j, 0 < j → j < k → dbl N f j ≠ f) : IsCoset N f ((List.range k).map (dbl N f)) := by
  refine ⟨?_, ?_, ?_⟩
  · rw [getElem?_mapRange, if_pos hk, dbl_zero hf]
  · apply List.Nodup.map_on _ List.nodup_range
    have key : ∀ a b, a < b → b < k → dbl N f a ≠ dbl N f b := by
      intro a b hab hb e
      have h1 : dbl N f (a + (k - b)) = dbl N f (b + (k - b)) := by rw [← dbl_dbl, ← dbl_dbl, e]
      rw [show b + (k - b) = k by omega, hp] at h1
      exact hmin (a + (k - b)) (by omega) (by omega) h1
    intro a ha b hb e
    rw [List.mem_range] at ha hb
    rcases Nat.lt_trichotomy a b with h | h | h
    · exact absurd e (key a b h hb)
    · exact h
    · exact absurd e.symm (key b a h ha)
  · intro x
    rw [List.mem_map]
    constructor
    · rintro ⟨j, _, rfl⟩; exact ⟨j, rfl⟩
    · rintro ⟨j, rfl⟩
      refine ⟨j % k, List.mem_range.mpr (Nat.mod_lt _ hk), ?_⟩
      conv => rhs; rw [← Nat.mod_add_div j k, dbl_mul_period hp]

theorem cosetLoop_sat (hN : N = 2 ^ m - 1) {f : Nat} (hf : f < N) :
    ∀ fuel i, 1 ≤ i → i < m → m ≤ fuel + i → (∀ j, 0 < j → j ≤ i → dbl N f j ≠ f) →
      (cosetLoop N f fuel ((List.range i).map (dbl N f))).Sat (IsCoset N f)
  | 0, i, _, h2, h3, _ => by omega
  | fuel + 1, i, h1, h2, h3, h4 => by
    have hlast : ((List.range i).map (dbl N f)).getLastD 0 = dbl N f (i - 1) := by
      obtain ⟨k, rfl⟩ : ∃ k, i = k + 1 := ⟨i - 1, by omega⟩
      rw [List.range_succ, List.map_append]
      simp
    have happ : (List.range i).map (dbl N f) ++ [dbl N f (i - 1) * 2 % N] = (List.range (i + 1)).map (dbl N f) := by
      rw [List.range_succ, List.map_append, ← dbl_succ, show i - 1 + 1 = i by omega]
      rfl
    unfold cosetLoop
    simp only [hlast, happ]
    have hv : dbl N f (i - 1) * 2 % N * 2 % N = dbl N f (i + 1) := by
      rw [← dbl_succ, ← dbl_succ, show i - 1 + 1 + 1 = i + 1 by omega]
    rw [hv]
    by_cases hs : dbl N f (i + 1) = f
    · rw [if_neg (by simpa using hs), sat_ok]
      exact isCoset_of_period hf (by omega) hs fun j hj0 hj => h4 j hj0 (by omega)
    · rw [if_pos hs]
      apply cosetLoop_sat hN hf fuel (i + 1) (by omega)
      · rcases Nat.lt_or_ge (i + 1) m with h | h
        · exact h
        · have : i + 1 = m := by omega
          rw [this] at hs
          exact absurd (dbl_m hN hf) hs
      · omega
      · intro j hj0 hj
        rcases Nat.lt_or_ge j (i + 1) with h | h
        · exact h4 j hj0 (by omega)
        · have : j = i + 1 := by omega
          rw [this]; exact hs

theorem lt_of_two_le (hm : 2 ≤ m) : m + 1 ≤ 2 ^ m - 1 := by
  have : ∀ k, 2 ≤ k → k + 2 ≤ 2 ^ k := by
    intro k hk
    induction k with
    | zero => omega
    | succ k ih =>
      by_cases e : k = 1
      · subst e; decide
      · have := ih (by omega); rw [Nat.pow_succ]; omega
  have := this m hm
  omega

theorem coset_sat (hm : 2 ≤ m) (hN : N = 2 ^ m - 1) {f : Nat} (hf0 : 0 < f) (hf : f < N) :
    (cosetLoop N f N [f]).Sat (IsCoset N f) := by
  have h := cosetLoop_sat hN hf N 1 (by omega) (by omega) (by have := lt_of_two_le hm; omega)
    (by
      intro j h0 h1 e
      have : j = 1 := by omega
      subst this
      rw [dbl_succ, dbl_zero hf] at e
      by_cases h2 : f * 2 < N
      · rw [Nat.mod_eq_of_lt h2] at e; omega
      · rw [Nat.mod_eq_sub_mod (by omega), Nat.mod_eq_of_lt (by omega)] at e; omega)
  have e : (List.range 1).map (dbl N f) = [f] := by simp [List.range_succ, dbl_zero hf]
  rwa [e] at h

/-- The union of the sets. -/
def Cov (sets : List (List Nat)) (x : Nat) : Prop := ∃ c ∈ sets, x ∈ c

theorem any_iff (sets : List (List Nat)) (r : Nat) : sets.any (fun c => c.contains r) = true ↔ Cov sets r := by
  rw [List.any_eq_true]
  unfold Cov
  simp only [List.contains_eq_mem, decide_eq_true_eq]

theorem findRep_sat {sets : List (List Nat)} : ∀ fuel rep, rep < N - 1 → N ≤ fuel + rep + 1 →
    (∀ x, 1 ≤ x → x ≤ rep → Cov sets x) → (findRep N sets fuel rep).Sat fun o =>
      match o with
      | none => ∀ x, 1 ≤ x → x < N → Cov sets x
      | some r => rep < r ∧ r < N ∧ ¬ Cov sets r ∧ ∀ x, 1 ≤ x → x < r → Cov sets x
  | 0, rep, h1, h2, _ => by omega
  | fuel + 1, rep, h1, h2, h3 => by
    unfold findRep
    simp only
    by_cases hc : Cov sets (rep + 1)
    · rw [if_pos ((any_iff _ _).mpr hc)]
      have h3' : ∀ x, 1 ≤ x → x ≤ rep + 1 → Cov sets x := by
        intro x hx1 hx2
        rcases Nat.lt_or_ge x (rep + 1) with h | h
        · exact h3 x hx1 (by omega)
        · rw [show x = rep + 1 by omega]; exact hc
      by_cases hr : rep + 1 < N - 1
      · rw [if_pos hr]
        refine (findRep_sat fuel (rep + 1) hr (by omega) h3').mono ?_
        intro o ho
        cases o with
        | none => exact ho
        | some r => exact ⟨by have := ho.1; omega, ho.2⟩
      · rw [if_neg hr, sat_ok]
        intro x hx1 hx2
        exact h3' x hx1 (by omega)
    · rw [if_neg (fun e => hc ((any_iff _ _).mp e)), sat_ok]
      exact ⟨by omega, by omega, hc, fun x hx1 hx2 => h3 x hx1 (by omega)⟩

/-- The cycle sets built so far. -/
structure Sets (N : Nat) (sets : List (List Nat)) : Prop where
  each : ∀ c ∈ sets, ∃ f, 0 < f ∧ f < N ∧ IsCoset N f c
  disj : sets.Pairwise List.Disjoint

theorem coset_closed {f : Nat} {c : List Nat} (h : IsCoset N f c) {x : Nat} (hx : x ∈ c) (j : Nat) : dbl N x j ∈ c := by
  obtain ⟨i, rfl⟩ := (h.mem x).mp hx
  rw [dbl_dbl]
  exact (h.mem _).mpr ⟨_, rfl⟩

theorem coset_back (hN : N = 2 ^ m - 1) {f : Nat} {c : List Nat} (h : IsCoset N f c) (hf : f < N) {x : Nat}
    (hx : x ∈ c) : ∃ j, dbl N x j = f := by
  obtain ⟨i, rfl⟩ := (h.mem x).mp hx
  refine ⟨m * i - i, ?_⟩
  rw [dbl_dbl]
  by_cases hm0 : m = 0
  · subst hm0; rw [hN] at hf; simp at hf
  rw [show i + (m * i - i) = 0 + m * i by
    have : i ≤ m * i := Nat.le_mul_of_pos_left _ (by omega)
    omega]
  rw [dbl_mul_period (dbl_m hN hf), dbl_zero hf]

theorem cov_closed {sets : List (List Nat)} (hs : Sets N sets) {x : Nat} (hx : Cov sets x) (j : Nat) :
    Cov sets (dbl N x j) := by
  obtain ⟨c, hc, hxc⟩ := hx
  obtain ⟨f, _, _, hcs⟩ := hs.each c hc
  exact ⟨c, hc, coset_closed hcs hxc j⟩

theorem Sets.append (hN : N = 2 ^ m - 1) {sets : List (List Nat)} (hs : Sets N sets) {f : Nat} {c : List Nat}
    (hf0 : 0 < f) (hf : f < N) (hc : IsCoset N f c) (hnew : ¬ Cov sets f) : Sets N (sets ++ [c]) := by
  refine ⟨?_, ?_⟩
  · intro d hd
    rw [List.mem_append, List.mem_singleton] at hd
    rcases hd with h | rfl
    · exact hs.each d h
    · exact ⟨f, hf0, hf, hc⟩
  · rw [List.pairwise_append]
    refine ⟨hs.disj, List.pairwise_singleton _ _, ?_⟩
    intro d hd e he
    rw [List.mem_singleton] at he
    subst he
    intro x hxd hxe
    obtain ⟨j, hj⟩ := coset_back hN hc hf hxe
    obtain ⟨f', _, _, hcs⟩ := hs.each d hd
    exact hnew ⟨d, hd, by rw [← hj]; exact coset_closed hcs hxd j⟩

/-- Result of the generation of the cycle sets. -/
structure AllSets (N : Nat) (sets : List (List Nat)) : Prop extends Sets N sets where
  cover : ∀ x, 1 ≤ x → x < N → Cov sets x
  first : ∃ c, sets[0]? = some c ∧ c[0]? = some 1

theorem cosetsLoop_sat (hm : 2 ≤ m) (hN : N = 2 ^ m - 1) : ∀ fuel done front rep, rep < N - 1 → N ≤ fuel + rep →
    0 < front → front < N → front ≤ rep + 1 →
    Sets N done → ¬ Cov done front → (∀ x, 1 ≤ x → x ≤ rep → Cov done x ∨ x = front) →
    (done = [] → front = 1) → (done ≠ [] → ∃ c, done[0]? = some c ∧ c[0]? = some 1) →
    (cosetsLoop N fuel done front rep).Sat (AllSets N)
  | 0, _, _, rep, h1, h2, _, _, _, _, _, _, _, _ => by omega
  | fuel + 1, done, front, rep, h1, h2, hf0, hf, hfr, hs, hnew, hcov, hfst, hfst' => by
    have hN7 := lt_of_two_le hm
    unfold cosetsLoop
    refine (coset_sat hm hN hf0 hf).bind fun c hc => ?_
    have hs' : Sets N (done ++ [c]) := hs.append hN hf0 hf hc hnew
    have hfirst : ∃ d, (done ++ [c])[0]? = some d ∧ d[0]? = some 1 := by
      by_cases hd : done = []
      · subst hd
        have := hfst rfl
        subst this
        exact ⟨c, rfl, hc.head⟩
      · obtain ⟨d, hd1, hd2⟩ := hfst' hd
        refine ⟨d, ?_, hd2⟩
        rw [List.getElem?_append_left (List.length_pos_iff.mpr hd)]
        exact hd1
    have hcov' : ∀ x, 1 ≤ x → x ≤ rep → Cov (done ++ [c]) x := by
      intro x hx1 hx2
      rcases hcov x hx1 hx2 with ⟨d, hd, hxd⟩ | rfl
      · exact ⟨d, List.mem_append_left _ hd, hxd⟩
      · exact ⟨c, by simp, List.mem_of_getElem? hc.head⟩
    refine (findRep_sat N rep h1 (by omega) hcov').bind fun o ho => ?_
    cases o with
    | none => exact sat_ok.mpr ⟨hs', ho, hfirst⟩
    | some r =>
      simp only at ho ⊢
      obtain ⟨hr1, hr2, hr3, hr4⟩ := ho
      have hne : r < N - 1 := by
        rcases Nat.lt_or_ge r (N - 1) with h | h
        · exact h
        · exfalso
          have hr : r = N - 1 := by omega
          obtain ⟨k, rfl⟩ : ∃ k, m = k + 1 := ⟨m - 1, by omega⟩
          have hk2 : 2 ^ 1 ≤ 2 ^ k := Nat.pow_le_pow_right (by omega) (by omega)
          rw [Nat.pow_succ] at hN hN7
          have hx := cov_closed hs' (hr4 (2 ^ k - 1) (by omega) (by omega)) 1
          rw [dbl_succ, dbl_zero (by omega), Nat.mod_eq_of_lt (by omega)] at hx
          rw [show (2 ^ k - 1) * 2 = r by omega] at hx
          exact hr3 hx
      rw [if_pos hne]
      exact cosetsLoop_sat hm hN fuel _ r r hne (by omega) (by omega) hr2 (by omega) hs' hr3
        (fun x hx1 hx2 => by
          rcases Nat.lt_or_ge x r with h | h
          · exact Or.inl (hr4 x hx1 h)
          · exact Or.inr (by omega))
        (fun h => absurd h (by simp)) (fun _ => hfirst)

theorem cosets_sat (hm : 2 ≤ m) (hN : N = 2 ^ m - 1) : (cosets N).Sat (AllSets N) := by
  have := lt_of_two_le hm
  apply cosetsLoop_sat hm hN N [] 1 0 (by omega) (by omega) (by omega) (by omega) (by omega)
    ⟨by simp, List.Pairwise.nil⟩
  · rintro ⟨c, hc, _⟩; simp at hc
  · intro x hx1 hx2; omega
  · intro _; rfl
  · intro h; exact absurd rfl h

/-- The exponents of the roots of the generator. -/
structure Zeros (N d : Nat) (z : List Nat) : Prop where
  first : z[0]? = some 1
  nodup : z.Nodup
  range : ∀ x ∈ z, 1 ≤ x ∧ x < N
  closed : ∀ x ∈ z, x * 2 % N ∈ z
  roots : ∀ j, 1 ≤ j → j < d → j < N → j ∈ z
  minimal : ∀ x ∈ z, ∃ j i, 1 ≤ j ∧ j < d ∧ j < N ∧ x = dbl N j i

theorem dbl_pos (hN : N = 2 ^ m - 1) {f : Nat} (hf0 : 0 < f) (hf : f < N) (j : Nat) : 0 < dbl N f j := by
  unfold dbl
  apply Nat.pos_of_ne_zero
  intro h
  have hco : Nat.Coprime N (2 ^ j) := by
    apply Nat.Coprime.pow_right
    by_cases hm0 : m = 0
    · subst hm0; rw [hN] at hf; simp at hf
    obtain ⟨k, rfl⟩ : ∃ k, m = k + 1 := ⟨m - 1, by omega⟩
    rw [Nat.coprime_two_right, Nat.odd_iff, hN, Nat.pow_succ]
    have := Nat.two_pow_pos k
    omega
  have := hco.dvd_of_dvd_mul_right (Nat.dvd_of_mod_eq_zero h)
  exact absurd (Nat.le_of_dvd hf0 this) (by omega)

theorem zeros_sat (hm : 2 ≤ m) (hN : N = 2 ^ m - 1) {sets : List (List Nat)} (h : AllSets N sets) {d : Nat}
    (hd : 2 ≤ d) : Zeros N d (zerosOf d sets) := by
  have hN7 := lt_of_two_le hm
  have hmem : ∀ x, x ∈ zerosOf d sets ↔ ∃ c ∈ sets, (∃ y ∈ c, 1 ≤ y ∧ y < d) ∧ x ∈ c := by
    intro x
    unfold zerosOf
    rw [List.mem_flatten]
    constructor
    · rintro ⟨c, hc, hx⟩
      rw [List.mem_filter, List.any_eq_true] at hc
      obtain ⟨hc1, y, hy1, hy2⟩ := hc
      exact ⟨c, hc1, ⟨y, hy1, of_decide_eq_true hy2⟩, hx⟩
    · rintro ⟨c, hc, ⟨y, hy1, hy2⟩, hx⟩
      exact ⟨c, List.mem_filter.mpr ⟨hc, List.any_eq_true.mpr ⟨y, hy1, decide_eq_true hy2⟩⟩, hx⟩
  refine ⟨?_, ?_, ?_, ?_, ?_, ?_⟩
  · obtain ⟨c, hc1, hc2⟩ := h.first
    cases sets with
    | nil => simp at hc1
    | cons a l =>
      simp at hc1
      subst hc1
      unfold zerosOf
      rw [List.filter_cons_of_pos, List.flatten_cons]
      · cases a with
        | nil => simp at hc2
        | cons b t => simpa using hc2
      · rw [List.any_eq_true]
        exact ⟨1, List.mem_of_getElem? hc2, decide_eq_true (by omega)⟩
  · unfold zerosOf
    rw [List.nodup_flatten]
    refine ⟨?_, List.Pairwise.filter _ h.disj⟩
    intro c hc
    obtain ⟨f, _, _, hcs⟩ := h.each c (List.mem_of_mem_filter hc)
    exact hcs.nodup
  · intro x hx
    obtain ⟨c, hc, _, hxc⟩ := (hmem x).mp hx
    obtain ⟨f, hf0, hf, hcs⟩ := h.each c hc
    obtain ⟨j, rfl⟩ := (hcs.mem x).mp hxc
    exact ⟨dbl_pos hN hf0 hf j, dbl_lt (by omega) f j⟩
  · intro x hx
    obtain ⟨c, hc, hy, hxc⟩ := (hmem x).mp hx
    obtain ⟨f, hf0, hf, hcs⟩ := h.each c hc
    refine (hmem _).mpr ⟨c, hc, hy, ?_⟩
    have := coset_closed hcs hxc 1
    unfold dbl at this
    rwa [Nat.pow_one] at this
  · intro j h1 h2 h3
    obtain ⟨c, hc, hjc⟩ := h.cover j h1 h3
    exact (hmem j).mpr ⟨c, hc, ⟨j, hjc, h1, h2⟩, hjc⟩
  · intro x hx
    obtain ⟨c, hc, ⟨y, hyc, hy1, hy2⟩, hxc⟩ := (hmem x).mp hx
    obtain ⟨f, hf0, hf, hcs⟩ := h.each c hc
    obtain ⟨i, hi⟩ := coset_back hN hcs hf hyc
    obtain ⟨j, hj⟩ := (hcs.mem x).mp hxc
    obtain ⟨i', hi'⟩ := (hcs.mem y).mp hyc
    refine ⟨y, i + j, hy1, hy2, ?_, ?_⟩
    · rw [hi']; exact dbl_lt (by omega) _ _
    · rw [hj, ← hi, dbl_dbl]

end Verif.BCH
