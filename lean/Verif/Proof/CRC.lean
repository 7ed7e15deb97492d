import Verif.Model.CRC
import Verif.Spec.CRC
import Verif.Proof.GF2Poly
import Verif.Prelude.Loops

/-! # The bitwise CRC computes the remainder -/

namespace Verif.CRC
open Exec Polynomial GF2

/-- Facts about a constructed object. -/
structure Crc.WF (c : Crc) : Prop where
  K_pos : 0 < c.K
  size_pos : 0 < c.size
  size_le : c.size ≤ 32
  poly_eq : c.poly =
    1 :: (List.range c.size).map (fun i => (((c.packed >>> (c.size - 1 - i)) &&& 1 : Nat) : Int))

theorem mk?_wf {K : Int} {packed size : Nat} {c : Crc} (h : Crc.mk? K packed size = ok c) :
    c.WF ∧ c.K = K.toNat ∧ c.packed = packed ∧ c.size = size := by
  unfold Crc.mk? at h
  split at h
  · cases h
  split at h
  · cases h
  split at h
  · cases h
  split at h
  · cases h
  cases h
  exact ⟨⟨by simp only; omega, by simp only; omega, by simp only; omega, rfl⟩, rfl, rfl, rfl⟩

/-- Coefficient `k` of the generator, first = highest degree. -/
def gbit (c : Crc) (k : Nat) : ZMod 2 :=
  if k = 0 then 1 else if c.packed.testBit (c.size - k) then 1 else 0

theorem shiftAnd_ne {n i : Nat} : ((((n >>> i) &&& 1 : Nat) : Int) ≠ 0) ↔ n.testBit i = true := by
  rw [Nat.testBit_eq_decide_div_mod_eq, Nat.shiftRight_eq_div_pow, Nat.and_one_is_mod]
  simp only [decide_eq_true_eq]
  omega

theorem poly_length {c : Crc} (h : c.WF) : c.poly.length = c.size + 1 := by
  rw [h.poly_eq]; simp

theorem poly_getD {c : Crc} (h : c.WF) {k : Nat} (hk : k ≤ c.size) : bit (c.poly.getD k 0) = gbit c k := by
  rw [h.poly_eq]
  cases k with
  | zero => simp [bit, gbit]
  | succ k =>
    rw [List.getD_eq_getElem?_getD, List.getElem?_cons_succ, getElem?_mapRange, if_pos (by omega)]
    simp only [Option.getD_some, bit, gbit, shiftAnd_ne, Nat.add_eq_zero_iff, Nat.one_ne_zero, and_false, if_false]
    rw [show c.size - 1 - k = c.size - (k + 1) by omega]

theorem genPoly_eq (c : Crc) : genPoly c.packed c.size = P (c.size + 1) (gbit c) := by
  ext j
  rw [coeff_P, genPoly, coeff_add, coeff_X_pow, finset_sum_coeff]
  have : ∀ i, (if c.packed.testBit i then (X ^ i : (ZMod 2)[X]) else 0).coeff j =
      if j = i then (if c.packed.testBit j then 1 else 0) else 0 := by
    intro i
    split
    · rw [coeff_X_pow]
      split
      · next h1 h2 => subst h2; simp [h1]
      · rfl
    · next h1 =>
      split
      · next h2 => subst h2; simp [h1]
      · simp
  rw [Finset.sum_congr rfl fun i _ => this i, Finset.sum_ite_eq]
  unfold gbit
  by_cases h : j < c.size
  · simp only [Finset.mem_range, h, if_true, if_neg (show ¬ j = c.size by omega), zero_add,
      if_pos (show j < c.size + 1 by omega), if_neg (show ¬ c.size + 1 - 1 - j = 0 by omega),
      show c.size - (c.size + 1 - 1 - j) = j by omega]
  · by_cases h2 : j = c.size
    · subst h2; simp
    · simp only [Finset.mem_range, h, if_false, if_neg h2, if_neg (show ¬ j < c.size + 1 by omega), add_zero]

theorem genPoly_monic (c : Crc) : (genPoly c.packed c.size).Monic ∧ (genPoly c.packed c.size).natDegree = c.size := by
  rw [genPoly_eq]
  have hd : (P (c.size + 1) (gbit c)).natDegree = c.size := by
    apply natDegree_eq_of_le_of_coeff_ne_zero
    · rw [natDegree_le_iff_coeff_eq_zero]
      intro N hN
      rw [coeff_P, if_neg (by omega)]
    · rw [coeff_P, if_pos (by omega)]; simp [gbit]
  refine ⟨?_, hd⟩
  rw [Monic, leadingCoeff, hd, coeff_P, if_pos (by omega)]
  simp [gbit]

/-- Buffer as a polynomial. -/
noncomputable abbrev PB (n : Nat) (b : List Int) : (ZMod 2)[X] := P n (fun k => bit (b.getD k 0))

theorem getD_set_ne {b : List Int} {i j : Nat} {v : Int} (h : i ≠ j) : (b.set i v).getD j 0 = b.getD j 0 := by
  simp [List.getD_eq_getElem?_getD, List.getElem?_set_ne h]

theorem getD_set_eq {b : List Int} {i : Nat} {v : Int} (h : i < b.length) : (b.set i v).getD i 0 = v := by
  simp [List.getD_eq_getElem?_getD, h]

theorem generate_sat {c : Crc} (h : c.WF) {buff u : List Int} {off n : Nat} (hu : off + n ≤ u.length)
    (hb : n + c.size ≤ buff.length) :
    (c.generate buff u off n).Sat fun b => b.length = buff.length ∧
      (∀ k, k < n → b.getD k 0 = 0) ∧ (∀ k, k < c.size → b.getD (n + k) 0 = 0 ∨ b.getD (n + k) 0 = 1) ∧
      genPoly c.packed c.size ∣ P n (fun k => bit (u.getD (off + k) 0)) * X ^ c.size + PB (n + c.size) b := by
  unfold Crc.generate
  refine (copyTo_sat hu (by omega)).bind ?_
  rintro b1 ⟨hl1, hb1⟩
  refine (forN_fill (off := n) (n := c.size) (g := fun _ => (0 : Int)) (by omega)).bind ?_
  rintro b2 ⟨hl2, hb2⟩
  have hstart : PB (n + c.size) b2 = P n (fun k => bit (u.getD (off + k) 0)) * X ^ c.size := by
    rw [PB, P_add]
    have e1 : P n (fun k => bit (b2.getD k 0)) = P n (fun k => bit (u.getD (off + k) 0)) := by
      apply P_congr
      intro k hk
      rw [List.getD_eq_getElem?_getD, hb2, if_neg (by omega), hb1, if_pos (by omega), List.getD_eq_getElem?_getD]
      simp
    have e2 : P c.size (fun k => bit (b2.getD (n + k) 0)) = P c.size (fun _ => 0) := by
      apply P_congr
      intro k hk
      rw [List.getD_eq_getElem?_getD, hb2, if_pos (by omega)]
      rfl
    rw [e1, e2, P_zero, add_zero]
  have hG := genPoly_eq c
  refine (forN_inv (fun i (b : List Int) => b.length = buff.length ∧ (∀ k, k < i → b.getD k 0 = 0) ∧
      (∀ k, k < c.size → b.getD (n + k) 0 = 0 ∨ b.getD (n + k) 0 = 1) ∧
      genPoly c.packed c.size ∣ PB (n + c.size) b2 + PB (n + c.size) b) ?_ ?_).mono ?_
  · refine ⟨by omega, by intro k hk; omega, ?_, ?_⟩
    · intro k hk
      left
      rw [List.getD_eq_getElem?_getD, hb2, if_pos (by omega)]; rfl
    · rw [add_self]; exact dvd_zero _
  · rintro i b hi ⟨hl, hz, h01, hd⟩
    have hib : i < b.length := by omega
    rw [rd_lt hib, bind_ok]
    have hgi : b.getD i 0 = b[i] := getD_lt 0 hib
    by_cases hv : b[i] ≠ 0
    · rw [if_pos hv]
      refine (forN_inv (fun j (b' : List Int) => b'.length = buff.length ∧
          (∀ k, k < i → b'.getD k 0 = 0) ∧
          (b'.getD i 0 = if j = 0 then b[i] else 0) ∧
          (∀ k, k < c.size → b'.getD (n + k) 0 = 0 ∨ b'.getD (n + k) 0 = 1) ∧
          PB (n + c.size) b' = PB (n + c.size) b +
            ∑ k ∈ Finset.range j, C (gbit c k) * X ^ (n + c.size - 1 - (i + k))) ?_ ?_).mono ?_
      · exact ⟨hl, hz, by simpa using hgi, h01, by simp⟩
      · rintro j b' hj ⟨hl', hz', hi', h01', hp'⟩
        have hjp : j < c.poly.length := by rw [poly_length h]; omega
        have hpj : bit c.poly[j] = gbit c j := by
          rw [← poly_getD h (by omega), getD_lt 0 hjp]
        rw [rd_lt hjp, bind_ok]
        by_cases hpz : c.poly[j] ≠ 0
        · have hij : i + j < b'.length := by omega
          rw [if_pos hpz, rd_lt hij, bind_ok, wr_lt hij, sat_ok]
          have hx : b'.getD (i + j) 0 = b'[i + j] := getD_lt 0 hij
          refine ⟨by simpa using hl', ?_, ?_, ?_, ?_⟩
          · intro k hk
            rw [getD_set_ne (by omega)]
            exact hz' k hk
          · rw [if_neg (Nat.succ_ne_zero j)]
            by_cases hj0 : j = 0
            · subst hj0
              rw [Nat.add_zero] at hij
              simp only [Nat.add_zero]
              rw [getD_set_eq hij]
              rw [if_pos rfl, getD_lt 0 hij] at hi'
              have hne : ¬ b'[i] = 0 := by rw [hi']; exact hv
              rw [if_neg hne]
            · rw [getD_set_ne (by omega), hi', if_neg hj0]
          · intro k hk
            by_cases he : i + j = n + k
            · rw [← he, getD_set_eq hij]
              split
              · right; rfl
              · left; rfl
            · rw [getD_set_ne he]; exact h01' k hk
          · rw [PB, P_set (by omega) hij, hx, ← PB, hp', Finset.sum_range_succ, ← add_assoc]
            congr 2
            rw [← hpj]
            congr 1
            unfold bit
            rw [if_pos hpz]
            split
            · next h0 => simp [h0]
            · next h0 => simp [h0]
        · rw [if_neg hpz, sat_ok]
          have hg0 : gbit c j = 0 := by rw [← hpj, bit_eq_zero]; simpa using hpz
          have hj0 : j ≠ 0 := by rintro rfl; simp [gbit] at hg0
          refine ⟨hl', hz', ?_, h01', ?_⟩
          · rw [hi', if_neg hj0, if_neg (Nat.succ_ne_zero j)]
          · rw [hp', Finset.sum_range_succ, hg0]; simp
      · rintro b' ⟨hl', hz', hi', h01', hp'⟩
        refine ⟨hl', ?_, h01', ?_⟩
        · intro k hk
          by_cases hk' : k = i
          · subst hk'; rw [hi', if_neg (by omega)]
          · exact hz' k (by omega)
        · rw [hp', ← add_assoc]
          refine dvd_add hd ?_
          refine ⟨X ^ (n - 1 - i), ?_⟩
          rw [hG, P, Finset.sum_mul]
          refine Finset.sum_congr rfl fun k hk => ?_
          have := Finset.mem_range.mp hk
          rw [mul_assoc, ← pow_add]
          congr 2
          omega
    · rw [if_neg hv, sat_ok]
      refine ⟨hl, ?_, h01, hd⟩
      intro k hk
      by_cases hk' : k = i
      · subst hk'; rw [hgi]; simpa using hv
      · exact hz k (by omega)
  · rintro b ⟨hl, hz, h01, hd⟩
    exact ⟨hl, hz, h01, by rw [← hstart]; exact hd⟩

/-- Tail of the scratch buffer after `_generate`: the unique remainder. -/
theorem generate_rem {c : Crc} (h : c.WF) {buff u : List Int} {off n : Nat} (hu : off + n ≤ u.length)
    (hb : n + c.size ≤ buff.length) :
    (c.generate buff u off n).Sat fun b => b.length = buff.length ∧
      (∀ k, k < c.size → b.getD (n + k) 0 = 0 ∨ b.getD (n + k) 0 = 1) ∧
      genPoly c.packed c.size ∣ P n (fun k => bit (u.getD (off + k) 0)) * X ^ c.size +
        P c.size (fun k => bit (b.getD (n + k) 0)) := by
  refine (generate_sat h hu hb).mono ?_
  rintro b ⟨hl, hz, h01, hd⟩
  refine ⟨hl, h01, ?_⟩
  rw [PB, P_add] at hd
  have : P n (fun k => bit (b.getD k 0)) = 0 := by
    rw [← P_zero n]
    apply P_congr
    intro k hk
    rw [hz k hk]; rfl
  rwa [this, zero_mul, zero_add] at hd

theorem compareLoop_eq {b v : List Int} {off : Nat} :
    ∀ (r i : Nat), off + i + r ≤ b.length → off + i + r ≤ v.length →
      ∃ res, compareLoop b v off i r = ok res ∧
        (res = true ↔ ∀ k, i ≤ k → k < i + r → bit (b.getD (off + k) 0) = bit (v.getD (off + k) 0)) := by
  intro r
  induction r with
  | zero => intro i _ _; exact ⟨true, rfl, by simp; omega⟩
  | succ r ih =>
    intro i hb hv
    rw [compareLoop, rd_lt (show off + i < b.length by omega), bind_ok, rd_lt (show off + i < v.length by omega),
      bind_ok]
    have e : (b[off + i] ≠ 0 ∨ v[off + i] = 0) ∧ (b[off + i] = 0 ∨ v[off + i] ≠ 0) ↔
        bit (b.getD (off + i) 0) = bit (v.getD (off + i) 0) := by
      rw [bit_inj, getD_lt 0 (by omega), getD_lt 0 (by omega)]
      constructor
      · rintro ⟨h1, h2⟩
        constructor
        · intro hh; rcases h2 with h2 | h2
          · exact absurd h2 hh
          · exact h2
        · intro hh; rcases h1 with h1 | h1
          · exact h1
          · exact absurd h1 hh
      · intro hh
        by_cases hx : b[off + i] = 0
        · have : v[off + i] = 0 := by by_contra hy; exact hh.mpr hy hx
          exact ⟨Or.inr this, Or.inl hx⟩
        · exact ⟨Or.inl hx, Or.inr (hh.mp hx)⟩
    by_cases hc : (b[off + i] ≠ 0 ∨ v[off + i] = 0) ∧ (b[off + i] = 0 ∨ v[off + i] ≠ 0)
    · rw [if_pos hc]
      obtain ⟨res, h1, h2⟩ := ih (i + 1) (by omega) (by omega)
      refine ⟨res, h1, h2.trans ⟨?_, ?_⟩⟩
      · intro hh k hk1 hk2
        by_cases hki : k = i
        · subst hki; exact e.mp hc
        · exact hh k (by omega) (by omega)
      · intro hh k hk1 hk2
        exact hh k (by omega) (by omega)
    · rw [if_neg hc]
      refine ⟨false, rfl, ?_⟩
      simp only [Bool.false_eq_true, false_iff]
      intro hh
      exact hc (e.mpr (hh i (by omega) (by omega)))

/-- `_check` decides divisibility by the generator. -/
theorem check_iff {c : Crc} (h : c.WF) {buff v : List Int} (hv : v.length = c.K + c.size)
    (hb : c.K + c.size ≤ buff.length) :
    ∃ res, c.check buff v = ok res ∧ (res = true ↔ genPoly c.packed c.size ∣ wordPoly v) := by
  unfold Crc.check
  obtain ⟨b, hgen, hl, h01, hd⟩ := generate_rem (off := 0) (n := c.K) (u := v) h (by omega) hb
  rw [hgen, bind_ok]
  obtain ⟨res, h1, h2⟩ := compareLoop_eq (b := b) (v := v) (off := c.K) c.size 0 (by omega) (by omega)
  refine ⟨res, h1, h2.trans ?_⟩
  rw [wordPoly_eq, hv, P_add]
  simp only [Nat.zero_add] at hd
  obtain ⟨hm, hdeg⟩ := genPoly_monic c
  constructor
  · intro hh
    rw [P_congr (g := fun k => bit (v.getD (c.K + k) 0)) (fun k hk => hh k (Nat.zero_le _) (by omega))] at hd
    exact hd
  · intro hdv k _ hk
    have hsum := dvd_add hd hdv
    have : genPoly c.packed c.size ∣ P c.size (fun k => bit (b.getD (c.K + k) 0)) +
        P c.size (fun k => bit (v.getD (c.K + k) 0)) := by
      have e := add_self (P c.K (fun k => bit (v.getD k 0)) * X ^ c.size)
      have e2 : ∀ a p q : (ZMod 2)[X], a + a = 0 → (a + p) + (a + q) = p + q := by
        intro a p q ha; linear_combination ha
      rwa [e2 _ _ _ e] at hsum
    exact P_inj (eq_of_dvd_add hm hdeg (degree_P _ _) (degree_P _ _) this) k (by omega)

/-- `_build` outputs the payload followed by 0/1 bits forming a multiple of the generator. -/
theorem build_sat {c : Crc} (h : c.WF) {buff u out : List Int} (hu : u.length = c.K)
    (ho : out.length = c.K + c.size) (hb : c.K + c.size ≤ buff.length) :
    ∃ r, c.build buff u out = ok (u ++ r) ∧ r.length = c.size ∧ (∀ v ∈ r, v = 0 ∨ v = 1) ∧
      genPoly c.packed c.size ∣ wordPoly u * X ^ c.size + wordPoly r := by
  unfold Crc.build
  obtain ⟨o1, ho1, hl1, hg1⟩ := copyTo_sat (src := u) (so := 0) (n := c.K) (dst := out) (d := 0) (by omega) (by omega)
  rw [ho1, bind_ok]
  obtain ⟨b, hgen, hl, h01, hd⟩ := generate_rem (off := 0) (n := c.K) (u := u) h (by omega) hb
  rw [hgen, bind_ok]
  obtain ⟨o2, ho2, hl2, hg2⟩ := copyTo_sat (src := b) (so := c.K) (n := c.size) (dst := o1) (d := c.K)
    (by omega) (by omega)
  rw [ho2]
  have hlr : ((List.range c.size).map fun k => b.getD (c.K + k) 0).length = c.size := by simp
  refine ⟨(List.range c.size).map (fun k => b.getD (c.K + k) 0), ?_, hlr, ?_, ?_⟩
  · congr 1
    apply List.ext_getElem?
    intro j
    rw [hg2, hg1]
    by_cases h1 : j < c.K
    · rw [if_neg (by omega), if_pos (by omega), List.getElem?_append_left (by omega)]; simp
    · by_cases h2 : j < c.K + c.size
      · rw [if_pos (by omega), List.getElem?_append_right (by omega), getElem?_mapRange, if_pos (by omega),
          hu, getD_lt 0 (by omega), List.getElem?_eq_getElem (by omega)]
      · rw [if_neg (by omega), if_neg (by omega), List.getElem?_eq_none (by omega),
          List.getElem?_eq_none (by simp; omega)]
  · intro v hv
    obtain ⟨k, hk, rfl⟩ := List.mem_map.mp hv
    exact h01 k (List.mem_range.mp hk)
  · rw [wordPoly_eq, wordPoly_eq, hu, hlr]
    have e : P c.size (fun k => bit (((List.range c.size).map fun k => b.getD (c.K + k) 0).getD k 0)) =
        P c.size (fun k => bit (b.getD (c.K + k) 0)) := by
      apply P_congr
      intro k hk
      rw [List.getD_eq_getElem?_getD, getElem?_mapRange, if_pos hk]; rfl
    rw [e]
    simpa using hd

theorem wordPoly_append (a b : List Int) : wordPoly (a ++ b) = wordPoly a * X ^ b.length + wordPoly b := by
  induction a with
  | nil => simp [wordPoly]
  | cons v a ih =>
    rw [List.cons_append, wordPoly, ih, wordPoly, List.length_append, pow_add]
    ring

end Verif.CRC
