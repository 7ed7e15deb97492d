import Verif.Model.RSDec
import Verif.Proof.Forney
import Verif.Proof.BCHDecAlg

/-! # The Reed–Solomon decoder computes in the field -/

namespace Verif.RSDec
open Exec Finset Verif.Galois Verif.BCH Verif.BM Verif.BCHDec

variable {c : Core} [Fact (Irreducible (fieldPoly c.gf.m c.gf.p))]

theorem int32_nat {x : ℕ} (h : x < 2 ^ 31) : int32 (x : Int) = ok (x : Int) := by
  unfold int32
  rw [if_pos ⟨by omega, by omega⟩]

theorem pol_el {g : GF} [Fact (Irreducible (fieldPoly g.m g.p))] {v : ℕ} (h : v < 2 ^ g.m) : Pol g (v : Int) (el g.m g.p v) := ⟨v, rfl, h, rfl⟩

/-- Nothing overflows. -/
def Small (c : Core) : Prop := (2 * c.t + 1) * c.gf.N < 2 ^ 31

theorem small_le (h : Small c) {a b : ℕ} (ha : a ≤ 2 * c.t) (hb : b ≤ c.gf.N) {x : ℕ} (hx : x ≤ c.gf.N) : x + a * b < 2 ^ 31 := by
  have h1 : a * b ≤ 2 * c.t * c.gf.N := Nat.mul_le_mul ha hb
  unfold Small at h
  rw [Nat.add_mul, Nat.one_mul] at h
  omega

theorem synLoop_sat (G : Good c.gf) (hnp : c.np = c.gf.N) {y : List ℕ} {n : ℕ} (hy : y.length = n) (hn : n ≤ c.gf.N) (sy : Sym c.gf y)
    (hov : Small c) {s0 : List Int} (hs : s0.length = 2 * c.t + 1) :
    (forRange 1 (2 * c.t + 1) (synLoop c n y) (s0, false)).Sat fun r => r.1.length = 2 * c.t + 1 ∧
      (∀ k, 1 ≤ k → k ≤ 2 * c.t → Idx c.gf (at1 r.1 k) (syndrome c.gf y k)) ∧
      (r.2 = true ↔ ∃ k, 1 ≤ k ∧ k ≤ 2 * c.t ∧ syndrome c.gf y k ≠ 0) := by
  refine (forRange_inv (fun i (r : List Int × Bool) => r.1.length = 2 * c.t + 1 ∧
      (∀ k, 1 ≤ k → k < i → Idx c.gf (at1 r.1 k) (syndrome c.gf y k)) ∧
      (r.2 = true ↔ ∃ k, 1 ≤ k ∧ k < i ∧ syndrome c.gf y k ≠ 0)) (by omega) ⟨hs, fun k h1 h2 => absurd h2 (by omega), ?_⟩ ?_).mono ?_
  · constructor
    · intro h; exact absurd h (by simp)
    · rintro ⟨k, h1, h2, _⟩; omega
  · rintro i ⟨s, f⟩ hi1 hi2 ⟨h1, h2, h3⟩
    simp only at h1 h2 h3
    unfold synLoop
    simp only
    have hsum : (forN n (synStep c y i) 0).Sat fun x => Pol c.gf x (syndrome c.gf y i) := by
      refine (forN_inv (fun j (x : Int) => Pol c.gf x (∑ p ∈ range j, el c.gf.m c.gf.p (y.getD p 0) * al c.gf.m c.gf.p ^ (i * p))) ?_ ?_).mono fun x hx => ?_
      · rw [sum_range_zero]; exact pol_zero
      · intro j x hj hx
        unfold synStep
        rw [rd_lt (by omega), bind_ok, sum_range_succ, ← getD_lt 0 (by omega)]
        refine (index_sat G (pol_el (sy j))).bind fun ix hix => ?_
        by_cases hc : ix ≠ -1
        · obtain ⟨k, hk, rfl, ek⟩ := idx_pos G hix ((idx_ne G hix).1 hc)
          have hlt := small_le hov (a := i) (b := j) (x := k) (by omega) (by omega) (by omega)
          rw [if_pos hc, int32_nat (by omega), bind_ok, ← Nat.cast_add, int32_nat hlt, bind_ok]
          refine (alphaMod_nat G hnp (k + i * j)).bind fun v hv => ?_
          rw [sat_ok, ← ek, ← pow_add]
          exact pol_xor hx hv
        · have h0 : el c.gf.m c.gf.p (y.getD j 0) = 0 := by
            by_contra hn
            exact hc ((idx_ne G hix).2 hn)
          rw [if_neg hc, sat_ok, h0, zero_mul, add_zero]
          exact hx
      · unfold syndrome
        rw [hy]
        exact hx
    refine hsum.bind fun x hx => ?_
    refine (index_sat G hx).bind fun ix hix => ?_
    rw [wr_lt (by omega), bind_ok, sat_ok]
    refine ⟨by show (s.set _ _).length = _; rw [List.length_set]; exact h1, fun k h4 h5 => ?_, ?_⟩
    · show Idx c.gf (at1 (s.set i ix) k) _
      rw [at1_set (by omega)]
      by_cases ek : k = i
      · subst ek; rw [if_pos rfl]; exact hix
      · rw [if_neg ek]; exact h2 k h4 (by omega)
    · show (f || decide (x ≠ 0)) = true ↔ _
      rw [Bool.or_eq_true, decide_eq_true_iff, h3, ne_eq, not_congr (pol_eq_zero hx)]
      constructor
      · rintro (⟨k, h4, h5, h6⟩ | h)
        · exact ⟨k, h4, by omega, h6⟩
        · exact ⟨i, hi1, by omega, h⟩
      · rintro ⟨k, h4, h5, h6⟩
        by_cases ek : k = i
        · subst ek; exact Or.inr h6
        · exact Or.inl ⟨k, h4, by omega, h6⟩
  · rintro r ⟨h1, h2, h3⟩
    refine ⟨h1, fun k h4 h5 => h2 k h4 (by omega), h3.trans ⟨?_, ?_⟩⟩
    · rintro ⟨k, h4, h5, h6⟩; exact ⟨k, h4, by omega, h6⟩
    · rintro ⟨k, h4, h5, h6⟩; exact ⟨k, h4, by omega, h6⟩

theorem chien_loop (G : Good c.gf) (hnp : c.np = c.gf.N) {reg root loc : List Int} {σ : ℕ → Fld c.gf.m c.gf.p} {L : ℕ} (hr : reg.length = c.t + 1)
    (ho : root.length = c.t + 1) (hl : loc.length = c.t + 1) (hL : L ≤ c.t) (h1 : σ 0 = 1) (h : ∀ j, 1 ≤ j → j ≤ L → Idx c.gf (at1 reg j) (σ j)) :
    (forRange 1 (c.np + 1) (chienStep c L) ⟨reg, root, loc, 0⟩).Sat fun st => st.reg.length = c.t + 1 ∧ st.root.length = c.t + 1 ∧
      st.loc.length = c.t + 1 ∧ st.count = (rts c.gf.N (Root c σ L) c.gf.N).length ∧
      ∀ n, n < st.count → at1 st.loc n = ((rts c.gf.N (Root c σ L) c.gf.N).getD n 0 : ℕ) ∧
        at1 st.root n = ((c.gf.N - (rts c.gf.N (Root c σ L) c.gf.N).getD n 0 : ℕ) : Int) := by
  have hN := N_pos G
  refine (forRange_inv (fun i (st : Chien) => st.reg.length = c.t + 1 ∧ st.root.length = c.t + 1 ∧ st.loc.length = c.t + 1 ∧
      st.count = (rts c.gf.N (Root c σ L) (i - 1)).length ∧
      (∀ n, n < st.count → at1 st.loc n = ((rts c.gf.N (Root c σ L) (i - 1)).getD n 0 : ℕ) ∧
        at1 st.root n = ((c.gf.N - (rts c.gf.N (Root c σ L) (i - 1)).getD n 0 : ℕ) : Int)) ∧
      ∀ j, 1 ≤ j → j ≤ L → Idx c.gf (at1 st.reg j) (σ j * al c.gf.m c.gf.p ^ ((i - 1) * j))) (by omega)
      ⟨hr, ho, hl, rfl, fun n hn => absurd hn (Nat.not_lt_zero n), fun j h2 h3 => ?_⟩ ?_).mono ?_
  · rw [Nat.zero_mul, pow_zero, mul_one]; exact h j h2 h3
  · rintro i ⟨reg, root, loc, count⟩ hi1 hi2 ⟨g1, g0, g2, g3, g4, g5⟩
    simp only at g0 g1 g2 g3 g4 g5
    unfold chienStep
    simp only
    rw [show ((L : Int) + 1).toNat = L + 1 by omega]
    refine (chienTerms G hnp (a := fun j => σ j * al c.gf.m c.gf.p ^ ((i - 1) * j)) (L := L) (by omega) (by simp [h1]) g5).bind fun r ⟨r1, r2, r3⟩ => ?_
    have hpow : ∀ j, σ j * al c.gf.m c.gf.p ^ ((i - 1) * j) * al c.gf.m c.gf.p ^ j = σ j * al c.gf.m c.gf.p ^ (i * j) := by
      intro j
      rw [mul_assoc, ← pow_add, show (i - 1) * j + j = i * j by
        obtain ⟨k, rfl⟩ : ∃ k, i = k + 1 := ⟨i - 1, by omega⟩
        rw [Nat.add_sub_cancel, Nat.succ_mul]]
    have r2' : ∀ j, 1 ≤ j → j ≤ L → Idx c.gf (at1 r.1 j) (σ j * al c.gf.m c.gf.p ^ ((i + 1 - 1) * j)) := by
      intro j h2 h3
      have := r2 j h2 h3
      rw [hpow] at this
      exact this
    rw [sum_congr rfl fun j _ => hpow j] at r3
    have hiff := (pol_eq_zero r3).trans (chien_iff G (L := L) (σ := σ) (i := i) (by omega))
    rw [show c.gf.N - i = c.gf.N - 1 - (i - 1) by omega] at hiff
    have hs := rts_succ c.gf.N (Root c σ L) (i - 1)
    rw [show i - 1 + 1 = i + 1 - 1 by omega] at hs
    by_cases hc : r.2 = 0
    · have hs := hs.1 (hiff.1 hc)
      have hlen := rts_length G (σ := σ) (L := L) (k := i + 1 - 1) h1 (by omega)
      rw [hs, List.length_append, List.length_singleton] at hlen
      rw [if_pos hc, wr_lt (by omega), bind_ok, wr_lt (by omega), bind_ok, sat_ok]
      refine ⟨by show r.1.length = _; omega, by show (root.set _ _).length = _; rw [List.length_set]; exact g0,
        by show (loc.set _ _).length = _; rw [List.length_set]; exact g2, ?_, fun n hn => ?_, r2'⟩
      · show count + 1 = _
        rw [hs, List.length_append, List.length_singleton]; omega
      · show at1 (loc.set _ _) n = _ ∧ at1 (root.set _ _) n = _
        have hn : n < count + 1 := hn
        rw [at1_set (by omega), at1_set (by omega), hs]
        by_cases en : n = count
        · subst en
          rw [if_pos rfl, if_pos rfl, List.getD_eq_getElem?_getD, g3, List.getElem?_append_right (Nat.le_refl _), Nat.sub_self]
          show ((c.np : Int) - i) = ((c.gf.N - 1 - (i - 1) : ℕ) : Int) ∧ (i : Int) = ((c.gf.N - (c.gf.N - 1 - (i - 1)) : ℕ) : Int)
          omega
        · rw [if_neg en, if_neg en, (g4 n (by omega)).1, (g4 n (by omega)).2, List.getD_eq_getElem?_getD, List.getD_eq_getElem?_getD, List.getElem?_append_left (by omega)]
          exact ⟨rfl, rfl⟩
    · have hs := hs.2 fun hh => hc (hiff.2 hh)
      rw [if_neg hc, sat_ok, hs]
      exact ⟨by show r.1.length = _; omega, g0, g2, g3, g4, r2'⟩
  · rintro st ⟨g1, g0, g2, g3, g4, _⟩
    rw [show c.np + 1 - 1 = c.gf.N by omega] at g3 g4
    exact ⟨g1, g0, g2, g3, g4⟩

/-! ## The polynomial `z` -/

theorem zInit_sat (G : Good c.gf) {x y : Int} {a b : Fld c.gf.m c.gf.p} (hx : Idx c.gf x a) (hy : Idx c.gf y b) :
    (zInit c x y).Sat fun v => Pol c.gf v (a + b) := by
  unfold zInit
  have e0 : ∀ {x : Int} {a : Fld c.gf.m c.gf.p}, Idx c.gf x a → x = -1 → a = 0 := by
    intro x a h hx
    by_contra hn
    exact (idx_ne G h).2 hn hx
  by_cases h1 : x = -1
  · have ha := e0 hx h1
    rw [if_neg fun h => h.1 h1, if_neg fun h => h.1 h1, ha, zero_add]
    by_cases h2 : y = -1
    · rw [if_neg fun h => h.2 h2, sat_ok, e0 hy h2]; exact pol_zero
    · rw [if_pos ⟨h1, h2⟩]; exact alpha_sat G hy ((idx_ne G hy).1 h2)
  · by_cases h2 : y = -1
    · rw [if_neg fun h => h.2 h2, if_pos ⟨h1, h2⟩, e0 hy h2, add_zero]
      exact alpha_sat G hx ((idx_ne G hx).1 h1)
    · rw [if_pos ⟨h1, h2⟩]
      refine (alpha_sat G hx ((idx_ne G hx).1 h1)).bind fun v hv => ?_
      refine (alpha_sat G hy ((idx_ne G hy).1 h2)).bind fun w hw => ?_
      rw [sat_ok]
      exact pol_xor hv hw

theorem zc_eq {F : Type _} [Field F] {σ S : ℕ → F} (h1 : σ 0 = 1) {i : ℕ} (hi : 1 ≤ i) :
    zc σ S i = (S i + σ i) + ∑ j ∈ range (i - 1), σ (i - (j + 1)) * S (j + 1) := by
  unfold zc
  obtain ⟨k, rfl⟩ : ∃ k, i = k + 1 := ⟨i - 1, by omega⟩
  rw [sum_range_succ', h1, one_mul, Nat.sub_zero, Nat.add_sub_cancel, ← sum_range_reflect]
  have : ∑ j ∈ range k, σ (k - 1 - j + 1) * S (k + 1 - (k - 1 - j + 1)) = ∑ j ∈ range k, σ (k + 1 - (j + 1)) * S (j + 1) := by
    refine sum_congr rfl fun j hj => ?_
    have := mem_range.1 hj
    rw [show k - 1 - j + 1 = k + 1 - (j + 1) by omega, show k + 1 - (k + 1 - (j + 1)) = j + 1 by omega]
  rw [this]
  ring

theorem zStep_loop (G : Good c.gf) (hnp : c.np = c.gf.N) {s z : List Int} {e : List (List Int)} {u L : ℕ} {σ S : ℕ → Fld c.gf.m c.gf.p}
    (hd : Dim e (c.np + 2) c.np) (hu : u < c.np + 2) (hL : L < c.np) (hs : L < s.length) (hz : L < z.length) (h1 : σ 0 = 1)
    (hσ : ∀ i, i ≤ L → Idx c.gf (at2 e u i) (σ i)) (hS : ∀ k, 1 ≤ k → k ≤ L → Idx c.gf (at1 s k) (S k)) :
    (forRange 1 (L + 1) (zStep c s e u) z).Sat fun r => r.length = z.length ∧ ∀ j, 1 ≤ j → j ≤ L → Idx c.gf (at1 r j) (zc σ S j) := by
  refine (forRange_inv (fun k (r : List Int) => r.length = z.length ∧ ∀ j, 1 ≤ j → j < k → Idx c.gf (at1 r j) (zc σ S j)) (by omega)
    ⟨rfl, fun j h1 h2 => absurd h2 (by omega)⟩ ?_).mono ?_
  · rintro i r hi1 hi2 ⟨h3, h4⟩
    unfold zStep
    rw [rd_at (by omega), bind_ok, rd2_at hd hu (by omega), bind_ok]
    refine (zInit_sat G (hS i hi1 (by omega)) (hσ i (by omega))).bind fun x hx => ?_
    have hsum : (forRange 1 i (zTerm c s e u i) x).Sat fun v => Pol c.gf v (zc σ S i) := by
      refine (forRange_inv (fun k (v : Int) => Pol c.gf v ((S i + σ i) + ∑ j ∈ range (k - 1), σ (i - (j + 1)) * S (j + 1))) hi1 ?_ ?_).mono ?_
      · rw [Nat.sub_self, sum_range_zero, add_zero]; exact hx
      · intro j v hj1 hj2 hv
        unfold zTerm
        rw [rd_at (by omega), bind_ok, show (i : Int) - j = ((i - j : ℕ) : Int) by omega, rd2_at hd hu (by omega), bind_ok,
          show j + 1 - 1 = j - 1 + 1 by omega, sum_range_succ, show j - 1 + 1 = j by omega, ← add_assoc]
        have k1 := hS j hj1 (by omega)
        have k2 := hσ (i - j) (by omega)
        by_cases hc : at1 s j ≠ -1 ∧ at2 e u (i - j) ≠ -1
        · rw [if_pos hc]
          refine (alphaMod_mul G hnp k2 k1 ((idx_ne G k2).1 hc.2) ((idx_ne G k1).1 hc.1)).bind fun w hw => ?_
          rw [sat_ok]
          exact pol_xor hv hw
        · rw [if_neg hc]
          have h0 : σ (i - j) * S j = 0 := by
            by_contra hn
            exact hc ⟨(idx_ne G k1).2 fun h => hn (by rw [h, mul_zero]), (idx_ne G k2).2 fun h => hn (by rw [h, zero_mul])⟩
          rw [h0, add_zero, sat_ok]
          exact hv
      · intro v hv
        rw [zc_eq h1 hi1]; exact hv
    refine hsum.bind fun v hv => ?_
    refine (index_sat G hv).bind fun ix hix => ?_
    rw [wr_lt (by omega), sat_ok]
    refine ⟨by rw [List.length_set]; exact h3, fun j h5 h6 => ?_⟩
    rw [at1_set (by omega)]
    by_cases ej : j = i
    · subst ej; rw [if_pos rfl]; exact hix
    · rw [if_neg ej]; exact h4 j h5 (by omega)
  · rintro r ⟨h3, h4⟩
    exact ⟨h3, fun j h5 h6 => h4 j h5 (by omega)⟩

end Verif.RSDec
