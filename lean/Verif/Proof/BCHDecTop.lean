import Verif.Proof.BCHDec
import Mathlib.Data.List.Nodup

/-! # Chien search and correction -/

namespace Verif.BCHDec
open Exec Finset Verif.Galois Verif.BCH Verif.BM

variable {c : Core} [Fact (Irreducible (fieldPoly c.gf.m c.gf.p))]

/-- The positions found by the first `k` turns of the Chien search. -/
noncomputable def rts (N : ℕ) (P : ℕ → Prop) (k : ℕ) : List ℕ :=
  open Classical in ((List.range k).map fun i => N - 1 - i).filter fun p => decide (P p)

theorem rts_succ (N : ℕ) (P : ℕ → Prop) (k : ℕ) :
    (P (N - 1 - k) → rts N P (k + 1) = rts N P k ++ [N - 1 - k]) ∧ (¬ P (N - 1 - k) → rts N P (k + 1) = rts N P k) := by
  classical
  unfold rts
  rw [List.range_succ, List.map_append, List.filter_append]
  constructor
  · intro h; simp [h]
  · intro h; simp [h]

theorem rts_mem {N : ℕ} {P : ℕ → Prop} {k p : ℕ} (hk : k ≤ N) : p ∈ rts N P k ↔ p < N ∧ N - k ≤ p ∧ P p := by
  classical
  unfold rts
  rw [List.mem_filter, List.mem_map]
  constructor
  · rintro ⟨⟨i, h1, rfl⟩, h2⟩
    have := List.mem_range.1 h1
    exact ⟨by omega, by omega, of_decide_eq_true h2⟩
  · rintro ⟨h1, h2, h3⟩
    exact ⟨⟨N - 1 - p, List.mem_range.2 (by omega), by omega⟩, decide_eq_true h3⟩

theorem rts_nodup {N : ℕ} {P : ℕ → Prop} {k : ℕ} (hk : k ≤ N) : (rts N P k).Nodup := by
  classical
  unfold rts
  refine List.Nodup.filter _ ?_
  refine (List.nodup_map_iff_inj_on List.nodup_range).2 ?_
  intro x hx y hy e
  have := List.mem_range.1 hx
  have := List.mem_range.1 hy
  omega

/-- `p` is the logarithm of the inverse of a root. -/
def Root (c : Core) [Fact (Irreducible (fieldPoly c.gf.m c.gf.p))] (σ : ℕ → Fld c.gf.m c.gf.p) (L p : ℕ) : Prop := rev σ L (al c.gf.m c.gf.p ^ p) = 0

theorem al_inj' (G : Good c.gf) (E : Finset ℕ) (hE : ∀ p ∈ E, p < c.gf.N) :
    ∀ i ∈ E, ∀ j ∈ E, al c.gf.m c.gf.p ^ i = al c.gf.m c.gf.p ^ j → i = j :=
  fun i hi j hj e => al_inj G (hE i hi) (hE j hj) e

theorem rts_length (G : Good c.gf) {σ : ℕ → Fld c.gf.m c.gf.p} {L k : ℕ} (h1 : σ 0 = 1) (hk : k ≤ c.gf.N) :
    (rts c.gf.N (Root c σ L) k).length ≤ L := by
  rw [← List.toFinset_card_of_nodup (rts_nodup hk)]
  refine roots_card h1 (al_inj' G _ fun p hp => ((rts_mem hk).1 (List.mem_toFinset.1 hp)).1) fun p hp => ?_
  exact ((rts_mem hk).1 (List.mem_toFinset.1 hp)).2.2

theorem chien_iff (G : Good c.gf) {σ : ℕ → Fld c.gf.m c.gf.p} {L i : ℕ} (hi : i ≤ c.gf.N) :
    ∑ j ∈ range (L + 1), σ j * al c.gf.m c.gf.p ^ (i * j) = 0 ↔ Root c σ L (c.gf.N - i) := by
  unfold Root rev
  have hne : al c.gf.m c.gf.p ^ (i * L) ≠ 0 := al_ne_zero G.hm G.ord _
  have : (∑ j ∈ range (L + 1), σ j * (al c.gf.m c.gf.p ^ (c.gf.N - i)) ^ (L - j)) * al c.gf.m c.gf.p ^ (i * L) =
      ∑ j ∈ range (L + 1), σ j * al c.gf.m c.gf.p ^ (i * j) := by
    rw [sum_mul]
    refine sum_congr rfl fun j hj => ?_
    have hj := mem_range.1 hj
    rw [mul_assoc, ← pow_mul, show i * L = i * (L - j) + i * j by rw [← Nat.mul_add]; congr 1; omega, pow_add, ← mul_assoc (_ ^ _), ← pow_add,
      ← Nat.add_mul, Nat.sub_add_cancel hi, pow_mul, al_N G, one_pow, one_mul]
  rw [← this]
  constructor
  · intro h
    exact (mul_eq_zero.1 h).resolve_right hne
  · intro h
    rw [h, zero_mul]

theorem chienTerms (G : Good c.gf) (hnp : c.np = c.gf.N) {reg : List Int} {a : ℕ → Fld c.gf.m c.gf.p} {L : ℕ} (hL : L < reg.length)
    (h0 : a 0 = 1) (h : ∀ j, 1 ≤ j → j ≤ L → Idx c.gf (at1 reg j) (a j)) :
    (forRange 1 (L + 1) (chienTerm c) (reg, 1)).Sat fun r => r.1.length = reg.length ∧
      (∀ j, 1 ≤ j → j ≤ L → Idx c.gf (at1 r.1 j) (a j * al c.gf.m c.gf.p ^ j)) ∧
      Pol c.gf r.2 (∑ j ∈ range (L + 1), a j * al c.gf.m c.gf.p ^ j) := by
  refine (forRange_inv (fun k (r : List Int × Int) => r.1.length = reg.length ∧
      (∀ j, 1 ≤ j → j < k → Idx c.gf (at1 r.1 j) (a j * al c.gf.m c.gf.p ^ j)) ∧ (∀ j, k ≤ j → at1 r.1 j = at1 reg j) ∧
      Pol c.gf r.2 (∑ j ∈ range k, a j * al c.gf.m c.gf.p ^ j)) (by omega) ⟨rfl, fun j h1 h2 => absurd h2 (by omega), fun _ _ => rfl, ?_⟩ ?_).mono ?_
  · rw [sum_range_one, h0, one_mul, pow_zero]; exact pol_one G
  · rintro k ⟨r, q⟩ hk1 hk2 ⟨h1, h2, h3, h4⟩
    simp only at h1 h2 h3 h4
    unfold chienTerm
    simp only
    rw [rd_at (by omega), bind_ok, h3 k (le_refl _), sum_range_succ]
    have hk := h k hk1 (by omega)
    by_cases hc : at1 reg k ≠ -1
    · rw [if_pos hc, wr_lt (by omega), bind_ok]
      obtain ⟨i, hi, e1, e2⟩ := idx_pos G hk ((idx_ne G hk).1 hc)
      rw [e1, show ((i : Int) + (k : Int)) = ((i + k : Nat) : Int) by omega, hnp, tmod_nat]
      have hlt : (i + k) % c.gf.N < c.gf.N := Nat.mod_lt _ (N_pos G)
      have hval : al c.gf.m c.gf.p ^ ((i + k) % c.gf.N) = a k * al c.gf.m c.gf.p ^ k := by rw [al_mod G, pow_add, e2]
      refine (alpha_nat G hlt).bind fun v hv => ?_
      refine sat_ok.2 ⟨by rw [List.length_set]; exact h1, fun j h5 h6 => ?_, fun j h5 => ?_, ?_⟩
      · rw [at1_set (by omega)]
        by_cases ej : j = k
        · subst ej
          rw [if_pos rfl]
          exact Or.inr ⟨_, hlt, rfl, hval⟩
        · rw [if_neg ej]; exact h2 j h5 (by omega)
      · rw [at1_set (by omega), if_neg (by omega)]; exact h3 j (by omega)
      · rw [hval] at hv
        exact pol_xor h4 hv
    · rw [if_neg hc]
      have ha : a k = 0 := by
        by_contra hn
        exact hc ((idx_ne G hk).2 hn)
      refine sat_ok.2 ⟨h1, fun j h5 h6 => ?_, fun j h5 => h3 j (by omega), ?_⟩
      · by_cases ej : j = k
        · subst ej
          rw [h3 j (le_refl _), ha, zero_mul]
          rw [ha] at hk
          exact hk
        · exact h2 j h5 (by omega)
      · rw [ha, zero_mul, add_zero]; exact h4
  · rintro r ⟨h1, h2, _, h4⟩
    exact ⟨h1, fun j h5 h6 => h2 j h5 (by omega), h4⟩

theorem chien_loop (G : Good c.gf) (hnp : c.np = c.gf.N) {reg loc : List Int} {σ : ℕ → Fld c.gf.m c.gf.p} {L : ℕ} (hr : reg.length = c.t + 1)
    (hl : loc.length = c.t + 1) (hL : L ≤ c.t) (h1 : σ 0 = 1) (h : ∀ j, 1 ≤ j → j ≤ L → Idx c.gf (at1 reg j) (σ j)) :
    (forRange 1 (c.np + 1) (chienStep c L) ⟨reg, loc, 0⟩).Sat fun st => st.reg.length = c.t + 1 ∧ st.loc.length = c.t + 1 ∧
      st.count = (rts c.gf.N (Root c σ L) c.gf.N).length ∧
      ∀ n, n < st.count → (at1 st.loc n) = ((rts c.gf.N (Root c σ L) c.gf.N).getD n 0 : ℕ) := by
  have hN := N_pos G
  refine (forRange_inv (fun i (st : Chien) => st.reg.length = c.t + 1 ∧ st.loc.length = c.t + 1 ∧
      st.count = (rts c.gf.N (Root c σ L) (i - 1)).length ∧
      (∀ n, n < st.count → (at1 st.loc n) = ((rts c.gf.N (Root c σ L) (i - 1)).getD n 0 : ℕ)) ∧
      ∀ j, 1 ≤ j → j ≤ L → Idx c.gf (at1 st.reg j) (σ j * al c.gf.m c.gf.p ^ ((i - 1) * j))) (by omega)
      ⟨hr, hl, rfl, fun n hn => absurd hn (Nat.not_lt_zero n), fun j h2 h3 => ?_⟩ ?_).mono ?_
  · rw [Nat.zero_mul, pow_zero, mul_one]; exact h j h2 h3
  · rintro i ⟨reg, loc, count⟩ hi1 hi2 ⟨g1, g2, g3, g4, g5⟩
    simp only at g1 g2 g3 g4 g5
    unfold chienStep
    simp only
    rw [show ((L : Int) + 1).toNat = L + 1 by omega]
    refine (chienTerms G hnp (a := fun j => σ j * al c.gf.m c.gf.p ^ ((i - 1) * j)) (L := L) (by omega) (by simp [h1]) g5).bind fun r ⟨r1, r2, r3⟩ => ?_
    have hpow : ∀ j, σ j * al c.gf.m c.gf.p ^ ((i - 1) * j) * al c.gf.m c.gf.p ^ j = σ j * al c.gf.m c.gf.p ^ (i * j) := by
      intro j
      rw [mul_assoc, ← pow_add, show (i - 1) * j + j = i * j by
        obtain ⟨k, rfl⟩ : ∃ k, i = k + 1 := ⟨i - 1, by omega⟩
        rw [Nat.add_sub_cancel, Nat.succ_mul]]
    have r2' : ∀ j, 1 ≤ j → j ≤ L → Idx c.gf (at1 r.1 j) (σ j * al c.gf.m c.gf.p ^ ((i + 1 - 1) * j)) := by
      intro j h2 h3
      have := r2 j h2 h3
      rw [hpow] at this
      exact this
    rw [sum_congr rfl fun j _ => hpow j] at r3
    have hiff := (pol_eq_zero r3).trans (chien_iff G (L := L) (σ := σ) (i := i) (by omega))
    rw [show c.gf.N - i = c.gf.N - 1 - (i - 1) by omega] at hiff
    have hs := rts_succ c.gf.N (Root c σ L) (i - 1)
    rw [show i - 1 + 1 = i + 1 - 1 by omega] at hs
    by_cases hc : r.2 = 0
    · have hs := hs.1 (hiff.1 hc)
      have hlen := rts_length G (σ := σ) (L := L) (k := i + 1 - 1) h1 (by omega)
      rw [hs, List.length_append, List.length_singleton] at hlen
      rw [if_pos hc, if_neg (by omega), wr_lt (by omega), bind_ok, sat_ok]
      refine ⟨by show r.1.length = _; omega, by show (loc.set _ _).length = _; rw [List.length_set]; exact g2, ?_, fun n hn => ?_, r2'⟩
      · show count + 1 = _
        rw [hs, List.length_append, List.length_singleton]; omega
      · show at1 (loc.set _ _) n = _
        have hn : n < count + 1 := hn
        rw [at1_set (by omega), hs]
        by_cases en : n = count
        · subst en
          rw [if_pos rfl, List.getD_eq_getElem?_getD, g3, List.getElem?_append_right (Nat.le_refl _), Nat.sub_self]
          show ((c.np : Int) - i) = ((c.gf.N - 1 - (i - 1) : ℕ) : Int)
          omega
        · rw [if_neg en, g4 n (by omega), List.getD_eq_getElem?_getD, List.getD_eq_getElem?_getD, List.getElem?_append_left (by omega)]
    · have hs := hs.2 fun hh => hc (hiff.2 hh)
      rw [if_neg hc, sat_ok, hs]
      exact ⟨by show r.1.length = _; omega, g2, g3, g4, r2'⟩
  · rintro st ⟨g1, g2, g3, g4, _⟩
    rw [show c.np + 1 - 1 = c.gf.N by omega] at g3 g4
    exact ⟨g1, g2, g3, g4⟩

theorem flip_loop {n : ℕ} {loc : List Int} {y : List ℕ} {R : List ℕ} (hy : y.length = n) (hR : R.Nodup) (hl : R.length ≤ loc.length)
    (h : ∀ i, i < R.length → at1 loc i = (R.getD i 0 : ℕ)) :
    (forN R.length (flip n loc) y).Sat fun z => z.length = n ∧ ∀ p, p < n → z.getD p 0 = if p ∈ R then y.getD p 0 ^^^ 1 else y.getD p 0 := by
  refine (forN_inv (fun k (z : List ℕ) => z.length = n ∧ ∀ p, p < n → z.getD p 0 = if p ∈ R.take k then y.getD p 0 ^^^ 1 else y.getD p 0)
    ⟨hy, fun p _ => by simp⟩ ?_).mono ?_
  · rintro k z hk ⟨h1, h2⟩
    unfold flip
    have hRk : R.getD k 0 = R[k] := getD_lt 0 hk
    have htake : ∀ p, p ∈ R.take (k + 1) ↔ p ∈ R.take k ∨ p = R[k] := by
      intro p
      rw [List.take_succ_eq_append_getElem hk, List.mem_append, List.mem_singleton]
    have hnot : R[k] ∉ R.take k := by
      intro hm
      obtain ⟨i, hi, e⟩ := List.mem_take_iff_getElem.1 hm
      have : i = k := (List.Nodup.getElem_inj_iff hR).1 e
      omega
    rw [rd_at (by omega), bind_ok, h k hk, hRk]
    by_cases hc : R[k] < n
    · have hz : z.getD R[k] 0 = y.getD R[k] 0 := by rw [h2 _ hc, if_neg hnot]
      rw [getD_lt 0 (by omega)] at hz
      rw [if_pos (by omega)]
      unfold rdI wrI
      rw [if_neg (by omega), Int.toNat_natCast, rd_lt (by omega), bind_ok, if_neg (by omega), wr_lt (by omega), sat_ok, hz]
      refine ⟨by rw [List.length_set]; exact h1, fun p hp => ?_⟩
      rw [List.getD_eq_getElem?_getD, List.getElem?_set]
      by_cases ep : R[k] = p
      · subst ep
        rw [if_pos rfl, if_pos (by omega), if_pos ((htake _).2 (Or.inr rfl))]
        rfl
      · rw [if_neg ep, ← List.getD_eq_getElem?_getD, h2 p hp]
        have : p ∈ R.take (k + 1) ↔ p ∈ R.take k := by rw [htake]; exact ⟨fun h => h.resolve_right (Ne.symm ep), Or.inl⟩
        simp only [this]
    · rw [if_neg (by omega), sat_ok]
      refine ⟨h1, fun p hp => ?_⟩
      have : p ∈ R.take (k + 1) ↔ p ∈ R.take k := by
        rw [htake]
        refine ⟨fun h => h.resolve_right ?_, Or.inl⟩
        rintro rfl
        exact hc hp
      simp only [this]
      exact h2 p hp
  · rintro z ⟨h1, h2⟩
    refine ⟨h1, fun p hp => ?_⟩
    have := h2 p hp
    rw [List.take_length] at this
    exact this

/-- Sizes of the work space. -/
structure BufSize (c : Core) (b : Buf) : Prop where
  tab : TabSize c b.tab
  loc : b.loc.length = c.t + 1
  reg : b.reg.length = c.t + 1

theorem toIndexRow_loop (G : Good c.gf) {u L : ℕ} {e0 : List (List Int)} {σ : ℕ → Fld c.gf.m c.gf.p} (hd : Dim e0 (c.np + 2) c.np)
    (hu : u < c.np + 2) (hL : L < c.np) (h : ∀ i, i ≤ L → Pol c.gf (at2 e0 u i) (σ i)) :
    (forN (L + 1) (toIndexRow c u) e0).Sat fun e => Dim e (c.np + 2) c.np ∧ ∀ i, i ≤ L → Idx c.gf (at2 e u i) (σ i) := by
  refine (forN_inv (fun k (e : List (List Int)) => Dim e (c.np + 2) c.np ∧ (∀ i, i < k → Idx c.gf (at2 e u i) (σ i)) ∧
    ∀ i, k ≤ i → at2 e u i = at2 e0 u i) ⟨hd, fun i hi => absurd hi (by omega), fun _ _ => rfl⟩ ?_).mono ?_
  · rintro i e hi ⟨h1, h2, h3⟩
    unfold toIndexRow
    rw [rd2_at h1 (by omega) (by omega), bind_ok, h3 i (Nat.le_refl _)]
    refine (index_sat G (h i (by omega))).bind fun y hy => ?_
    refine (wr2_at h1 (by omega) (by omega) _).mono fun e2 ⟨g1, g2⟩ => ⟨g1, fun j hj => ?_, fun j hj => ?_⟩
    · rw [g2]
      by_cases ej : j = i
      · subst ej; rw [if_pos ⟨rfl, rfl⟩]; exact hy
      · rw [if_neg (by omega)]; exact h2 j (by omega)
    · rw [g2, if_neg (by omega), h3 j (by omega)]
  · rintro e ⟨h1, h2, _⟩
    exact ⟨h1, fun i hi => h2 i (by omega)⟩

theorem fillReg_loop {u L : ℕ} {e : List (List Int)} {reg : List Int} (hd : Dim e (c.np + 2) c.np) (hu : u < c.np + 2) (hL : L < c.np)
    (hr : L < reg.length) : (forRange 1 (L + 1) (fillReg e u) reg).Sat fun r => r.length = reg.length ∧
      ∀ j, 1 ≤ j → j ≤ L → at1 r j = at2 e u j := by
  refine (forRange_inv (fun k (r : List Int) => r.length = reg.length ∧ ∀ j, 1 ≤ j → j < k → at1 r j = at2 e u j) (by omega)
    ⟨rfl, fun j h1 h2 => absurd h2 (by omega)⟩ ?_).mono ?_
  · rintro k r h1 h2 ⟨h3, h4⟩
    unfold fillReg
    rw [rd2_at hd hu (by omega), bind_ok, wr_lt (by omega), sat_ok]
    refine ⟨by rw [List.length_set]; exact h3, fun j h5 h6 => ?_⟩
    rw [at1_set (by omega)]
    by_cases ej : j = k
    · rw [if_pos ej, ej]
    · rw [if_neg ej]; exact h4 j h5 (by omega)
  · rintro r ⟨h3, h4⟩
    exact ⟨h3, fun j h5 h6 => h4 j h5 (by omega)⟩

/-- What `correct` does with the row it is given. -/
theorem correct_sat (G : Good c.gf) (hnp : c.np = c.gf.N) {n u : ℕ} {y : List ℕ} {b : Buf} {S : ℕ → Fld c.gf.m c.gf.p}
    {σ : ℕ → ℕ → Fld c.gf.m c.gf.p} {d : ℕ → Fld c.gf.m c.gf.p} {L : ℕ → ℕ} (hb : BufSize c b) (h : St c S u b.tab σ d L)
    (hu : u ≤ 2 * c.t + 1) (ht : 1 ≤ c.t) (h2t : 2 * c.t < c.np) (hy : y.length = n) :
    (correct c n y u b).Sat fun r => BufSize c r.buf ∧ r.lastCw = r.success ∧ r.y.length = n ∧
      ((r.success = true ∧ L u ≤ c.t ∧ (rts c.gf.N (Root c (σ u) (L u)) c.gf.N).length = L u ∧
        ∀ p, p < n → r.y.getD p 0 = if p ∈ rts c.gf.N (Root c (σ u) (L u)) c.gf.N then y.getD p 0 ^^^ 1 else y.getD p 0) ∨
       (r.success = false ∧ r.y = y ∧ (L u ≤ c.t → (rts c.gf.N (Root c (σ u) (L u)) c.gf.N).length ≠ L u))) := by
  obtain ⟨hr, hi, _⟩ := h
  have hs := hr.size
  unfold correct
  rw [rd_at (by rw [hs.l]; omega), bind_ok, hr.l u (le_refl _)]
  by_cases hc : ((L u : ℕ) : Int) ≤ c.t
  · rw [if_pos hc, show ((L u : Int) + 1).toNat = L u + 1 by omega]
    refine (toIndexRow_loop G hs.elp (by omega) (by omega) fun i hi => hr.cur i hi (by omega)).bind fun e ⟨e1, e2⟩ => ?_
    refine (fillReg_loop e1 (by omega) (by omega) (by rw [hb.reg]; omega)).bind fun reg ⟨g1, g2⟩ => ?_
    refine (chien_loop G hnp (σ := σ u) (by rw [g1]; exact hb.reg) hb.loc (by omega) (hi.one u (le_refl _)) fun j h1 h2 => ?_).bind fun st ⟨k1, k2, k3, k4⟩ => ?_
    · rw [g2 j h1 h2]; exact e2 j h2
    · have hbuf : BufSize c ⟨{ b.tab with elp := e }, st.loc, st.reg⟩ := ⟨⟨e1, hs.disc, hs.l, hs.ulu, hs.s⟩, k2, k1⟩
      by_cases hcount : (st.count : Int) = (L u : ℕ)
      · have hlen : (rts c.gf.N (Root c (σ u) (L u)) c.gf.N).length = L u := by omega
        rw [if_pos hcount, Int.toNat_natCast]
        have hfl := flip_loop (n := n) (loc := st.loc) (y := y) (R := rts c.gf.N (Root c (σ u) (L u)) c.gf.N) hy (rts_nodup (le_refl _)) (by omega) fun i hi => k4 i (by omega)
        rw [hlen] at hfl
        refine hfl.bind fun z ⟨z1, z2⟩ => ?_
        rw [sat_ok]
        exact ⟨hbuf, rfl, z1, Or.inl ⟨rfl, by omega, hlen, z2⟩⟩
      · rw [if_neg hcount, sat_ok]
        exact ⟨hbuf, rfl, hy, Or.inr ⟨rfl, rfl, fun _ => by omega⟩⟩
  · rw [if_neg hc, sat_ok]
    exact ⟨hb, rfl, hy, Or.inr ⟨rfl, rfl, fun h => absurd h (by omega)⟩⟩

/-! ## Syndromes -/

theorem syn_sum (G : Good c.gf) {y : List ℕ} (hb : IsBin y) (k j : ℕ) (hj : j < y.length) :
    el c.gf.m c.gf.p (y.getD j 0) * al c.gf.m c.gf.p ^ (k * j) = if y.getD j 0 ≠ 0 then al c.gf.m c.gf.p ^ (k * j) else 0 := by
  have hm := G.hm
  rcases bin_getD hb (j + 1) j (by omega) with h | h
  · simp only at h
    rw [h, el_zero, zero_mul, if_neg (by simp)]
  · simp only at h
    rw [h, el_one (by omega), one_mul, if_pos (by simp)]

theorem synLoop_sat (G : Good c.gf) (hnp : c.np = c.gf.N) {y : List ℕ} {n : ℕ} (hy : y.length = n) (hb : IsBin y)
    (hov : 2 * c.t * (n - 1) < 2 ^ 31) {s0 : List Int} (hs : s0.length = 2 * c.t + 1) :
    (forRange 1 (2 * c.t + 1) (synLoop c n y) (s0, false)).Sat fun r => r.1.length = 2 * c.t + 1 ∧
      (∀ k, 1 ≤ k → k ≤ 2 * c.t → Idx c.gf (at1 r.1 k) (syndrome c.gf y k)) ∧
      (r.2 = true ↔ ∃ k, 1 ≤ k ∧ k ≤ 2 * c.t ∧ syndrome c.gf y k ≠ 0) := by
  refine (forRange_inv (fun i (r : List Int × Bool) => r.1.length = 2 * c.t + 1 ∧
      (∀ k, 1 ≤ k → k < i → Idx c.gf (at1 r.1 k) (syndrome c.gf y k)) ∧
      (r.2 = true ↔ ∃ k, 1 ≤ k ∧ k < i ∧ syndrome c.gf y k ≠ 0)) (by omega) ⟨hs, fun k h1 h2 => absurd h2 (by omega), ?_⟩ ?_).mono ?_
  · constructor
    · intro h; exact absurd h (by simp)
    · rintro ⟨k, h1, h2, _⟩; omega
  · rintro i ⟨s, f⟩ hi1 hi2 ⟨h1, h2, h3⟩
    simp only at h1 h2 h3
    unfold synLoop
    simp only
    have hsum : (forN n (synStep c y i) 0).Sat fun x => Pol c.gf x (syndrome c.gf y i) := by
      refine (forN_inv (fun j (x : Int) => Pol c.gf x (∑ p ∈ range j, el c.gf.m c.gf.p (y.getD p 0) * al c.gf.m c.gf.p ^ (i * p))) ?_ ?_).mono fun x hx => ?_
      · rw [sum_range_zero]; exact pol_zero
      · intro j x hj hx
        unfold synStep
        rw [rd_lt (by omega), bind_ok, sum_range_succ, syn_sum G hb i j (by omega), getD_lt 0 (by omega)]
        by_cases hc : y[j] ≠ 0
        · have hle : i * j ≤ 2 * c.t * (n - 1) := Nat.mul_le_mul (by omega) (by omega)
          rw [if_pos hc, if_pos hc]
          unfold mulInt
          rw [if_pos (by omega), bind_ok]
          refine (alphaMod_nat G hnp (i * j)).bind fun v hv => ?_
          rw [sat_ok]
          exact pol_xor hx hv
        · rw [if_neg hc, if_neg hc, sat_ok, add_zero]
          exact hx
      · unfold syndrome
        rw [hy]
        exact hx
    refine hsum.bind fun x hx => ?_
    refine (index_sat G hx).bind fun ix hix => ?_
    rw [wr_lt (by omega), bind_ok, sat_ok]
    refine ⟨by show (s.set _ _).length = _; rw [List.length_set]; exact h1, fun k h4 h5 => ?_, ?_⟩
    · show Idx c.gf (at1 (s.set i ix) k) _
      rw [at1_set (by omega)]
      by_cases ek : k = i
      · subst ek; rw [if_pos rfl]; exact hix
      · rw [if_neg ek]; exact h2 k h4 (by omega)
    · show (f || decide (x ≠ 0)) = true ↔ _
      rw [Bool.or_eq_true, decide_eq_true_iff, h3, ne_eq, not_congr (pol_eq_zero hx)]
      constructor
      · rintro (⟨k, h4, h5, h6⟩ | h)
        · exact ⟨k, h4, by omega, h6⟩
        · exact ⟨i, hi1, by omega, h⟩
      · rintro ⟨k, h4, h5, h6⟩
        by_cases ek : k = i
        · subst ek; exact Or.inr h6
        · exact Or.inl ⟨k, h4, by omega, h6⟩
  · rintro r ⟨h1, h2, h3⟩
    refine ⟨h1, fun k h4 h5 => h2 k h4 (by omega), h3.trans ⟨?_, ?_⟩⟩
    · rintro ⟨k, h4, h5, h6⟩; exact ⟨k, h4, by omega, h6⟩
    · rintro ⟨k, h4, h5, h6⟩; exact ⟨k, h4, by omega, h6⟩

/-- How a call can end. -/
inductive Ends (c : Core) [Fact (Irreducible (fieldPoly c.gf.m c.gf.p))] (n : ℕ) (y : List ℕ) (r : Res) : Prop
  | clean (h : ∀ k, 1 ≤ k → k ≤ 2 * c.t → syndrome c.gf y k = 0) (hs : r.success = true) (hy : r.y = y)
  | fixed (σ d L) (h : Inv (syndrome c.gf y) σ d L (2 * c.t + 1)) (hL : L (2 * c.t + 1) ≤ c.t)
      (hc : (rts c.gf.N (Root c (σ (2 * c.t + 1)) (L (2 * c.t + 1))) c.gf.N).length = L (2 * c.t + 1)) (hs : r.success = true)
      (hy : ∀ p, p < n → r.y.getD p 0 = if p ∈ rts c.gf.N (Root c (σ (2 * c.t + 1)) (L (2 * c.t + 1))) c.gf.N then
        y.getD p 0 ^^^ 1 else y.getD p 0)
  | long (u σ d L) (h : Inv (syndrome c.gf y) σ d L u) (hu : u ≤ 2 * c.t + 1) (hL : c.t < L u) (hs : r.success = false) (hy : r.y = y)
  | few (σ d L) (h : Inv (syndrome c.gf y) σ d L (2 * c.t + 1))
      (hc : (rts c.gf.N (Root c (σ (2 * c.t + 1)) (L (2 * c.t + 1))) c.gf.N).length ≠ L (2 * c.t + 1)) (hs : r.success = false)
      (hy : r.y = y)

theorem decodeCore_sat (G : Good c.gf) (hnp : c.np = c.gf.N) {n : ℕ} {y : List ℕ} {b : Buf} (hb : BufSize c b) (ht : 1 ≤ c.t)
    (h2t : 2 * c.t < c.np) (hy : y.length = n) (hyb : IsBin y) (hov : 2 * c.t * (n - 1) < 2 ^ 31) :
    (decodeCore c n y b).Sat fun r => BufSize c r.buf ∧ r.lastCw = r.success ∧ r.y.length = n ∧ Ends c n y r := by
  unfold decodeCore
  have hs := hb.tab
  refine (synLoop_sat G hnp hy hyb hov hs.s).bind fun r ⟨r1, r2, r3⟩ => ?_
  by_cases hc : r.2 = true
  · rw [if_pos hc]
    refine (initTab_sat G (b := { b.tab with s := r.1 }) (S := syndrome c.gf y) ⟨hs.elp, hs.disc, hs.l, hs.ulu, r1⟩ ht h2t r2).bind fun tab htab => ?_
    refine (loop_sat G hnp ht h2t (2 * c.t + 1) 0 tab (by omega) (by omega) htab).bind fun p ⟨p1, σ, d, L, p2, p3⟩ => ?_
    refine (correct_sat G hnp (b := { b with tab := p.2 }) ⟨p2.1.size, hb.loc, hb.reg⟩ p2 (by omega) ht h2t hy).mono ?_
    rintro r ⟨g1, g2, g3, ⟨k1, k2, k3, k4⟩ | ⟨k1, k2, k3⟩⟩
    · have hp : p.1 = 2 * c.t := by omega
      rw [hp] at k2 k3 k4 p2
      exact ⟨g1, g2, g3, Ends.fixed σ d L p2.2.1 k2 k3 k1 k4⟩
    · rcases Nat.lt_or_ge c.t (L (p.1 + 1)) with hlt | hge
      · exact ⟨g1, g2, g3, Ends.long (p.1 + 1) σ d L p2.2.1 (by omega) hlt k1 k2⟩
      · have hp : p.1 = 2 * c.t := by omega
        have k3 := k3 hge
        rw [hp] at k3 p2
        exact ⟨g1, g2, g3, Ends.few σ d L p2.2.1 k3 k1 k2⟩
  · rw [if_neg hc, sat_ok]
    refine ⟨⟨⟨hs.elp, hs.disc, hs.l, hs.ulu, r1⟩, hb.loc, hb.reg⟩, rfl, hy, Ends.clean (fun k h1 h2 => ?_) rfl rfl⟩
    by_contra hn
    exact hc (r3.2 ⟨k, h1, h2, hn⟩)

end Verif.BCHDec
