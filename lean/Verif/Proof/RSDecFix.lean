import Verif.Proof.RSDec

/-! # Error values and corrections -/

namespace Verif.RSDec
open Exec Finset Verif.Galois Verif.BCH Verif.BM Verif.BCHDec

variable {c : Core} [Fact (Irreducible (fieldPoly c.gf.m c.gf.p))]

theorem prod_erase_list {M : Type _} [CommMonoid M] {R : List ℕ} (hR : R.Nodup) (f : ℕ → M) {i : ℕ} (hi : i < R.length) :
    ∏ k ∈ (range R.length).filter (fun k => k ≠ i), f (R.getD k 0) = ∏ e ∈ R.toFinset.erase (R.getD i 0), f e := by
  refine prod_bij (fun k _ => R.getD k 0) ?_ ?_ ?_ ?_
  · intro k hk
    obtain ⟨h1, h2⟩ := mem_filter.1 hk
    have h1 := mem_range.1 h1
    rw [mem_erase, List.mem_toFinset, getD_lt 0 h1, getD_lt 0 hi]
    exact ⟨fun h => h2 ((List.Nodup.getElem_inj_iff hR).1 h), List.getElem_mem h1⟩
  · intro a ha b hb h
    have h1 := mem_range.1 (mem_filter.1 ha).1
    have h2 := mem_range.1 (mem_filter.1 hb).1
    rw [getD_lt 0 h1, getD_lt 0 h2] at h
    exact (List.Nodup.getElem_inj_iff hR).1 h
  · intro e he
    obtain ⟨h1, h2⟩ := mem_erase.1 he
    obtain ⟨k, hk, rfl⟩ := List.getElem_of_mem (List.mem_toFinset.1 h2)
    refine ⟨k, mem_filter.2 ⟨mem_range.2 hk, fun h => ?_⟩, getD_lt 0 hk⟩
    subst h
    exact h1 (getD_lt 0 hk).symm
  · intro k _
    rfl

theorem sub_is_add {g : GF} (a b : Fld g.m g.p) : a - b = a + b := by
  have : (b + b : Fld g.m g.p) = 0 := by rw [← two_mul, two_eq_zero, zero_mul]
  rw [sub_eq_add_neg, neg_eq_of_add_eq_zero_left this]

theorem num_sat (G : Good c.gf) (hnp : c.np = c.gf.N) (hov : Small c) {z : List Int} {ζ : ℕ → Fld c.gf.m c.gf.p} {L r : ℕ} (hL : L ≤ c.t)
    (hz : L < z.length) (hr : r ≤ c.gf.N) (h0 : ζ 0 = 1) (h : ∀ j, 1 ≤ j → j ≤ L → Idx c.gf (at1 z j) (ζ j)) :
    (forRange 1 (L + 1) (numTerm c z r) 1).Sat fun e => Pol c.gf e (∑ k ∈ range (L + 1), ζ k * (al c.gf.m c.gf.p ^ r) ^ k) := by
  refine (forRange_inv (fun k (e : Int) => Pol c.gf e (∑ j ∈ range k, ζ j * (al c.gf.m c.gf.p ^ r) ^ j)) (by omega) ?_ ?_)
  · rw [sum_range_one, h0, one_mul, pow_zero]; exact pol_one G
  · intro k e hk1 hk2 he
    unfold numTerm
    have hk := h k hk1 (by omega)
    rw [rd_at (by omega), bind_ok, sum_range_succ]
    by_cases hc : at1 z k ≠ -1
    · obtain ⟨i, hi, e1, e2⟩ := idx_pos G hk ((idx_ne G hk).1 hc)
      have hlt := small_le hov (a := k) (b := r) (x := i) (by omega) hr (by omega)
      rw [if_pos hc, ← Nat.cast_mul, int32_nat (by omega), bind_ok, e1, ← Nat.cast_add, int32_nat hlt, bind_ok]
      refine (alphaMod_nat G hnp (i + k * r)).bind fun v hv => ?_
      rw [pow_add, e2, Nat.mul_comm, pow_mul] at hv
      rw [sat_ok]
      exact pol_xor he hv
    · have ha : ζ k = 0 := by
        by_contra hn
        exact hc ((idx_ne G hk).2 hn)
      rw [if_neg hc, ha, zero_mul, add_zero, sat_ok]
      exact he

theorem den_sat (G : Good c.gf) (hnp : c.np = c.gf.N) (hov : Small c) {loc : List Int} {R : List ℕ} (hR : R.Nodup) (hRN : ∀ p ∈ R, p < c.gf.N)
    (hL : R.length ≤ c.t) (hl : R.length ≤ loc.length) (h : ∀ n, n < R.length → at1 loc n = (R.getD n 0 : ℕ)) {i : ℕ} (hi : i < R.length) :
    (forN R.length (denTerm c loc ((c.gf.N - R.getD i 0 : ℕ) : Int) i) 0).Sat fun q => ∃ n : ℕ, q = n ∧
      al c.gf.m c.gf.p ^ n = ∏ e ∈ R.toFinset.erase (R.getD i 0), (1 - al c.gf.m c.gf.p ^ e * al c.gf.m c.gf.p ^ (c.gf.N - R.getD i 0)) := by
  have hN := N_pos G
  have hget : ∀ k, k < R.length → R.getD k 0 ∈ R := fun k hk => by rw [getD_lt 0 hk]; exact List.getElem_mem hk
  rw [← prod_erase_list hR (fun e => 1 - al c.gf.m c.gf.p ^ e * al c.gf.m c.gf.p ^ (c.gf.N - R.getD i 0)) hi]
  refine (forN_inv (fun j (q : Int) => ∃ n : ℕ, q = n ∧ n ≤ j * c.gf.N ∧ al c.gf.m c.gf.p ^ n =
      ∏ k ∈ (range j).filter (fun k => k ≠ i), (1 - al c.gf.m c.gf.p ^ (R.getD k 0) * al c.gf.m c.gf.p ^ (c.gf.N - R.getD i 0)))
    ⟨0, rfl, by omega, by simp⟩ ?_).mono ?_
  · rintro j q hj ⟨n, rfl, hn, en⟩
    have hle : j * c.gf.N + c.gf.N < 2 ^ 31 := by
      have := small_le hov (a := j) (b := c.gf.N) (x := c.gf.N) (by omega) (le_refl _) (le_refl _)
      omega
    have hjN : (j + 1) * c.gf.N = j * c.gf.N + c.gf.N := Nat.succ_mul _ _
    unfold denTerm
    rw [range_add_one, filter_insert]
    by_cases hc : j ≠ i
    · rw [if_pos hc, if_pos hc, prod_insert (by simp), rd_at (by omega), bind_ok, h j hj, ← Nat.cast_add]
      refine (alphaMod_nat G hnp _).bind fun a ha => ?_
      have hp := pol_xor (pol_one G) ha
      rw [pow_add, ← sub_is_add] at hp
      refine (index_sat G hp).bind fun ix hix => ?_
      have hne : (1 : Fld c.gf.m c.gf.p) - al c.gf.m c.gf.p ^ (R.getD j 0) * al c.gf.m c.gf.p ^ (c.gf.N - R.getD i 0) ≠ 0 := by
        intro hz
        have hlt := hRN _ (hget i hi)
        have e1 : al c.gf.m c.gf.p ^ (R.getD i 0) * al c.gf.m c.gf.p ^ (c.gf.N - R.getD i 0) = 1 := by
          rw [← pow_add, Nat.add_sub_cancel' hlt.le, al_N G]
        have e2 := (sub_eq_zero.1 hz).symm.trans e1.symm
        have e3 := mul_right_cancel₀ (al_ne_zero G.hm G.ord _) e2
        have e4 := al_inj G (hRN _ (hget j hj)) hlt e3
        rw [getD_lt 0 hj, getD_lt 0 hi] at e4
        exact hc ((List.Nodup.getElem_inj_iff hR).1 e4)
      obtain ⟨k, hk, rfl, ek⟩ := idx_pos G hix hne
      rw [← Nat.cast_add, int32_nat (by omega), sat_ok]
      exact ⟨n + k, rfl, by omega, by rw [pow_add, en, ek, mul_comm]⟩
    · rw [if_neg hc, if_neg hc, sat_ok]
      exact ⟨n, rfl, by omega, en⟩
  · rintro q ⟨n, h1, _, h2⟩
    exact ⟨n, h1, h2⟩

theorem val_sat (G : Good c.gf) (hnp : c.np = c.gf.N) {x : Int} {n : ℕ} {v D : Fld c.gf.m c.gf.p} (hv : v ≠ 0)
    (hx : Idx c.gf x (v * D)) (hn : al c.gf.m c.gf.p ^ n = D) :
    (c.alphaMod (x - (n : Int).tmod c.np + c.np)).Sat fun r => Pol c.gf r v := by
  have hN := N_pos G
  have hD : D ≠ 0 := by rw [← hn]; exact al_ne_zero G.hm G.ord _
  obtain ⟨i, hi, rfl, ei⟩ := idx_pos G hx (mul_ne_zero hv hD)
  have hlt : n % c.gf.N < c.gf.N := Nat.mod_lt _ hN
  rw [hnp, tmod_nat, show (i : Int) - ((n % c.gf.N : ℕ) : Int) + (c.gf.N : Int) = ((i + c.gf.N - n % c.gf.N : ℕ) : Int) by omega]
  refine (alphaMod_nat G hnp _).mono fun r hr => ?_
  have : al c.gf.m c.gf.p ^ (i + c.gf.N - n % c.gf.N) = v := by
    apply mul_right_cancel₀ hD
    rw [← ei, ← hn, ← al_mod G n, ← pow_add, Nat.sub_add_cancel (by omega), pow_add, al_N G, mul_one]
  rwa [this] at hr

/-- The error values `v` at the positions `R`, in the terms of the algorithm. -/
structure Values (c : Core) [Fact (Irreducible (fieldPoly c.gf.m c.gf.p))] (R : List ℕ) (ζ v : ℕ → Fld c.gf.m c.gf.p) : Prop where
  nodup : R.Nodup
  lt : ∀ p ∈ R, p < c.gf.N
  zero : ζ 0 = 1
  eq : ∀ p ∈ R, ∑ k ∈ range (R.length + 1), ζ k * (al c.gf.m c.gf.p ^ (c.gf.N - p)) ^ k =
    v p * ∏ e ∈ R.toFinset.erase p, (1 - al c.gf.m c.gf.p ^ e * al c.gf.m c.gf.p ^ (c.gf.N - p))

/-- The inputs of the last loop. -/
structure Ready (c : Core) [Fact (Irreducible (fieldPoly c.gf.m c.gf.p))] (R : List ℕ) (ζ : ℕ → Fld c.gf.m c.gf.p) (z loc root : List Int) : Prop where
  t : R.length ≤ c.t
  zl : R.length < z.length
  locl : R.length ≤ loc.length
  rootl : R.length ≤ root.length
  zv : ∀ j, 1 ≤ j → j ≤ R.length → Idx c.gf (at1 z j) (ζ j)
  locv : ∀ n, n < R.length → at1 loc n = (R.getD n 0 : ℕ)
  rootv : ∀ n, n < R.length → at1 root n = ((c.gf.N - R.getD n 0 : ℕ) : Int)

/-- The beginning of a correction. -/
theorem fix_start (G : Good c.gf) (hnp : c.np = c.gf.N) (hov : Small c) {R : List ℕ} {ζ v : ℕ → Fld c.gf.m c.gf.p} {z loc root : List Int}
    (hV : Values c R ζ v) (hr : Ready c R ζ z loc root) {i : ℕ} (hi : i < R.length) {y : List ℕ} {err : List Int} (he : err.length = c.gf.N) :
    (v (R.getD i 0) = 0 ∧ ∃ err', err'.length = c.gf.N ∧ fixStep c R.length z loc root i (y, err) = ok (y, err')) ∨
    ∃ x err', err'.length = c.gf.N ∧ Pol c.gf x (v (R.getD i 0)) ∧ v (R.getD i 0) ≠ 0 ∧ fixStep c R.length z loc root i (y, err) =
      (rdI y (R.getD i 0) >>= fun o => wrI y (R.getD i 0) (o ^^^ x.toNat) >>= fun y => ok (y, err')) := by
  have hmem : R.getD i 0 ∈ R := by rw [getD_lt 0 hi]; exact List.getElem_mem hi
  have hlt := hV.lt _ hmem
  have h1 := hr.locl
  have h2 := hr.rootl
  obtain ⟨e, n1, n2⟩ := num_sat G hnp hov (z := z) (ζ := ζ) (L := R.length) (r := c.gf.N - R.getD i 0) hr.t hr.zl (by omega) hV.zero hr.zv
  rw [hV.eq _ hmem] at n2
  obtain ⟨q, d1, n, rfl, d2⟩ := den_sat G hnp hov hV.nodup hV.lt hr.t h1 hr.locv hi
  unfold fixStep
  simp only
  rw [rd_at (by omega), bind_ok, rd_at (by omega), bind_ok, hr.locv i hi, hr.rootv i hi, show ((R.length : Int) + 1).toNat = R.length + 1 by omega, n1, bind_ok,
    wrI_at (by omega), bind_ok, Int.toNat_natCast, d1]
  have hD : ∏ e ∈ R.toFinset.erase (R.getD i 0), (1 - al c.gf.m c.gf.p ^ e * al c.gf.m c.gf.p ^ (c.gf.N - R.getD i 0)) ≠ 0 := by
    rw [← d2]; exact al_ne_zero G.hm G.ord _
  by_cases hv : v (R.getD i 0) = 0
  · left
    rw [if_neg fun h => h ((pol_eq_zero n2).2 (by rw [hv, zero_mul]))]
    exact ⟨hv, _, by rw [List.length_set]; exact he, rfl⟩
  · right
    rw [if_pos fun h => hv ((mul_eq_zero.1 ((pol_eq_zero n2).1 h)).resolve_right hD)]
    obtain ⟨ix, i1, i2⟩ := index_sat G n2
    obtain ⟨x, x1, x2⟩ := val_sat G hnp hv i2 d2
    rw [i1, bind_ok, bind_ok, x1, bind_ok, wrI_at (by rw [List.length_set]; omega), bind_ok]
    exact ⟨x, _, by rw [List.length_set, List.length_set]; exact he, x2, hv, rfl⟩

theorem fix_sat (G : Good c.gf) (hnp : c.np = c.gf.N) (hov : Small c) {R : List ℕ} {ζ v : ℕ → Fld c.gf.m c.gf.p} {z loc root : List Int}
    (hV : Values c R ζ v) (hr : Ready c R ζ z loc root) {i : ℕ} (hi : i < R.length) {y : List ℕ} {err : List Int} (he : err.length = c.gf.N)
    (sy : Sym c.gf y) (hp : R.getD i 0 < y.length ∨ v (R.getD i 0) = 0) :
    (fixStep c R.length z loc root i (y, err)).Sat fun r => r.1.length = y.length ∧ r.2.length = c.gf.N ∧ Sym c.gf r.1 ∧
      ∀ k, k < y.length → el c.gf.m c.gf.p (r.1.getD k 0) = el c.gf.m c.gf.p (y.getD k 0) + if k = R.getD i 0 then v k else 0 := by
  rcases fix_start G hnp hov hV hr hi (y := y) he with ⟨h1, err', h2, h3⟩ | ⟨x, err', h2, ⟨a, rfl, ha, ea⟩, h4, h5⟩
  · rw [h3, sat_ok]
    refine ⟨rfl, h2, sy, fun k hk => ?_⟩
    by_cases ek : k = R.getD i 0
    · rw [if_pos ek, ek, h1, add_zero]
    · rw [if_neg ek, add_zero]
  · have hlt := hp.resolve_right h4
    rw [h5, rdI_nat, rd_lt hlt, bind_ok]
    unfold wrI
    rw [if_neg (by omega), Int.toNat_natCast, wr_lt hlt, bind_ok, sat_ok, Int.toNat_natCast]
    have hset : ∀ k, (y.set (R.getD i 0) (y[R.getD i 0] ^^^ a)).getD k 0 = if k = R.getD i 0 then y.getD k 0 ^^^ a else y.getD k 0 := by
      intro k
      rw [List.getD_eq_getElem?_getD, List.getElem?_set]
      by_cases ek : R.getD i 0 = k
      · rw [if_pos ek, if_pos ek.symm, if_pos hlt]
        subst ek
        rw [getD_lt 0 hlt]
        rfl
      · rw [if_neg ek, if_neg (Ne.symm ek), List.getD_eq_getElem?_getD]
    refine ⟨by simp, h2, fun k => ?_, fun k hk => ?_⟩
    · rw [hset]
      split
      · exact Nat.xor_lt_two_pow (sy k) ha
      · exact sy k
    · rw [hset]
      split
      · rename_i ek
        rw [el_xor, ea, ek]
      · rw [add_zero]

theorem fix_ub (G : Good c.gf) (hnp : c.np = c.gf.N) (hov : Small c) {R : List ℕ} {ζ v : ℕ → Fld c.gf.m c.gf.p} {z loc root : List Int}
    (hV : Values c R ζ v) (hr : Ready c R ζ z loc root) {i : ℕ} (hi : i < R.length) {y : List ℕ} {err : List Int} (he : err.length = c.gf.N)
    (hp : y.length ≤ R.getD i 0) (hv : v (R.getD i 0) ≠ 0) : fixStep c R.length z loc root i (y, err) = ub := by
  rcases fix_start G hnp hov hV hr hi (y := y) he with ⟨h1, err', h2, h3⟩ | ⟨x, err', h2, _, h4, h5⟩
  · exact absurd h1 hv
  · rw [h5, rdI_nat, rd_ge hp, bind_ub]

theorem fix_loop (G : Good c.gf) (hnp : c.np = c.gf.N) (hov : Small c) {R : List ℕ} {ζ v : ℕ → Fld c.gf.m c.gf.p} {z loc root : List Int}
    (hV : Values c R ζ v) (hr : Ready c R ζ z loc root) {y : List ℕ} {err : List Int} (he : err.length = c.gf.N)
    (sy : Sym c.gf y) (hp : ∀ p ∈ R, p < y.length) :
    (forN R.length (fixStep c R.length z loc root) (y, err)).Sat fun r => r.1.length = y.length ∧ r.2.length = c.gf.N ∧ Sym c.gf r.1 ∧
      ∀ k, k < y.length → el c.gf.m c.gf.p (r.1.getD k 0) = el c.gf.m c.gf.p (y.getD k 0) + if k ∈ R then v k else 0 := by
  refine (forN_inv (fun i (r : List ℕ × List Int) => r.1.length = y.length ∧ r.2.length = c.gf.N ∧ Sym c.gf r.1 ∧
      ∀ k, k < y.length → el c.gf.m c.gf.p (r.1.getD k 0) = el c.gf.m c.gf.p (y.getD k 0) + if k ∈ R.take i then v k else 0)
    ⟨rfl, he, sy, fun k _ => by simp⟩ ?_).mono ?_
  · rintro i ⟨y', err'⟩ hi ⟨h1, h2, h3, h4⟩
    simp only at h1 h2 h3 h4
    have hRi : R.getD i 0 = R[i] := getD_lt 0 hi
    refine (fix_sat G hnp hov hV hr hi h2 h3 (Or.inl (by rw [h1, hRi]; exact hp _ (List.getElem_mem hi)))).mono ?_
    rintro r ⟨g1, g2, g3, g4⟩
    refine ⟨g1.trans h1, g2, g3, fun k hk => ?_⟩
    rw [g4 k (by omega), h4 k hk, List.take_succ_eq_append_getElem hi, add_assoc]
    congr 1
    have hnot : R[i] ∉ R.take i := by
      intro hm
      obtain ⟨j, hj, e⟩ := List.mem_take_iff_getElem.1 hm
      have : j = i := (List.Nodup.getElem_inj_iff hV.nodup).1 e
      omega
    rw [hRi]
    by_cases ek : k = R[i]
    · subst ek
      rw [if_neg hnot, if_pos rfl, if_pos (List.mem_append.2 (Or.inr (List.mem_singleton.2 rfl))), zero_add]
    · have : k ∈ R.take i ++ [R[i]] ↔ k ∈ R.take i := by
        rw [List.mem_append, List.mem_singleton]
        exact ⟨fun h => h.resolve_right ek, Or.inl⟩
      rw [if_neg ek, add_zero]
      simp only [this]
  · rintro r ⟨h1, h2, h3, h4⟩
    refine ⟨h1, h2, h3, fun k hk => ?_⟩
    have := h4 k hk
    rwa [List.take_length] at this

theorem fix_loop_ub (G : Good c.gf) (hnp : c.np = c.gf.N) (hov : Small c) {R : List ℕ} {ζ v : ℕ → Fld c.gf.m c.gf.p} {z loc root : List Int}
    (hV : Values c R ζ v) (hr : Ready c R ζ z loc root) {y : List ℕ} {err : List Int} (he : err.length = c.gf.N)
    (hR : 0 < R.length) (hp : y.length ≤ R.getD 0 0) (hv : v (R.getD 0 0) ≠ 0) :
    forN R.length (fixStep c R.length z loc root) (y, err) = ub := by
  obtain ⟨n, hn⟩ : ∃ n, R.length = n + 1 := ⟨R.length - 1, by omega⟩
  have h := fix_ub G hnp hov hV hr hR he hp hv
  generalize hl : (R.length : Int) = l at *
  rw [hn, forN_succ', h, bind_ub]

end Verif.RSDec
