import Verif.Proof.BCHDecAlg
import Verif.Spec.BCHDec

/-! # The tasks of the decoder -/

namespace Verif.BCHDec
open Exec Finset Verif.Galois Verif.BCH Verif.BM

theorem nextPow2_sat {x m : ℕ} (hx : x < 2 ^ m) (hl : 2 ^ (m - 1) ≤ x) : ∀ fuel k, k ≤ m → m < fuel + k → nextPow2 x fuel (2 ^ k) = ok (2 ^ m)
  | 0, k, h1, h2 => by omega
  | fuel + 1, k, h1, h2 => by
    unfold nextPow2
    by_cases hk : k = m
    · subst hk; rw [if_neg (by omega)]
    · have : 2 ^ k ≤ 2 ^ (m - 1) := Nat.pow_le_pow_right (by omega) (by omega)
      rw [if_pos (by omega), ← Nat.pow_succ]
      exact nextPow2_sat hx hl fuel (k + 1) (by omega) (by omega)

theorem nextPow2_ub {x : ℕ} : ∀ fuel k, 2 ^ (fuel + k) ≤ 2 * x → nextPow2 x fuel (2 ^ k) = ub
  | 0, k, _ => rfl
  | fuel + 1, k, h => by
    unfold nextPow2
    have : 2 ^ (k + 1) ≤ 2 ^ (fuel + 1 + k) := Nat.pow_le_pow_right (by omega) (by omega)
    rw [Nat.pow_succ] at this
    rw [if_pos (by omega), ← Nat.pow_succ]
    exact nextPow2_ub fuel (k + 1) (by rw [← Nat.add_assoc, Nat.add_right_comm]; exact h)

theorem mk_dec {K N : Int} {gen : Gen} {d : Dec} (h : Dec.mk? K N gen = ok d) :
    3 < K ∧ K ≤ N ∧ N - K = (gen.g.length : Int) - 1 ∧ ∃ p, nextPow2 N.toNat 31 1 = ok p ∧ d = ⟨K.toNat, N.toNat, gen.gf, p - 1, gen.t⟩ := by
  unfold Dec.mk? at h
  split at h
  · cases h
  · split at h
    · cases h
    · split at h
      · cases h
      · cases hp : nextPow2 N.toNat 31 1 with
        | ok p =>
          rw [hp, bind_ok] at h
          split at h
          · cases h
          · split at h
            · cases h
            · injection h with h
              exact ⟨by omega, by omega, by omega, p, rfl, h.symm⟩
        | exc e => rw [hp, bind_exc] at h; cases h
        | ub => rw [hp, bind_ub] at h; cases h

theorem gen_card {g : GF} (G : Good g) {d : ℕ} {l : List ℕ} (hg : IsGen g d l) (hd : g.N ≤ d) : g.N ≤ l.length := by
  haveI := fact_irr G
  have hm := G.hm
  have hp := hg.pos
  have hN := N_pos G
  have hroot : ∀ j, 1 ≤ j → j < g.N → ∑ i ∈ range l.length, el g.m g.p (l.getD i 0) * al g.m g.p ^ (j * i) = 0 := by
    intro j h1 h2
    have := (hg.dvd _).1 (dvd_refl _) j h1 (by omega) h2
    rw [rootAt_iff, aeval_bitPoly (by omega) hg.bin] at this
    exact this
  have hc := roots_card (σ := fun j => el g.m g.p (l.getD (l.length - 1 - j) 0)) (l := l.length - 1) (E := (range g.N).filter fun j => 1 ≤ j)
    (β := fun j => al g.m g.p ^ j) ?_ ?_ ?_
  · have e : ((range g.N).filter fun j => 1 ≤ j) = (range g.N).erase 0 := by
      ext j
      rw [mem_filter, mem_erase]
      constructor
      · rintro ⟨h1, h2⟩; exact ⟨by omega, h1⟩
      · rintro ⟨h1, h2⟩; exact ⟨h2, by omega⟩
    rw [e, card_erase_of_mem (mem_range.2 hN), card_range] at hc
    omega
  · have := hg.lead
    simp only [Nat.sub_zero]
    rw [List.getD_eq_getElem?_getD, this]
    exact el_one (by omega)
  · intro i hi j hj e
    exact al_inj G (mem_range.1 (mem_filter.1 hi).1) (mem_range.1 (mem_filter.1 hj).1) e
  · intro j hj
    obtain ⟨h1, h2⟩ := mem_filter.1 hj
    rw [← hroot j h2 (mem_range.1 h1)]
    unfold rev
    obtain ⟨k, hk⟩ : ∃ k, l.length = k + 1 := ⟨l.length - 1, by omega⟩
    rw [hk, Nat.add_sub_cancel, ← sum_range_reflect]
    refine sum_congr rfl fun i hi => ?_
    have := mem_range.1 hi
    rw [show k + 1 - 1 - i = k - i by omega, show k - (k - i) = i by omega, ← pow_mul]
    simp only
    rw [show k - (k - i) = i by omega]

/-- What the hypotheses give. -/
structure Facts (gen : Gen) (K N : Int) (d : Dec) : Prop where
  G : Good gen.gf
  g : IsGen gen.gf (2 * gen.t + 1) gen.g
  K : d.K = K.toNat
  N : d.N = N.toNat
  core : d.core = ⟨gen.gf, gen.gf.N, gen.t⟩
  len : d.N ≤ gen.gf.N
  KN : d.K ≤ d.N
  t1 : 1 ≤ gen.t
  t2 : 2 * gen.t < gen.gf.N
  int : 2 * gen.t * (d.N - 1) < 2 ^ 31

theorem facts {w : Nat} {M t : Int} {p : List Nat} {gen : Gen} {K N : Int} {d : Dec} (h : Usable w M t p gen K N d) : Facts gen K N d := by
  obtain ⟨h1, h2, h3, h4, h5, h6, h7⟩ := h
  obtain ⟨G, hg⟩ := isGen_of_bchGen h1 h2 h3
  obtain ⟨_, ht, et⟩ := bchGen_inv h1
  obtain ⟨k1, k2, k3, q, k4, k5⟩ := mk_dec h4
  have hN : ((N.toNat : ℕ) : Int) = N := by omega
  have l1 : 2 ^ (gen.gf.m - 1) ≤ N.toNat := by
    have : ((2 ^ (gen.gf.m - 1) : ℕ) : Int) ≤ N := by push_cast; exact h5
    omega
  have l2 : N.toNat < 2 ^ gen.gf.m := by
    have : N < ((2 ^ gen.gf.m : ℕ) : Int) := by push_cast; exact h6
    omega
  have hov : 2 * gen.t * (N.toNat - 1) < 2 ^ 31 := by
    have e : ((2 * gen.t * (N.toNat - 1) : ℕ) : Int) = 2 * t * (N - 1) := by
      rw [Nat.cast_mul, Nat.cast_sub (by omega), Nat.cast_mul, hN, et]
      push_cast
      rw [Int.toNat_of_nonneg (by omega)]
    omega
  have hm : gen.gf.m < 31 := by
    by_contra hc
    have h30 : 2 ^ 30 ≤ 2 ^ (gen.gf.m - 1) := Nat.pow_le_pow_right (by omega) (by omega)
    have := nextPow2_ub (x := N.toNat) 31 0 (by omega)
    rw [Nat.pow_zero, k4] at this
    cases this
  have hq := nextPow2_sat l2 l1 31 0 (by omega) (by omega)
  rw [Nat.pow_zero, k4] at hq
  injection hq with hq
  have hgN := G.hN
  have hle : N.toNat ≤ gen.gf.N := by omega
  have hK : d.K = K.toNat := by rw [k5]
  have hdN : d.N = N.toNat := by rw [k5]
  have hqe : q - 1 = gen.gf.N := by omega
  refine ⟨G, hg, hK, hdN, by rw [k5, hqe], by omega, by omega, by omega, ?_, by rw [hdN]; exact hov⟩
  by_contra hc
  have := gen_card G hg (by omega)
  omega

theorem dvd_syn {gen : Gen} (G : Good gen.gf) (hg : IsGen gen.gf (2 * gen.t + 1) gen.g) (ht : 2 * gen.t < gen.gf.N) {x : List ℕ} (hx : IsBin x) :
    bitPoly gen.g ∣ bitPoly x ↔ ∀ k, 1 ≤ k → k ≤ 2 * gen.t → syndrome gen.gf x k = 0 := by
  have hm := G.hm
  rw [hg.dvd]
  constructor
  · intro hh j h1 h2
    have := hh j h1 (by omega) (by omega)
    rw [rootAt_iff, aeval_bitPoly (by omega) hx] at this
    exact this
  · intro hh j h1 h2 _
    rw [rootAt_iff, aeval_bitPoly (by omega) hx]
    exact hh j h1 (by omega)

theorem hamming_diff {y w : List ℕ} {N : ℕ} (hy : y.length ≤ N) (hw : w.length = N) :
    hamming (y ++ List.replicate (N - y.length) 0) w = (diff N y w).card := by
  have hl : (y ++ List.replicate (N - y.length) 0).length = N := by rw [List.length_append, List.length_replicate]; omega
  unfold hamming diff
  rw [hl, hw, Nat.max_self, card_filter_range]
  congr 1
  refine List.filter_congr fun i hi => ?_
  have hi := List.mem_range.1 hi
  rw [decide_eq_decide, List.getElem?_eq_getElem (by omega), List.getElem?_eq_getElem (by omega), ← pad_getD y (N - y.length) i,
    getD_lt 0 (by omega), getD_lt 0 (by omega), ne_eq, Option.some_inj]

theorem within_close {gen : Gen} (G : Good gen.gf) (hg : IsGen gen.gf (2 * gen.t + 1) gen.g) (ht : 2 * gen.t < gen.gf.N) {y w : List ℕ}
    (hy : y.length ≤ gen.gf.N) : Within gen y w ↔ Close ⟨gen.gf, gen.gf.N, gen.t⟩ y w := by
  constructor
  · rintro ⟨h1, h2, h3, h4⟩
    exact ⟨h1, h2, (dvd_syn G hg ht h2).1 h3, by rw [← hamming_diff hy h1]; exact h4⟩
  · rintro ⟨h1, h2, h3, h4⟩
    exact ⟨h1, h2, (dvd_syn G hg ht h2).2 h3, by rw [hamming_diff hy h1]; exact h4⟩

/-- `_decode`. -/
theorem core_sat {gen : Gen} {K N : Int} {d : Dec} (F : Facts gen K N d) {y : List ℕ} {b : Buf} (hb : BufSize d.core b)
    (hy : y.length = d.N) (hyb : IsBin y) :
    (decodeCore d.core d.N y b).Sat fun r => BufSize d.core r.buf ∧ r.y.length = d.N ∧
      (∀ w, Within gen y w → r.success = true ∧ r.y = w.take d.N) ∧ (r.success = true → ∃ w, Within gen y w) ∧ (r.success = false → r.y = y) := by
  have hle := F.len
  have ht1 := F.t1
  have ht2 := F.t2
  have hint := F.int
  rw [F.core] at hb ⊢
  haveI : Fact (Irreducible (fieldPoly gen.gf.m gen.gf.p)) := fact_irr F.G
  refine (decodeCore_sat (c := ⟨gen.gf, gen.gf.N, gen.t⟩) F.G rfl hb ht1 ht2 hy hyb hint).mono ?_
  rintro r ⟨h1, _, h3, h4⟩
  obtain ⟨g1, g2, g3⟩ := ends_spec (c := ⟨gen.gf, gen.gf.N, gen.t⟩) F.G hy hle hyb h3 h4
  have hcl : ∀ w, Within gen y w ↔ Close ⟨gen.gf, gen.gf.N, gen.t⟩ y w := fun w => within_close F.G F.g ht2 (by omega)
  exact ⟨h1, h3, fun w hw => g1 w ((hcl w).1 hw), fun hs => (g2 hs).imp fun w hw => (hcl w).2 hw, g3⟩

theorem harden_sat {R : Type} {neg : R → Bool} {y : List R} {yh : List ℕ} {n : ℕ} (hy : y.length = n) (h : yh.length = n) :
    harden neg y n yh = ok (y.map fun v => if neg v then 1 else 0) := by
  unfold harden
  have hs : (forN n (fun i o => rd y i >>= fun v => wr o i (if neg v then 1 else 0)) yh).Sat fun o => o = y.map fun v => if neg v then 1 else 0 := by
    refine (forN_inv (fun k (o : List ℕ) => o.length = n ∧ ∀ i, i < k → o[i]? = (y.map fun v => if neg v then 1 else 0)[i]?) ⟨h, fun i hi => by omega⟩ ?_).mono ?_
    · rintro k o hk ⟨h1, h2⟩
      rw [rd_lt (by omega), bind_ok, wr_lt (by omega), sat_ok]
      refine ⟨by rw [List.length_set]; exact h1, fun i hi => ?_⟩
      rw [List.getElem?_set]
      by_cases e : k = i
      · subst e
        rw [if_pos rfl, if_pos (by omega), List.getElem?_map, List.getElem?_eq_getElem (by omega)]
        rfl
      · rw [if_neg e]; exact h2 i (by omega)
    · rintro o ⟨h1, h2⟩
      refine List.ext_getElem? fun i => ?_
      by_cases hi : i < n
      · exact h2 i hi
      · rw [List.getElem?_eq_none (by omega), List.getElem?_eq_none (by rw [List.length_map]; omega)]
  obtain ⟨o, ho, rfl⟩ := hs
  exact ho

theorem copy_all {y yh : List ℕ} {n : ℕ} (hy : y.length = n) (h : yh.length = n) : copyTo y 0 n yh 0 = ok y := by
  obtain ⟨o, h1, h2, h3⟩ := copyTo_sat (src := y) (so := 0) (n := n) (dst := yh) (d := 0) (by omega) (by omega)
  rw [h1]
  congr 1
  refine List.ext_getElem? fun i => ?_
  rw [h3]
  by_cases hi : i < n
  · rw [if_pos (by omega), Nat.zero_add, Nat.sub_zero]
  · rw [if_neg (by omega), List.getElem?_eq_none (by omega), List.getElem?_eq_none (by omega)]

theorem copy_tail {y v : List ℕ} {n k : ℕ} (hy : y.length = n) (hk : k ≤ n) (h : v.length = k) : copyTo y (n - k) k v 0 = ok (y.drop (n - k)) := by
  obtain ⟨o, h1, h2, h3⟩ := copyTo_sat (src := y) (so := n - k) (n := k) (dst := v) (d := 0) (by omega) (by omega)
  rw [h1]
  congr 1
  refine List.ext_getElem? fun i => ?_
  rw [h3, List.getElem?_drop]
  by_cases hi : i < k
  · rw [if_pos (by omega), Nat.sub_zero]
  · rw [if_neg (by omega), List.getElem?_eq_none (by omega), List.getElem?_eq_none (by omega)]

theorem bin_harden {R : Type} (neg : R → Bool) (y : List R) : IsBin (y.map fun v => if neg v then 1 else 0) := by
  intro a ha
  obtain ⟨v, _, rfl⟩ := List.mem_map.1 ha
  split
  · exact Or.inr rfl
  · exact Or.inl rfl

/-- All tasks at once. -/
theorem run_eq {R : Type} {neg : R → Bool} {d : Dec} {b : Buf} {yh v : List ℕ} {k : Call R} (hk : k.Ok d.N) (hyh : yh.length = d.N) :
    k.run neg d b yh v = (decodeCore d.core d.N (k.hard neg) b >>= fun r =>
      (if k.cw then copyTo r.y 0 d.N v 0 else copyTo r.y (d.N - d.K) d.K v 0) >>= fun v => ok ⟨r.success, cwdOf r, v, r.buf⟩) := by
  cases k with
  | hiho y =>
    show decodeHiho d b y yh v = _
    unfold decodeHiho
    rw [copy_all hk.1 hyh, bind_ok]
    rfl
  | hihoCw y =>
    show decodeHihoCw d b y yh v = _
    unfold decodeHihoCw
    rw [copy_all hk.1 hyh, bind_ok]
    rfl
  | siho y =>
    show decodeSiho neg d b y yh v = _
    unfold decodeSiho
    rw [harden_sat hk hyh, bind_ok]
    rfl
  | sihoCw y =>
    show decodeSihoCw neg d b y yh v = _
    unfold decodeSihoCw
    rw [harden_sat hk hyh, bind_ok]
    rfl

theorem hard_ok {R : Type} {neg : R → Bool} {n : ℕ} {k : Call R} (hk : k.Ok n) : (k.hard neg).length = n ∧ IsBin (k.hard neg) := by
  cases k with
  | hiho y => exact hk
  | hihoCw y => exact hk
  | siho y => exact ⟨by show (y.map _).length = n; rw [List.length_map]; exact hk, bin_harden neg y⟩
  | sihoCw y => exact ⟨by show (y.map _).length = n; rw [List.length_map]; exact hk, bin_harden neg y⟩

theorem run_sat {R : Type} {neg : R → Bool} {gen : Gen} {K N : Int} {d : Dec} (F : Facts gen K N d) {b : Buf} (hb : BufSize d.core b)
    {yh v : List ℕ} {k : Call R} (hk : k.Ok d.N) (hyh : yh.length = d.N) (hv : v.length = if k.cw then d.N else d.K) :
    (k.run neg d b yh v).Sat fun o => BufSize d.core o.buf ∧
      (∀ w, Within gen (k.hard neg) w → o.success = true ∧ o.v = k.part d (w.take d.N)) ∧ (o.success = true → ∃ w, Within gen (k.hard neg) w) ∧
      (o.success = false → o.v = k.part d (k.hard neg)) ∧ o.cwd = if o.success then 1 else 0 := by
  obtain ⟨h1, h2⟩ := hard_ok (neg := neg) hk
  have hKN := F.KN
  rw [run_eq hk hyh]
  refine (core_sat F hb h1 h2).bind fun r ⟨r1, r2, r3, r4, r5⟩ => ?_
  have hcopy : (if k.cw then copyTo r.y 0 d.N v 0 else copyTo r.y (d.N - d.K) d.K v 0) = ok (k.part d r.y) := by
    unfold Call.part
    split
    · rename_i hc
      rw [if_pos hc] at hv
      exact copy_all r2 hv
    · rename_i hc
      rw [if_neg hc] at hv
      exact copy_tail r2 hKN hv
  rw [hcopy, bind_ok, sat_ok]
  refine ⟨r1, fun w hw => ⟨(r3 w hw).1, ?_⟩, r4, fun hf => ?_, rfl⟩
  · show k.part d r.y = _
    rw [(r3 w hw).2]
  · show k.part d r.y = _
    rw [r5 hf]

theorem fresh_size (d : Dec) : BufSize d.core d.fresh := by
  unfold Dec.fresh
  refine ⟨⟨⟨by simp, fun i hi => ?_⟩, by simp, by simp, by simp, by simp⟩, by simp, by simp⟩
  rw [List.getD_eq_getElem?_getD, List.getElem?_replicate, if_pos hi]
  simp

theorem reach_size {R : Type} {neg : R → Bool} {gen : Gen} {K N : Int} {d : Dec} (F : Facts gen K N d) {b : Buf} (h : Reach neg d b) :
    BufSize d.core b := by
  induction h with
  | fresh => exact fresh_size d
  | call k yh v _ h2 h3 h4 h5 ih =>
    obtain ⟨o, h6, h7⟩ := run_sat (neg := neg) F ih h2 h3 h4
    rw [h5] at h6
    injection h6 with h6
    subst h6
    exact h7.1

end Verif.BCHDec
