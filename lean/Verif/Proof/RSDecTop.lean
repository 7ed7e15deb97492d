import Verif.Proof.RSDecFix

/-! # The word found by the decoder -/

namespace Verif.RSDec
open Exec Finset Verif.Galois Verif.BCH Verif.BM Verif.BCHDec

variable {c : Core} [Fact (Irreducible (fieldPoly c.gf.m c.gf.p))]

/-- Sizes of the work space. -/
structure BufSize (c : Core) (b : Buf) : Prop where
  tab : TabSize c b.tab
  loc : b.loc.length = c.t + 1
  root : b.root.length = c.t + 1
  reg : b.reg.length = c.t + 1
  z : b.z.length = c.t + 1
  err : b.err.length = c.np

/-- The positions found for a row. -/
noncomputable def found (c : Core) [Fact (Irreducible (fieldPoly c.gf.m c.gf.p))] (σ : ℕ → Fld c.gf.m c.gf.p) (L : ℕ) : List ℕ :=
  rts c.gf.N (Root c σ L) c.gf.N

theorem found_sorted (σ : ℕ → Fld c.gf.m c.gf.p) (L : ℕ) : (found c σ L).Pairwise (· > ·) := by
  classical
  unfold found rts
  refine List.Pairwise.filter _ ?_
  rw [List.pairwise_map]
  refine (List.pairwise_lt_range (n := c.gf.N)).imp_of_mem ?_
  intro a b ha hb hab
  have := List.mem_range.1 ha
  have := List.mem_range.1 hb
  omega

theorem values (G : Good c.gf) {S σ : ℕ → Fld c.gf.m c.gf.p} {L T : ℕ} {v : ℕ → Fld c.gf.m c.gf.p} (h1 : σ 0 = 1) (hL : (found c σ L).length = L)
    (hT : L ≤ T) (hE : Errors S T (found c σ L).toFinset (fun p => al c.gf.m c.gf.p ^ p) v) : Values c (found c σ L) (zc σ S) v := by
  have hnd : (found c σ L).Nodup := rts_nodup (le_refl _)
  have hmem : ∀ p ∈ found c σ L, p < c.gf.N ∧ Root c σ L p := fun p hp => by
    have := (rts_mem (le_refl _)).1 hp
    exact ⟨this.1, this.2.2⟩
  refine ⟨hnd, fun p hp => (hmem p hp).1, by unfold zc; simp [h1], fun p hp => ?_⟩
  rw [hL]
  refine forney h1 hE (fun e he => (hmem e (List.mem_toFinset.1 he)).2) (by rw [List.toFinset_card_of_nodup hnd, hL]) hT (List.mem_toFinset.2 hp) ?_
  show al c.gf.m c.gf.p ^ p * al c.gf.m c.gf.p ^ (c.gf.N - p) = 1
  rw [← pow_add, Nat.add_sub_cancel' (hmem p hp).1.le, al_N G]

/-- What comes before the corrections. -/
theorem correct_pre (G : Good c.gf) (hnp : c.np = c.gf.N) {u : ℕ} {y : List ℕ} {b : Buf} {S : ℕ → Fld c.gf.m c.gf.p}
    {σ : ℕ → ℕ → Fld c.gf.m c.gf.p} {d : ℕ → Fld c.gf.m c.gf.p} {L : ℕ → ℕ} (hb : BufSize c b) (h : St c S u b.tab σ d L)
    (hu : u ≤ 2 * c.t + 1) (ht : 1 ≤ c.t) (h2t : 2 * c.t < c.np) (hS : ∀ k, 1 ≤ k → k ≤ 2 * c.t → Idx c.gf (at1 b.tab.s k) (S k)) (hL : L u ≤ c.t) :
    ∃ (e : List (List Int)) (st : Chien) (z : List Int), TabSize c { b.tab with elp := e } ∧ st.reg.length = c.t + 1 ∧ st.root.length = c.t + 1 ∧
      st.loc.length = c.t + 1 ∧ z.length = c.t + 1 ∧ ((found c (σ u) (L u)).length = L u → Ready c (found c (σ u) (L u)) (zc (σ u) S) z st.loc st.root) ∧
      correct c y u b = if (found c (σ u) (L u)).length = L u then
          (forN (found c (σ u) (L u)).length (fixStep c (found c (σ u) (L u)).length z st.loc st.root) (y, List.replicate b.err.length 0) >>= fun r =>
            ok ⟨true, true, r.1, ⟨{ b.tab with elp := e }, st.loc, st.root, st.reg, z, r.2⟩⟩)
        else ok ⟨false, false, y, ⟨{ b.tab with elp := e }, st.loc, st.root, st.reg, b.z, b.err⟩⟩ := by
  obtain ⟨hr, hi, _⟩ := h
  have hs := hr.size
  obtain ⟨e, e1, e2, e3⟩ := toIndexRow_loop G (u := u) (L := L u) (σ := σ u) hs.elp (by omega) (by omega) fun i hi => hr.cur i hi (by omega)
  obtain ⟨reg, g1, g2, g3⟩ := fillReg_loop (c := c) (u := u) (L := L u) (reg := b.reg) e2 (by omega) (by omega) (by rw [hb.reg]; omega)
  obtain ⟨st, k0, k1, k2, k3, k4, k5⟩ := chien_loop G hnp (reg := reg) (root := b.root) (loc := b.loc) (σ := σ u) (L := L u) (by rw [g2]; exact hb.reg) hb.root hb.loc hL
    (hi.one u (le_refl _)) fun j h1 h2 => by rw [g3 j h1 h2]; exact e3 j h2
  obtain ⟨z, z1, z2, z3⟩ := zStep_loop G hnp (s := b.tab.s) (z := b.z) (u := u) (L := L u) (σ := σ u) (S := S) e2 (by omega) (by omega) (by rw [hs.s]; omega) (by rw [hb.z]; omega)
    (hi.one u (le_refl _)) e3 fun k h1 h2 => hS k h1 (by omega)
  refine ⟨e, st, z, ⟨e2, hs.disc, hs.l, hs.ulu, hs.s⟩, k1, k2, k3, z2.trans hb.z, fun hc => ?_, ?_⟩
  · have hlen : st.count = (found c (σ u) (L u)).length := k4
    refine ⟨by omega, by rw [z2, hb.z]; omega, by omega, by omega, fun j h1 h2 => z3 j h1 (by omega), fun n hn => (k5 n (by omega)).1, fun n hn => (k5 n (by omega)).2⟩
  · unfold correct
    rw [rd_at (by rw [hs.l]; omega), bind_ok, hr.l u (le_refl _), if_pos (by omega), show ((L u : Int) + 1).toNat = L u + 1 by omega, e1, bind_ok, g1, bind_ok, k0, bind_ok]
    by_cases hc : (found c (σ u) (L u)).length = L u
    · have : (st.count : Int) = (L u : ℕ) := by rw [k4]; exact_mod_cast hc
      rw [if_pos this, if_pos hc, z1, bind_ok, Int.toNat_natCast, hc]
    · have : (st.count : Int) ≠ (L u : ℕ) := by rw [k4]; exact_mod_cast hc
      rw [if_neg this, if_neg hc]

/-- A word of symbols at most `t` positions away, all of whose syndromes vanish. -/
structure Close (c : Core) (y w : List ℕ) : Prop where
  len : w.length = c.gf.N
  sym : Sym c.gf w
  syn : ∀ k, 1 ≤ k → k ≤ 2 * c.t → syndrome c.gf w k = 0
  near : (diff c.gf.N y w).card ≤ c.t

theorem sym_pad {g : GF} {y : List ℕ} (sy : Sym g y) (k : ℕ) : Sym g (y ++ List.replicate k 0) := fun p => by rw [pad_getD]; exact sy p

theorem getD_ge {y : List ℕ} {p : ℕ} (h : y.length ≤ p) : y.getD p 0 = 0 := by
  rw [List.getD_eq_getElem?_getD, List.getElem?_eq_none h]; rfl

/-- The end of a call. -/
inductive Case (c : Core) [Fact (Irreducible (fieldPoly c.gf.m c.gf.p))] (y : List ℕ) (x : Exec Res) : Prop
  | clean (b' : Buf) (hb : BufSize c b') (h : ∀ k, 1 ≤ k → k ≤ 2 * c.t → syndrome c.gf y k = 0) (hx : x = ok ⟨true, true, y, b'⟩)
  | long (b' : Buf) (hb : BufSize c b') (u σ d L) (h : Inv (syndrome c.gf y) σ d L u) (hu : u ≤ 2 * c.t + 1) (hL : c.t < L u) (hx : x = ok ⟨false, false, y, b'⟩)
  | few (b' : Buf) (hb : BufSize c b') (σ d L) (h : Inv (syndrome c.gf y) σ d L (2 * c.t + 1))
      (hc : (found c (σ (2 * c.t + 1)) (L (2 * c.t + 1))).length ≠ L (2 * c.t + 1)) (hx : x = ok ⟨false, false, y, b'⟩)
  | fix (σ d L) (h : Inv (syndrome c.gf y) σ d L (2 * c.t + 1)) (hL : L (2 * c.t + 1) ≤ c.t)
      (hc : (found c (σ (2 * c.t + 1)) (L (2 * c.t + 1))).length = L (2 * c.t + 1)) (z loc root err : List Int) (he : err.length = c.gf.N)
      (hr : Ready c (found c (σ (2 * c.t + 1)) (L (2 * c.t + 1))) (zc (σ (2 * c.t + 1)) (syndrome c.gf y)) z loc root) (bf : List Int → Buf)
      (hbf : ∀ err, err.length = c.gf.N → BufSize c (bf err))
      (hx : x = (forN (found c (σ (2 * c.t + 1)) (L (2 * c.t + 1))).length
        (fixStep c (found c (σ (2 * c.t + 1)) (L (2 * c.t + 1))).length z loc root) (y, err) >>= fun r => ok ⟨true, true, r.1, bf r.2⟩))

theorem decodeCore_case (G : Good c.gf) (hnp : c.np = c.gf.N) {n : ℕ} {y : List ℕ} {b : Buf} (hb : BufSize c b) (ht : 1 ≤ c.t)
    (h2t : 2 * c.t < c.np) (hy : y.length = n) (hn : n ≤ c.gf.N) (sy : Sym c.gf y) (hov : Small c) : Case c y (decodeCore c n y b) := by
  unfold decodeCore
  have hs := hb.tab
  obtain ⟨r, r0, r1, r2, r3⟩ := synLoop_sat G hnp hy hn sy hov hs.s
  rw [r0, bind_ok]
  by_cases hc : r.2 = true
  · rw [if_pos hc]
    obtain ⟨tab, t0, htab⟩ := initTab_sat G (b := { b.tab with s := r.1 }) (S := syndrome c.gf y) ⟨hs.elp, hs.disc, hs.l, hs.ulu, r1⟩ ht h2t r2
    obtain ⟨p, p0, p1, σ, d, L, p2, p3⟩ := loop_sat G hnp ht h2t (2 * c.t + 1) 0 tab (by omega) (by omega) htab
    rw [t0, bind_ok, p0, bind_ok]
    have hb' : BufSize c { b with tab := p.2 } := ⟨p2.1.size, hb.loc, hb.root, hb.reg, hb.z, hb.err⟩
    by_cases hL : L (p.1 + 1) ≤ c.t
    · have hp : p.1 = 2 * c.t := by omega
      obtain ⟨e, st, z, g1, g2, g3, g4, g5, g6, g7⟩ := correct_pre G hnp (y := y) hb' p2 (by omega) ht h2t (fun k h1 h2 => p2.1.syn k h1 h2) hL
      rw [g7]
      rw [hp] at p2 hL g6 ⊢
      by_cases hcount : (found c (σ (2 * c.t + 1)) (L (2 * c.t + 1))).length = L (2 * c.t + 1)
      · rw [if_pos hcount]
        refine Case.fix σ d L p2.2.1 hL hcount z st.loc st.root _ (by rw [List.length_replicate]; exact hb.err.trans hnp) (g6 hcount)
          (fun err => ⟨{ p.2 with elp := e }, st.loc, st.root, st.reg, z, err⟩) (fun err he => ⟨g1, g4, g3, g2, g5, he.trans hnp.symm⟩) rfl
      · rw [if_neg hcount]
        exact Case.few _ (by exact ⟨g1, g4, g3, g2, hb.z, hb.err⟩) σ d L p2.2.1 hcount rfl
    · refine Case.long _ hb' (p.1 + 1) σ d L p2.2.1 (by omega) (by omega) ?_
      unfold correct
      rw [rd_at (by rw [p2.1.size.l]; omega), bind_ok, p2.1.l _ (le_refl _), if_neg (by omega)]
  · rw [if_neg hc]
    refine Case.clean _ (by exact ⟨⟨hs.elp, hs.disc, hs.l, hs.ulu, r1⟩, hb.loc, hb.root, hb.reg, hb.z, hb.err⟩) (fun k h1 h2 => ?_) rfl
    by_contra hn
    exact hc (r3.2 ⟨k, h1, h2, hn⟩)

theorem clean_eq (G : Good c.gf) {y w : List ℕ} (hy : y.length ≤ c.gf.N) (sy : Sym c.gf y) (h : ∀ k, 1 ≤ k → k ≤ 2 * c.t → syndrome c.gf y k = 0)
    (hw : Close c y w) (p : ℕ) : y.getD p 0 = w.getD p 0 := by
  obtain ⟨hE, hne⟩ := errors_of G hy (by rw [hw.len]) sy hw.sym hw.syn
  have hz := vander (v := fun p => el c.gf.m c.gf.p (y.getD p 0) - el c.gf.m c.gf.p (w.getD p 0)) hE.inj hE.ne (a := 1) fun k h1 h2 => by
    have := hw.near
    rw [← hE.syn k h1 (by omega)]
    exact h k h1 (by omega)
  by_cases hp : p < c.gf.N
  · by_contra hc
    have hm : p ∈ diff c.gf.N y w := mem_filter.2 ⟨mem_range.2 hp, hc⟩
    exact hne p hm (hz p hm)
  · rw [getD_ge (by omega), getD_ge (by rw [hw.len]; omega)]

/-- A close word that is zero outside of the received positions is found. -/
theorem finds (G : Good c.gf) (hnp : c.np = c.gf.N) (hov : Small c) {y w : List ℕ} {x : Exec Res} (hy : y.length ≤ c.gf.N) (sy : Sym c.gf y) (h : Case c y x)
    (hw : Close c y w) (h0 : ∀ p, y.length ≤ p → w.getD p 0 = 0) :
    x.Sat fun r => BufSize c r.buf ∧ r.success = true ∧ r.lastCw = true ∧ r.y = w.take y.length := by
  have hlen : (w.take y.length).length = y.length := by rw [List.length_take, hw.len]; omega
  cases h with
  | clean b' hb h hx =>
    rw [hx, sat_ok]
    refine ⟨hb, rfl, rfl, eq_of_getD rfl hlen fun p hp => ?_⟩
    rw [getD_take _ _ _ _ hp]
    exact clean_eq G hy sy h hw p
  | long b' hb u σ d L h hu hL hx =>
    obtain ⟨hE, hne⟩ := errors_of G hy (by rw [hw.len]) sy hw.sym hw.syn
    have := len_le hE hne h hu
    have := hw.near
    omega
  | few b' hb σ d L h hc hx =>
    obtain ⟨h1, h2, h3⟩ := rts_diff G hy (by rw [hw.len]) sy hw.sym hw.syn hw.near h
    exact absurd h3 hc
  | fix σ d L h hL hc z loc root err he hr bf hbf hx =>
    obtain ⟨h1, h2, h3⟩ := rts_diff G hy (by rw [hw.len]) sy hw.sym hw.syn hw.near h
    obtain ⟨hE, hne⟩ := errors_of G hy (by rw [hw.len]) sy hw.sym hw.syn
    have hset : (found c (σ (2 * c.t + 1)) (L (2 * c.t + 1))).toFinset = diff c.gf.N y w := by
      ext p
      rw [List.mem_toFinset]
      exact h2 p
    have hV := values G (h.one _ (le_refl _)) hc (show L (2 * c.t + 1) ≤ 2 * c.t by omega) (by rw [hset]; exact hE)
    have hin : ∀ p ∈ found c (σ (2 * c.t + 1)) (L (2 * c.t + 1)), p < y.length := by
      intro p hp
      by_contra hn
      exact (mem_filter.1 ((h2 p).1 hp)).2 (by rw [getD_ge (by omega), h0 p (by omega)])
    rw [hx]
    refine (fix_loop G hnp hov hV hr he sy hin).bind fun r ⟨r1, r2, r3, r4⟩ => ?_
    rw [sat_ok]
    refine ⟨hbf _ r2, rfl, rfl, eq_of_getD r1 hlen fun p hp => ?_⟩
    rw [getD_take _ _ _ _ hp]
    refine el_inj (p := c.gf.p) (r3 p) (hw.sym p) ?_
    rw [r4 p hp]
    by_cases hm : p ∈ found c (σ (2 * c.t + 1)) (L (2 * c.t + 1))
    · rw [if_pos hm, sub_is_add, ← add_assoc, ← two_mul, two_eq_zero, zero_mul, zero_add]
    · rw [if_neg hm, add_zero]
      have : ¬ y.getD p 0 ≠ w.getD p 0 := fun hd => hm ((h2 p).2 (mem_filter.2 ⟨mem_range.2 (by omega), hd⟩))
      rw [not_not.1 this]

/-- A close word that is not zero outside of the received positions: a write out of bounds. -/
theorem overruns (G : Good c.gf) (hnp : c.np = c.gf.N) (hov : Small c) {y w : List ℕ} {x : Exec Res} (hy : y.length ≤ c.gf.N) (sy : Sym c.gf y) (h : Case c y x)
    (hw : Close c y w) {q : ℕ} (hq : y.length ≤ q) (h0 : w.getD q 0 ≠ 0) : x = ub := by
  have hqN : q < c.gf.N := by
    by_contra hc
    exact h0 (getD_ge (by rw [hw.len]; omega))
  cases h with
  | clean b' hb h hx =>
    have := clean_eq G hy sy h hw q
    rw [getD_ge hq] at this
    exact absurd this.symm h0
  | long b' hb u σ d L h hu hL hx =>
    obtain ⟨hE, hne⟩ := errors_of G hy (by rw [hw.len]) sy hw.sym hw.syn
    have := len_le hE hne h hu
    have := hw.near
    omega
  | few b' hb σ d L h hc hx =>
    obtain ⟨h1, h2, h3⟩ := rts_diff G hy (by rw [hw.len]) sy hw.sym hw.syn hw.near h
    exact absurd h3 hc
  | fix σ d L h hL hc z loc root err he hr bf hbf hx =>
    obtain ⟨h1, h2, h3⟩ := rts_diff G hy (by rw [hw.len]) sy hw.sym hw.syn hw.near h
    obtain ⟨hE, hne⟩ := errors_of G hy (by rw [hw.len]) sy hw.sym hw.syn
    have hset : (found c (σ (2 * c.t + 1)) (L (2 * c.t + 1))).toFinset = diff c.gf.N y w := by
      ext p
      rw [List.mem_toFinset]
      exact h2 p
    have hV := values G (h.one _ (le_refl _)) hc (show L (2 * c.t + 1) ≤ 2 * c.t by omega) (by rw [hset]; exact hE)
    have hmem : q ∈ found c (σ (2 * c.t + 1)) (L (2 * c.t + 1)) := (h2 q).2 (mem_filter.2 ⟨mem_range.2 hqN, by rw [getD_ge hq]; exact Ne.symm h0⟩)
    have hpos : 0 < (found c (σ (2 * c.t + 1)) (L (2 * c.t + 1))).length := List.length_pos_of_mem hmem
    have hfirst : q ≤ (found c (σ (2 * c.t + 1)) (L (2 * c.t + 1))).getD 0 0 := by
      obtain ⟨i, hi, rfl⟩ := List.getElem_of_mem hmem
      rw [getD_lt 0 hpos]
      rcases Nat.eq_zero_or_pos i with rfl | hi0
      · exact le_refl _
      · exact ((List.pairwise_iff_getElem.1 (found_sorted _ _)) 0 i hpos hi hi0).le
    have hm0 : (found c (σ (2 * c.t + 1)) (L (2 * c.t + 1))).getD 0 0 ∈ found c (σ (2 * c.t + 1)) (L (2 * c.t + 1)) := by
      rw [getD_lt 0 hpos]; exact List.getElem_mem hpos
    rw [hx, fix_loop_ub G hnp hov hV hr he hpos (by omega) (hne _ ((h2 _).1 hm0)), bind_ub]

/-- Without a close word, the decoder refuses. -/
theorem refuses (G : Good c.gf) (hnp : c.np = c.gf.N) (hov : Small c) {y : List ℕ} {x : Exec Res} (hy : y.length ≤ c.gf.N) (sy : Sym c.gf y) (h : Case c y x)
    (hno : ¬ ∃ w, Close c y w) : x.Sat fun r => BufSize c r.buf ∧ r.success = false ∧ r.lastCw = false ∧ r.y = y := by
  have hplen : (y ++ List.replicate (c.gf.N - y.length) 0).length = c.gf.N := by rw [List.length_append, List.length_replicate]; omega
  have hpsyn : ∀ k, syndrome c.gf (y ++ List.replicate (c.gf.N - y.length) 0) k = syndrome c.gf y k := by
    intro k
    rw [syndrome_wide hplen.le, syndrome_wide hy]
    exact sum_congr rfl fun p _ => by rw [pad_getD]
  cases h with
  | clean b' hb h hx =>
    refine absurd ⟨y ++ List.replicate (c.gf.N - y.length) 0, hplen, sym_pad sy _, fun k h1 h2 => (hpsyn k).trans (h k h1 h2), ?_⟩ hno
    have : diff c.gf.N y (y ++ List.replicate (c.gf.N - y.length) 0) = ∅ := by
      unfold diff
      refine filter_eq_empty_iff.2 fun p _ hc => hc ?_
      rw [pad_getD]
    rw [this, card_empty]; omega
  | long b' hb u σ d L h hu hL hx =>
    rw [hx, sat_ok]
    exact ⟨hb, rfl, rfl, rfl⟩
  | few b' hb σ d L h hc hx =>
    rw [hx, sat_ok]
    exact ⟨hb, rfl, rfl, rfl⟩
  | fix σ d L h hL hc z loc root err he hr bf hbf hx =>
    exfalso
    have hnd : (found c (σ (2 * c.t + 1)) (L (2 * c.t + 1))).Nodup := rts_nodup (le_refl _)
    have hE0 : ∀ p ∈ (found c (σ (2 * c.t + 1)) (L (2 * c.t + 1))).toFinset, p < c.gf.N :=
      fun p hp => ((rts_mem (le_refl _)).1 (List.mem_toFinset.1 hp)).1
    obtain ⟨v, hv⟩ := combination (β := fun p => al c.gf.m c.gf.p ^ p) (h.one _ (le_refl _)) (h.recur _ (by omega) (le_refl _)) (al_inj' G _ hE0)
      (fun p _ => al_ne_zero G.hm G.ord _) (fun p hp => ((rts_mem (le_refl _)).1 (List.mem_toFinset.1 hp)).2.2)
      (by rw [List.toFinset_card_of_nodup hnd, hc])
    have hV := values G (h.one _ (le_refl _)) hc (show L (2 * c.t + 1) ≤ 2 * c.t by omega) hv
    obtain ⟨r, _, r1, r2, r3, r4⟩ := fix_loop G hnp hov hV hr he (sym_pad sy (c.gf.N - y.length)) (fun p hp => by rw [hplen]; exact hV.lt p hp)
    rw [hplen] at r1 r4
    generalize found c (σ (2 * c.t + 1)) (L (2 * c.t + 1)) = R at *
    refine hno ⟨r.1, r1, r3, fun k h1 h2 => ?_, ?_⟩
    · rw [syndrome_wide r1.le]
      have e : ∀ p ∈ range c.gf.N, el c.gf.m c.gf.p (r.1.getD p 0) * al c.gf.m c.gf.p ^ (k * p) =
          el c.gf.m c.gf.p (y.getD p 0) * al c.gf.m c.gf.p ^ (k * p) + if p ∈ R.toFinset then v p * al c.gf.m c.gf.p ^ (k * p) else 0 := by
        intro p hp
        rw [r4 p (mem_range.1 hp), pad_getD, add_mul]
        simp only [List.mem_toFinset]
        split
        · rfl
        · rw [zero_mul]
      rw [sum_congr rfl e, sum_add_distrib, ← syndrome_wide hy, hv.syn k h1 h2, ← sum_filter]
      have e2 : (range c.gf.N).filter (fun p => p ∈ R.toFinset) = R.toFinset := by
        ext p
        rw [mem_filter, mem_range]
        exact ⟨fun h => h.2, fun h => ⟨hE0 p h, h⟩⟩
      rw [e2, ← sum_add_distrib]
      refine sum_eq_zero fun p hp => ?_
      rw [← pow_mul, Nat.mul_comm p k, ← two_mul, two_eq_zero, zero_mul]
    · have hcard : R.toFinset.card ≤ c.t := by rw [List.toFinset_card_of_nodup hnd]; omega
      refine le_trans (card_le_card fun p hp => ?_) hcard
      obtain ⟨h1, h2⟩ := mem_filter.1 hp
      rw [List.mem_toFinset]
      by_contra hm
      refine h2 (el_inj (p := c.gf.p) (sy p) (r3 p) ?_)
      rw [r4 p (mem_range.1 h1), pad_getD, if_neg hm, add_zero]

end Verif.RSDec
