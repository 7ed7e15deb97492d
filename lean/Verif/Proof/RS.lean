import Verif.Proof.BCHEnc
import Verif.Proof.BitPacker

/-! # Minimum distance; the Reed–Solomon generator and encoder -/

namespace Verif.BCH
open Exec Polynomial Verif.Galois

/-- A word with `d - 1` consecutive zero syndromes and fewer than `d` non-zero coefficients is zero. -/
theorem weight_zero {F : Type _} [Field F] {a : F} (ha : a ≠ 0) {n d : Nat}
    (hinj : ∀ i j, i < n → j < n → a ^ i = a ^ j → i = j) (c : Nat → F) [DecidablePred fun i => c i ≠ 0]
    (hs : ∀ j, 1 ≤ j → j < d → ∑ i ∈ Finset.range n, c i * a ^ (j * i) = 0)
    (hw : ((Finset.range n).filter fun i => c i ≠ 0).card < d) : ∀ i, i < n → c i = 0 := by
  intro i0 hi0
  by_contra hc
  let s := (Finset.range n).filter fun i => c i ≠ 0
  have hi0s : i0 ∈ s := Finset.mem_filter.mpr ⟨Finset.mem_range.mpr hi0, hc⟩
  let q : F[X] := ∏ k ∈ s.erase i0, (X - C (a ^ k))
  have hdeg : q.natDegree + 1 < d := by
    have h1 : q.natDegree = (s.erase i0).card := by
      show (∏ k ∈ s.erase i0, (X - C (a ^ k))).natDegree = _
      rw [natDegree_prod _ _ (fun k _ => X_sub_C_ne_zero _),
        Finset.sum_congr rfl (fun k _ => natDegree_X_sub_C (a ^ k))]
      simp
    have h2 := Finset.card_erase_of_mem hi0s
    have h3 : 0 < s.card := Finset.card_pos.mpr ⟨i0, hi0s⟩
    have h4 : s.card < d := hw
    omega
  have hsum : ∑ i ∈ Finset.range n, c i * a ^ i * q.eval (a ^ i) = 0 := by
    have h1 : ∀ i, c i * a ^ i * q.eval (a ^ i) =
        ∑ k ∈ Finset.range (q.natDegree + 1), q.coeff k * (c i * a ^ ((k + 1) * i)) := by
      intro i
      rw [eval_eq_sum_range, Finset.mul_sum]
      apply Finset.sum_congr rfl
      intro k _
      rw [← pow_mul, show (k + 1) * i = i + i * k by ring, pow_add]
      ring
    simp only [h1]
    rw [Finset.sum_comm]
    apply Finset.sum_eq_zero
    intro k hk
    rw [← Finset.mul_sum, hs (k + 1) (by omega) (by have := Finset.mem_range.mp hk; omega), mul_zero]
  have hone : ∑ i ∈ Finset.range n, c i * a ^ i * q.eval (a ^ i) = c i0 * a ^ i0 * q.eval (a ^ i0) := by
    apply Finset.sum_eq_single_of_mem i0 (Finset.mem_range.mpr hi0)
    intro i hi hne
    by_cases hci : c i = 0
    · rw [hci, zero_mul, zero_mul]
    · have : q.eval (a ^ i) = 0 := by
        show (∏ k ∈ s.erase i0, (X - C (a ^ k))).eval (a ^ i) = 0
        rw [eval_prod]
        apply Finset.prod_eq_zero (i := i)
        · exact Finset.mem_erase.mpr ⟨hne, Finset.mem_filter.mpr ⟨hi, hci⟩⟩
        · simp
      rw [this, mul_zero]
  rw [hsum] at hone
  have hq : q.eval (a ^ i0) ≠ 0 := by
    show (∏ k ∈ s.erase i0, (X - C (a ^ k))).eval (a ^ i0) ≠ 0
    rw [eval_prod, Finset.prod_ne_zero_iff]
    intro k hk
    obtain ⟨hk1, hk2⟩ := Finset.mem_erase.mp hk
    have hk3 := Finset.mem_range.mp (Finset.mem_filter.mp hk2).1
    rw [eval_sub, eval_X, eval_C]
    intro e
    exact hk1 (hinj _ _ hi0 hk3 (sub_eq_zero.mp e)).symm
  exact (mul_ne_zero (mul_ne_zero hc (pow_ne_zero _ ha)) hq) hone.symm

theorem card_filter_range (n : Nat) (p : Nat → Prop) [DecidablePred p] :
    ((Finset.range n).filter p).card = ((List.range n).filter fun i => decide (p i)).length := rfl

variable {g : GF}

theorem al_ne (G : Good g) : al g.m g.p ≠ 0 := by
  have := al_ne_zero G.hm G.ord 1
  rwa [pow_one] at this

/-- Distance of two words with the same syndromes. -/
theorem distance (G : Good g) {α : Type _} [DecidableEq α] {n d : Nat} (hn : n ≤ g.N) {x y : List α} (hx : x.length = n)
    (hy : y.length = n) {val : α → Fld g.m g.p} {xv yv : Nat → α} (hxv : Vals x n xv) (hyv : Vals y n yv)
    (hinj : ∀ i, i < n → val (xv i) = val (yv i) → xv i = yv i)
    (hs : ∀ j, 1 ≤ j → j < d → ∑ i ∈ Finset.range n, val (xv i) * al g.m g.p ^ (j * i) =
      ∑ i ∈ Finset.range n, val (yv i) * al g.m g.p ^ (j * i)) (hne : x ≠ y) : d ≤ hamming x y := by
  haveI := fact_irr G
  classical
  by_contra hlt
  apply hne
  have hz := weight_zero (F := Fld g.m g.p) (a := al g.m g.p) (al_ne G) (n := n) (d := d)
    (fun i j hi hj e => al_inj G (by omega) (by omega) e) (fun i => val (xv i) - val (yv i)) ?_ ?_
  · apply List.ext_getElem?
    intro i
    by_cases hi : i < n
    · rw [hxv i hi, hyv i hi, hinj i hi (sub_eq_zero.mp (hz i hi))]
    · rw [List.getElem?_eq_none (by omega), List.getElem?_eq_none (by omega)]
  · intro j h1 h2
    have := hs j h1 h2
    rw [← sub_eq_zero, ← Finset.sum_sub_distrib] at this
    rw [← this]
    exact Finset.sum_congr rfl fun i _ => by rw [sub_mul]
  · refine Nat.lt_of_le_of_lt ?_ (Nat.not_le.mp hlt)
    unfold hamming
    rw [hx, hy, Nat.max_self]
    refine Nat.le_trans ?_ (Nat.le_of_eq (card_filter_range n fun i => x[i]? ≠ y[i]?))
    apply Finset.card_le_card
    intro i hi
    obtain ⟨h1, h2⟩ := Finset.mem_filter.mp hi
    have hin := Finset.mem_range.mp h1
    refine Finset.mem_filter.mpr ⟨h1, ?_⟩
    rw [hxv i hin, hyv i hin]
    intro e
    injection e with e
    exact h2 (by rw [e, sub_self])

theorem S_eval {n : Nat} (f : Nat → Fld g.m g.p) (j : Nat) :
    (S n f).eval (al g.m g.p ^ j) = ∑ i ∈ Finset.range n, f i * al g.m g.p ^ (j * i) := by
  unfold S
  rw [eval_finset_sum]
  apply Finset.sum_congr rfl
  intro i _
  rw [eval_mul, eval_C, eval_pow, eval_X, ← pow_mul]

/-- Values at powers of `α` of the polynomial of a binary word. -/
theorem aeval_bitPoly {x : List Nat} (hm : 0 < g.m) (hx : IsBin x) (j : Nat) :
    aeval (al g.m g.p ^ j) (bitPoly x) =
      ∑ i ∈ Finset.range x.length, el g.m g.p (x.getD i 0) * al g.m g.p ^ (j * i) := by
  rw [aeval_def, ← eval_map, bitPoly_eq, S_map, S_eval]
  apply Finset.sum_congr rfl
  intro i _
  rw [el_bit hm (bin_getD hx (i + 1) i (by omega))]

/-- Two binary multiples of the generator with the same systematic part are equal. -/
theorem codeword_unique {gf : GF} {d : Nat} {l : List Nat} (hg : IsGen gf d l) {r K : Nat} (hr : r = l.length - 1)
    {x y : List Nat} (hx : x.length = r + K) (hy : y.length = r + K) (hxb : IsBin x) (hyb : IsBin y)
    (hsys : ∀ i, i < K → x[r + i]? = y[r + i]?) (hdx : bitPoly l ∣ bitPoly x) (hdy : bitPoly l ∣ bitPoly y) : x = y := by
  have hp := bitPoly_gen hg
  rw [← hr] at hp
  have hs : S K (fun i => ((x.getD (r + i) 0 : Nat) : ZMod 2)) = S K (fun i => ((y.getD (r + i) 0 : Nat) : ZMod 2)) :=
    S_congr fun i hi => by
      rw [List.getD_eq_getElem?_getD, List.getD_eq_getElem?_getD, hsys i hi]
  rw [hp, bitPoly_eq, hx, S_split] at hdx
  rw [hp, bitPoly_eq, hy, S_split, ← hs] at hdy
  have := (rem_unique (R := ZMod 2) (by decide) hdy).mp hdx
  apply List.ext_getElem?
  intro i
  by_cases h1 : i < r
  · have e := cast_inj (bin_getD hxb (i + 1) i (by omega)) (bin_getD hyb (i + 1) i (by omega)) (this i h1)
    simp only at e
    rw [getD_lt _ (by omega), getD_lt _ (by omega)] at e
    rw [List.getElem?_eq_getElem (by omega), List.getElem?_eq_getElem (by omega), e]
  · by_cases h2 : i < r + K
    · have := hsys (i - r) (by omega)
      rwa [show r + (i - r) = i by omega] at this
    · rw [List.getElem?_eq_none (by omega), List.getElem?_eq_none (by omega)]

theorem isBin_xor {x y : List Nat} (hx : IsBin x) (hy : IsBin y) : IsBin (List.zipWith (· ^^^ ·) x y) := by
  intro v hv
  obtain ⟨i, hi, rfl⟩ := List.mem_iff_getElem.mp hv
  rw [List.getElem_zipWith]
  exact xor_bin (hx _ (List.getElem_mem _)) (hy _ (List.getElem_mem _))

theorem bitPoly_xor {x y : List Nat} (h : x.length = y.length) (hx : IsBin x) (hy : IsBin y) :
    bitPoly (List.zipWith (· ^^^ ·) x y) = bitPoly x + bitPoly y := by
  rw [bitPoly_eq, bitPoly_eq, bitPoly_eq, List.length_zipWith, ← h, Nat.min_self, ← S_add_fun]
  apply S_congr
  intro i hi
  rw [getD_lt _ (by simp; omega), getD_lt _ hi, getD_lt _ (by omega), List.getElem_zipWith]
  exact cast_xor (hx _ (List.getElem_mem _)) (hy _ (List.getElem_mem _))

/-! ## The Reed–Solomon generator -/

theorem toIndex_sat (G : Good g) {l : List Nat} {n : Nat} {v : Nat → Nat} (hl : l.length = n) (hv : Vals l n v)
    (hlt : ∀ j, j < n → v j < 2 ^ g.m) :
    (toIndex g l).Sat fun o => o.length = n ∧ ∃ ix : Nat → Int, Vals o n ix ∧ ∀ j, j < n →
      ((ix j = -1 ∧ v j = 0) ∨ ∃ i : Nat, ix j = i ∧ i < g.N ∧ al g.m g.p ^ i = el g.m g.p (v j)) := by
  have hm := G.hm
  have hex : ∀ j, j < n → ∃ x : Int, rd g.indexOf (v j) = ok x ∧
      ((x = -1 ∧ v j = 0) ∨ ∃ i : Nat, x = i ∧ i < g.N ∧ al g.m g.p ^ i = el g.m g.p (v j)) := by
    intro j hj
    by_cases h0 : v j = 0
    · exact ⟨-1, by rw [h0]; exact rd_eq G.index0, Or.inl ⟨rfl, h0⟩⟩
    · obtain ⟨i, h1, h2, h3⟩ := index_at G h0 (hlt j hj)
      exact ⟨i, h2, Or.inr ⟨i, rfl, h1, h3⟩⟩
  unfold toIndex
  rw [hl]
  refine (forN_inv (fun k (o : List Int) => o.length = n ∧ ∃ ix : Nat → Int, (∀ j, j < k → o[j]? = some (ix j)) ∧
    ∀ j, j < k → ((ix j = -1 ∧ v j = 0) ∨ ∃ i : Nat, ix j = i ∧ i < g.N ∧ al g.m g.p ^ i = el g.m g.p (v j)))
    ⟨by simpa using hl, fun _ => 0, by intro j hj; omega, by intro j hj; omega⟩ ?_)
  rintro k o hk ⟨h1, ix, h2, h3⟩
  obtain ⟨x, hx1, hx2⟩ := hex k hk
  rw [rd_eq (hv k hk), bind_ok, hx1, bind_ok, wr_lt (by omega), sat_ok]
  refine ⟨by simpa using h1, fun j => if j = k then x else ix j, ?_, ?_⟩
  · intro j hj
    beta_reduce
    by_cases e : j = k
    · subst e; rw [List.getElem?_set_self (by omega), if_pos rfl]
    · rw [List.getElem?_set_ne (Ne.symm e), if_neg e]; exact h2 j (by omega)
  · intro j hj
    beta_reduce
    by_cases e : j = k
    · subst e; rw [if_pos rfl]; exact hx2
    · rw [if_neg e]; exact h3 j (by omega)

/-- What the generator of the Reed–Solomon code holds. -/
structure IsRsGen (g : GF) (t : Nat) (l : List Int) : Prop where
  t1 : 1 ≤ t
  len : l.length = 2 * t + 1
  vals : ∃ ix : Nat → Int, Vals l (2 * t + 1) ix ∧ ix 0 ≠ -1 ∧ ix (2 * t) = 0 ∧
    (∀ j, j < 2 * t + 1 → ix j = -1 ∨ ∃ i : Nat, ix j = i ∧ i < g.N) ∧
    S (2 * t + 1) (fun j => power g (ix j)) = ∏ i ∈ Finset.range (2 * t), (X - C (al g.m g.p ^ (i + 1)))

theorem power_neg : power g (-1) = 0 := by unfold power; rw [if_pos rfl]

theorem power_nat (i : Nat) : power g (i : Int) = al g.m g.p ^ i := by
  unfold power
  rw [if_neg (by omega), Int.toNat_natCast]
  rfl

theorem rsGen_sat {N t : Int} {gf : GF} (hgf : GF.mk? 32 N [] = ok gf) (G : Good gf) (ht : 1 ≤ t) :
    (rsGen N t).Sat fun b => b.gf = gf ∧ b.t = t.toNat ∧ IsRsGen gf t.toNat b.g := by
  have hm := G.hm
  unfold rsGen
  rw [hgf, bind_ok, if_neg (by omega), if_neg (by omega)]
  refine (cosets_sat G.hm G.hN).bind fun sets hs => ?_
  have hz := zeros_sat G.hm G.hN hs (d := 2 * t.toNat + 1) (by omega)
  generalize zerosOf (2 * t.toNat + 1) sets = z at hz ⊢
  have hN1 : 1 < gf.N := by rw [G.hN]; have := lt_of_two_le G.hm; omega
  simp only
  rw [rd_eq hz.first, bind_ok]
  refine (product_sat G (r := 2 * t.toNat) (ex := fun i => 1 + i) (by omega) hN1 rfl ?_).bind ?_
  · intro i h1 h2
    congr 1
    omega
  · rintro l ⟨v, hv⟩
    refine (toIndex_sat G hv.len (v := v) (fun j hj => hv.vals j (by omega)) (fun j hj => hv.lt j (by omega))).bind ?_
    rintro o ⟨ho1, ix, ho2, ho3⟩
    have hpow : ∀ j, j < 2 * t.toNat + 1 → power gf (ix j) = el gf.m gf.p (v j) := by
      intro j hj
      rcases ho3 j hj with ⟨e1, e2⟩ | ⟨i, e1, _, e2⟩
      · rw [e1, e2, power_neg, el_zero]
      · rw [e1, power_nat, e2]
    refine sat_ok.mpr ⟨rfl, rfl, by omega, ho1, ix, ho2, ?_, ?_, ?_, ?_⟩
    · rcases ho3 0 (by omega) with ⟨_, e2⟩ | ⟨i, e1, _⟩
      · exact absurd e2 hv.const
      · omega
    · rcases ho3 (2 * t.toNat) (by omega) with ⟨_, e2⟩ | ⟨i, e1, e2, e3⟩
      · rw [hv.lead] at e2; omega
      · rw [hv.lead, el_one (by omega), ← pow_zero (al gf.m gf.p)] at e3
        have := al_inj G e2 (by omega) e3
        omega
    · intro j hj
      rcases ho3 j hj with ⟨e1, _⟩ | ⟨i, e1, e2, _⟩
      · exact Or.inl e1
      · exact Or.inr ⟨i, e1, e2⟩
    · rw [S_congr hpow, hv.poly]
      apply Finset.prod_congr rfl
      intro i _
      rw [add_eq_sub, Nat.add_comm 1 i]

theorem rsGen_inv {N t : Int} {b : RsGen} (h : rsGen N t = ok b) :
    GF.mk? 32 N [] = ok b.gf ∧ 1 ≤ t ∧ b.t = t.toNat := by
  unfold rsGen at h
  cases hg : GF.mk? 32 N [] with
  | ok gf =>
    rw [hg, bind_ok] at h
    split at h
    · cases h
    split at h
    · cases h
    next ht =>
    cases hs : cosets gf.N with
    | ok sets =>
      rw [hs, bind_ok] at h
      simp only at h
      cases hz : rd (zerosOf (2 * t.toNat + 1) sets) 0 with
      | ok z0 =>
        rw [hz, bind_ok] at h
        cases hp : product gf z0 (fun i => ok (z0 + i - 1)) (2 * t.toNat) with
        | ok l =>
          rw [hp, bind_ok] at h
          cases hi : toIndex gf l with
          | ok gi =>
            rw [hi, bind_ok] at h
            injection h with h
            subst h
            exact ⟨rfl, by omega, rfl⟩
          | exc e => rw [hi] at h; cases h
          | ub => rw [hi] at h; cases h
        | exc e => rw [hp] at h; cases h
        | ub => rw [hp] at h; cases h
      | exc e => rw [hz] at h; cases h
      | ub => rw [hz] at h; cases h
    | exc e => rw [hs] at h; cases h
    | ub => rw [hs] at h; cases h
  | exc e => rw [hg] at h; cases h
  | ub => rw [hg] at h; cases h

theorem good_default {N : Int} {gf : GF} (h : GF.mk? 32 N [] = ok gf) : Good gf := by
  obtain ⟨_, hm, hm20, _, _, hp, _, _⟩ := mk_spec h
  rw [if_pos rfl] at hp
  exact good_of_mk h (by omega) (by rw [hp]; exact selectPoly_primitive hm hm20)

theorem isRsGen_of_rsGen {N t : Int} {b : RsGen} (h : rsGen N t = ok b) : Good b.gf ∧ IsRsGen b.gf b.t b.g := by
  obtain ⟨hgf, ht, e⟩ := rsGen_inv h
  have G := good_default hgf
  obtain ⟨b', hb', _, _, e3⟩ := rsGen_sat hgf G ht
  rw [h] at hb'
  injection hb' with hb'
  subst hb'
  rw [e]
  exact ⟨G, e3⟩

/-! ## The Reed–Solomon encoder -/

/-- Hypotheses on the members of the encoder. -/
structure RsOk (e : RsEnc) (ix : Nat → Int) : Prop where
  good : Good e.gf
  r1 : 1 ≤ e.r
  full : e.N = e.gf.N
  g : Vals e.g e.r ix
  ix0 : ix 0 ≠ -1
  ixs : ∀ j, j < e.r → ix j = -1 ∨ ∃ i : Nat, ix j = i

def SymB (m k : Nat) (v : Nat → Nat) : Prop := ∀ j, j < k → v j < 2 ^ m

theorem rsExp_at {e : RsEnc} {ix : Nat → Int} (E : RsOk e ix) (x : Nat) :
    e.expAt (x : Int) = ok (powNum e.gf.m (lowNum e.gf.p e.gf.m) (x % e.gf.N)) := by
  have := exp_at E.good x
  unfold expAt at this
  unfold RsEnc.expAt
  rw [E.full]
  exact this

theorem rsEncSym_sat {e : RsEnc} {ix : Nat → Int} (E : RsOk e ix) {u par : List Nat} {off i ui : Nat} {ρ : Nat → Nat}
    (hu : u[off + i]? = some ui) (hui : ui < 2 ^ e.gf.m) (hp : Vals par e.r ρ) (hρ : SymB e.gf.m e.r ρ) :
    (rsEncSym e u off i par).Sat fun p => p.length = par.length ∧ (∀ j, e.r ≤ j → p[j]? = par[j]?) ∧
      ∃ ρ' : Nat → Nat, Vals p e.r ρ' ∧ SymB e.gf.m e.r ρ' ∧
        el e.gf.m e.gf.p (ρ' 0) = (el e.gf.m e.gf.p ui + el e.gf.m e.gf.p (ρ (e.r - 1))) * power e.gf (ix 0) ∧
        ∀ j, 1 ≤ j → j < e.r → el e.gf.m e.gf.p (ρ' j) =
          el e.gf.m e.gf.p (ρ (j - 1)) + (el e.gf.m e.gf.p ui + el e.gf.m e.gf.p (ρ (e.r - 1))) * power e.gf (ix j) := by
  have hr := E.r1
  have G := E.good
  have hm := G.hm
  have hlen : e.r - 1 < par.length := by
    have := hp (e.r - 1) (by omega)
    rw [List.getElem?_eq_some_iff] at this
    exact this.1
  have htop := hρ (e.r - 1) (by omega)
  have hx := Nat.xor_lt_two_pow hui htop
  unfold rsEncSym
  rw [rd_eq hu, bind_ok, rd_eq (hp (e.r - 1) (by omega)), bind_ok, ← el_xor]
  by_cases h0 : ui ^^^ ρ (e.r - 1) = 0
  · rw [h0, rd_eq G.index0, bind_ok, if_neg (by simp), el_zero]
    refine (shiftDown (n := e.r - 1) (body := rsShift0) (old := ρ) (new := fun j => ρ (j - 1)) (l0 := par) ?_ ?_).bind ?_
    · intro j l h1 h2 h3
      unfold rsShift0
      rw [rd_eq (h3 (j - 1) (by omega)), bind_ok]
    · intro j hj; exact hp j (by omega)
    · rintro l ⟨h1, h2, h3, h4⟩
      rw [wr_lt (by omega), sat_ok]
      refine ⟨by simpa using h1, fun j hj => ?_, fun j => if j = 0 then 0 else ρ (j - 1), ?_, ?_, ?_, ?_⟩
      · rw [List.getElem?_set_ne (by omega)]; exact h4 j (by omega)
      · intro j hj
        beta_reduce
        by_cases hj0 : j = 0
        · subst hj0; rw [List.getElem?_set_self (by omega), if_pos rfl]
        · rw [List.getElem?_set_ne (Ne.symm hj0), if_neg hj0]; exact h3 j (by omega) (by omega)
      · intro j hj
        beta_reduce
        split
        · exact Nat.two_pow_pos _
        · exact hρ _ (by omega)
      · beta_reduce
        rw [if_pos rfl, el_zero, zero_mul]
      · intro j hj1 hj2
        beta_reduce
        rw [if_neg (by omega), zero_mul, add_zero]
  · obtain ⟨fb, hfb, hfb1, hfb2⟩ := index_at G h0 hx
    rw [hfb1, bind_ok, if_pos (by omega), ← hfb2]
    have hexp : ∀ k : Nat, el e.gf.m e.gf.p (powNum e.gf.m (lowNum e.gf.p e.gf.m) ((k + fb) % e.gf.N)) =
        al e.gf.m e.gf.p ^ fb * al e.gf.m e.gf.p ^ k := by
      intro k
      rw [el_powNum (by omega), al_mod G, pow_add, mul_comm]
    refine (shiftDown (n := e.r - 1) (body := rsShift e fb) (old := ρ) (new := fun j => ρ (j - 1) ^^^
      if ix j = -1 then 0 else powNum e.gf.m (lowNum e.gf.p e.gf.m) (((ix j).toNat + fb) % e.gf.N)) (l0 := par) ?_ ?_).bind ?_
    · intro j l h1 h2 h3
      unfold rsShift
      rw [rd_eq (h3 (j - 1) (by omega)), bind_ok, rd_eq (E.g j (by omega)), bind_ok]
      rcases E.ixs j (by omega) with h | ⟨k, h⟩
      · rw [h, if_neg (by simp), if_pos rfl, Nat.xor_zero]
      · rw [h, if_pos (by omega), if_neg (by omega), Int.toNat_natCast,
          show ((k : Int) + (fb : Int)) = ((k + fb : Nat) : Int) by simp, rsExp_at E, bind_ok]
    · intro j hj; exact hp j (by omega)
    · rintro l ⟨h1, h2, h3, h4⟩
      obtain ⟨k0, hk0⟩ : ∃ k : Nat, ix 0 = k := (E.ixs 0 (by omega)).resolve_left E.ix0
      rw [rd_eq (E.g 0 (by omega)), bind_ok, hk0, show ((k0 : Int) + (fb : Int)) = ((k0 + fb : Nat) : Int) by simp,
        rsExp_at E, bind_ok, wr_lt (by omega), sat_ok]
      refine ⟨by simpa using h1, fun j hj => ?_, fun j => if j = 0 then
        powNum e.gf.m (lowNum e.gf.p e.gf.m) ((k0 + fb) % e.gf.N) else ρ (j - 1) ^^^
        if ix j = -1 then 0 else powNum e.gf.m (lowNum e.gf.p e.gf.m) (((ix j).toNat + fb) % e.gf.N), ?_, ?_, ?_, ?_⟩
      · rw [List.getElem?_set_ne (by omega)]; exact h4 j (by omega)
      · intro j hj
        beta_reduce
        by_cases hj0 : j = 0
        · subst hj0; rw [List.getElem?_set_self (by omega), if_pos rfl]
        · rw [List.getElem?_set_ne (Ne.symm hj0), if_neg hj0]; exact h3 j (by omega) (by omega)
      · intro j hj
        beta_reduce
        split
        · exact powNum_lt (by omega) (low_lt _ _) _
        · apply Nat.xor_lt_two_pow (hρ _ (by omega))
          split
          · exact Nat.two_pow_pos _
          · exact powNum_lt (by omega) (low_lt _ _) _
      · beta_reduce
        rw [if_pos rfl, hexp, power_nat]
      · intro j hj1 hj2
        beta_reduce
        rw [if_neg (by omega), el_xor]
        congr 1
        rcases E.ixs j hj2 with h | ⟨k, h⟩
        · rw [h, if_pos rfl, power_neg, el_zero, mul_zero]
        · rw [h, if_neg (by omega), Int.toNat_natCast, hexp, power_nat]

/-- Generator over the field. -/
noncomputable abbrev rgp (e : RsEnc) (ix : Nat → Int) : (Fld e.gf.m e.gf.p)[X] :=
  S e.r (fun j => power e.gf (ix j)) + X ^ e.r

theorem rsEncPar_sat {e : RsEnc} {ix : Nat → Int} (E : RsOk e ix) {u par : List Nat} {off : Nat} {uv : Nat → Nat}
    (hu : ∀ i, i < e.K → u[off + i]? = some (uv i)) (hub : SymB e.gf.m e.K uv) (hp : e.r ≤ par.length) :
    (rsEncPar e u off par).Sat fun p => p.length = par.length ∧ (∀ j, e.r ≤ j → p[j]? = par[j]?) ∧
      ∃ ρ : Nat → Nat, Vals p e.r ρ ∧ SymB e.gf.m e.r ρ ∧
        rgp e ix ∣ S e.r (fun j => el e.gf.m e.gf.p (ρ j)) + X ^ e.r * S e.K (fun i => el e.gf.m e.gf.p (uv i)) := by
  unfold rsEncPar
  refine (zero_fill hp).bind ?_
  rintro p0 ⟨hl0, hr0, hv0⟩
  unfold forDown
  have := forN_inv (n := e.K) (f := fun i => rsEncSym e u off (e.K - 1 - i)) (s := p0) (fun k p =>
    p.length = par.length ∧ (∀ j, e.r ≤ j → p[j]? = par[j]?) ∧ ∃ ρ : Nat → Nat, Vals p e.r ρ ∧ SymB e.gf.m e.r ρ ∧
        rgp e ix ∣ S e.r (fun j => el e.gf.m e.gf.p (ρ j)) +
          X ^ e.r * S k (fun i => el e.gf.m e.gf.p (uv (e.K - k + i)))) ?_ ?_
  · refine this.mono ?_
    rintro p ⟨h1, h2, ρ, h3, h4, h5⟩
    refine ⟨h1, h2, ρ, h3, h4, ?_⟩
    simpa using h5
  · refine ⟨hl0, hr0, fun _ => 0, hv0, fun _ _ => Nat.two_pow_pos _, ?_⟩
    beta_reduce
    rw [el_zero, S_zero]
    simp [S]
  · rintro k p hk ⟨h1, h2, ρ, h3, h4, h5⟩
    refine (rsEncSym_sat E (hu (e.K - 1 - k) (by omega)) (hub _ (by omega)) h3 h4).mono ?_
    rintro p' ⟨q1, q2, ρ', q3, q4, q5, q6⟩
    refine ⟨by omega, fun j hj => by rw [q2 j hj, h2 j hj], ρ', q3, q4, ?_⟩
    refine lfsr_dvd (k := k) two_eq_zero E.r1 (ρ := fun j => el e.gf.m e.gf.p (ρ j)) rfl q5 q6 h5 ?_ ?_
    · rw [show e.K - (k + 1) + 0 = e.K - 1 - k by omega]
    · intro i hi
      rw [show e.K - (k + 1) + (i + 1) = e.K - k + i by omega]

/-! ## Symbols and bits -/

theorem bitsum (b : Nat → Bool) : ∀ m, ((List.range m).map fun k => if b k then 2 ^ k else 0).sum < 2 ^ m ∧
    ∀ i, ((List.range m).map fun k => if b k then 2 ^ k else 0).sum.testBit i = (decide (i < m) && b i)
  | 0 => by simp
  | m + 1 => by
    obtain ⟨h1, h2⟩ := bitsum b m
    rw [List.range_succ, List.map_append, List.sum_append]
    simp only [List.map_cons, List.map_nil, List.sum_cons, List.sum_nil, Nat.add_zero]
    by_cases hb : b m = true
    · rw [if_pos hb]
      refine ⟨by rw [Nat.pow_succ]; omega, fun i => ?_⟩
      rw [Nat.add_comm]
      rcases Nat.lt_trichotomy i m with h | h | h
      · rw [Nat.testBit_two_pow_add_gt h, h2]
        simp [h, Nat.lt_succ_of_lt h]
      · subst h
        rw [Nat.testBit_two_pow_add_eq, h2]
        simp [hb]
      · rw [Nat.testBit_lt_two_pow]
        · simp; omega
        · calc _ < 2 ^ (m + 1) := by rw [Nat.pow_succ]; omega
            _ ≤ 2 ^ i := Nat.pow_le_pow_right (by omega) (by omega)
    · rw [if_neg hb, Nat.add_zero]
      refine ⟨by rw [Nat.pow_succ]; omega, fun i => ?_⟩
      rw [h2]
      by_cases h : i = m
      · subst h; simp [hb]
      · congr 1
        apply decide_eq_decide.mpr
        omega

theorem symbolAt_eq (m : Nat) (x : List Int) (s : Nat) :
    symbolAt m x s = ((List.range m).map fun k => if BitPacker.bitAt x (s * m + k) then 2 ^ k else 0).sum := by
  unfold symbolAt BitPacker.bitAt
  simp only [decide_eq_true_eq]

theorem symbolAt_lt (m : Nat) (x : List Int) (s : Nat) : symbolAt m x s < 2 ^ m := by
  rw [symbolAt_eq]; exact (bitsum _ m).1

theorem testBit_symbolAt (m : Nat) (x : List Int) (s i : Nat) :
    (symbolAt m x s).testBit i = (decide (i < m) && BitPacker.bitAt x (s * m + i)) := by
  rw [symbolAt_eq]; exact (bitsum _ m).2 i

theorem nSymbols_mul {K m : Nat} (hm : 0 < m) : BitPacker.nSymbols (K * m) m = K := by
  unfold BitPacker.nSymbols
  rw [Nat.add_sub_assoc hm, Nat.mul_comm, Nat.mul_add_div hm, Nat.div_eq_of_lt (by omega), Nat.add_zero]

theorem pack_symbols {w m K : Nat} (hm : 0 < m) (hw : m ≤ w) {u : List Int} (hu : K * m ≤ u.length)
    {out : List (BitVec w)} (ho : out.length = K) :
    (BitPacker.pack w false m (K * m) 1 u out).Sat fun o => o.length = K ∧
      ∀ s, s < K → ∃ b : BitVec w, o[s]? = some b ∧ b.toNat = symbolAt m u s := by
  refine (BitPacker.pack_sat hm hw (by omega) (by rw [nSymbols_mul hm]; omega)).mono ?_
  rintro o ⟨h1, h2, _⟩
  refine ⟨by omega, fun s hs => ?_⟩
  obtain ⟨b, hb1, hb2⟩ := h2 0 (by omega) s (by rw [nSymbols_mul hm]; exact hs)
  rw [Nat.zero_mul, Nat.zero_add] at hb1
  refine ⟨b, hb1, ?_⟩
  apply Nat.eq_of_testBit_eq
  intro i
  rw [testBit_symbolAt, BitVec.testBit_toNat]
  by_cases hi : i < w
  · have := hb2 i hi
    unfold BitPacker.bitPos at this
    simp only [Bool.false_eq_true, if_false] at this
    rw [this]
    have : K * m - s * m ≥ m := by
      rw [← Nat.sub_mul]
      exact Nat.le_mul_of_pos_left _ (by omega)
    rw [Nat.min_eq_left (by omega), Nat.zero_mul, Nat.zero_add]
  · rw [BitVec.getLsbD_of_ge _ _ (by omega), decide_eq_false (by omega), Bool.false_and]

theorem symVals_sat {w : Nat} {l : List (BitVec w)} {n : Nat} {v : Nat → Nat} (hl : l.length = n)
    (hv : ∀ s, s < n → ∃ b : BitVec w, l[s]? = some b ∧ b.toNat = v s ∧ v s < 2 ^ (w - 1)) :
    (symVals l).Sat fun o => o.length = n ∧ Vals o n v := by
  unfold symVals
  rw [hl]
  refine (forN_inv (fun k (o : List Nat) => o.length = n ∧ ∀ j, j < k → o[j]? = some (v j))
    ⟨by simpa using hl, by intro j hj; omega⟩ ?_)
  rintro k o hk ⟨h1, h2⟩
  obtain ⟨b, hb1, hb2, hb3⟩ := hv k hk
  unfold symVal
  rw [rd_eq hb1, bind_ok, hb2, toI_ok hb3, bind_ok, wr_lt (by omega), sat_ok]
  refine ⟨by simpa using h1, fun j hj => ?_⟩
  by_cases e : j = k
  · subst e; rw [List.getElem?_set_self (by omega)]
  · rw [List.getElem?_set_ne (Ne.symm e)]; exact h2 j (by omega)

theorem syms_sat {w m K : Nat} (hm : 0 < m) (hw : m < w) {u : List Int} (hu : K * m ≤ u.length)
    {out : List (BitVec w)} (ho : out.length = K) :
    (BitPacker.pack w false m (K * m) 1 u out >>= symVals).Sat fun o => o.length = K ∧ Vals o K (symbolAt m u) := by
  refine (pack_symbols hm (Nat.le_of_lt hw) hu ho).bind ?_
  rintro o ⟨h1, h2⟩
  refine symVals_sat h1 fun s hs => ?_
  obtain ⟨b, hb1, hb2⟩ := h2 s hs
  refine ⟨b, hb1, hb2, Nat.lt_of_lt_of_le (symbolAt_lt m u s) (Nat.pow_le_pow_right (by omega) (by omega))⟩

theorem mk_rsEnc {w : Nat} {K N : Int} {gen : RsGen} {e : RsEnc} (h : RsEnc.mk? w K N gen = ok e) (hm : 0 < gen.gf.m) :
    0 < K ∧ K ≤ N ∧ N - K = (gen.g.length : Int) - 1 ∧ gen.gf.m ≤ w ∧
      e = ⟨K.toNat, N.toNat, gen.gf, gen.g.length - 1, gen.g,
        (List.range (K.toNat * gen.gf.m)).map (gen.g.length - 1 + ·)⟩ := by
  unfold RsEnc.mk? at h
  simp only at h
  split_ifs at h with h1 h2 h3 h4 h5
  injection h with h
  have hm' : (0 : Int) < gen.gf.m := by omega
  refine ⟨?_, ?_, by omega, by omega, h.symm⟩
  · rcases Int.lt_or_le 0 K with hk | hk
    · exact hk
    · exact absurd (Int.mul_nonpos_of_nonpos_of_nonneg hk (Int.le_of_lt hm')) h1
  · exact Int.le_of_mul_le_mul_right (Int.not_lt.mp h3) hm'

/-- Divisibility by the generator = vanishing syndromes. -/
theorem dvd_iff_syndromes (G : Good g) {t n : Nat} (ht : 2 * t < g.N) {v : Nat → Nat} :
    (∏ i ∈ Finset.range (2 * t), (X - C (al g.m g.p ^ (i + 1)))) ∣ S n (fun i => el g.m g.p (v i)) ↔
      ∀ j, 1 ≤ j → j ≤ 2 * t → ∑ i ∈ Finset.range n, el g.m g.p (v i) * al g.m g.p ^ (j * i) = 0 := by
  haveI := fact_irr G
  constructor
  · rintro ⟨q, hq⟩ j h1 h2
    rw [← S_eval, hq, eval_mul, eval_prod, Finset.prod_eq_zero (i := j - 1) (Finset.mem_range.mpr (by omega)), zero_mul]
    rw [show j - 1 + 1 = j by omega]
    simp
  · intro h
    by_cases h0 : S n (fun i => el g.m g.p (v i)) = 0
    · rw [h0]; exact dvd_zero _
    have he : (∏ i ∈ Finset.range (2 * t), (X - C (al g.m g.p ^ (i + 1)))) =
        (Multiset.map (fun a => X - C a) ((Multiset.range (2 * t)).map fun i => al g.m g.p ^ (i + 1))).prod := by
      rw [Multiset.map_map]; rfl
    rw [he, Multiset.prod_X_sub_C_dvd_iff_le_roots h0, Multiset.le_iff_subset]
    · intro b hb
      rw [Multiset.mem_map] at hb
      obtain ⟨i, hi, rfl⟩ := hb
      rw [Multiset.mem_range] at hi
      rw [mem_roots h0, IsRoot.def, S_eval]
      exact h (i + 1) (by omega) (by omega)
    · apply Multiset.Nodup.map_on _ (Multiset.nodup_range _)
      intro x hx y hy e
      rw [Multiset.mem_range] at hx hy
      have := al_inj G (by omega) (by omega) e
      omega

/-- The generator as the register sees it. -/
theorem rgp_eq {w : Nat} {K N : Int} {gen : RsGen} {e : RsEnc} (h : RsEnc.mk? w K N gen = ok e) (G : Good gen.gf)
    (hg : IsRsGen gen.gf gen.t gen.g) (hfull : e.N = e.gf.N) : ∃ ix, RsOk e ix ∧ e.r = 2 * gen.t ∧ e.gf = gen.gf ∧
      e.N = e.r + e.K ∧ 0 < e.K ∧
      rgp e ix = ∏ i ∈ Finset.range (2 * gen.t), (X - C (al e.gf.m e.gf.p ^ (i + 1))) := by
  obtain ⟨h1, h2, h3, h4, he⟩ := mk_rsEnc h (by have := G.hm; omega)
  obtain ⟨ix, q1, q2, q3, q4, q5⟩ := hg.vals
  have hlen := hg.len
  have ht := hg.t1
  have hr : e.r = 2 * gen.t := by rw [he]; simp only; omega
  have hgf : e.gf = gen.gf := by rw [he]
  have hgg : e.g = gen.g := by rw [he]
  have hN : e.N = N.toNat := by rw [he]
  have hK : e.K = K.toNat := by rw [he]
  refine ⟨ix, ⟨by rw [hgf]; exact G, by omega, hfull, ?_, q2, ?_⟩, hr, hgf, by omega, by omega, ?_⟩
  · intro j hj
    rw [hgg]
    exact q1 j (by omega)
  · intro j hj
    rcases q4 j (by omega) with h | ⟨i, h, _⟩
    · exact Or.inl h
    · exact Or.inr ⟨i, h⟩
  · unfold rgp
    rw [hr]
    obtain ⟨eK, eN, egf, er, eg, ei⟩ := e
    simp only at hgf
    subst hgf
    simp only
    rw [← q5, S_succ, q3, show (0 : Int) = ((0 : Nat) : Int) from rfl, power_nat, pow_zero, C_1, one_mul]

theorem syndrome_eq (x : List Nat) (j : Nat) :
    syndrome g x j = ∑ i ∈ Finset.range x.length, el g.m g.p (x.getD i 0) * al g.m g.p ^ (j * i) := rfl

theorem syndrome_map (n : Nat) (f : Nat → Nat) (j : Nat) : syndrome g ((List.range n).map f) j =
    ∑ i ∈ Finset.range n, el g.m g.p (f i) * al g.m g.p ^ (j * i) := by
  rw [syndrome_eq, List.length_map, List.length_range]
  apply Finset.sum_congr rfl
  intro i hi
  rw [List.getD_eq_getElem?_getD, getElem?_mapRange, if_pos (Finset.mem_range.mp hi)]
  rfl

/-- Symbols as wide as their type: a set top bit is a negative number. -/
theorem rsEncode_ub {w : Nat} {e : RsEnc} (hm : 0 < e.gf.m) (hw : e.gf.m = w) {u x : List Int}
    (hu : u.length = e.K * e.gf.m) {s : Nat} (hs : s < e.K) (hbig : 2 ^ (w - 1) ≤ symbolAt w u s) :
    rsEncode w e u x = ub := by
  unfold rsEncode
  obtain ⟨o, h1, h2, h3⟩ := pack_symbols hm (Nat.le_of_eq hw) (u := u) (K := e.K) (by omega)
    (out := List.replicate e.K 0#w) (by simp)
  rw [h1, bind_ok]
  have : symVals o = ub := by
    unfold symVals
    rw [h2]
    refine forN_ub (k0 := s) (fun l => l.length = e.K) (by simp; omega) hs ?_ ?_
    · intro k l hk hl
      obtain ⟨b, hb, _⟩ := h3 k hk
      rw [rd_eq hb, bind_ok]
      unfold symVal toI
      split
      · right
        rw [bind_ok, wr_lt (by omega)]
        exact ⟨_, rfl, by simpa using hl⟩
      · left; rfl
    · intro l hl
      obtain ⟨b, hb, hb2⟩ := h3 s hs
      rw [hw] at hb2
      rw [rd_eq hb, bind_ok]
      unfold symVal toI
      rw [if_neg (by omega)]
      rfl
  rw [this]
  rfl

/-- Syndrome computed on numbers. -/
def synNum (m q : Nat) (x : List Nat) (j : Nat) : Nat → Nat
  | 0 => 0
  | n + 1 => synNum m q x j n ^^^ gmul m q (x.getD n 0) m (powNum m q (j * n))

theorem syndrome_num {x : List Nat} {j : Nat} (hm : 0 < g.m) (hx : ∀ v ∈ x, v < 2 ^ g.m) :
    syndrome g x j = el g.m g.p (synNum g.m (lowNum g.p g.m) x j x.length) := by
  rw [syndrome_eq]
  have : ∀ n, ∑ i ∈ Finset.range n, el g.m g.p (x.getD i 0) * al g.m g.p ^ (j * i) =
      el g.m g.p (synNum g.m (lowNum g.p g.m) x j n) := by
    intro n
    induction n with
    | zero => simp [synNum, el_zero]
    | succ n ih =>
      rw [Finset.sum_range_succ, ih, synNum, el_xor, el_mul hm, el_powNum hm]
      by_cases h : n < x.length
      · rw [getD_lt _ h]; exact hx _ (List.getElem_mem _)
      · rw [List.getD_eq_getElem?_getD, List.getElem?_eq_none (by omega)]; exact Nat.two_pow_pos _
  exact this _

theorem rsEncode_sat {w : Nat} {K N : Int} {gen : RsGen} {e : RsEnc} (h : RsEnc.mk? w K N gen = ok e) (G : Good gen.gf)
    (hg : IsRsGen gen.gf gen.t gen.g) (hfull : e.N = e.gf.N) (hw : e.gf.m < w) {u x : List Int}
    (hu : u.length = e.K * e.gf.m) (hx : x.length = e.N * e.gf.m) :
    (rsEncode w e u x).Sat fun c => c.length = e.N * e.gf.m ∧
      (∀ i, i < e.K * e.gf.m → c[e.r * e.gf.m + i]? = u[i]?) ∧
      (∀ i, i < e.r * e.gf.m → c[i]? = some 0 ∨ c[i]? = some 1) ∧
      ∀ j, 1 ≤ j → j ≤ 2 * gen.t → syndrome e.gf ((List.range e.N).map (symbolAt e.gf.m c)) j = 0 := by
  obtain ⟨ix, E, hr, hgf, hN, hK0, hpoly⟩ := rgp_eq h G hg hfull
  have hm := E.good.hm
  have hm0 : 0 < e.gf.m := by omega
  have hmul : e.N * e.gf.m = e.r * e.gf.m + e.K * e.gf.m := by rw [hN, Nat.add_mul]
  unfold rsEncode
  rw [← Exec.bind_assoc']
  refine (syms_sat hm0 hw (u := u) (K := e.K) (by omega) (out := List.replicate e.K 0#w) (by simp)).bind ?_
  rintro su ⟨hs1, hs2⟩
  refine (rsEncPar_sat E (u := su) (off := 0) (uv := symbolAt e.gf.m u) (par := List.replicate e.r 0)
    (fun i hi => by rw [Nat.zero_add]; exact hs2 i hi) (fun i _ => symbolAt_lt _ _ _) (by simp)).bind ?_
  rintro bb ⟨hb1, _, ρ, hb2, hb3, hb4⟩
  rw [List.length_replicate] at hb1
  refine (BitPacker.unpack_sat (nFrames := 1) (nBits := e.r * e.gf.m) hm0 (Nat.le_of_lt hw)
    (by rw [nSymbols_mul hm0]; simp; omega) (by omega)).bind ?_
  rintro x1 ⟨hx1, hx2, _⟩
  refine (copyTo_sat (by omega) (by omega)).mono ?_
  rintro c ⟨hc1, hc2⟩
  have hpar : ∀ s k, s < e.r → k < e.gf.m → c[s * e.gf.m + k]? = some (BitPacker.ofBit ((ρ s).testBit k)) := by
    intro s k hs hk
    have hlt : s * e.gf.m + k < e.r * e.gf.m := by
      have : (s + 1) * e.gf.m ≤ e.r * e.gf.m := Nat.mul_le_mul_right _ hs
      rw [Nat.succ_mul] at this
      omega
    rw [hc2, if_neg (by omega)]
    obtain ⟨b, hb5, hb6⟩ := hx2 0 (by omega) (s * e.gf.m + k) hlt
    rw [Nat.zero_mul, Nat.zero_add] at hb5 hb6
    rw [hb6]
    have hdiv : (s * e.gf.m + k) / e.gf.m = s := by
      rw [Nat.mul_comm, Nat.mul_add_div hm0, Nat.div_eq_of_lt hk, Nat.add_zero]
    have hmod : (s * e.gf.m + k) % e.gf.m = k := by rw [Nat.mul_comm, Nat.mul_add_mod, Nat.mod_eq_of_lt hk]
    rw [hdiv, List.getElem?_map, hb2 s hs] at hb5
    simp only [Option.map_some, Option.some.injEq] at hb5
    subst hb5
    rw [hmod]
    unfold BitPacker.bitPos
    simp only [Bool.false_eq_true, if_false]
    rw [BitVec.getLsbD_ofNat, decide_eq_true (by omega), Bool.true_and]
  have hsys : ∀ i, i < e.K * e.gf.m → c[e.r * e.gf.m + i]? = u[i]? := by
    intro i hi
    rw [hc2, if_pos (by omega)]
    congr 1; omega
  refine ⟨by omega, hsys, ?_, ?_⟩
  · intro i hi
    have h1 := Nat.div_add_mod i e.gf.m
    rw [Nat.mul_comm] at h1
    have h2 : i / e.gf.m < e.r := (Nat.div_lt_iff_lt_mul hm0).mpr hi
    have h3 := hpar (i / e.gf.m) (i % e.gf.m) h2 (Nat.mod_lt _ hm0)
    rw [h1] at h3
    rw [h3]
    unfold BitPacker.ofBit
    split
    · exact Or.inr rfl
    · exact Or.inl rfl
  · have hsymp : ∀ s, s < e.r → symbolAt e.gf.m c s = ρ s := by
      intro s hs
      apply Nat.eq_of_testBit_eq
      intro k
      rw [testBit_symbolAt]
      by_cases hk : k < e.gf.m
      · unfold BitPacker.bitAt
        rw [List.getD_eq_getElem?_getD, hpar s k hs hk, decide_eq_true hk, Bool.true_and]
        unfold BitPacker.ofBit
        cases (ρ s).testBit k <;> simp
      · rw [decide_eq_false hk, Bool.false_and, Nat.testBit_lt_two_pow]
        exact Nat.lt_of_lt_of_le (hb3 s hs) (Nat.pow_le_pow_right (by omega) (by omega))
    have hsyms : ∀ s, s < e.K → symbolAt e.gf.m c (e.r + s) = symbolAt e.gf.m u s := by
      intro s hs
      apply Nat.eq_of_testBit_eq
      intro k
      rw [testBit_symbolAt, testBit_symbolAt]
      by_cases hk : k < e.gf.m
      · congr 1
        unfold BitPacker.bitAt
        rw [List.getD_eq_getElem?_getD, List.getD_eq_getElem?_getD, Nat.add_mul, Nat.add_assoc, hsys]
        have : (s + 1) * e.gf.m ≤ e.K * e.gf.m := Nat.mul_le_mul_right _ hs
        rw [Nat.succ_mul] at this
        omega
      · rw [decide_eq_false hk, Bool.false_and, Bool.false_and]
    intro j h1 h2
    rw [syndrome_map]
    refine (dvd_iff_syndromes E.good (t := gen.t) (n := e.N) (v := symbolAt e.gf.m c) (by omega)).mp ?_ j h1 h2
    rw [← hpoly, hN, S_split]
    have e1 : S e.r (fun i => el e.gf.m e.gf.p (symbolAt e.gf.m c i)) = S e.r (fun i => el e.gf.m e.gf.p (ρ i)) :=
      S_congr fun i hi => by rw [hsymp i hi]
    have e2 : S e.K (fun i => el e.gf.m e.gf.p (symbolAt e.gf.m c (e.r + i))) =
        S e.K (fun i => el e.gf.m e.gf.p (symbolAt e.gf.m u i)) := S_congr fun i hi => by rw [hsyms i hi]
    rw [e1, e2]
    exact hb4

theorem rsIsCodeword_sat {w : Nat} {K N : Int} {gen : RsGen} {e : RsEnc} (h : RsEnc.mk? w K N gen = ok e)
    (G : Good gen.gf) (hg : IsRsGen gen.gf gen.t gen.g) (hfull : e.N = e.gf.N) (hw : e.gf.m < w) {x : List Int}
    (hx : x.length = e.N * e.gf.m) :
    (rsIsCodeword w e x).Sat fun b => b = true ↔
      ∀ j, 1 ≤ j → j ≤ 2 * gen.t → syndrome e.gf ((List.range e.N).map (symbolAt e.gf.m x)) j = 0 := by
  obtain ⟨ix, E, hr, hgf, hN, hK0, hpoly⟩ := rgp_eq h G hg hfull
  have hm := E.good.hm
  have hm0 : 0 < e.gf.m := by omega
  haveI := nontriv (m := e.gf.m) (p := e.gf.p) hm0
  unfold rsIsCodeword
  rw [← Exec.bind_assoc']
  refine (syms_sat hm0 hw (u := x) (K := e.N) (by omega) (out := List.replicate e.N 0#w) (by simp)).bind ?_
  rintro sx ⟨hs1, hs2⟩
  refine (rsEncPar_sat E (u := sx) (off := e.r) (uv := fun i => symbolAt e.gf.m x (e.r + i)) (par := List.replicate e.r 0)
    (fun i hi => hs2 _ (by omega)) (fun i _ => symbolAt_lt _ _ _) (by simp)).bind ?_
  rintro bb ⟨hb1, _, ρ, hb2, hb3, hb4⟩
  have hxv : Vals sx e.r (symbolAt e.gf.m x) := fun i hi => hs2 i (by omega)
  refine (firstDiff_sat hxv hb2 (e.r + 1) 0 (by omega) (by omega) (fun j hj => by omega)).bind ?_
  intro q hq
  refine sat_ok.mpr ?_
  rw [decide_eq_true_iff, hq]
  simp only [syndrome_map]
  rw [← dvd_iff_syndromes E.good (t := gen.t) (n := e.N) (v := symbolAt e.gf.m x) (by omega), ← hpoly, hN, S_split,
    rem_unique two_eq_zero hb4]
  constructor
  · intro hh j hj; rw [hh j hj]
  · intro hh j hj
    exact el_inj (symbolAt_lt _ _ _) (hb3 j hj) (hh j hj)

end Verif.BCH
