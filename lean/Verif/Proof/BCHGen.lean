import Mathlib.Algebra.CharP.Frobenius
import Mathlib.Algebra.CharP.Two
import Mathlib.FieldTheory.Finite.Basic
import Mathlib.Algebra.Polynomial.Roots
import Verif.Proof.BCHPoly

/-! # The generator polynomials -/

namespace Verif.BCH
open Exec Polynomial Verif.Galois

variable {g : GF}

theorem fact_irr (G : Good g) : Fact (Irreducible (fieldPoly g.m g.p)) := ⟨irreducible G.hm G.ord⟩

theorem charTwo (G : Good g) : CharP (Fld g.m g.p) 2 := by
  have := nontriv (m := g.m) (p := g.p) (by have := G.hm; omega)
  exact CharTwo.of_one_ne_zero_of_two_eq_zero one_ne_zero two_eq_zero

theorem prod_range_list {M : Type _} [CommMonoid M] (f : Nat → M) : ∀ z : List Nat,
    ∏ i ∈ Finset.range z.length, f (z.getD i 0) = (z.map f).prod
  | [] => by simp
  | a :: z => by
    rw [List.length_cons, Finset.prod_range_succ', List.map_cons, List.prod_cons, ← prod_range_list f z, mul_comm]
    rfl

theorem rootAt_iff (f : (ZMod 2)[X]) (j : Nat) :
    RootAt (fieldPoly g.m g.p) f j ↔ aeval (al g.m g.p ^ j) f = 0 := by
  unfold RootAt
  rw [← AdjoinRoot.mk_eq_zero, ← AdjoinRoot.aeval_eq, aeval_comp, map_pow, aeval_X]
  rfl

theorem aeval_sq (f : (ZMod 2)[X]) (b : Fld g.m g.p) : aeval (b ^ 2) f = aeval b f ^ 2 := by
  have : aeval b (f ^ 2) = aeval b (expand (ZMod 2) 2 f) := by rw [ZMod.expand_card]
  rw [map_pow, expand_aeval] at this
  exact this.symm

theorem aeval_pow_two (f : (ZMod 2)[X]) (b : Fld g.m g.p) : ∀ i, aeval (b ^ 2 ^ i) f = aeval b f ^ 2 ^ i
  | 0 => by simp
  | i + 1 => by rw [pow_succ, pow_mul, aeval_sq, aeval_pow_two f b i, ← pow_mul]

theorem al_inj (G : Good g) {i j : Nat} (hi : i < g.N) (hj : j < g.N) (e : al g.m g.p ^ i = al g.m g.p ^ j) : i = j := by
  apply pow_injOn_Iio_orderOf _ _ e
  · show i < _; rw [G.ord, ← G.hN]; exact hi
  · show j < _; rw [G.ord, ← G.hN]; exact hj

theorem al_mod (G : Good g) (k : Nat) : al g.m g.p ^ (k % g.N) = al g.m g.p ^ k := by
  rw [G.hN]; exact al_pow_mod G.hm G.ord k

theorem add_eq_sub (a b : (Fld g.m g.p)[X]) : a + b = a - b := by
  have h2 : b + b = 0 := by
    rw [← two_mul, show (2 : (Fld g.m g.p)[X]) = C 2 from rfl, two_eq_zero, C_0, zero_mul]
  rw [sub_eq_add_neg, ← eq_neg_of_add_eq_zero_left h2]

/-- The generator over the field. -/
noncomputable def genPoly (g : GF) (z : List Nat) : (Fld g.m g.p)[X] :=
  (z.map fun e => X - C (al g.m g.p ^ e)).prod

theorem prod_eq_genPoly (z : List Nat) :
    ∏ i ∈ Finset.range z.length, (X + C (al g.m g.p ^ z.getD i 0)) = genPoly g z := by
  unfold genPoly
  rw [← prod_range_list]
  exact Finset.prod_congr rfl fun i _ => add_eq_sub _ _

/-- Doubling permutes the exponents. -/
theorem double_perm (G : Good g) {d : Nat} {z : List Nat} (hz : Zeros g.N d z) : (z.map fun x => x * 2 % g.N).Perm z := by
  have hN := G.hN
  have hinj : ∀ x, x < g.N → ∀ y, y < g.N → x * 2 % g.N = y * 2 % g.N → x = y := by
    intro x hx y hy e
    obtain ⟨k, hk⟩ : ∃ k, g.m = k + 1 := ⟨g.m - 1, by have := G.hm; omega⟩
    have hodd : g.N = 2 * (2 ^ k - 1) + 1 := by
      rw [hN, hk, Nat.pow_succ]
      have := Nat.two_pow_pos k
      omega
    have hx2 : x * 2 % g.N = if x * 2 < g.N then x * 2 else x * 2 - g.N := by
      split
      · exact Nat.mod_eq_of_lt (by assumption)
      · rw [Nat.mod_eq_sub_mod (by omega), Nat.mod_eq_of_lt (by omega)]
    have hy2 : y * 2 % g.N = if y * 2 < g.N then y * 2 else y * 2 - g.N := by
      split
      · exact Nat.mod_eq_of_lt (by assumption)
      · rw [Nat.mod_eq_sub_mod (by omega), Nat.mod_eq_of_lt (by omega)]
    rw [hx2, hy2] at e
    split at e <;> split at e <;> omega
  have hnd : (z.map fun x => x * 2 % g.N).Nodup := by
    apply List.Nodup.map_on _ hz.nodup
    intro x hx y hy e
    exact hinj x (hz.range x hx).2 y (hz.range y hy).2 e
  have hsub : (z.map fun x => x * 2 % g.N) ⊆ z := by
    intro y hy
    obtain ⟨x, hx, rfl⟩ := List.mem_map.mp hy
    exact hz.closed x hx
  exact (List.subperm_of_subset hnd hsub).perm_of_length_le (by simp)

theorem genPoly_frob (G : Good g) {d : Nat} {z : List Nat} (hz : Zeros g.N d z) (k : Nat) :
    (genPoly g z).coeff k ^ 2 = (genPoly g z).coeff k := by
  haveI := charTwo G
  have h1 : (genPoly g z).map (frobenius (Fld g.m g.p) 2) = genPoly g z := by
    unfold genPoly
    rw [← coe_mapRingHom, map_list_prod, List.map_map]
    have h2 : (z.map fun e => X - C (al g.m g.p ^ e)).prod =
        ((z.map fun x => x * 2 % g.N).map fun e => X - C (al g.m g.p ^ e)).prod :=
      (((double_perm G hz).map _).prod_eq).symm
    rw [h2, List.map_map]
    congr 1
    apply List.map_congr_left
    intro e _
    simp only [Function.comp, coe_mapRingHom]
    rw [Polynomial.map_sub, map_X, map_C, frobenius_def, al_mod G, ← pow_mul]
  have := congrArg (fun q => q.coeff k) h1
  simp only [coeff_map, frobenius_def] at this
  exact this

theorem zero_or_one (G : Good g) {a : Nat} (ha : a < 2 ^ g.m) (h : el g.m g.p a ^ 2 = el g.m g.p a) : a = 0 ∨ a = 1 := by
  haveI := fact_irr G
  have hm := G.hm
  have : el g.m g.p a * (el g.m g.p a - 1) = 0 := by rw [mul_sub, mul_one, ← pow_two, h, sub_self]
  rcases mul_eq_zero.mp this with h0 | h1
  · left
    exact el_inj ha (Nat.two_pow_pos _) (by rw [h0, el_zero])
  · right
    exact el_inj ha (Nat.one_lt_two_pow (by omega)) (by rw [sub_eq_zero.mp h1, el_one (by omega)])

theorem el_bit (hm : 0 < g.m) {a : Nat} (h : a = 0 ∨ a = 1) :
    el g.m g.p a = algebraMap (ZMod 2) (Fld g.m g.p) ((a : Nat) : ZMod 2) := by
  rcases h with rfl | rfl
  · rw [el_zero, Nat.cast_zero, map_zero]
  · rw [el_one hm, Nat.cast_one, map_one]

theorem bitPoly_eq (x : List Nat) : bitPoly x = S x.length (fun i => ((x.getD i 0 : Nat) : ZMod 2)) := rfl

theorem S_map {n : Nat} (f : Nat → ZMod 2) :
    (S n f).map (algebraMap (ZMod 2) (Fld g.m g.p)) = S n (fun i => algebraMap (ZMod 2) (Fld g.m g.p) (f i)) := by
  unfold S
  rw [Polynomial.map_sum]
  exact Finset.sum_congr rfl fun i _ => by rw [Polynomial.map_mul, map_C, Polynomial.map_pow, map_X]

/-- The generator polynomial of the code with zeros `z`. -/
structure IsGen (g : GF) (d : Nat) (l : List Nat) : Prop where
  bin : IsBin l
  pos : 2 ≤ l.length
  lead : l[l.length - 1]? = some 1
  dvd : ∀ f : (ZMod 2)[X], bitPoly l ∣ f ↔ ∀ j, 1 ≤ j → j < d → j < g.N → RootAt (fieldPoly g.m g.p) f j

theorem isGen_of_holds (G : Good g) {d : Nat} {z l : List Nat} {v : Nat → Nat} (hz : Zeros g.N d z)
    (h : Holds g l z.length z.length (genPoly g z) v) : IsGen g d l := by
  have hm := G.hm
  haveI := fact_irr G
  have hlen : 1 ≤ z.length := by
    have := hz.first
    rw [List.getElem?_eq_some_iff] at this
    exact this.1
  have hbit : ∀ j, j ≤ z.length → v j = 0 ∨ v j = 1 := by
    intro j hj
    apply zero_or_one G (h.lt j hj)
    have := genPoly_frob G hz j
    rw [← h.poly, coeff_S, if_pos (by omega)] at this
    exact this
  have hmap : (bitPoly l).map (algebraMap (ZMod 2) (Fld g.m g.p)) = genPoly g z := by
    rw [bitPoly_eq, S_map, ← h.poly, h.len]
    apply S_congr
    intro j hj
    rw [el_bit (by omega) (hbit j (by omega)), List.getD_eq_getElem?_getD, h.vals j (by omega)]
    rfl
  refine ⟨?_, by rw [h.len]; omega, by rw [h.len, Nat.add_sub_cancel, h.vals _ (Nat.le_refl _), h.lead], ?_⟩
  · intro a ha
    obtain ⟨i, hi, rfl⟩ := List.mem_iff_getElem.mp ha
    rw [h.len] at hi
    have := h.vals i (by omega)
    rw [List.getElem?_eq_some_iff] at this
    rw [this.2]
    exact hbit i (by omega)
  · intro f
    have hroot : ∀ x, x ∈ z → (genPoly g z).eval (al g.m g.p ^ x) = 0 := by
      intro x hx
      unfold genPoly
      rw [eval_list_prod, List.map_map]
      apply List.prod_eq_zero
      rw [List.mem_map]
      exact ⟨x, hx, by simp⟩
    constructor
    · rintro ⟨q, rfl⟩ j h1 h2 h3
      rw [rootAt_iff, map_mul]
      have : aeval (al g.m g.p ^ j) (bitPoly l) = 0 := by
        rw [aeval_def, ← eval_map, hmap]
        exact hroot j (hz.roots j h1 h2 h3)
      rw [this, zero_mul]
    · intro hf
      by_cases hf0 : f = 0
      · rw [hf0]; exact dvd_zero _
      rw [← map_dvd_map' (algebraMap (ZMod 2) (Fld g.m g.p)), hmap]
      have hfm : f.map (algebraMap (ZMod 2) (Fld g.m g.p)) ≠ 0 :=
        (Polynomial.map_ne_zero_iff (algebraMap (ZMod 2) (Fld g.m g.p)).injective).mpr hf0
      have he : genPoly g z = (Multiset.map (fun a => X - C a) ((z.map fun e => al g.m g.p ^ e : List (Fld g.m g.p)) : Multiset (Fld g.m g.p))).prod := by
        unfold genPoly
        rw [Multiset.map_coe, Multiset.prod_coe, List.map_map]
        rfl
      rw [he, Multiset.prod_X_sub_C_dvd_iff_le_roots hfm, Multiset.le_iff_subset]
      · intro b hb
        rw [Multiset.mem_coe, List.mem_map] at hb
        obtain ⟨x, hx, rfl⟩ := hb
        rw [mem_roots hfm, IsRoot.def, eval_map, ← aeval_def]
        obtain ⟨j, i, h1, h2, h3, rfl⟩ := hz.minimal x hx
        unfold dbl
        rw [al_mod G, pow_mul, aeval_pow_two, (rootAt_iff f j).mp (hf j h1 h2 h3), zero_pow (by
          have := Nat.two_pow_pos i
          omega)]
      · rw [Multiset.coe_nodup]
        apply List.Nodup.map_on _ hz.nodup
        intro x hx y hy e
        exact al_inj G (hz.range x hx).2 (hz.range y hy).2 e

theorem bchGen_sat {w : Nat} {N t : Int} {p : List Nat} {gf : GF} (hgf : GF.mk? w N p = ok gf) (G : Good gf)
    (ht : 1 ≤ t) : (bchGen w N t p).Sat fun b => b.gf = gf ∧ b.t = t.toNat ∧ IsGen gf (2 * t.toNat + 1) b.g := by
  unfold bchGen
  rw [hgf, bind_ok, if_neg (by omega)]
  refine (cosets_sat G.hm G.hN).bind fun sets hs => ?_
  have hz := zeros_sat G.hm G.hN hs (d := 2 * t.toNat + 1) (by omega)
  generalize zerosOf (2 * t.toNat + 1) sets = z at hz ⊢
  have hlen : 1 ≤ z.length := by
    have := hz.first
    rw [List.getElem?_eq_some_iff] at this
    exact this.1
  have hN1 : 1 < gf.N := by rw [G.hN]; have := lt_of_two_le G.hm; have := G.hm; omega
  simp only
  rw [rd_eq hz.first, bind_ok]
  refine (product_sat G (ex := fun i => z.getD i 0) hlen hN1 ?_ ?_).bind ?_
  · rw [List.getD_eq_getElem?_getD, hz.first]; rfl
  · intro i h1 h2
    rw [rd_lt (by omega), getD_lt _ (by omega)]
  · rintro l ⟨v, hv⟩
    rw [prod_eq_genPoly] at hv
    exact sat_ok.mpr ⟨rfl, rfl, isGen_of_holds G hz hv⟩

theorem bchGen_inv {w : Nat} {N t : Int} {p : List Nat} {b : Gen} (h : bchGen w N t p = ok b) :
    GF.mk? w N p = ok b.gf ∧ 1 ≤ t ∧ b.t = t.toNat := by
  unfold bchGen at h
  cases hg : GF.mk? w N p with
  | ok gf =>
    rw [hg, bind_ok] at h
    split at h
    · cases h
    next ht =>
    cases hs : cosets gf.N with
    | ok sets =>
      rw [hs, bind_ok] at h
      simp only at h
      cases hz : rd (zerosOf (2 * t.toNat + 1) sets) 0 with
      | ok z0 =>
        rw [hz, bind_ok] at h
        cases hp : product gf z0 (fun i => rd (zerosOf (2 * t.toNat + 1) sets) (i - 1))
            (zerosOf (2 * t.toNat + 1) sets).length with
        | ok l =>
          rw [hp, bind_ok] at h
          injection h with h
          subst h
          exact ⟨rfl, by omega, rfl⟩
        | exc e => rw [hp] at h; cases h
        | ub => rw [hp] at h; cases h
      | exc e => rw [hz] at h; cases h
      | ub => rw [hz] at h; cases h
    | exc e => rw [hs] at h; cases h
    | ub => rw [hs] at h; cases h
  | exc e => rw [hg] at h; cases h
  | ub => rw [hg] at h; cases h

theorem isGen_of_bchGen {w : Nat} {N t : Int} {p : List Nat} {b : Gen} (h : bchGen w N t p = ok b) (hw : b.gf.m < w)
    (hprim : Primitive b.gf.m (fieldPoly b.gf.m b.gf.p)) : Good b.gf ∧ IsGen b.gf (2 * b.t + 1) b.g := by
  obtain ⟨hgf, ht, e⟩ := bchGen_inv h
  have G := good_of_mk hgf hw hprim
  obtain ⟨b', hb', e1, e2, e3⟩ := bchGen_sat hgf G ht
  rw [h] at hb'
  injection hb' with hb'
  subst hb'
  rw [e]
  exact ⟨G, e3⟩

end Verif.BCH
