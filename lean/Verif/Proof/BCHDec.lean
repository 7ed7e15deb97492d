import Verif.Proof.BMAlg
import Verif.Proof.RS
import Verif.Model.BCHDec

/-! # The iterative algorithm of the decoders computes in the field -/

namespace Verif.BCHDec
open Exec Finset Verif.Galois Verif.BCH Verif.BM

/-! ## Arrays -/

/-- `l[i]`. -/
def at1 (l : List Int) (i : Nat) : Int := l.getD i 0

/-- `e[i][j]`. -/
def at2 (e : List (List Int)) (i j : Nat) : Int := (e.getD i []).getD j 0

theorem rd_at {l : List Int} {i : Nat} (h : i < l.length) : rd l i = ok (at1 l i) := by
  unfold at1; rw [rd_lt h, getD_lt 0 h]

theorem at1_set {l : List Int} {i : Nat} (h : i < l.length) (v : Int) (j : Nat) :
    at1 (l.set i v) j = if j = i then v else at1 l j := by
  unfold at1
  rw [List.getD_eq_getElem?_getD, List.getElem?_set]
  by_cases e : j = i
  · subst e; rw [if_pos rfl, if_pos rfl, if_pos h]; rfl
  · rw [if_neg (Ne.symm e), if_neg e, List.getD_eq_getElem?_getD]

theorem rdI_at {l : List Int} {i : Nat} (h : i < l.length) : rdI l (i : Int) = ok (at1 l i) := by
  unfold rdI; rw [if_neg (by omega), Int.toNat_natCast, rd_at h]

theorem wrI_at {l : List Int} {i : Nat} (h : i < l.length) (v : Int) : wrI l (i : Int) v = ok (l.set i v) := by
  unfold wrI; rw [if_neg (by omega), Int.toNat_natCast, wr_lt h]

/-- `R` rows of `C` elements. -/
def Dim (e : List (List Int)) (R C : Nat) : Prop := e.length = R ∧ ∀ i, i < R → (e.getD i []).length = C

theorem rd2_at {e : List (List Int)} {R C i j : Nat} (h : Dim e R C) (hi : i < R) (hj : j < C) :
    rd2 e i (j : Int) = ok (at2 e i j) := by
  unfold rd2
  have hl := h.2 i hi
  have hi' : i < e.length := by rw [h.1]; exact hi
  rw [rd_lt hi', bind_ok]
  unfold at2
  rw [getD_lt [] hi'] at *
  exact rdI_at (by omega)

theorem wr2_at {e : List (List Int)} {R C i j : Nat} (h : Dim e R C) (hi : i < R) (hj : j < C) (v : Int) :
    (wr2 e i (j : Int) v).Sat fun e' => Dim e' R C ∧ ∀ a b, at2 e' a b = if a = i ∧ b = j then v else at2 e a b := by
  unfold wr2
  have hl := h.2 i hi
  have hi' : i < e.length := by rw [h.1]; exact hi
  rw [getD_lt [] hi'] at hl
  rw [rd_lt hi', bind_ok, wrI_at (by omega), bind_ok, wr_lt hi', sat_ok]
  have hg : ∀ a, (e.set i (e[i].set j v)).getD a [] = if a = i then e[i].set j v else e.getD a [] := by
    intro a
    rw [List.getD_eq_getElem?_getD, List.getElem?_set]
    by_cases ea : a = i
    · subst ea; rw [if_pos rfl, if_pos rfl, if_pos hi']; rfl
    · rw [if_neg (Ne.symm ea), if_neg ea, List.getD_eq_getElem?_getD]
  refine ⟨⟨by rw [List.length_set]; exact h.1, fun a ha => ?_⟩, fun a b => ?_⟩
  · rw [hg]
    split
    · rw [List.length_set]; exact hl
    · exact h.2 a ha
  · unfold at2
    rw [hg]
    by_cases ea : a = i
    · subst ea
      rw [if_pos rfl]
      have := at1_set (l := e[a]) (i := j) (by omega) v b
      unfold at1 at this
      rw [this, getD_lt [] hi']
      by_cases eb : b = j
      · rw [if_pos eb, if_pos ⟨rfl, eb⟩]
      · rw [if_neg eb, if_neg (fun h => eb h.2)]
    · rw [if_neg ea, if_neg (fun h => ea h.1)]

/-! ## Representations -/

variable {g : GF}

/-- Polynomial form. -/
def Pol (g : GF) (x : Int) (a : Fld g.m g.p) : Prop := ∃ n : Nat, x = n ∧ n < 2 ^ g.m ∧ el g.m g.p n = a

/-- Index form. -/
def Idx (g : GF) (x : Int) (a : Fld g.m g.p) : Prop := (x = -1 ∧ a = 0) ∨ ∃ i : Nat, i < g.N ∧ x = i ∧ al g.m g.p ^ i = a

theorem pol_zero : Pol g 0 0 := ⟨0, rfl, Nat.two_pow_pos _, el_zero⟩

theorem pol_one (G : Good g) : Pol g 1 1 := by
  have := G.hm
  exact ⟨1, rfl, Nat.one_lt_two_pow (by omega), el_one (by omega)⟩

theorem pol_xor {x y : Int} {a b : Fld g.m g.p} (hx : Pol g x a) (hy : Pol g y b) : Pol g (Int.xor x y) (a + b) := by
  obtain ⟨n, rfl, h1, rfl⟩ := hx
  obtain ⟨k, rfl, h2, rfl⟩ := hy
  exact ⟨n ^^^ k, rfl, Nat.xor_lt_two_pow h1 h2, el_xor n k⟩

theorem pol_eq_zero {x : Int} {a : Fld g.m g.p} (h : Pol g x a) : x = 0 ↔ a = 0 := by
  obtain ⟨n, rfl, h1, rfl⟩ := h
  constructor
  · intro e
    have : n = 0 := by omega
    rw [this, el_zero]
  · intro e
    rw [← el_zero (m := g.m) (p := g.p)] at e
    rw [el_inj h1 (Nat.two_pow_pos _) e]; rfl

theorem idx_ne (G : Good g) {x : Int} {a : Fld g.m g.p} (h : Idx g x a) : x ≠ -1 ↔ a ≠ 0 := by
  rcases h with ⟨rfl, rfl⟩ | ⟨i, h1, rfl, rfl⟩
  · simp
  · exact ⟨fun _ => al_ne_zero G.hm G.ord i, fun _ => by omega⟩

theorem idx_pos (G : Good g) {x : Int} {a : Fld g.m g.p} (h : Idx g x a) (ha : a ≠ 0) : ∃ i : Nat, i < g.N ∧ x = i ∧ al g.m g.p ^ i = a := by
  rcases h with ⟨_, rfl⟩ | h
  · exact absurd rfl ha
  · exact h

theorem rdI_nat {α : Type} (l : List α) (n : Nat) : rdI l (n : Int) = rd l n := by
  unfold rdI; rw [if_neg (by omega), Int.toNat_natCast]

variable {c : Core}

theorem index_sat (G : Good c.gf) {x : Int} {a : Fld c.gf.m c.gf.p} (h : Pol c.gf x a) : (c.index x).Sat fun y => Idx c.gf y a := by
  obtain ⟨n, rfl, h1, rfl⟩ := h
  unfold Core.index
  rw [rdI_nat]
  by_cases hn : n = 0
  · subst hn
    rw [rd_eq G.index0, sat_ok]
    exact Or.inl ⟨rfl, el_zero⟩
  · obtain ⟨i, hi, h2, h3⟩ := index_at G hn h1
    rw [h2, sat_ok]
    exact Or.inr ⟨i, hi, rfl, h3⟩

theorem alpha_nat (G : Good c.gf) {i : Nat} (hi : i < c.gf.N) : (c.alpha i).Sat fun y => Pol c.gf y (al c.gf.m c.gf.p ^ i) := by
  unfold Core.alpha
  have := G.hm
  rw [rdI_nat, rd_eq (G.alpha i hi), bind_ok, sat_ok]
  exact ⟨_, rfl, powNum_lt (by omega) (low_lt _ _) _, el_powNum (by omega) i⟩

theorem alpha_sat (G : Good c.gf) {x : Int} {a : Fld c.gf.m c.gf.p} (h : Idx c.gf x a) (hx : a ≠ 0) :
    (c.alpha x).Sat fun y => Pol c.gf y a := by
  obtain ⟨i, hi, rfl, rfl⟩ := idx_pos G h hx
  exact alpha_nat G hi

theorem tmod_nat (x n : Nat) : (x : Int).tmod n = ((x % n : Nat) : Int) := by
  rw [Int.tmod_eq_emod_of_nonneg (by omega)]; simp

theorem alphaMod_nat (G : Good c.gf) (hnp : c.np = c.gf.N) (x : Nat) : (c.alphaMod x).Sat fun y => Pol c.gf y (al c.gf.m c.gf.p ^ x) := by
  unfold Core.alphaMod
  rw [hnp, tmod_nat, ← al_mod G x]
  exact alpha_nat G (Nat.mod_lt _ (N_pos G))

theorem alphaMod_mul (G : Good c.gf) (hnp : c.np = c.gf.N) {x y : Int} {a b : Fld c.gf.m c.gf.p} (hx : Idx c.gf x a)
    (hy : Idx c.gf y b) (ha : a ≠ 0) (hb : b ≠ 0) : (c.alphaMod (x + y)).Sat fun z => Pol c.gf z (a * b) := by
  obtain ⟨i, hi, rfl, rfl⟩ := idx_pos G hx ha
  obtain ⟨j, hj, rfl, rfl⟩ := idx_pos G hy hb
  have := alphaMod_nat G hnp (i + j)
  rw [pow_add] at this
  exact this

theorem al_N (G : Good g) : al g.m g.p ^ g.N = 1 := by rw [G.hN]; exact al_pow_N G.hm G.ord

theorem alphaMod_quot (G : Good c.gf) (hnp : c.np = c.gf.N) {x y z : Int} {a b e v : Fld c.gf.m c.gf.p} (hx : Idx c.gf x a)
    (hy : Idx c.gf y b) (hz : Idx c.gf z e) (ha : a ≠ 0) (hb : b ≠ 0) (he : e ≠ 0) (hv : v * b = a) :
    (c.alphaMod (x + c.np - y + z)).Sat fun r => Pol c.gf r (v * e) := by
  obtain ⟨i, hi, rfl, rfl⟩ := idx_pos G hx ha
  obtain ⟨j, hj, rfl, rfl⟩ := idx_pos G hy hb
  obtain ⟨k, hk, rfl, rfl⟩ := idx_pos G hz he
  have := alphaMod_nat G hnp (i + c.np - j + k)
  rw [show ((i + c.np - j + k : Nat) : Int) = (i : Int) + c.np - j + k by omega, pow_add] at this
  have e2 : v = al c.gf.m c.gf.p ^ (i + c.np - j) := by
    rw [show i + c.np - j = i + (c.gf.N - j) by omega, pow_add, ← hv, mul_assoc, ← pow_add, show j + (c.gf.N - j) = c.gf.N by omega,
      al_N G, mul_one]
  rw [e2]
  exact this

/-! ## One step -/

/-- Sizes of the tables. -/
structure TabSize (c : Core) (b : Tab) : Prop where
  elp : Dim b.elp (c.np + 2) c.np
  disc : b.disc.length = c.np + 2
  l : b.l.length = c.np + 2
  ulu : b.ulu.length = c.np + 2
  s : b.s.length = 2 * c.t + 1

/-- What the tables represent when the row `u` is complete. -/
structure Rel (c : Core) (b : Tab) (S : ℕ → Fld c.gf.m c.gf.p) (σ : ℕ → ℕ → Fld c.gf.m c.gf.p) (d : ℕ → Fld c.gf.m c.gf.p)
    (L : ℕ → ℕ) (u : ℕ) : Prop where
  size : TabSize c b
  l : ∀ v, v ≤ u → at1 b.l v = L v
  ulu : ∀ v, v ≤ u → at1 b.ulu v = (v : Int) - 1 - L v
  disc : ∀ v, v < u → Idx c.gf (at1 b.disc v) (d v)
  row : ∀ v, v < u → ∀ i, i ≤ L v → Idx c.gf (at2 b.elp v i) (σ v i)
  cur : ∀ i, i ≤ L u → i < 2 * c.t → Pol c.gf (at2 b.elp u i) (σ u i)
  syn : ∀ k, 1 ≤ k → k ≤ 2 * c.t → Idx c.gf (at1 b.s k) (S k)

theorem copyRow_loop (G : Good c.gf) {u L : ℕ} {e0 : List (List Int)} {σ : ℕ → Fld c.gf.m c.gf.p} (hd : Dim e0 (c.np + 2) c.np)
    (hu : u ≤ c.np) (hL : L < c.np) (h : ∀ i, i ≤ L → Pol c.gf (at2 e0 u i) (σ i)) :
    (forN (L + 1) (copyRow c u) e0).Sat fun e => Dim e (c.np + 2) c.np ∧ (∀ v, v < u → ∀ j, at2 e v j = at2 e0 v j) ∧
      (∀ i, i ≤ L → Idx c.gf (at2 e u i) (σ i)) ∧ ∀ i, i ≤ L → Pol c.gf (at2 e (u + 1) i) (σ i) := by
  refine (forN_inv (fun k (e : List (List Int)) => Dim e (c.np + 2) c.np ∧ (∀ v, v < u → ∀ j, at2 e v j = at2 e0 v j) ∧
    (∀ i, i < k → Idx c.gf (at2 e u i) (σ i)) ∧ (∀ i, i < k → Pol c.gf (at2 e (u + 1) i) (σ i)) ∧
    ∀ i, k ≤ i → at2 e u i = at2 e0 u i) ⟨hd, fun _ _ _ => rfl, fun i hi => absurd hi (by omega), fun i hi => absurd hi (by omega),
      fun _ _ => rfl⟩ ?_).mono ?_
  · rintro i e hi ⟨h1, h2, h3, h4, h5⟩
    unfold copyRow
    rw [rd2_at h1 (by omega) (by omega), bind_ok, h5 i (Nat.le_refl _)]
    have hp := h i (by omega)
    refine (wr2_at h1 (by omega) (by omega) _).bind fun e1 ⟨f1, f2⟩ => ?_
    refine (index_sat G hp).bind fun y hy => ?_
    refine (wr2_at f1 (by omega) (by omega) _).mono fun e2 ⟨g1, g2⟩ => ⟨g1, fun v hv j => ?_, fun j hj => ?_, fun j hj => ?_, fun j hj => ?_⟩
    · rw [g2, if_neg (by omega), f2, if_neg (by omega), h2 v hv]
    · rw [g2]
      by_cases ej : j = i
      · subst ej; rw [if_pos ⟨rfl, rfl⟩]; exact hy
      · rw [if_neg (by omega), f2, if_neg (by omega)]; exact h3 j (by omega)
    · rw [g2, if_neg (by omega), f2]
      by_cases ej : j = i
      · subst ej; rw [if_pos ⟨rfl, rfl⟩]; exact hp
      · rw [if_neg (by omega)]; exact h4 j (by omega)
    · rw [g2, if_neg (by omega), f2, if_neg (by omega), h5 j (by omega)]
  · rintro e ⟨h1, h2, h3, h4, _⟩
    exact ⟨h1, h2, fun i hi => h3 i (by omega), fun i hi => h4 i (by omega)⟩

theorem zeroRow_loop {u : ℕ} {e0 : List (List Int)} (hd : Dim e0 (c.np + 2) c.np) (hu : u ≤ c.np) (ht : 2 * c.t < c.np) :
    (forN (2 * c.t) (fun i elp => wr2 elp (u + 1) i 0) e0).Sat fun e => Dim e (c.np + 2) c.np ∧
      (∀ v, v ≤ u → ∀ j, at2 e v j = at2 e0 v j) ∧ ∀ i, i < 2 * c.t → at2 e (u + 1) i = 0 := by
  refine (forN_inv (fun k (e : List (List Int)) => Dim e (c.np + 2) c.np ∧
      (∀ v, v ≤ u → ∀ j, at2 e v j = at2 e0 v j) ∧ ∀ i, i < k → at2 e (u + 1) i = 0)
    ⟨hd, fun _ _ _ => rfl, fun i hi => absurd hi (by omega)⟩ ?_)
  rintro i e hi ⟨h1, h2, h3⟩
  refine (wr2_at h1 (by omega) (by omega) _).mono fun e1 ⟨f1, f2⟩ => ⟨f1, fun v hv j => ?_, fun j hj => ?_⟩
  · rw [f2, if_neg (by omega), h2 v hv]
  · rw [f2]
    by_cases ej : j = i
    · rw [if_pos ⟨rfl, ej⟩]
    · rw [if_neg (by omega)]; exact h3 j (by omega)

theorem shiftRow_loop (G : Good c.gf) (hnp : c.np = c.gf.N) {u q Lq : ℕ} {e0 : List (List Int)} {τ : ℕ → Fld c.gf.m c.gf.p}
    {du dq : Int} {a b w : Fld c.gf.m c.gf.p} (hd : Dim e0 (c.np + 2) c.np) (hu : u ≤ c.np) (hq : q < u)
    (hL : Lq + (u - q) < c.np) (hdu : Idx c.gf du a) (hdq : Idx c.gf dq b) (ha : a ≠ 0) (hb : b ≠ 0) (hw : w * b = a)
    (h : ∀ i, i ≤ Lq → Idx c.gf (at2 e0 q i) (τ i)) (hτ : ∀ i, Lq < i → τ i = 0) (hz : ∀ i, i < 2 * c.t → at2 e0 (u + 1) i = 0) :
    (forN (Lq + 1) (shiftRow c du dq u q) e0).Sat fun e => Dim e (c.np + 2) c.np ∧ (∀ v, v ≤ u → ∀ j, at2 e v j = at2 e0 v j) ∧
      ∀ i, i < 2 * c.t → Pol c.gf (at2 e (u + 1) i) (if i < u - q then 0 else w * τ (i - (u - q))) := by
  refine (forN_inv (fun k (e : List (List Int)) => Dim e (c.np + 2) c.np ∧ (∀ v, v ≤ u → ∀ j, at2 e v j = at2 e0 v j) ∧
      ∀ i, i < 2 * c.t → Pol c.gf (at2 e (u + 1) i) (if i < u - q ∨ k + (u - q) ≤ i then 0 else w * τ (i - (u - q))))
    ⟨hd, fun _ _ _ => rfl, fun i hi => ?_⟩ ?_).mono ?_
  · rw [hz i hi, if_pos (by omega)]; exact pol_zero
  · rintro i e hi ⟨h1, h2, h3⟩
    unfold shiftRow
    rw [rd2_at h1 (by omega) (by omega), bind_ok, h2 q (by omega)]
    have hi' := h i (by omega)
    by_cases hx : at2 e0 q i ≠ -1
    · rw [if_pos hx]
      refine (alphaMod_quot G hnp hdu hdq hi' ha hb ((idx_ne G hi').1 hx) hw).bind fun v hv => ?_
      rw [show ((i : Int) + (u : Int) - (q : Int)) = ((i + (u - q) : Nat) : Int) by omega]
      refine (wr2_at h1 (by omega) (by omega) _).mono fun e1 ⟨f1, f2⟩ => ⟨f1, fun v hv j => ?_, fun j hj => ?_⟩
      · rw [f2, if_neg (by omega), h2 v hv]
      · rw [f2]
        by_cases ej : j = i + (u - q)
        · subst ej
          rw [if_pos ⟨rfl, rfl⟩, if_neg (by omega), Nat.add_sub_cancel]
          exact hv
        · rw [if_neg (by omega)]
          have := h3 j hj
          by_cases hc : j < u - q ∨ i + (u - q) ≤ j
          · rw [if_pos hc] at this; rw [if_pos (by omega)]; exact this
          · rw [if_neg hc] at this; rw [if_neg (by omega)]; exact this
    · rw [if_neg hx, sat_ok]
      refine ⟨h1, h2, fun j hj => ?_⟩
      have := h3 j hj
      by_cases ej : j = i + (u - q)
      · subst ej
        rw [if_pos (by omega)] at this
        rw [if_neg (by omega), Nat.add_sub_cancel]
        have : τ i = 0 := by
          by_contra hc
          exact hx ((idx_ne G hi').2 hc)
        rw [this, mul_zero]
        assumption
      · by_cases hc : j < u - q ∨ i + (u - q) ≤ j
        · rw [if_pos hc] at this; rw [if_pos (by omega)]; exact this
        · rw [if_neg hc] at this; rw [if_neg (by omega)]; exact this
  · rintro e ⟨h1, h2, h3⟩
    refine ⟨h1, h2, fun i hi => ?_⟩
    have := h3 i hi
    by_cases hc : i < u - q
    · rw [if_pos hc]; rw [if_pos (Or.inl hc)] at this; exact this
    · rw [if_neg hc]
      by_cases hc2 : Lq + 1 + (u - q) ≤ i
      · rw [if_pos (Or.inr hc2)] at this
        rw [hτ _ (by omega), mul_zero]; exact this
      · rw [if_neg (by omega)] at this; exact this

theorem addRow_loop (G : Good c.gf) {u L : ℕ} {e0 : List (List Int)} {σ τ : ℕ → Fld c.gf.m c.gf.p} (hd : Dim e0 (c.np + 2) c.np)
    (hu : u ≤ c.np) (hL : L < 2 * c.t) (ht : 2 * c.t < c.np) (h : ∀ i, i ≤ L → Pol c.gf (at2 e0 u i) (σ i))
    (hσ : ∀ i, L < i → σ i = 0) (hτ : ∀ i, i < 2 * c.t → Pol c.gf (at2 e0 (u + 1) i) (τ i)) :
    (forN (L + 1) (addRow c u) e0).Sat fun e => Dim e (c.np + 2) c.np ∧ (∀ v, v < u → ∀ j, at2 e v j = at2 e0 v j) ∧
      (∀ i, i ≤ L → Idx c.gf (at2 e u i) (σ i)) ∧ ∀ i, i < 2 * c.t → Pol c.gf (at2 e (u + 1) i) (τ i + σ i) := by
  refine (forN_inv (fun k (e : List (List Int)) => Dim e (c.np + 2) c.np ∧ (∀ v, v < u → ∀ j, at2 e v j = at2 e0 v j) ∧
    (∀ i, i < k → Idx c.gf (at2 e u i) (σ i)) ∧ (∀ i, i < k → Pol c.gf (at2 e (u + 1) i) (τ i + σ i)) ∧
    (∀ i, k ≤ i → at2 e u i = at2 e0 u i) ∧ ∀ i, k ≤ i → at2 e (u + 1) i = at2 e0 (u + 1) i) ⟨hd, fun _ _ _ => rfl, fun i hi => absurd hi (by omega), fun i hi => absurd hi (by omega),
      fun _ _ => rfl, fun _ _ => rfl⟩ ?_).mono ?_
  · rintro i e hi ⟨h1, h2, h3, h4, h5, h6⟩
    unfold addRow
    rw [rd2_at h1 (by omega) (by omega), bind_ok, rd2_at h1 (by omega) (by omega), bind_ok, h5 i (Nat.le_refl _), h6 i (Nat.le_refl _)]
    have hp := h i (by omega)
    refine (wr2_at h1 (by omega) (by omega) _).bind fun e1 ⟨f1, f2⟩ => ?_
    refine (index_sat G hp).bind fun y hy => ?_
    refine (wr2_at f1 (by omega) (by omega) _).mono fun e2 ⟨g1, g2⟩ => ⟨g1, fun v hv j => ?_, fun j hj => ?_, fun j hj => ?_, fun j hj => ?_, fun j hj => ?_⟩
    · rw [g2, if_neg (by omega), f2, if_neg (by omega), h2 v hv]
    · rw [g2]
      by_cases ej : j = i
      · subst ej; rw [if_pos ⟨rfl, rfl⟩]; exact hy
      · rw [if_neg (by omega), f2, if_neg (by omega)]; exact h3 j (by omega)
    · rw [g2, if_neg (by omega), f2]
      by_cases ej : j = i
      · subst ej; rw [if_pos ⟨rfl, rfl⟩]; exact pol_xor (hτ j (by omega)) hp
      · rw [if_neg (by omega)]; exact h4 j (by omega)
    · rw [g2, if_neg (by omega), f2, if_neg (by omega), h5 j (by omega)]
    · rw [g2, if_neg (by omega), f2, if_neg (by omega), h6 j (by omega)]
  · rintro e ⟨h1, h2, h3, h4, _, h6⟩
    refine ⟨h1, h2, fun i hi => h3 i (by omega), fun i hi => ?_⟩
    by_cases hc : i ≤ L
    · exact h4 i (by omega)
    · rw [h6 i (by omega), hσ i (by omega), add_zero]; exact hτ i hi

theorem lastNZ_sat (G : Good g) {disc : List Int} {d : ℕ → Fld g.m g.p} (h0 : d 0 ≠ 0) : ∀ q, q < disc.length →
    (∀ v, v ≤ q → Idx g (at1 disc v) (d v)) → (lastNZ disc q).Sat fun r => r ≤ q ∧ d r ≠ 0 ∧ ∀ j, r < j → j ≤ q → d j = 0
  | 0, hl, h => by
    unfold lastNZ
    rw [rd_at hl, bind_ok, sat_ok]
    exact ⟨le_refl _, h0, fun j h1 h2 => by omega⟩
  | q + 1, hl, h => by
    unfold lastNZ
    rw [rd_at hl, bind_ok]
    have hi := h (q + 1) (le_refl _)
    by_cases hc : at1 disc (q + 1) = -1
    · rw [if_pos hc]
      have hz : d (q + 1) = 0 := by
        by_contra hn
        exact (idx_ne G hi).2 hn hc
      refine (lastNZ_sat G h0 q (by omega) fun v hv => h v (by omega)).mono fun r ⟨h1, h2, h3⟩ => ⟨by omega, h2, fun j h4 h5 => ?_⟩
      rcases Nat.lt_or_ge q j with hj | hj
      · obtain rfl : j = q + 1 := by omega
        exact hz
      · exact h3 j h4 hj
    · rw [if_neg hc, sat_ok]
      exact ⟨le_refl _, (idx_ne G hi).1 hc, fun j h1 h2 => by omega⟩

theorem search_sat (G : Good g) {disc ulu : List Int} {d : ℕ → Fld g.m g.p} {L : ℕ → ℕ} {u : ℕ} (hu : 1 ≤ u) (h0 : d 0 ≠ 0)
    (hl : u ≤ disc.length) (hl2 : u ≤ ulu.length) (h : ∀ v, v < u → Idx g (at1 disc v) (d v))
    (hulu : ∀ v, v < u → at1 ulu v = (v : Int) - 1 - L v) :
    (search disc ulu u).Sat fun q => q < u ∧ d q ≠ 0 ∧ ∀ j, j < u → d j ≠ 0 → (j : ℤ) - L j ≤ q - L q := by
  unfold search
  refine (lastNZ_sat G h0 (u - 1) (by omega) fun v hv => h v (by omega)).bind fun q0 ⟨h1, h2, h3⟩ => ?_
  rw [forDown_eq]
  refine (forN_inv (fun k q => q ≤ q0 ∧ d q ≠ 0 ∧ ∀ j, q0 ≤ j + k → j ≤ q0 → d j ≠ 0 → (j : ℤ) - L j ≤ q - L q)
    ⟨le_refl _, h2, fun j h4 h5 _ => ?_⟩ ?_).mono ?_
  · obtain rfl : j = q0 := by omega
    exact le_refl _
  · rintro k q hk ⟨h4, h5, h6⟩
    unfold better
    have hi := h (q0 - 1 - k) (by omega)
    rw [rd_at (by omega), bind_ok]
    by_cases hc : at1 disc (q0 - 1 - k) ≠ -1
    · rw [if_pos hc, rd_at (by omega), bind_ok, rd_at (by omega), bind_ok, hulu q (by omega), hulu (q0 - 1 - k) (by omega), sat_ok]
      have hne := (idx_ne G hi).1 hc
      split
      · refine ⟨by omega, hne, fun j h7 h8 h9 => ?_⟩
        rcases Nat.lt_or_ge j (q0 - k) with hj | hj
        · obtain rfl : j = q0 - 1 - k := by omega
          exact le_refl _
        · have := h6 j (by omega) h8 h9
          omega
      · refine ⟨h4, h5, fun j h7 h8 h9 => ?_⟩
        rcases Nat.lt_or_ge j (q0 - k) with hj | hj
        · obtain rfl : j = q0 - 1 - k := by omega
          omega
        · exact h6 j (by omega) h8 h9
    · rw [if_neg hc, sat_ok]
      refine ⟨h4, h5, fun j h7 h8 h9 => ?_⟩
      rcases Nat.lt_or_ge j (q0 - k) with hj | hj
      · obtain rfl : j = q0 - 1 - k := by omega
        exact absurd ((idx_ne G hi).2 h9) hc
      · exact h6 j (by omega) h8 h9
  · rintro q ⟨h4, h5, h6⟩
    refine ⟨by omega, h5, fun j h7 h8 => ?_⟩
    rcases Nat.lt_or_ge q0 j with hj | hj
    · exact absurd (h3 j hj (by omega)) h8
    · exact h6 j (by omega) hj h8

theorem nextDisc_sat (G : Good c.gf) (hnp : c.np = c.gf.N) {s l : List Int} {e : List (List Int)} {S σ : ℕ → Fld c.gf.m c.gf.p}
    {u L : ℕ} (hd : Dim e (c.np + 2) c.np) (hs : s.length = 2 * c.t + 1) (hl : u + 1 < l.length) (hlu : at1 l (u + 1) = L)
    (hL : L ≤ u) (hu : u < 2 * c.t) (ht : 2 * c.t < c.np) (h1 : σ 0 = 1) (hσ : ∀ i, i ≤ L → Pol c.gf (at2 e (u + 1) i) (σ i))
    (hS : ∀ k, 1 ≤ k → k ≤ 2 * c.t → Idx c.gf (at1 s k) (S k)) [Fact (Irreducible (fieldPoly c.gf.m c.gf.p))] :
    (nextDisc c s e l u).Sat fun d => Idx c.gf d (conv S σ L (u + 1)) := by
  unfold nextDisc
  rw [rd_at (by omega), bind_ok]
  have hS1 := hS (u + 1) (by omega) (by omega)
  have hsyn : (synVal c (at1 s (u + 1))).Sat fun d => Pol c.gf d (S (u + 1)) := by
    unfold synVal
    by_cases hc : at1 s (u + 1) ≠ -1
    · rw [if_pos hc]; exact alpha_sat G hS1 ((idx_ne G hS1).1 hc)
    · rw [if_neg hc, sat_ok]
      have : S (u + 1) = 0 := by
        by_contra hn
        exact hc ((idx_ne G hS1).2 hn)
      rw [this]; exact pol_zero
  refine hsyn.bind fun d hd0 => ?_
  rw [rd_at hl, bind_ok, hlu, show ((L : Int) + 1).toNat = L + 1 by omega]
  refine (Sat.bind (P := fun d => Pol c.gf d (conv S σ L (u + 1))) ?_ fun d hd1 => index_sat G hd1)
  refine (forRange_inv (fun k (d : Int) => Pol c.gf d (∑ i ∈ range k, σ i * S (u + 1 - i))) (by omega) ?_ ?_)
  · rw [sum_range_one, h1, one_mul, Nat.sub_zero]; exact hd0
  · intro i d h3 h4 h5
    unfold discStep
    rw [show ((u : Int) + 1 - (i : Int)) = ((u + 1 - i : Nat) : Int) by omega, rdI_at (by omega), bind_ok,
      rd2_at hd (by omega) (by omega), bind_ok, sum_range_succ]
    have hSi := hS (u + 1 - i) (by omega) (by omega)
    have hσi := hσ i (by omega)
    by_cases hc : at1 s (u + 1 - i) ≠ -1 ∧ at2 e (u + 1) i ≠ 0
    · rw [if_pos hc]
      have hσ0 : σ i ≠ 0 := fun e => hc.2 ((pol_eq_zero hσi).2 e)
      refine (index_sat G hσi).bind fun ix hix => ?_
      refine (alphaMod_mul G hnp hSi hix ((idx_ne G hSi).1 hc.1) hσ0).bind fun v hv => ?_
      rw [sat_ok, mul_comm (σ i)]
      exact pol_xor h5 hv
    · rw [if_neg hc, sat_ok]
      have : σ i * S (u + 1 - i) = 0 := by
        by_cases h6 : at1 s (u + 1 - i) = -1
        · have : S (u + 1 - i) = 0 := by
            by_contra hn
            exact (idx_ne G hSi).2 hn h6
          rw [this, mul_zero]
        · have : σ i = 0 := by
            apply (pol_eq_zero hσi).1
            by_contra hn
            exact hc ⟨h6, hn⟩
          rw [this, zero_mul]
      rw [this, add_zero]
      exact h5

variable [Fact (Irreducible (fieldPoly c.gf.m c.gf.p))]

theorem newRow_sat (G : Good c.gf) (hnp : c.np = c.gf.N) {b : Tab} {S : ℕ → Fld c.gf.m c.gf.p} {σ : ℕ → ℕ → Fld c.gf.m c.gf.p}
    {d : ℕ → Fld c.gf.m c.gf.p} {L : ℕ → ℕ} {u : ℕ} (hr : Rel c b S σ d L u) (hi : Inv S σ d L u)
    (hD : Idx c.gf (at1 b.disc u) (conv S (σ u) (L u) u)) (hu : u ≤ 2 * c.t) (hL : L u ≤ c.t) (ht : 1 ≤ c.t)
    (h2t : 2 * c.t < c.np) :
    (newRow c u b).Sat fun r => Dim r.1 (c.np + 2) c.np ∧ r.2.length = c.np + 2 ∧ ∃ (n : ℕ) (τ : ℕ → Fld c.gf.m c.gf.p),
      (∀ v, v ≤ u + 1 → at1 r.2 v = Function.update L (u + 1) n v) ∧
      (∀ v, v < u + 1 → ∀ i, i ≤ L v → Idx c.gf (at2 r.1 v i) (σ v i)) ∧
      (∀ i, i ≤ n → i < 2 * c.t → Pol c.gf (at2 r.1 (u + 1) i) (τ i)) ∧
      Inv S (Function.update σ (u + 1) τ) (Function.update d u (conv S (σ u) (L u) u)) (Function.update L (u + 1) n) (u + 1) := by
  obtain ⟨⟨z1, z2, z3, z4, z5⟩, r1, r2, r3, r4, r5, r6⟩ := hr
  have hu1 := hi.pos
  have hlt := hi.lt u hu1 (le_refl _)
  have hcong : ∀ n τ, Inv S (Function.update σ (u + 1) τ) (Function.update d u (conv S (σ u) (L u) u)) (Function.update L (u + 1) n) u := by
    intro n τ
    refine hi.congr (fun v hv => ?_) (fun v hv => ?_) (fun v hv => ?_)
    · rw [Function.update_of_ne (by omega)]
    · rw [Function.update_of_ne (by omega)]
    · rw [Function.update_of_ne (by omega)]
  have hsame : ∀ (n : ℕ) (τ : ℕ → Fld c.gf.m c.gf.p), Function.update d u (conv S (σ u) (L u) u) u =
      conv S (Function.update σ (u + 1) τ u) (Function.update L (u + 1) n u) u := by
    intro n τ
    rw [Function.update_self, Function.update_of_ne (by omega), Function.update_of_ne (by omega)]
  unfold newRow
  rw [rd_at (by omega), bind_ok, rd_at (by omega), bind_ok, r1 u (le_refl _), show ((L u : Int) + 1).toNat = L u + 1 by omega]
  by_cases hd : at1 b.disc u = -1
  · rw [if_pos hd, wr_lt (by omega), bind_ok]
    have hz : conv S (σ u) (L u) u = 0 := by
      by_contra hn
      exact (idx_ne G hD).2 hn hd
    refine (copyRow_loop G z1 (by omega) (by omega) fun i hi => r5 i hi (by omega)).bind fun e ⟨e1, e2, e3, e4⟩ => ?_
    rw [sat_ok]
    refine ⟨e1, by rw [List.length_set]; exact z3, L u, σ u, fun v hv => ?_, fun v hv i hi' => ?_, fun i hi _ => e4 i hi, ?_⟩
    · rw [at1_set (by omega)]
      by_cases ev : v = u + 1
      · subst ev; rw [if_pos rfl, Function.update_self]
      · rw [if_neg ev, Function.update_of_ne ev]; exact r1 v (by omega)
    · rcases Nat.lt_or_ge v u with hc | hc
      · rw [e2 v hc]; exact r4 v hc i hi'
      · obtain rfl : v = u := by omega
        exact e3 i hi'
    · refine inv_zero (hcong _ _) (hsame _ _) ?_ ?_ fun i => ?_
      · rw [Function.update_self]; exact hz
      · rw [Function.update_self, Function.update_of_ne (by omega)]
      · rw [Function.update_self, Function.update_of_ne (by omega)]
  · rw [if_neg hd]
    have hnz := (idx_ne G hD).1 hd
    refine (search_sat G (L := L) hu1 hi.d0 (by omega) (by omega) r3 fun v hv => r2 v (by omega)).bind fun q ⟨q1, q2, q3⟩ => ?_
    have hq := chosen hi q1 q2 q3
    rw [rd_at (by omega), bind_ok, rd_at (by omega), bind_ok, r1 q (by omega), show ((L q : Int) + 1).toNat = L q + 1 by omega]
    have hmax : (if (L u : Int) > L q + u - q then (L u : Int) else L q + u - q) = ((max (L u) (L q + u - q) : ℕ) : Int) := by
      split <;> omega
    rw [hmax, wr_lt (by omega), bind_ok]
    refine (zeroRow_loop z1 (by omega) h2t).bind fun e ⟨e1, e2, e3⟩ => ?_
    let w : Fld c.gf.m c.gf.p := conv S (σ u) (L u) u / d q
    have hw : w * d q = conv S (σ u) (L u) u := div_mul_cancel₀ _ q2
    refine (shiftRow_loop (τ := σ q) G hnp e1 (by omega) q1 (by omega) hD (r3 q q1) hnz q2 hw
      (fun i hi => by rw [e2 q (by omega)]; exact r4 q q1 i hi) (hi.deg q (by omega)) e3).bind fun e' ⟨f1, f2, f3⟩ => ?_
    refine (addRow_loop (L := L u) (σ := σ u) G f1 (by omega) (by omega) h2t
      (fun i hi => by rw [f2 u (le_refl _), e2 u (le_refl _)]; exact r5 i hi (by omega)) (hi.deg u (le_refl _)) f3).bind fun e'' ⟨g1, g2, g3, g4⟩ => ?_
    rw [sat_ok]
    refine ⟨g1, by rw [List.length_set]; exact z3, max (L u) (L q + u - q), upd (σ u) (σ q) w (u - q), fun v hv => ?_, fun v hv i hi' => ?_, fun i hi1 hi2 => ?_, ?_⟩
    · rw [at1_set (by omega)]
      by_cases ev : v = u + 1
      · subst ev; rw [if_pos rfl, Function.update_self]
      · rw [if_neg ev, Function.update_of_ne ev]; exact r1 v (by omega)
    · rcases Nat.lt_or_ge v u with hc | hc
      · rw [g2 v hc, f2 v (by omega), e2 v (by omega)]; exact r4 v hc i hi'
      · obtain rfl : v = u := by omega
        exact g3 i hi'
    · have := g4 i hi2
      unfold upd
      rw [add_comm (σ u i)]
      exact this
    · refine inv_step (q := q) (c := w) (hcong _ _) (hsame _ _) ?_ q1 ?_ ?_ ?_ ?_ fun i => ?_
      · rw [Function.update_self]; exact hnz
      · rw [Function.update_of_ne (by omega)]; exact q2
      · rw [Function.update_of_ne (by omega), Function.update_of_ne (by omega)]; exact hq
      · rw [Function.update_self, Function.update_of_ne (by omega), hw]
        exact add_self _
      · rw [Function.update_self, Function.update_of_ne (by omega), Function.update_of_ne (by omega)]
      · rw [Function.update_self, Function.update_of_ne (by omega), Function.update_of_ne (by omega)]

/-- The state before the row `u` is processed. -/
def St (c : Core) [Fact (Irreducible (fieldPoly c.gf.m c.gf.p))] (S : ℕ → Fld c.gf.m c.gf.p) (u : ℕ) (b : Tab)
    (σ : ℕ → ℕ → Fld c.gf.m c.gf.p) (d : ℕ → Fld c.gf.m c.gf.p) (L : ℕ → ℕ) : Prop :=
  Rel c b S σ d L u ∧ Inv S σ d L u ∧ (u ≤ 2 * c.t → Idx c.gf (at1 b.disc u) (conv S (σ u) (L u) u))

theorem step_sat (G : Good c.gf) (hnp : c.np = c.gf.N) {b : Tab} {S : ℕ → Fld c.gf.m c.gf.p} {σ : ℕ → ℕ → Fld c.gf.m c.gf.p}
    {d : ℕ → Fld c.gf.m c.gf.p} {L : ℕ → ℕ} {u : ℕ} (h : St c S u b σ d L) (hu : u ≤ 2 * c.t) (hL : L u ≤ c.t) (ht : 1 ≤ c.t)
    (h2t : 2 * c.t < c.np) : (step c u b).Sat fun b' => ∃ σ' d' L', St c S (u + 1) b' σ' d' L' := by
  obtain ⟨hr, hi, hD⟩ := h
  unfold step
  refine (newRow_sat G hnp hr hi (hD hu) hu hL ht h2t).bind fun r ⟨h1, h2, n, τ, h3, h4, h5, h6⟩ => ?_
  obtain ⟨⟨z1, z2, z3, z4, z5⟩, r1, r2, r3, r4, r5, r6⟩ := hr
  have hlt := h6.lt (u + 1) (by omega) (le_refl _)
  rw [Function.update_self] at hlt
  have hl1 : at1 r.2 (u + 1) = n := by rw [h3 _ (le_refl _), Function.update_self]
  rw [rd_at (by omega), bind_ok, hl1, wr_lt (by omega), bind_ok]
  have hτ1 : τ 0 = 1 := by
    have := h6.one (u + 1) (le_refl _)
    rwa [Function.update_self] at this
  have hulu : ∀ v, v ≤ u + 1 → at1 (b.ulu.set (u + 1) ((u : Int) - n)) v = (v : Int) - 1 - (Function.update L (u + 1) n v : ℕ) := by
    intro v hv
    rw [at1_set (by omega)]
    by_cases ev : v = u + 1
    · subst ev; rw [if_pos rfl, Function.update_self]; push_cast; omega
    · rw [if_neg ev, Function.update_of_ne ev]; exact r2 v (by omega)
  have hrow : ∀ v, v < u + 1 → ∀ i, i ≤ Function.update L (u + 1) n v → Idx c.gf (at2 r.1 v i) (Function.update σ (u + 1) τ v i) := by
    intro v hv i hi
    rw [Function.update_of_ne (by omega)] at hi
    rw [Function.update_of_ne (by omega)]
    exact h4 v hv i hi
  have hcur : ∀ i, i ≤ Function.update L (u + 1) n (u + 1) → i < 2 * c.t → Pol c.gf (at2 r.1 (u + 1) i) (Function.update σ (u + 1) τ (u + 1) i) := by
    intro i hi
    rw [Function.update_self] at hi
    rw [Function.update_self]
    exact h5 i hi
  have hdisc : ∀ v, v < u + 1 → Idx c.gf (at1 b.disc v) (Function.update d u (conv S (σ u) (L u) u) v) := by
    intro v hv
    by_cases ev : v = u
    · subst ev; rw [Function.update_self]; exact hD hu
    · rw [Function.update_of_ne ev]; exact r3 v (by omega)
  by_cases hc : u < 2 * c.t
  · rw [if_pos hc]
    refine (nextDisc_sat G hnp (S := S) (σ := τ) h1 z5 (by omega) hl1 (by omega) hc h2t hτ1 (fun i hi => h5 i hi (by omega)) r6).bind fun x hx => ?_
    rw [wr_lt (by omega), bind_ok, sat_ok]
    refine ⟨_, _, _, ⟨⟨h1, by rw [List.length_set]; exact z2, h2, by rw [List.length_set]; exact z4, z5⟩, h3, hulu, fun v hv => ?_, hrow, hcur, r6⟩, h6, fun _ => ?_⟩
    · rw [at1_set (by omega), if_neg (by omega)]; exact hdisc v hv
    · show Idx c.gf (at1 (b.disc.set (u + 1) x) (u + 1)) _
      rw [at1_set (by omega), if_pos rfl, Function.update_self, Function.update_self]; exact hx
  · rw [if_neg hc, sat_ok]
    exact ⟨_, _, _, ⟨⟨h1, z2, h2, by rw [List.length_set]; exact z4, z5⟩, h3, hulu, hdisc, hrow, hcur, r6⟩, h6, fun h => absurd h (by omega)⟩

theorem loop_sat (G : Good c.gf) (hnp : c.np = c.gf.N) {S : ℕ → Fld c.gf.m c.gf.p} (ht : 1 ≤ c.t) (h2t : 2 * c.t < c.np) :
    ∀ fuel u b, fuel + u = 2 * c.t + 1 → u < 2 * c.t → (∃ σ d L, St c S (u + 1) b σ d L ∧ L (u + 1) ≤ c.t) →
    (loop c fuel u b).Sat fun p => p.1 ≤ 2 * c.t ∧ ∃ σ d L, St c S (p.1 + 1) p.2 σ d L ∧ (p.1 = 2 * c.t ∨ c.t < L (p.1 + 1))
  | 0, u, b, hf, hu, _ => by omega
  | fuel + 1, u, b, hf, hu, ⟨σ, d, L, h, hL⟩ => by
    unfold loop
    refine (step_sat G hnp h (by omega) hL ht h2t).bind fun b' ⟨σ', d', L', h'⟩ => ?_
    have hs := h'.1.size.l
    rw [rd_at (by omega), bind_ok, h'.1.l _ (le_refl _)]
    by_cases hc : u + 1 < 2 * c.t ∧ ((L' (u + 1 + 1) : ℕ) : Int) ≤ c.t
    · rw [if_pos hc]
      exact loop_sat G hnp ht h2t fuel (u + 1) b' (by omega) hc.1 ⟨σ', d', L', h', by omega⟩
    · rw [if_neg hc, sat_ok]
      exact ⟨by show u + 1 ≤ _; omega, σ', d', L', h', by show u + 1 = _ ∨ _ < L' (u + 1 + 1); omega⟩

theorem initRow_loop {e0 : List (List Int)} (hd : Dim e0 (c.np + 2) c.np) (ht : 1 ≤ c.t) (h2t : 2 * c.t < c.np) :
    (forRange 1 (2 * c.t) initRow e0).Sat fun e => Dim e (c.np + 2) c.np ∧ at2 e 0 0 = at2 e0 0 0 ∧ at2 e 1 0 = at2 e0 1 0 := by
  refine forRange_inv (fun _ (e : List (List Int)) => Dim e (c.np + 2) c.np ∧ at2 e 0 0 = at2 e0 0 0 ∧ at2 e 1 0 = at2 e0 1 0)
    (by omega) ⟨hd, rfl, rfl⟩ ?_
  rintro i e h1 h2 ⟨h3, h4, h5⟩
  unfold initRow
  refine (wr2_at h3 (by omega) (by omega) _).bind fun e1 ⟨f1, f2⟩ => ?_
  refine (wr2_at f1 (by omega) (by omega) _).mono fun e2 ⟨g1, g2⟩ => ⟨g1, ?_, ?_⟩
  · rw [g2, if_neg (by omega), f2, if_neg (by omega), h4]
  · rw [g2, if_neg (by omega), f2, if_neg (by omega), h5]

theorem initTab_sat (G : Good c.gf) {b : Tab} {S : ℕ → Fld c.gf.m c.gf.p} (hb : TabSize c b) (ht : 1 ≤ c.t) (h2t : 2 * c.t < c.np)
    (hS : ∀ k, 1 ≤ k → k ≤ 2 * c.t → Idx c.gf (at1 b.s k) (S k)) :
    (initTab c b).Sat fun b' => ∃ σ d L, St c S 1 b' σ d L ∧ L 1 ≤ c.t := by
  obtain ⟨z1, z2, z3, z4, z5⟩ := hb
  have hN := N_pos G
  unfold initTab
  rw [wr_lt (by omega), bind_ok, rd_at (by omega), bind_ok, wr_lt (by rw [List.length_set]; omega), bind_ok]
  refine (wr2_at z1 (i := 0) (j := 0) (by omega) (by omega) 0).bind fun e ⟨e1, e2⟩ => ?_
  refine (wr2_at e1 (i := 1) (j := 0) (by omega) (by omega) 1).bind fun f ⟨f1, f2⟩ => ?_
  refine (initRow_loop f1 ht h2t).bind fun h ⟨h1, h2, h3⟩ => ?_
  rw [wr_lt (by omega), bind_ok, wr_lt (by rw [List.length_set]; omega), bind_ok, wr_lt (by omega), bind_ok,
    wr_lt (by rw [List.length_set]; omega), bind_ok, sat_ok]
  have a00 : at2 h 0 0 = 0 := by rw [h2, f2, if_neg (by omega), e2, if_pos ⟨rfl, rfl⟩]
  have a10 : at2 h 1 0 = 1 := by rw [h3, f2, if_pos ⟨rfl, rfl⟩]
  have hidx0 : Idx c.gf 0 1 := Or.inr ⟨0, hN, rfl, pow_zero _⟩
  let σ : ℕ → ℕ → Fld c.gf.m c.gf.p := fun _ i => if i = 0 then 1 else 0
  refine ⟨σ, fun _ => 1, fun _ => 0, ⟨⟨⟨h1, by simp [z2], by simp [z3], by simp [z4], z5⟩, fun v hv => ?_, fun v hv => ?_, fun v hv => ?_, fun v hv i hi => ?_, fun i hi _ => ?_, hS⟩, ?_, fun _ => ?_⟩, Nat.zero_le _⟩
  · show at1 ((b.l.set 0 0).set 1 0) v = _
    rw [at1_set (by rw [List.length_set]; omega), at1_set (by omega)]
    by_cases h1 : v = 1
    · rw [if_pos h1]; rfl
    · rw [if_neg h1, if_pos (by omega)]; rfl
  · show at1 ((b.ulu.set 0 (-1)).set 1 0) v = _
    rw [at1_set (by rw [List.length_set]; omega), at1_set (by omega)]
    by_cases h1 : v = 1
    · rw [if_pos h1, h1]; rfl
    · rw [if_neg h1, if_pos (by omega), show v = 0 by omega]; rfl
  · obtain rfl : v = 0 := by omega
    show Idx c.gf (at1 ((b.disc.set 0 0).set 1 _) 0) 1
    rw [at1_set (by rw [List.length_set]; omega), at1_set (by omega), if_neg (by omega), if_pos rfl]
    exact hidx0
  · obtain rfl : v = 0 := by omega
    obtain rfl : i = 0 := by omega
    show Idx c.gf (at2 h 0 0) 1
    rw [a00]; exact hidx0
  · obtain rfl : i = 0 := by omega
    show Pol c.gf (at2 h 1 0) 1
    rw [a10]; exact pol_one G
  · exact inv_one one_ne_zero rfl rfl rfl rfl (fun i hi => if_neg (by omega)) (fun i hi => if_neg (by omega))
  · show Idx c.gf (at1 ((b.disc.set 0 0).set 1 _) 1) _
    rw [at1_set (by rw [List.length_set]; omega), if_pos rfl]
    have : conv S (σ 1) 0 1 = S 1 := by
      unfold conv
      rw [sum_range_one]
      show 1 * S (1 - 0) = _
      rw [one_mul]
    rw [this]
    exact hS 1 (le_refl _) (by omega)

end Verif.BCHDec
