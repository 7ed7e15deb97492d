import Mathlib.Algebra.Polynomial.Eval.Degree
import Verif.Spec.BCH
import Verif.Proof.GaloisField
import Verif.Proof.Cosets

/-! # Products of linear factors -/

namespace Verif.BCH
open Exec Polynomial Verif.Galois

/-- In-place loop over decreasing indices, each reading positions not written yet. -/
theorem shiftDown {α : Type _} {n : Nat} {body : Nat → List α → Exec (List α)} {old new : Nat → α} {l0 : List α}
    (hbody : ∀ j l, 1 ≤ j → j ≤ n → (∀ i, i ≤ j → l[i]? = some (old i)) → body j l = wr l j (new j))
    (h0 : ∀ i, i ≤ n → l0[i]? = some (old i)) :
    (forN n (fun k => body (n - k)) l0).Sat fun l => l.length = l0.length ∧ l[0]? = some (old 0) ∧
      (∀ j, 1 ≤ j → j ≤ n → l[j]? = some (new j)) ∧ ∀ j, n < j → l[j]? = l0[j]? := by
  have hlen : n < l0.length := by
    have := h0 n (Nat.le_refl _)
    rw [List.getElem?_eq_some_iff] at this
    exact this.1
  have := forN_inv (n := n) (f := fun k => body (n - k)) (s := l0) (fun k l => l.length = l0.length ∧
      (∀ i, i ≤ n - k → l[i]? = some (old i)) ∧ (∀ j, n - k < j → j ≤ n → l[j]? = some (new j)) ∧
      ∀ j, n < j → l[j]? = l0[j]?) ⟨rfl, fun i hi => h0 i (by omega), fun j h1 h2 => by omega, fun _ _ => rfl⟩ ?_
  · refine this.mono ?_
    rintro l ⟨h1, h2, h3, h4⟩
    exact ⟨h1, h2 0 (by omega), fun j hj1 hj2 => h3 j (by omega) hj2, h4⟩
  · rintro k l hk ⟨h1, h2, h3, h4⟩
    rw [hbody (n - k) l (by omega) (by omega) h2, wr_lt (by omega), sat_ok]
    refine ⟨by simpa using h1, fun i hi => ?_, fun j hj1 hj2 => ?_, fun j hj => ?_⟩
    · rw [List.getElem?_set_ne (by omega)]; exact h2 i (by omega)
    · by_cases e : j = n - k
      · subst e; rw [List.getElem?_set_self (by omega)]
      · rw [List.getElem?_set_ne (by omega)]; exact h3 j (by omega) hj2
    · rw [List.getElem?_set_ne (by omega)]; exact h4 j hj

section
variable {R : Type _} [CommRing R]

/-- Polynomial of the coefficients `f 0 .. f (n-1)`. -/
noncomputable def S (n : Nat) (f : Nat → R) : R[X] := ∑ j ∈ Finset.range n, C (f j) * X ^ j

theorem S_congr {n : Nat} {f g : Nat → R} (h : ∀ k, k < n → f k = g k) : S n f = S n g := by
  unfold S
  exact Finset.sum_congr rfl fun k hk => by rw [h k (Finset.mem_range.mp hk)]

theorem S_succ (n : Nat) (f : Nat → R) : S (n + 1) f = S n f + C (f n) * X ^ n := by
  unfold S; rw [Finset.sum_range_succ]

theorem S_succ' (n : Nat) (f : Nat → R) : S (n + 1) f = X * S n (fun k => f (k + 1)) + C (f 0) := by
  unfold S
  rw [Finset.sum_range_succ', Finset.mul_sum]
  congr 1
  · exact Finset.sum_congr rfl fun k _ => by rw [pow_succ]; ring
  · simp

theorem S_add_fun (n : Nat) (f g : Nat → R) : S n (fun k => f k + g k) = S n f + S n g := by
  unfold S
  rw [← Finset.sum_add_distrib]
  exact Finset.sum_congr rfl fun k _ => by rw [C_add]; ring

theorem S_mul_fun (n : Nat) (a : R) (f : Nat → R) : S n (fun k => a * f k) = C a * S n f := by
  unfold S
  rw [Finset.mul_sum]
  exact Finset.sum_congr rfl fun k _ => by rw [C_mul]; ring

theorem S_zero (n : Nat) : S n (fun _ => (0 : R)) = 0 := by simp [S]

theorem coeff_S (n : Nat) (f : Nat → R) (j : Nat) : (S n f).coeff j = if j < n then f j else 0 := by
  induction n with
  | zero => simp [S]
  | succ n ih =>
    rw [S_succ, coeff_add, ih, coeff_C_mul, coeff_X_pow]
    by_cases h : j = n
    · subst h; simp
    · rw [if_neg h, mul_zero, add_zero]
      by_cases h2 : j < n
      · rw [if_pos h2, if_pos (by omega)]
      · rw [if_neg h2, if_neg (by omega)]

theorem degree_S (n : Nat) (f : Nat → R) : (S n f).degree < n := by
  rw [degree_lt_iff_coeff_zero]
  intro m hm
  rw [coeff_S, if_neg (by omega)]

theorem S_split (n k : Nat) (f : Nat → R) : S (n + k) f = S n f + X ^ n * S k (fun i => f (n + i)) := by
  induction k with
  | zero => simp [S]
  | succ k ih => rw [← Nat.add_assoc, S_succ, ih, S_succ, pow_add]; ring

end

variable {g : GF}

/-- `α^e · a` on numbers. -/
def am (g : GF) (e a : Nat) : Nat :=
  gmul g.m (lowNum g.p g.m) (powNum g.m (lowNum g.p g.m) e) g.m a

theorem am_lt (G : Good g) (e a : Nat) : am g e a < 2 ^ g.m := by
  have := G.hm
  exact gmul_lt (by omega) (low_lt _ _) (powNum_lt (by omega) (low_lt _ _) _) _ _

theorem el_am (G : Good g) (e a : Nat) : el g.m g.p (am g e a) = al g.m g.p ^ e * el g.m g.p a := by
  have := G.hm
  unfold am
  rw [el_mul (by omega) (powNum_lt (by omega) (low_lt _ _) _), el_powNum (by omega)]

theorem am_zero (G : Good g) (e : Nat) : am g e 0 = 0 := by
  apply el_inj (am_lt G e 0) (Nat.two_pow_pos _) (p := g.p)
  rw [el_am G, el_zero, mul_zero]

theorem N_pos (G : Good g) : 0 < g.N := by
  rw [G.hN]
  have := lt_of_two_le G.hm
  omega

/-- The logarithm read in the table. -/
theorem index_at (G : Good g) {a : Nat} (ha0 : a ≠ 0) (ha : a < 2 ^ g.m) :
    ∃ i : Nat, i < g.N ∧ rd g.indexOf a = ok (i : Int) ∧ al g.m g.p ^ i = el g.m g.p a := by
  obtain ⟨i, hi, rfl⟩ := powNum_surj G.hm G.ord ha0 ha
  have := G.hm
  rw [← G.hN] at hi
  exact ⟨i, hi, rd_eq (G.index i hi), (el_powNum (by omega) i).symm⟩

theorem exp_at (G : Good g) (x : Nat) : expAt g (x : Int) = ok (powNum g.m (lowNum g.p g.m) (x % g.N)) := by
  unfold expAt
  have h : ((x : Int).tmod g.N) = ((x % g.N : Nat) : Int) := by
    rw [Int.tmod_eq_emod_of_nonneg (by omega)]; simp
  rw [h, if_neg (by omega), Int.toNat_natCast]
  exact rd_eq (G.alpha _ (Nat.mod_lt _ (N_pos G)))

theorem table_mul (G : Good g) {a e : Nat} (ha0 : a ≠ 0) (ha : a < 2 ^ g.m) :
    (rd g.indexOf a >>= fun ix => expAt g (ix + e)) = ok (am g e a) := by
  obtain ⟨i, hi, h1, h2⟩ := index_at G ha0 ha
  have hm := G.hm
  rw [h1, bind_ok, show ((i : Int) + (e : Int)) = ((i + e : Nat) : Int) by simp, exp_at G]
  congr 1
  apply el_inj (powNum_lt (by omega) (low_lt _ _) _) (am_lt G e a) (p := g.p)
  rw [el_powNum (by omega), el_am G, ← h2, G.hN, al_pow_mod G.hm G.ord, ← pow_add, Nat.add_comm]

theorem rootStep_eq (G : Good g) {e j : Nat} {l : List Nat} {v : Nat → Nat} (hj : 1 ≤ j)
    (hv : ∀ i, i ≤ j → v i < 2 ^ g.m) (hl : ∀ i, i ≤ j → l[i]? = some (v i)) :
    rootStep g e j l = wr l j (v (j - 1) ^^^ am g e (v j)) := by
  unfold rootStep
  rw [rd_eq (hl j (Nat.le_refl _)), bind_ok, rd_eq (hl (j - 1) (by omega)), bind_ok]
  by_cases h : v j = 0
  · rw [if_neg (by simpa using h), h, am_zero G, Nat.xor_zero, bind_ok]
  · rw [if_pos h]
    have ht := table_mul G (e := e) h (hv j (Nat.le_refl _))
    obtain ⟨i, _, h1, _⟩ := index_at G h (hv j (Nat.le_refl _))
    rw [h1, bind_ok] at ht ⊢
    rw [ht, bind_ok]

/-- A list holding the coefficients of a product of `i` linear factors. -/
structure Holds (g : GF) (l : List Nat) (r i : Nat) (Q : (Fld g.m g.p)[X]) (v : Nat → Nat) : Prop where
  len : l.length = r + 1
  vals : ∀ j, j ≤ i → l[j]? = some (v j)
  lt : ∀ j, j ≤ i → v j < 2 ^ g.m
  lead : v i = 1
  const : v 0 ≠ 0
  poly : S (i + 1) (fun j => el g.m g.p (v j)) = Q

theorem mulRoot_sat (G : Good g) {e i r : Nat} {l : List Nat} {Q : (Fld g.m g.p)[X]} {v : Nat → Nat}
    (h : Holds g l r i Q v) (hi : i < r) :
    (mulRoot g e (i + 1) l).Sat fun l' => ∃ v', Holds g l' r (i + 1) ((X + C (al g.m g.p ^ e)) * Q) v' := by
  have hm := G.hm
  have hlen := h.len
  unfold mulRoot
  rw [wr_lt (by omega), bind_ok, Nat.add_sub_cancel]
  have hset : ∀ j, j ≤ i → (l.set (i + 1) 1)[j]? = some (v j) := by
    intro j hj
    rw [List.getElem?_set_ne (by omega)]
    exact h.vals j hj
  refine (shiftDown (n := i) (body := rootStep g e) (old := v) (new := fun j => v (j - 1) ^^^ am g e (v j))
    (l0 := l.set (i + 1) 1) (fun j l' h1 h2 h3 => rootStep_eq G h1 (fun k hk => h.lt k (by omega)) h3)
    hset).bind ?_
  rintro l' ⟨h1, h2, h3, h4⟩
  have ht := table_mul G (e := e) h.const (h.lt 0 (by omega))
  obtain ⟨ix, _, hix, _⟩ := index_at G h.const (h.lt 0 (by omega))
  rw [hix, bind_ok] at ht
  rw [rd_eq h2, bind_ok, hix, bind_ok, ht, bind_ok, wr_lt (by rw [h1, List.length_set]; omega), sat_ok]
  refine ⟨fun j => if j = 0 then am g e (v 0) else if j ≤ i then v (j - 1) ^^^ am g e (v j) else 1,
    ?_, ?_, ?_, ?_, ?_, ?_⟩
  · rw [List.length_set, h1, List.length_set, hlen]
  · intro j hj
    by_cases hj0 : j = 0
    · subst hj0
      rw [List.getElem?_set_self (by rw [h1, List.length_set]; omega), if_pos rfl]
    · rw [List.getElem?_set_ne (Ne.symm hj0), if_neg hj0]
      by_cases hji : j ≤ i
      · rw [if_pos hji]; exact h3 j (by omega) hji
      · rw [if_neg hji, h4 j (by omega), show j = i + 1 by omega, List.getElem?_set_self (by omega)]
  · intro j hj
    split
    · exact am_lt G _ _
    · split
      · exact Nat.xor_lt_two_pow (h.lt _ (by omega)) (am_lt G _ _)
      · exact Nat.one_lt_two_pow (by omega)
  · simp
  · simp only [if_true]
    intro e0
    have := congrArg (el g.m g.p) e0
    rw [el_am G, el_zero] at this
    obtain ⟨k, _, _, hk⟩ := index_at G h.const (h.lt 0 (by omega))
    rw [← hk, ← pow_add] at this
    exact al_ne_zero G.hm G.ord _ this
  · rw [← h.poly, add_mul]
    have e1 : S (i + 1 + 1) (fun j => el g.m g.p
        (if j = 0 then am g e (v 0) else if j ≤ i then v (j - 1) ^^^ am g e (v j) else 1)) =
        S (i + 1 + 1) (fun j => (if j = 0 then 0 else el g.m g.p (v (j - 1))) +
          (al g.m g.p ^ e * if j ≤ i then el g.m g.p (v j) else 0)) := by
      apply S_congr
      intro j hj
      by_cases hj0 : j = 0
      · subst hj0
        simp only [if_true, Nat.zero_le]
        rw [el_am G, zero_add]
      · rw [if_neg hj0, if_neg hj0]
        by_cases hji : j ≤ i
        · rw [if_pos hji, if_pos hji, el_xor, el_am G]
        · rw [if_neg hji, if_neg hji, mul_zero, add_zero, show j - 1 = i by omega, h.lead]
    have e2 : S (i + 1 + 1) (fun j => if j = 0 then 0 else el g.m g.p (v (j - 1))) =
        X * S (i + 1) (fun j => el g.m g.p (v j)) := by
      rw [S_succ']
      simp
    have e3 : S (i + 1 + 1) (fun j => if j ≤ i then el g.m g.p (v j) else 0) =
        S (i + 1) (fun j => el g.m g.p (v j)) := by
      rw [S_succ, if_neg (by omega), map_zero, zero_mul, add_zero]
      apply S_congr
      intro j hj
      rw [if_pos (by omega)]
    rw [e1, S_add_fun, S_mul_fun, e2, e3]

theorem product_sat (G : Good g) {first r : Nat} {expo : Nat → Exec Nat} {ex : Nat → Nat} (hr : 1 ≤ r)
    (hfirst : first < g.N) (he0 : ex 0 = first) (hex : ∀ i, 2 ≤ i → i ≤ r → expo i = ok (ex (i - 1))) :
    (product g first expo r).Sat fun l => ∃ v, Holds g l r r (∏ i ∈ Finset.range r, (X + C (al g.m g.p ^ ex i))) v := by
  have hm := G.hm
  unfold product
  rw [rd_eq (G.alpha first hfirst), bind_ok, wr_lt (by simp), bind_ok, wr_lt (by simp; omega), bind_ok]
  have := forRange_inv (a := 2) (b := r + 1) (f := fun i p => expo i >>= fun e => mulRoot g e i p)
    (s := ((List.replicate (r + 1) 0).set 0 (powNum g.m (lowNum g.p g.m) first)).set 1 1)
    (fun i l => ∃ v, Holds g l r (i - 1) (∏ k ∈ Finset.range (i - 1), (X + C (al g.m g.p ^ ex k))) v)
    (by omega) ?_ ?_
  · exact this
  · refine ⟨fun j => if j = 0 then powNum g.m (lowNum g.p g.m) first else 1, by simp, ?_, ?_, by simp, ?_, ?_⟩
    · intro j hj
      rcases (show j = 0 ∨ j = 1 by omega) with rfl | rfl
      · rw [List.getElem?_set_ne (by omega), List.getElem?_set_self (by simp), if_pos rfl]
      · rw [List.getElem?_set_self (by simp; omega), if_neg (by omega)]
    · intro j hj
      split
      · exact powNum_lt (by omega) (low_lt _ _) _
      · exact Nat.one_lt_two_pow (by omega)
    · simp only [if_true]
      exact powNum_ne_zero G.hm G.ord _
    · rw [S_succ, S_succ]
      simp only [if_true, show (1 : Nat) ≠ 0 by omega, if_false]
      rw [el_powNum (by omega), el_one (by omega), show 2 - 1 = 1 from rfl, Finset.prod_range_one, he0]
      simp [S]
      ring
  · rintro i l hi1 hi2 ⟨v, hv⟩
    rw [hex i hi1 (by omega), bind_ok]
    have := mulRoot_sat G (e := ex (i - 1)) hv (by omega)
    rw [show i - 1 + 1 = i by omega] at this
    refine this.mono ?_
    rintro l' ⟨v', hv'⟩
    refine ⟨v', ?_⟩
    rw [Nat.add_sub_cancel]
    conv => arg 5; rw [show i = i - 1 + 1 by omega, Finset.prod_range_succ, mul_comm]
    exact hv'

end Verif.BCH
