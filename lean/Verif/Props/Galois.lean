import Verif.Proof.GaloisField

/-! # C17: Galois field tables -/

namespace Verif.Galois
open Exec Polynomial

/-- Which sizes are accepted: `N = 2^m - 1` with `2 ≤ m ≤ 20` not above the width of the element type, and a
user-given polynomial of `m + 1` coefficients. -/
theorem C17_accepted (w : Nat) (N : Int) (q : List Nat) (g : GF) (h : GF.mk? w N q = ok g) :
    N = g.N ∧ 2 ≤ g.m ∧ g.m ≤ 20 ∧ g.m ≤ w ∧ g.N = 2 ^ g.m - 1 ∧ g.p.length = g.m + 1 ∧ (q ≠ [] → g.p = q) := by
  obtain ⟨h1, h2, h3, h4, h5, h6, h7, _⟩ := mk_spec h
  exact ⟨h1, h2, h3, h4, h5, h7, fun hq => by rw [h6, if_neg hq]⟩

/-- Every supported size strictly below the width of the element type builds a field, and the built-in
polynomial of that size is primitive and irreducible. -/
theorem C17_default (w m : Nat) (hm : 2 ≤ m) (hm20 : m ≤ 20) (hw : m < w) (N : Int) (hN : N.toNat = 2 ^ m - 1) :
    ∃ g, GF.mk? w N [] = ok g ∧ g.m = m ∧ g.N = 2 ^ m - 1 ∧ Primitive m (fieldPoly m g.p) ∧
      Irreducible (fieldPoly m g.p) := by
  obtain ⟨g, hg, e1, e2⟩ := mk_default hm hm20 hw hN
  have hp : Primitive m (fieldPoly m g.p) := by rw [e2]; exact selectPoly_primitive hm hm20
  obtain ⟨_, _, _, _, h5, _⟩ := mk_spec hg
  exact ⟨g, hg, e1, by rw [h5, e1], hp, irreducible hm (order_of_primitive hm hp)⟩

/-- The exponential table: entry `i < N` is the `m`-bit code of `X^i` modulo the field polynomial; it is never zero;
every non-zero `m`-bit code occurs at exactly one `i < N`, which is its entry in the logarithm table; the logarithm
of zero is `-1`. -/
theorem C17_tables (w : Nat) (N : Int) (q : List Nat) (g : GF) (h : GF.mk? w N q = ok g) (hw : g.m < w)
    (hprim : Primitive g.m (fieldPoly g.m g.p)) :
    (∀ i, i < g.N → ∃ a, g.alphaTo[i]? = some a ∧ 0 < a ∧ a < 2 ^ g.m ∧
      fieldPoly g.m g.p ∣ X ^ i - toPoly g.m a) ∧
    (∀ a, 0 < a → a < 2 ^ g.m → ∃ i : Nat, i < g.N ∧ g.indexOf[a]? = some (i : Int) ∧ g.alphaTo[i]? = some a ∧
      ∀ j, j < g.N → g.alphaTo[j]? = some a → j = i) ∧
    g.indexOf[0]? = some (-1) := by
  have G := good_of_mk h hw hprim
  have hm0 : 0 < g.m := by have := G.hm; omega
  refine ⟨fun i hi => ?_, fun a ha0 ha => ?_, G.index0⟩
  · refine ⟨_, G.alpha i hi, Nat.pos_of_ne_zero (powNum_ne_zero G.hm G.ord i), powNum_lt hm0 (low_lt _ _) i, ?_⟩
    rw [← AdjoinRoot.mk_eq_zero, map_sub, map_pow, AdjoinRoot.mk_X, sub_eq_zero]
    exact (el_powNum hm0 i).symm
  · obtain ⟨i, hi, rfl⟩ := powNum_surj G.hm G.ord (Nat.pos_iff_ne_zero.mp ha0) ha
    rw [← G.hN] at hi
    refine ⟨i, hi, G.index i hi, G.alpha i hi, fun j hj e => ?_⟩
    rw [G.alpha j hj] at e
    injection e with e
    exact powNum_inj G.hm G.ord (by rw [← G.hN]; exact hj) (by rw [← G.hN]; exact hi) e

/-- Multiplication through the tables is multiplication of polynomials modulo the field polynomial. -/
theorem C17_multiplication (w : Nat) (N : Int) (q : List Nat) (g : GF) (h : GF.mk? w N q = ok g) (hw : g.m < w)
    (hprim : Primitive g.m (fieldPoly g.m g.p)) (a b : Nat) (ha0 : 0 < a) (ha : a < 2 ^ g.m) (hb0 : 0 < b)
    (hb : b < 2 ^ g.m) :
    ∃ (i j : Nat) (c : Nat), g.indexOf[a]? = some (i : Int) ∧ g.indexOf[b]? = some (j : Int) ∧
      g.alphaTo[(i + j) % g.N]? = some c ∧ c < 2 ^ g.m ∧
      fieldPoly g.m g.p ∣ toPoly g.m a * toPoly g.m b - toPoly g.m c := by
  have G := good_of_mk h hw hprim
  have hm0 : 0 < g.m := by have := G.hm; omega
  have hN0 : 0 < g.N := by
    rw [G.hN]
    have : 2 ^ 2 ≤ 2 ^ g.m := Nat.pow_le_pow_right (by omega) G.hm
    omega
  obtain ⟨i, hi, rfl⟩ := powNum_surj G.hm G.ord (Nat.pos_iff_ne_zero.mp ha0) ha
  obtain ⟨j, hj, rfl⟩ := powNum_surj G.hm G.ord (Nat.pos_iff_ne_zero.mp hb0) hb
  rw [← G.hN] at hi hj
  refine ⟨i, j, _, G.index i hi, G.index j hj, G.alpha _ (Nat.mod_lt _ hN0), powNum_lt hm0 (low_lt _ _) _, ?_⟩
  rw [← AdjoinRoot.mk_eq_zero, map_sub, map_mul, sub_eq_zero]
  show el _ _ _ * el _ _ _ = el _ _ _
  rw [el_powNum hm0, el_powNum hm0, el_powNum hm0, G.hN, al_pow_mod G.hm G.ord, pow_add]

/-- Addition is the exclusive or of the codes. -/
theorem C17_addition (m a b : Nat) : toPoly m (a ^^^ b) = toPoly m a + toPoly m b := toPoly_xor m a b

/-- A field as wide as its element type passes every check of the constructor and then indexes its tables with a
negative number (8-bit elements, `N = 255`). -/
theorem C17_full_width_ub : GF.mk? 8 255 [] = ub := by decide +kernel

/-- `N ≤ 0` is undefined behaviour: the member initialisers use it before the check. -/
theorem C17_nonpositive_ub (w : Nat) (N : Int) (q : List Nat) (h : N ≤ 0) : GF.mk? w N q = ub := by
  unfold GF.mk?
  rw [if_pos h]

example : ∃ g, GF.mk? 32 7 [] = ok g ∧ g.m < 32 ∧ Primitive g.m (fieldPoly g.m g.p) ∧
    g.alphaTo = [1, 2, 4, 3, 6, 7, 5, 0] ∧ g.indexOf = [-1, 0, 1, 3, 2, 6, 4, 5] :=
  ⟨⟨7, 3, [1, 2, 4, 3, 6, 7, 5, 0], [-1, 0, 1, 3, 2, 6, 4, 5], [1, 1, 0, 1]⟩, by decide +kernel, by decide,
    selectPoly_primitive (m := 3) (by omega) (by omega), rfl, rfl⟩

example : GF.mk? 32 7 [1, 0, 1, 1] =
    ok ⟨7, 3, [1, 2, 4, 5, 7, 3, 6, 0], [-1, 0, 1, 5, 2, 3, 6, 4], [1, 0, 1, 1]⟩ := by decide +kernel

end Verif.Galois
