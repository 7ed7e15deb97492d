import Verif.Proof.SparseMul

/-! # Expansion of quasi-cyclic descriptions -/

namespace Verif.Sparse
open Exec

/-- Column index inside the block, for row `k` of the block. -/
def colOf (v : Int) (k Z : Nat) : Nat := if v = 0 then k else shiftIdx k v Z

theorem colOf_lt (v : Int) {k Z : Nat} (hk : k < Z) : colOf v k Z < Z := by
  unfold colOf shiftIdx
  split
  · exact hk
  · exact Nat.mod_lt _ (by omega)

theorem expandEntry_eq (v : Int) (i j Z : Nat) (H : Mat) : expandEntry v i j Z H =
    if v = -1 then ok H else forN Z (fun k H => orThrow (add H (i * Z + k) (j * Z + colOf v k Z))) H := by
  unfold expandEntry colOf
  split
  · rfl
  · split <;> rfl

theorem block_div {i k Z : Nat} (hk : k < Z) : (i * Z + k) / Z = i := by
  rw [Nat.add_comm, Nat.mul_comm, Nat.add_mul_div_left _ _ (by omega), Nat.div_eq_of_lt hk, Nat.zero_add]

theorem block_mod {i k Z : Nat} (hk : k < Z) : (i * Z + k) % Z = k := by
  rw [Nat.add_comm, Nat.mul_comm, Nat.add_mul_mod_self_left, Nat.mod_eq_of_lt hk]

theorem block_lt {i k Z R : Nat} (hi : i < R) (hk : k < Z) : i * Z + k < R * Z := by
  have : (i + 1) * Z ≤ R * Z := Nat.mul_le_mul_right _ hi
  rw [Nat.add_mul, Nat.one_mul] at this
  omega

theorem block_eq {x i k Z : Nat} (hZ : 0 < Z) : x = i * Z + k ∧ k < Z ↔ x / Z = i ∧ x % Z = k := by
  constructor
  · rintro ⟨rfl, h⟩
    exact ⟨block_div h, block_mod h⟩
  · rintro ⟨rfl, rfl⟩
    refine ⟨?_, Nat.mod_lt _ hZ⟩
    have := Nat.div_add_mod x Z
    rw [Nat.mul_comm] at this
    exact this.symm

/-- Is there a connection at `(x, y)` according to the base matrix? -/
def liftP (b : Nat → Nat → Int) (Z x y : Nat) : Prop := b (x / Z) (y / Z) ≠ -1 ∧ y % Z = colOf (b (x / Z) (y / Z)) (x % Z) Z

instance (b : Nat → Nat → Int) (Z x y : Nat) : Decidable (liftP b Z x y) := by unfold liftP; infer_instance

theorem expandEntry_sat {b : Nat → Nat → Int} {R C Z i j : Nat} {H : Mat} (hZ : 0 < Z) (hi : i < R) (hj : j < C)
    (h : Represents H ⟨R * Z, C * Z, (Finset.range (R * Z) ×ˢ Finset.range (C * Z)).filter fun p =>
      liftP b Z p.1 p.2 ∧ (p.1 / Z < i ∨ (p.1 / Z = i ∧ p.2 / Z < j))⟩) :
    (expandEntry (b i j) i j Z H).Sat fun H => Represents H ⟨R * Z, C * Z,
      (Finset.range (R * Z) ×ˢ Finset.range (C * Z)).filter fun p =>
      liftP b Z p.1 p.2 ∧ (p.1 / Z < i ∨ (p.1 / Z = i ∧ p.2 / Z < j + 1))⟩ := by
  rw [expandEntry_eq]
  split
  · rename_i hv
    rw [sat_ok]
    refine represents_weaken (P := fun x y => liftP b Z x y ∧ (x / Z < i ∨ (x / Z = i ∧ y / Z < j)))
      (Q := fun x y => liftP b Z x y ∧ (x / Z < i ∨ (x / Z = i ∧ y / Z < j + 1))) h fun x y _ _ => ?_
    constructor
    · rintro ⟨a, e⟩; exact ⟨a, by omega⟩
    · rintro ⟨a, e⟩
      refine ⟨a, ?_⟩
      by_cases e' : x / Z = i ∧ y / Z = j
      · rw [liftP, e'.1, e'.2] at a
        exact absurd hv a.1
      · omega
  · rename_i hv
    refine (forN_inv (fun k (H : Mat) => Represents H ⟨R * Z, C * Z,
      (Finset.range (R * Z) ×ˢ Finset.range (C * Z)).filter fun p =>
      liftP b Z p.1 p.2 ∧ (p.1 / Z < i ∨ (p.1 / Z = i ∧ (p.2 / Z < j ∨ (p.2 / Z = j ∧ p.1 % Z < k))))⟩) ?_ ?_).mono fun t ht => ?_
    · exact represents_weaken (P := fun x y => liftP b Z x y ∧ (x / Z < i ∨ (x / Z = i ∧ y / Z < j)))
        (Q := fun x y => liftP b Z x y ∧ (x / Z < i ∨ (x / Z = i ∧ (y / Z < j ∨ (y / Z = j ∧ x % Z < 0))))) h
        fun x y _ _ => by simp
    · intro k H hk hH
      have hc := colOf_lt (b i j) hk
      refine orThrow_add'
        (P := fun x y => liftP b Z x y ∧ (x / Z < i ∨ (x / Z = i ∧ (y / Z < j ∨ (y / Z = j ∧ x % Z < k)))))
        (Q := fun x y => liftP b Z x y ∧ (x / Z < i ∨ (x / Z = i ∧ (y / Z < j ∨ (y / Z = j ∧ x % Z < k + 1))))) hH
        (block_lt hi hk) (block_lt hj hc) ?_ ?_
      · rw [block_div hk, block_mod hk, block_div hc]
        rintro ⟨_, a⟩
        omega
      · intro x y _ _
        have e1 := block_eq (x := x) (i := i) (k := k) hZ
        have e2 := block_eq (x := y) (i := j) (k := colOf (b i j) k Z) hZ
        constructor
        · rintro ⟨a, e⟩
          by_cases e' : x / Z = i ∧ y / Z = j ∧ x % Z = k
          · right
            obtain ⟨a1, a2, a3⟩ := e'
            have := a.2
            rw [a1, a2, a3] at this
            exact ⟨(e1.2 ⟨a1, a3⟩).1, (e2.2 ⟨a2, this⟩).1⟩
          · exact Or.inl ⟨a, by omega⟩
        · rintro (⟨a, e⟩ | ⟨e, e'⟩)
          · exact ⟨a, by omega⟩
          · obtain ⟨a1, a2⟩ := e1.1 ⟨e, hk⟩
            obtain ⟨a3, a4⟩ := e2.1 ⟨e', hc⟩
            refine ⟨⟨by rw [a1, a3]; exact hv, by rw [a1, a3, a2, a4]⟩, by omega⟩
    · refine represents_weaken
        (P := fun x y => liftP b Z x y ∧ (x / Z < i ∨ (x / Z = i ∧ (y / Z < j ∨ (y / Z = j ∧ x % Z < Z)))))
        (Q := fun x y => liftP b Z x y ∧ (x / Z < i ∨ (x / Z = i ∧ y / Z < j + 1))) ht fun x y _ _ => ?_
      have := Nat.mod_lt x hZ
      constructor
      · rintro ⟨a, e⟩; exact ⟨a, by omega⟩
      · rintro ⟨a, e⟩; exact ⟨a, by omega⟩

/-- A description accepted by the reader: three non-null numbers in the header, enough lines, enough values in each. -/
def QCGood (header : List Nat) (lines : List (List Int)) : Prop :=
  3 ≤ header.length ∧ header.getD 0 0 ≠ 0 ∧ header.getD 1 0 ≠ 0 ∧ header.getD 2 0 ≠ 0 ∧
  ∀ i, i < header.getD 1 0 → ∃ l, lines[i]? = some l ∧ header.getD 0 0 ≤ l.length

instance (header : List Nat) (lines : List (List Int)) : Decidable (QCGood header lines) :=
  if h : 3 ≤ header.length ∧ header.getD 0 0 ≠ 0 ∧ header.getD 1 0 ≠ 0 ∧ header.getD 2 0 ≠ 0 ∧
      ∀ i, i < header.getD 1 0 → i < lines.length ∧ header.getD 0 0 ≤ (lines.getD i []).length then
    isTrue ⟨h.1, h.2.1, h.2.2.1, h.2.2.2.1, fun i hi => by
      obtain ⟨a, b⟩ := h.2.2.2.2 i hi
      rw [getD_lt _ a] at b
      exact ⟨_, List.getElem?_eq_getElem a, b⟩⟩
  else isFalse fun g => h ⟨g.1, g.2.1, g.2.2.1, g.2.2.2.1, fun i hi => by
    obtain ⟨l, a, b⟩ := g.2.2.2.2 i hi
    have a' := (List.getElem?_eq_some_iff.1 a).1
    rw [List.getElem?_eq_getElem a'] at a
    cases a
    rw [getD_lt (l := lines) _ a']
    exact ⟨a', b⟩⟩

/-- Entry of the base matrix as stored. -/
def baseOf (lines : List (List Int)) (r c : Nat) : Int := toInt16 ((lines.getD r []).getD c 0)

theorem qc_lines {lines : List (List Int)} {Nred Mred : Nat}
    (h : ∀ i, i < Mred → ∃ l, lines[i]? = some l ∧ Nred ≤ l.length) :
    forN Mred (qcLine lines Nred) [] =
      ok ((List.range Mred).map fun i => (List.range Nred).map fun j => baseOf lines i j) := by
  obtain ⟨Hred, e, h1⟩ := forN_inv (n := Mred) (s := [])
    (f := qcLine lines Nred)
    (fun k (Hred : List (List Int)) => Hred = (List.range k).map fun i => (List.range Nred).map fun j => baseOf lines i j)
    rfl (by
      rintro i Hred hi rfl
      obtain ⟨l, e, hl⟩ := h i hi
      unfold qcLine
      rw [e]
      simp only []
      rw [if_neg (by omega), sat_ok, List.range_succ, List.map_append]
      congr 1
      rw [List.map_singleton]
      congr 1
      apply eq_mapRange (by simp [hl])
      intro j hj
      have hj' : j < l.length := by omega
      rw [List.getElem?_map, List.getElem?_take_of_lt hj, List.getElem?_eq_getElem hj', baseOf,
        List.getD_eq_getElem?_getD (l := lines), e]
      simp [hj'])
  rw [e, h1]

theorem qcRead_good {header : List Nat} {lines : List (List Int)} (h : QCGood header lines) :
    ∃ H, qcRead header lines = ok H ∧ Represents H (Conns.transpose ⟨header.getD 1 0 * header.getD 2 0,
      header.getD 0 0 * header.getD 2 0,
      (Finset.range (header.getD 1 0 * header.getD 2 0) ×ˢ Finset.range (header.getD 0 0 * header.getD 2 0)).filter fun p =>
        liftP (baseOf lines) (header.getD 2 0) p.1 p.2⟩) := by
  obtain ⟨h1, h2, h3, h4, h5⟩ := h
  have hr' : (qcRead' header lines).Sat fun H => Represents H (Conns.transpose ⟨header.getD 1 0 * header.getD 2 0,
      header.getD 0 0 * header.getD 2 0,
      (Finset.range (header.getD 1 0 * header.getD 2 0) ×ˢ Finset.range (header.getD 0 0 * header.getD 2 0)).filter fun p =>
        liftP (baseOf lines) (header.getD 2 0) p.1 p.2⟩) := by
    unfold qcRead'
    rw [if_neg (by omega)]
    simp only []
    rw [if_neg (by rintro (a | a | a) <;> contradiction), qc_lines h5, bind_ok]
    generalize header.getD 0 0 = C at *
    generalize header.getD 1 0 = R at *
    generalize header.getD 2 0 = Z at *
    have hZ : 0 < Z := by omega
    refine Sat.bind (P := fun H => Represents H ⟨R * Z, C * Z, (Finset.range (R * Z) ×ˢ Finset.range (C * Z)).filter fun p =>
      liftP (baseOf lines) Z p.1 p.2⟩) ?_ fun H hH => ?_
    · refine (forN_inv (fun i (H : Mat) => Represents H ⟨R * Z, C * Z, (Finset.range (R * Z) ×ˢ Finset.range (C * Z)).filter
        fun p => liftP (baseOf lines) Z p.1 p.2 ∧ p.1 / Z < i⟩) ?_ ?_).mono fun t ht => ?_
      · exact represents_new' _ _ (P := fun x y => liftP (baseOf lines) Z x y ∧ x / Z < 0) fun x y _ _ h => Nat.not_lt_zero _ h.2
      · intro i H hi hH
        rw [rd_eq (by rw [getElem?_mapRange, if_pos hi]), bind_ok]
        refine (forN_inv (fun j (H : Mat) => Represents H ⟨R * Z, C * Z, (Finset.range (R * Z) ×ˢ Finset.range (C * Z)).filter
          fun p => liftP (baseOf lines) Z p.1 p.2 ∧ (p.1 / Z < i ∨ (p.1 / Z = i ∧ p.2 / Z < j))⟩) ?_ ?_).mono fun t ht => ?_
        · exact represents_weaken (P := fun x y => liftP (baseOf lines) Z x y ∧ x / Z < i)
            (Q := fun x y => liftP (baseOf lines) Z x y ∧ (x / Z < i ∨ (x / Z = i ∧ y / Z < 0))) hH fun x y _ _ => by simp
        · intro j H hj hH
          rw [rd_eq (by rw [getElem?_mapRange, if_pos hj]), bind_ok]
          exact expandEntry_sat hZ hi hj hH
        · refine represents_weaken (P := fun x y => liftP (baseOf lines) Z x y ∧ (x / Z < i ∨ (x / Z = i ∧ y / Z < C)))
            (Q := fun x y => liftP (baseOf lines) Z x y ∧ x / Z < i + 1) ht fun x y _ hy => ?_
          have : y / Z < C := Nat.div_lt_of_lt_mul (by rwa [Nat.mul_comm])
          constructor
          · rintro ⟨a, e⟩; exact ⟨a, by omega⟩
          · rintro ⟨a, e⟩; exact ⟨a, by omega⟩
      · refine represents_weaken (P := fun x y => liftP (baseOf lines) Z x y ∧ x / Z < R)
          (Q := fun x y => liftP (baseOf lines) Z x y) ht fun x y hx _ => ?_
        have : x / Z < R := Nat.div_lt_of_lt_mul (by rwa [Nat.mul_comm])
        simp [this]
    · rw [sat_ok]
      exact represents_transpose hH
  obtain ⟨H, e, hH⟩ := hr'
  refine ⟨H, ?_, hH⟩
  unfold qcRead
  rw [e]

theorem qc_lines_bad {lines : List (List Int)} {Nred Mred : Nat}
    (h : ¬ ∀ i, i < Mred → ∃ l, lines[i]? = some l ∧ Nred ≤ l.length) :
    ∃ e, forN Mred (qcLine lines Nred) [] = exc e := by
  induction Mred with
  | zero => exact absurd (fun i hi => absurd hi (Nat.not_lt_zero i)) h
  | succ n ih =>
    rw [forN_succ]
    by_cases g : ∀ i, i < n → ∃ l, lines[i]? = some l ∧ Nred ≤ l.length
    · rw [qc_lines g, bind_ok]
      unfold qcLine
      cases e : lines[n]? with
      | none => exact ⟨_, rfl⟩
      | some l =>
        simp only []
        by_cases hl : l.length < Nred
        · rw [if_pos hl]; exact ⟨_, rfl⟩
        · refine absurd (fun i hi => ?_) h
          by_cases hi' : i = n
          · subst hi'
            exact ⟨l, e, by omega⟩
          · exact g i (by omega)
    · obtain ⟨e, he⟩ := ih g
      rw [he]
      exact ⟨e, rfl⟩

theorem qcRead_bad {header : List Nat} {lines : List (List Int)} (h : ¬ QCGood header lines) :
    qcRead header lines = exc .runtimeError := by
  have hr : ∃ e, qcRead' header lines = exc e := by
    unfold qcRead'
    split
    · exact ⟨_, rfl⟩
    · rename_i h1
      simp only []
      split
      · exact ⟨_, rfl⟩
      · rename_i h2
        have h5 : ¬ ∀ i, i < header.getD 1 0 → ∃ l, lines[i]? = some l ∧ header.getD 0 0 ≤ l.length := by
          intro h5
          exact h ⟨by omega, fun a => h2 (Or.inl a), fun a => h2 (Or.inr (Or.inl a)), fun a => h2 (Or.inr (Or.inr a)), h5⟩
        obtain ⟨e, he⟩ := qc_lines_bad h5
        rw [he]
        exact ⟨e, rfl⟩
  obtain ⟨e, he⟩ := hr
  unfold qcRead
  rw [he]

theorem colOf_eq {v : Int} {k Z : Nat} (hv : 0 ≤ v) (hk : k < Z) (hb : (k : Int) + v < 4294967296) :
    (colOf v k Z : Int) = (k + v) % Z := by
  unfold colOf
  split
  · rename_i h
    subst h
    rw [Int.add_zero]
    exact (Int.emod_eq_of_lt (by omega) (by omega)).symm
  · unfold shiftIdx
    rw [Int.emod_eq_of_lt (by omega) hb]
    obtain ⟨n, rfl⟩ := Int.eq_ofNat_of_zero_le hv
    rw [← Int.natCast_add, Int.toNat_natCast]
    rfl

theorem toInt16_eq {v : Int} (h1 : -1 ≤ v) (h2 : v < 32768) : toInt16 v = v := by
  unfold toInt16 Int.bmod
  simp only []
  split <;> omega

end Verif.Sparse
