import Verif.Spec.HistDump

/-! # Lemmas of C129–C130 -/

namespace Verif.HistDump
open Exec

theorem mass_nil (P : Int → Bool) : mass P [] = 0 := rfl

theorem mass_cons (P : Int → Bool) (e : Int × Nat) (l : List (Int × Nat)) :
    mass P (e :: l) = (if P e.1 then e.2 else 0) + mass P l := by
  unfold mass
  by_cases h : P e.1 <;> simp [h]

theorem mass_append (P : Int → Bool) (l l' : List (Int × Nat)) : mass P (l ++ l') = mass P l + mass P l' := by
  unfold mass
  rw [List.filter_append, List.map_append, List.sum_append]

theorem mass_congr {P Q : Int → Bool} {l : List (Int × Nat)} (h : ∀ e ∈ l, P e.1 = Q e.1) : mass P l = mass Q l := by
  unfold mass
  rw [List.filter_congr h]

theorem mass_zero {P : Int → Bool} {l : List (Int × Nat)} (h : ∀ e ∈ l, P e.1 = false) : mass P l = 0 := by
  unfold mass
  rw [List.filter_eq_nil_iff.mpr fun e he => by rw [h e he]; simp]
  rfl

/-- A sorted histogram is made of the keys up to `lo`, those strictly inside and those from `hi`. -/
theorem split3 {lo hi : Int} (hlh : lo < hi) : ∀ {l : List (Int × Nat)}, l.Pairwise (fun a b => a.1 < b.1) →
    l = l.filter (fun e => decide (e.1 ≤ lo)) ++ (l.filter (fun e => decide (lo < e.1 ∧ e.1 < hi)) ++ l.filter (fun e => decide (hi ≤ e.1)))
  | [], _ => rfl
  | e :: l, h => by
    obtain ⟨h1, h2⟩ := List.pairwise_cons.mp h
    have ih := split3 hlh h2
    by_cases a : e.1 ≤ lo
    · rw [List.filter_cons_of_pos (by simpa using a), List.filter_cons_of_neg (by simp; omega), List.filter_cons_of_neg (by simp; omega),
        List.cons_append, ← ih]
    · have n1 : l.filter (fun e => decide (e.1 ≤ lo)) = [] := by
        rw [List.filter_eq_nil_iff]
        intro x hx
        have := h1 x hx
        simp; omega
      rw [n1, List.nil_append] at ih
      rw [List.filter_cons_of_neg (by simpa using a), n1, List.nil_append]
      by_cases b : e.1 < hi
      · rw [List.filter_cons_of_pos (by simp; omega), List.filter_cons_of_neg (by simp; omega), List.cons_append, ← ih]
      · have n2 : l.filter (fun e => decide (lo < e.1 ∧ e.1 < hi)) = [] := by
          rw [List.filter_eq_nil_iff]
          intro x hx
          have := h1 x hx
          simp; omega
        rw [n2, List.nil_append] at ih
        rw [List.filter_cons_of_neg (by simp; omega), n2, List.nil_append, List.filter_cons_of_pos (by simp; omega), ← ih]

/-- Keys out of the inside of the range. -/
theorem fold_out {cv b : Bool} {lo hi : Int} (hlh : lo < hi) : ∀ {l : List (Int × Nat)} {s : St}, (∀ e ∈ l, e.1 ≤ lo ∨ hi ≤ e.1) →
    l.foldl (step cv b lo hi) s = { s with cumul := s.cumul + mass (taken b lo hi) l }
  | [], s, _ => rfl
  | e :: l, s, h => by
    have h1 := h e (List.mem_cons_self ..)
    have e1 : step cv b lo hi s e = { s with cumul := s.cumul + if taken b lo hi e.1 then e.2 else 0 } := by
      unfold step taken
      rw [if_neg (by omega)]
      cases b with
      | true => simp
      | false =>
        by_cases q : e.1 = lo ∨ e.1 = hi
        · rw [if_pos (Or.inr q), if_pos (by simp; omega)]
        · rw [if_neg (by simpa using q), if_neg (by simp; omega), Nat.add_zero]
    rw [List.foldl_cons, e1, fold_out hlh fun e he => h e (List.mem_cons_of_mem _ he), mass_cons]
    simp only [Nat.add_assoc]

/-- Keys inside of the range, accumulated. -/
theorem fold_in_cumul {b : Bool} {lo hi : Int} : ∀ {l : List (Int × Nat)} {c : Nat} {ls : List (X × Nat)},
    l.Pairwise (fun a b => a.1 < b.1) → (∀ e ∈ l, lo < e.1 ∧ e.1 < hi) →
    l.foldl (step true b lo hi) ⟨c, true, ls⟩ =
      ⟨c + mass (fun _ => true) l, true, ls ++ l.map fun e => (X.key e.1, c + mass (fun k => decide (k ≤ e.1)) l)⟩
  | [], c, ls, _, _ => by simp [mass_nil]
  | e :: l, c, ls, h, hin => by
    obtain ⟨h1, h2⟩ := List.pairwise_cons.mp h
    have e1 : step true b lo hi ⟨c, true, ls⟩ e = ⟨c + e.2, true, ls ++ [(X.key e.1, c + e.2)]⟩ := by
      unfold step
      have := hin e (List.mem_cons_self ..)
      rw [if_pos (by omega)]
      rfl
    rw [List.foldl_cons, e1, fold_in_cumul h2 fun e he => hin e (List.mem_cons_of_mem _ he), mass_cons, List.map_cons, mass_cons]
    rw [mass_zero (P := fun k => decide (k ≤ e.1)) (l := l) (by intro x hx; have := h1 x hx; simp; omega)]
    simp only [if_true, Nat.add_assoc, List.append_assoc, List.singleton_append, decide_eq_true_eq, Int.le_refl, Nat.add_zero]
    congr 3
    apply List.map_congr_left
    intro x hx
    have := h1 x hx
    rw [mass_cons, if_pos (by simp; omega)]

/-- Keys inside of the range, not accumulated. -/
theorem fold_in {b : Bool} {lo hi : Int} : ∀ {l : List (Int × Nat)} {c : Nat} {ls : List (X × Nat)},
    (∀ e ∈ l, lo < e.1 ∧ e.1 < hi) →
    l.foldl (step false b lo hi) ⟨c, true, ls⟩ = ⟨(l.map Prod.snd).getLastD c, true, ls ++ l.map fun e => (X.key e.1, e.2)⟩
  | [], c, ls, _ => by simp
  | e :: l, c, ls, hin => by
    have e1 : step false b lo hi ⟨c, true, ls⟩ e = ⟨e.2, true, ls ++ [(X.key e.1, e.2)]⟩ := by
      unfold step
      have := hin e (List.mem_cons_self ..)
      rw [if_pos (by omega)]
      rfl
    rw [List.foldl_cons, e1, fold_in fun e he => hin e (List.mem_cons_of_mem _ he), List.map_cons, List.map_cons, List.getLastD_cons]
    simp

/-- The first key inside of the range writes the line of `hist_min`. -/
theorem first_in {cv b : Bool} {lo hi : Int} {l : List (Int × Nat)} {c : Nat} (h0 : l ≠ []) (hin : ∀ e ∈ l, lo < e.1 ∧ e.1 < hi) :
    l.foldl (step cv b lo hi) ⟨c, false, []⟩ = l.foldl (step cv b lo hi) ⟨c, true, [(X.min, c)]⟩ := by
  cases l with
  | nil => exact absurd rfl h0
  | cons e l =>
    have := hin e (List.mem_cons_self ..)
    rw [List.foldl_cons, List.foldl_cons]
    congr 1
    unfold step
    have q : e.1 > lo ∧ hi > e.1 := by omega
    rw [if_pos q, if_pos q]
    rfl

/-- One entry in its rung. -/
theorem fill_eq {b : Bool} {n : Nat} {bin : Int → Int} : ∀ {l : List (Int × Nat)} {D : List Nat}, D.length = n + 1 →
    fill b n bin l D = ok ((List.range (n + 1)).map fun i => D.getD i 0 + mass (fun k => decide (rung b n (bin k) = some i)) l)
  | [], D, h => by
    unfold fill
    congr 1
    refine eq_mapRange h fun i hi => ?_
    rw [mass_nil, Nat.add_zero, List.getElem?_eq_getElem (by omega), List.getD_eq_getElem?_getD, List.getElem?_eq_getElem (by omega)]
    rfl
  | e :: l, D, h => by
    have key : ∀ j, j < n + 1 → rung b n (bin e.1) = some j → (do
        let c ← rd D j
        wr D j (c + e.2)) >>= fill b n bin l =
        ok ((List.range (n + 1)).map fun i => D.getD i 0 + mass (fun k => decide (rung b n (bin k) = some i)) (e :: l)) := by
      intro j hj hr
      rw [rd_lt (by omega), bind_ok, wr_lt (by omega), bind_ok, fill_eq (by rw [List.length_set]; exact h)]
      congr 1
      apply List.map_congr_left
      intro i hi
      have hi' := List.mem_range.mp hi
      rw [mass_cons, hr]
      by_cases q : j = i
      · subst q
        rw [if_pos (by simp), List.getD_eq_getElem?_getD, List.getElem?_set_self (by omega), List.getD_eq_getElem?_getD,
          List.getElem?_eq_getElem (by omega)]
        simp only [Option.getD_some]
        omega
      · rw [if_neg (by simpa using q), List.getD_eq_getElem?_getD, List.getElem?_set_ne q, ← List.getD_eq_getElem?_getD, Nat.zero_add]
    unfold fill
    dsimp only
    by_cases h1 : 0 ≤ bin e.1 ∧ bin e.1 ≤ n
    · rw [if_pos h1]
      exact key _ (by omega) (by unfold rung; rw [if_neg (by omega), if_pos h1.2])
    · rw [if_neg h1]
      cases b with
      | false =>
        simp only [Bool.false_eq_true, if_false]
        rw [bind_ok, fill_eq h]
        congr 1
        apply List.map_congr_left
        intro i hi
        rw [mass_cons, if_neg, Nat.zero_add]
        unfold rung
        by_cases q : bin e.1 < 0
        · simp [q]
        · rw [if_neg q, if_neg (by omega)]; simp
      | true =>
        simp only [if_true]
        by_cases q : bin e.1 < 0
        · rw [if_pos q]
          exact key 0 (by omega) (by unfold rung; rw [if_pos q]; rfl)
        · rw [if_neg q, h]
          exact key n (by omega) (by unfold rung; rw [if_neg q, if_neg (by omega)]; rfl)

theorem rungs_eq {cv : Bool} {D : List Nat} {n : Nat} (h : D.length = n + 1) :
    rungs cv D n = ok ((List.range (n + 1)).map fun i => if cv then (D.take (i + 1)).sum else D.getD i 0) := by
  unfold rungs
  have : (forN (n + 1) (fun i (s : Nat × List Nat) => do
    let d ← rd D i
    let c := if cv then s.1 + d else d
    ok (c, s.2 ++ [c])) (0, [])).Sat fun s => s.2 = (List.range (n + 1)).map fun i => if cv then (D.take (i + 1)).sum else D.getD i 0 := by
    refine Sat.mono (forN_inv (fun k (s : Nat × List Nat) => (cv = true → s.1 = (D.take k).sum) ∧
      s.2 = (List.range k).map fun i => if cv then (D.take (i + 1)).sum else D.getD i 0) ⟨by simp, rfl⟩ ?_) fun s hs => hs.2
    rintro k s hk ⟨a, b⟩
    rw [rd_lt (by omega), bind_ok, sat_ok]
    have t : (D.take (k + 1)).sum = (D.take k).sum + D[k] := by
      rw [List.take_add_one, List.getElem?_eq_getElem (by omega), List.sum_append]
      simp
    have g : D.getD k 0 = D[k] := by rw [List.getD_eq_getElem?_getD, List.getElem?_eq_getElem (by omega)]; rfl
    cases cv with
    | true =>
      simp only [if_true] at b ⊢
      refine ⟨fun _ => by rw [a rfl, t], ?_⟩
      rw [b, a rfl, List.range_succ, List.map_append, List.map_singleton, t]
    | false =>
      simp only [Bool.false_eq_true, if_false] at b ⊢
      refine ⟨fun h => (by cases h), ?_⟩
      rw [b, List.range_succ, List.map_append, List.map_singleton, g]
  obtain ⟨s, e, hs⟩ := this
  rw [e, bind_ok, hs]

theorem sum_mass {P : Int → Option Nat} (l : List (Int × Nat)) : ∀ m,
    ((List.range m).map fun i => mass (fun k => decide (P k = some i)) l).sum = mass (fun k => (P k).any fun j => decide (j < m)) l
  | 0 => by
    rw [mass_zero (P := fun k => (P k).any fun j => decide (j < 0)) (by intro e _; cases P e.1 <;> simp)]; rfl
  | m + 1 => by
    rw [List.range_succ, List.map_append, List.sum_append, sum_mass l m, List.map_singleton, List.sum_singleton]
    induction l with
    | nil => rfl
    | cons e l ih =>
      simp only [mass_cons]
      have q : (if (P e.1).any fun j => decide (j < m) then e.2 else 0) + (if decide (P e.1 = some m) then e.2 else 0) =
          if (P e.1).any fun j => decide (j < m + 1) then e.2 else 0 := by
        cases hP : P e.1 with
        | none => simp
        | some v =>
          simp only [Option.some.injEq, decide_eq_true_eq, Option.any_some]
          by_cases a : v < m
          · rw [if_pos a, if_neg (by omega), if_pos (by omega)]; rfl
          · by_cases a' : v = m
            · rw [if_neg a, if_pos a', if_pos (by omega)]; omega
            · rw [if_neg a, if_neg a', if_neg (by omega)]
      omega

end Verif.HistDump
