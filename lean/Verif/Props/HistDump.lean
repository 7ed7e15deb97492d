import Verif.Proof.HistDump
import Verif.Proof.Monitor

/-! # C129–C130: dump of a histogram -/

namespace Verif.HistDump
open Exec
open Verif.Monitor (Hist tot)

/-- The masses of a histogram that holds the values `l` are the numbers of these values. -/
theorem mass_holds {h : Hist} {l : List Int} (H : h.Holds l) (hs : h.scale = 1) (P : Int → Bool) : mass P h.hist = l.countP P := by
  have e : ∀ (l : List (Int × Nat)) (v : Int), (l.flatMap fun e => List.replicate e.2 e.1).count v = tot l v := by
    intro l v
    induction l with
    | nil => rfl
    | cons e l ih =>
      rw [List.flatMap_cons, List.count_append, ih, List.count_replicate]
      unfold tot
      by_cases q : e.1 = v <;> simp [q]
  have m : ∀ l : List (Int × Nat), mass P l = (l.flatMap fun e => List.replicate e.2 e.1).countP P := by
    intro l
    induction l with
    | nil => rfl
    | cons e l ih =>
      rw [List.flatMap_cons, List.countP_append, mass_cons, ih, List.countP_replicate]
  rw [m]
  refine List.Perm.countP_eq P ?_
  rw [List.perm_iff_count]
  intro v
  have := H.tot_eq v
  rw [hs] at this
  rw [e, ← this]
  simp

/-- **C129**, accumulated values.  With `cumul_vals`, the line of each key strictly inside of the range is the number of values taken into account up to
this key, the line of the left border the number of those up to it, that of the right border their total number; lines are written for all the
keys inside of the range and nothing else. -/
theorem C129_cumulative (b : Bool) (lo hi : Int) (hlh : lo < hi) (hist : List (Int × Nat)) (hs : hist.Pairwise fun a b => a.1 < b.1) :
    let inside := hist.filter fun e => decide (lo < e.1 ∧ e.1 < hi)
    let upTo := fun x => mass (fun k => taken b lo hi k && decide (k ≤ x)) hist
    let total := mass (taken b lo hi) hist
    dumpAll true b lo hi hist =
      (if inside = [] then [] else (X.min, upTo lo) :: inside.map fun e => (X.key e.1, upTo e.1)) ++
      (if total = 0 then [] else [(X.max, total)]) := by
  intro inside upTo total
  have sp := split3 hlh hs
  have hmem1 : ∀ e ∈ hist.filter (fun e => decide (e.1 ≤ lo)), e.1 ≤ lo := fun e he => by simpa using (List.mem_filter.mp he).2
  have hmem2 : ∀ e ∈ inside, lo < e.1 ∧ e.1 < hi := fun e he => by simpa using (List.mem_filter.mp he).2
  have hmem3 : ∀ e ∈ hist.filter (fun e => decide (hi ≤ e.1)), hi ≤ e.1 := fun e he => by simpa using (List.mem_filter.mp he).2
  have hin : inside.Pairwise fun a b => a.1 < b.1 := hs.sublist List.filter_sublist
  generalize hA : hist.filter (fun e => decide (e.1 ≤ lo)) = A at sp hmem1
  generalize hC : hist.filter (fun e => decide (hi ≤ e.1)) = C at sp hmem3
  have hin' : hist.filter (fun e => decide (lo < e.1 ∧ e.1 < hi)) = inside := rfl
  rw [hin'] at sp
  have tkin : ∀ e ∈ inside, taken b lo hi e.1 = true := by
    intro e he
    have := hmem2 e he
    unfold taken
    simp; omega
  have ht : total = mass (taken b lo hi) A + mass (fun _ => true) inside + mass (taken b lo hi) C := by
    show mass _ hist = _
    rw [sp, mass_append, mass_append, mass_congr (l := inside) (Q := fun _ => true) tkin]
    omega
  have hlo : upTo lo = mass (taken b lo hi) A := by
    show mass _ hist = _
    rw [sp, mass_append, mass_append, mass_zero (l := inside), mass_zero (l := C)]
    · rw [mass_congr (l := A) (Q := taken b lo hi)]
      · rfl
      · intro e he; have := hmem1 e he; simp [this]
    · intro e he; have := hmem3 e he; simp; omega
    · intro e he; have := hmem2 e he; simp; omega
  have hk : ∀ e ∈ inside, upTo e.1 = mass (taken b lo hi) A + mass (fun k => decide (k ≤ e.1)) inside := by
    intro e he
    have h2 := hmem2 e he
    show mass _ hist = _
    rw [sp, mass_append, mass_append, mass_zero (l := C), Nat.add_zero, mass_congr (l := A) (Q := taken b lo hi),
      mass_congr (l := inside) (Q := fun k => decide (k ≤ e.1))]
    · intro x hx; simp [tkin x hx]
    · intro x hx; have := hmem1 x hx; simp; omega
    · intro x hx; have := hmem3 x hx; simp; omega
  unfold dumpAll
  rw [sp, List.foldl_append, List.foldl_append, fold_out hlh fun e he => Or.inl (hmem1 e he)]
  rw [Nat.zero_add]
  by_cases h0 : inside = []
  · rw [if_pos h0]
    rw [h0, mass_nil] at ht
    rw [h0, List.foldl_nil, fold_out hlh fun e he => Or.inr (hmem3 e he), ht]
    dsimp only
    by_cases q : mass (taken b lo hi) A + mass (taken b lo hi) C = 0
    · rw [if_neg (by omega), if_pos (by omega)]; rfl
    · rw [if_pos (by omega), if_neg (by omega)]; simp
  · rw [if_neg h0, first_in h0 hmem2, fold_in_cumul hin hmem2, fold_out hlh fun e he => Or.inr (hmem3 e he)]
    dsimp only
    have hmap : inside.map (fun e => (X.key e.1, upTo e.1)) =
        inside.map fun e => (X.key e.1, mass (taken b lo hi) A + mass (fun k => decide (k ≤ e.1)) inside) :=
      List.map_congr_left fun e he => by rw [hk e he]
    rw [← ht, hlo, hmap]
    by_cases q : total = 0
    · rw [if_neg (by omega), if_pos q]; simp
    · rw [if_pos q, if_neg q]; simp

/-- The lines of `dump_all_values` without `cumul_vals`, with the count of the last line as the code computes it. -/
theorem dumpAll_values (b : Bool) (lo hi : Int) (hlh : lo < hi) (hist : List (Int × Nat)) (hs : hist.Pairwise fun a b => a.1 < b.1) :
    let inside := hist.filter fun e => decide (lo < e.1 ∧ e.1 < hi)
    let below := mass (fun k => taken b lo hi k && decide (k ≤ lo)) hist
    let last := (inside.map Prod.snd).getLastD below + mass (fun k => taken b lo hi k && decide (hi ≤ k)) hist
    dumpAll false b lo hi hist = (if inside = [] then [] else (X.min, below) :: inside.map fun e => (X.key e.1, e.2)) ++
      (if last = 0 then [] else [(X.max, last)]) := by
  intro inside below last
  have sp := split3 hlh hs
  have hmem1 : ∀ e ∈ hist.filter (fun e => decide (e.1 ≤ lo)), e.1 ≤ lo := fun e he => by simpa using (List.mem_filter.mp he).2
  have hmem2 : ∀ e ∈ inside, lo < e.1 ∧ e.1 < hi := fun e he => by simpa using (List.mem_filter.mp he).2
  have hmem3 : ∀ e ∈ hist.filter (fun e => decide (hi ≤ e.1)), hi ≤ e.1 := fun e he => by simpa using (List.mem_filter.mp he).2
  generalize hA : hist.filter (fun e => decide (e.1 ≤ lo)) = A at sp hmem1
  generalize hC : hist.filter (fun e => decide (hi ≤ e.1)) = C at sp hmem3
  have hin' : hist.filter (fun e => decide (lo < e.1 ∧ e.1 < hi)) = inside := rfl
  rw [hin'] at sp
  have hlo : below = mass (taken b lo hi) A := by
    show mass _ hist = _
    rw [sp, mass_append, mass_append, mass_zero (l := inside), mass_zero (l := C)]
    · rw [mass_congr (l := A) (Q := taken b lo hi)]
      · rfl
      · intro e he; have := hmem1 e he; simp [this]
    · intro e he; have := hmem3 e he; simp; omega
    · intro e he; have := hmem2 e he; simp; omega
  have hhi : mass (fun k => taken b lo hi k && decide (hi ≤ k)) hist = mass (taken b lo hi) C := by
    rw [sp, mass_append, mass_append, mass_zero (l := inside), mass_zero (l := A)]
    · rw [mass_congr (l := C) (Q := taken b lo hi)]
      · omega
      · intro e he; have := hmem3 e he; simp [this]
    · intro e he; have := hmem1 e he; simp; omega
    · intro e he; have := hmem2 e he; simp; omega
  have hlast : last = (inside.map Prod.snd).getLastD below + mass (taken b lo hi) C := by rw [← hhi]
  unfold dumpAll
  rw [sp, List.foldl_append, List.foldl_append, fold_out hlh fun e he => Or.inl (hmem1 e he), Nat.zero_add, ← hlo]
  by_cases h0 : inside = []
  · rw [if_pos h0]
    rw [h0] at hlast
    rw [h0, List.foldl_nil, fold_out hlh fun e he => Or.inr (hmem3 e he)]
    dsimp only
    have hl : last = below + mass (taken b lo hi) C := hlast
    rw [← hl]
    by_cases q : last = 0
    · rw [if_neg (by omega), if_pos q]; rfl
    · rw [if_pos q, if_neg q]
  · rw [if_neg h0, first_in h0 hmem2, fold_in hmem2, fold_out hlh fun e he => Or.inr (hmem3 e he)]
    dsimp only
    rw [← hlast]
    by_cases q : last = 0
    · rw [if_neg (by omega), if_pos q]; simp
    · rw [if_pos q, if_neg q]; simp

/-- **C129**, values not accumulated.  Whatever the options, when there are keys strictly inside of the range the lines before that of the right border
are the number of values taken into account up to the left border, then each key inside of the range and its number of values. -/
theorem C129_values (b : Bool) (lo hi : Int) (hlh : lo < hi) (hist : List (Int × Nat)) (hs : hist.Pairwise fun a b => a.1 < b.1)
    (h0 : ∃ e ∈ hist, lo < e.1 ∧ e.1 < hi) :
    (dumpAll false b lo hi hist).filter (fun p => decide (p.1 ≠ X.max)) =
      (X.min, mass (fun k => taken b lo hi k && decide (k ≤ lo)) hist) ::
        (hist.filter fun e => decide (lo < e.1 ∧ e.1 < hi)).map fun e => (X.key e.1, e.2) := by
  have h1 : hist.filter (fun e => decide (lo < e.1 ∧ e.1 < hi)) ≠ [] := by
    obtain ⟨e, he, h⟩ := h0
    intro hn
    rw [List.filter_eq_nil_iff] at hn
    exact hn e he (by simpa using h)
  rw [dumpAll_values b lo hi hlh hist hs, if_neg h1, List.filter_append]
  have f2 : ∀ n : Nat, (if n = 0 then [] else [(X.max, n)]).filter (fun p => decide (p.1 ≠ X.max)) = [] := by
    intro n; by_cases q : n = 0 <;> simp [q]
  rw [f2, List.append_nil, List.filter_cons_of_pos (by simp), List.filter_eq_self.mpr]
  intro p hp
  obtain ⟨e, -, rfl⟩ := List.mem_map.mp hp
  simp

/-- **C129**, intervals.  With a number of rungs, the count of a rung is the number of values whose rung it is, or that of the values of all the rungs up to
it with `cumul_vals`; values outside of the range are counted in the nearest rung with `cumul_borders` and ignored otherwise; the histogram of the rungs
is never accessed out of bounds. -/
theorem C129_intervals (cv b : Bool) (n : Nat) (bin : Int → Int) (hist : List (Int × Nat)) :
    dumpIntervals cv b n bin hist = ok ((List.range (n + 1)).map fun i =>
      if cv then mass (fun k => (rung b n (bin k)).any fun j => decide (j ≤ i)) hist
      else mass (fun k => decide (rung b n (bin k) = some i)) hist) := by
  unfold dumpIntervals
  rw [fill_eq (by simp), bind_ok, rungs_eq (by simp)]
  congr 1
  apply List.map_congr_left
  intro i hi
  have hi' := List.mem_range.mp hi
  cases cv with
  | true =>
    simp only [if_true]
    rw [← List.map_take, List.take_range, Nat.min_eq_left (by omega)]
    have : ∀ j ∈ List.range (i + 1), (List.replicate (n + 1) 0).getD j 0 + mass (fun k => decide (rung b n (bin k) = some j)) hist =
        mass (fun k => decide (rung b n (bin k) = some j)) hist := by
      intro j hj
      have := List.mem_range.mp hj
      rw [List.getD_eq_getElem?_getD, List.getElem?_replicate, if_pos (by omega)]
      simp
    rw [List.map_congr_left this, sum_mass]
    exact mass_congr fun e _ => by cases rung b n (bin e.1) <;> simp [Nat.lt_succ_iff]
  | false =>
    simp only [Bool.false_eq_true, if_false]
    rw [List.getD_eq_getElem?_getD, getElem?_mapRange, if_pos hi', Option.getD_some, List.getD_eq_getElem?_getD,
      List.getElem?_replicate, if_pos hi']
    simp

/-- **C129**.  With `cumul_borders` every value is in one rung: the counts of the rungs add up to the number of values, which is the last accumulated
count. -/
theorem C129_no_loss (n : Nat) (bin : Int → Int) (h : Hist) (l : List Int) (H : h.Holds l) (hs : h.scale = 1) :
    (∃ r, dumpIntervals false true n bin h.hist = ok r ∧ r.sum = l.length) ∧
    (∃ r, dumpIntervals true true n bin h.hist = ok r ∧ r.getLast? = some l.length) := by
  have hall : ∀ k, (rung true n (bin k)).any (fun j => decide (j < n + 1)) = true := by
    intro k
    unfold rung
    by_cases a : bin k < 0
    · simp [a]
    · rw [if_neg a]
      by_cases a' : bin k ≤ n
      · rw [if_pos a']; simp; omega
      · rw [if_neg a']; simp
  have hm : mass (fun k => (rung true n (bin k)).any fun j => decide (j < n + 1)) h.hist = l.length := by
    rw [mass_congr (Q := fun _ => true) fun e _ => hall e.1, mass_holds H hs, List.countP_true]
  refine ⟨⟨_, C129_intervals .., ?_⟩, ⟨_, C129_intervals .., ?_⟩⟩
  · simp only [Bool.false_eq_true, if_false]
    rw [sum_mass, hm]
  · simp only [if_true]
    rw [List.range_succ, List.map_append, List.map_singleton, List.getLast?_concat, ← hm]
    congr 1
    exact mass_congr fun e _ => by cases rung true n (bin e.1) <;> simp [Nat.lt_succ_iff]

example : dumpAll true false 0 9 [(0, 1), (5, 10), (7, 2), (9, 1), (12, 4)] = [(.min, 1), (.key 5, 11), (.key 7, 13), (.max, 14)] := by decide +kernel
example : dumpAll false true 0 9 [(0, 1), (5, 10), (7, 2), (8, 0)] = [(.min, 1), (.key 5, 10), (.key 7, 2), (.key 8, 0)] := by decide +kernel
example : dumpIntervals true true 2 (fun k => k - 3) [(0, 1), (3, 10), (5, 2), (9, 1)] = ok [11, 11, 14] := by decide +kernel
example : ((Hist.mk' 0).add 4).Holds [4] := Monitor.holds_add (Monitor.holds_init 0) 4

/-- **C130**, **finding**: without `cumul_vals`, the default, the line of the right border is the number of values of the last key strictly inside of the
range added to that of the values from the right border on: the greatest number of errors of a frame is reported with the frames of the previous one. -/
theorem C130_last_line (h : Hist) (l : List Int) (H : h.Holds l) (hs : h.scale = 1) (hi : Int) (e : Int × Nat) (front : List (Int × Nat))
    (hin : h.hist.filter (fun e => decide (0 < e.1 ∧ e.1 < hi)) = front ++ [e]) (hlh : 0 < hi) (hw : 0 < e.2) :
    ∃ lines, dumpInt false false 0 hi h.hist = some (lines ++ [(X.max, e.2 + l.count hi)]) := by
  unfold dumpInt
  rw [if_neg (by omega), dumpAll_values false 0 hi hlh h.hist H.sorted, hin]
  have hm : mass (fun k => taken false 0 hi k && decide (hi ≤ k)) h.hist = l.count hi := by
    rw [mass_holds H hs, List.count_eq_countP]
    congr 1
    funext k
    unfold taken
    by_cases q : k = hi
    · subst q; simp; omega
    · have : (k == hi) = false := by simpa using q
      rw [this]; simp; omega
  rw [hm, if_neg (by simp), show ((front ++ [e]).map Prod.snd).getLastD (mass (fun k => taken false 0 hi k && decide (k ≤ 0)) h.hist) = e.2 by
    rw [List.map_append, List.map_singleton, List.getLastD_concat], if_neg (by omega)]
  exact ⟨_, rfl⟩

/-- **C130**, **finding**: three frames with one error and one frame with two: the file reports four frames with two errors. -/
theorem C130_errors : ∃ h : Hist, h.Holds [1, 1, 1, 2] ∧
    dumpInt false false 0 2 h.hist = some [(.min, 0), (.key 1, 3), (.max, 4)] :=
  ⟨((((Hist.mk' 0).add 1).add 1).add 1).add 2,
    Monitor.holds_add (Monitor.holds_add (Monitor.holds_add (Monitor.holds_add (Monitor.holds_init 0) 1) 1) 1) 2, by decide +kernel⟩

/-- **C130**, **finding**: without key strictly inside of the range, the values of both borders are reported at the right border. -/
theorem C130_borders (cv : Bool) (a c : Nat) (lo hi : Int) (hlh : lo < hi) (h0 : a + c ≠ 0) :
    dumpAll cv false lo hi [(lo, a), (hi, c)] = [(.max, a + c)] := by
  unfold dumpAll
  rw [fold_out hlh (by simp)]
  have : mass (taken false lo hi) [(lo, a), (hi, c)] = a + c := by
    have h1 : taken false lo hi lo = true := by unfold taken; simp; omega
    have h2 : taken false lo hi hi = true := by unfold taken; simp; omega
    rw [mass_cons, mass_cons, mass_nil, if_pos h1, if_pos h2, Nat.add_zero]
  rw [this, Nat.zero_add]
  dsimp only
  rw [if_pos h0]
  rfl

/-- **C130**, **finding**: a histogram with a single key, dumped from its smallest to its greatest value, gives an error and no line. -/
theorem C130_single (cv b : Bool) (k : Int) (c : Nat) : dumpInt cv b k k [(k, c)] = none := by
  unfold dumpInt
  rw [if_pos (Int.le_refl k)]

end Verif.HistDump
