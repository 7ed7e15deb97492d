import Verif.Proof.ChaseUse
import Mathlib.Data.List.Sort

/-!
# C77, C78: Chase decoder
-/

namespace Verif.Chase
open Exec Verif.Float Verif.ML

/-- **C77** (constructor).  It accepts exactly `0 < K ≤ N`, and at most `N` and 31 flips. -/
theorem C77_constructor (K N : Int) (c : Coder) (fl : Nat) (hamming : Bool) (sort : List Fl → List Nat) :
    (∃ d, Dec.mk? K N c fl hamming sort = ok d ∧ (d.K : Int) = K ∧ (d.N : Int) = N ∧ d.c = c ∧ d.flips = fl ∧ d.hamming = hamming) ↔
      0 < K ∧ K ≤ N ∧ (fl : Int) ≤ N ∧ fl ≤ 31 := by
  unfold Dec.mk?
  constructor
  · rintro ⟨d, h, -⟩
    by_cases h1 : K ≤ 0
    · rw [if_pos h1] at h; cases h
    rw [if_neg h1] at h
    by_cases h2 : N ≤ 0
    · rw [if_pos h2] at h; cases h
    rw [if_neg h2] at h
    by_cases h3 : K > N
    · rw [if_pos h3] at h; cases h
    rw [if_neg h3] at h
    by_cases h4 : fl > N.toNat
    · rw [if_pos h4] at h; cases h
    rw [if_neg h4] at h
    by_cases h5 : fl > 31
    · rw [if_pos h5] at h; cases h
    omega
  · rintro ⟨h1, h2, h3, h4⟩
    rw [if_neg (by omega), if_neg (by omega), if_neg (by omega), if_neg (by omega), if_neg (by omega)]
    exact ⟨_, rfl, by show (K.toNat : Int) = K; omega, by show (N.toNat : Int) = N; omega, rfl, rfl, rfl⟩

/-- **C77** (positions).  The tested positions are `max_flips` distinct positions, and every other position is at least as reliable. -/
theorem C77_tested {d : Dec} (hr : Reach d) {y : List Fl} (hy : y.length = d.N) (hn : ∀ b ∈ y, b ≠ .nan) :
    (d.tested y).length = d.flips ∧ (d.tested y).Nodup ∧ ∀ i ∈ d.tested y, i < d.N ∧ ∀ j, j < d.N → j ∉ d.tested y → Fl.lt (y.getD j .nan).abs (y.getD i .nan).abs = false := by
  have h := hr.ok
  have hs := h.sort y hy hn
  have hlen := hs.len
  have hfN := h.fN
  unfold Dec.tested
  refine ⟨by rw [List.length_take]; omega, hs.nodup.sublist (List.take_sublist _ _), fun i hi => ⟨hs.lt i (List.mem_of_mem_take hi), fun j hj hjn => ?_⟩⟩
  obtain ⟨a, ha, rfl⟩ := List.mem_take_iff_getElem.mp hi
  have hall : j ∈ d.sort y := by
    have hsub : d.sort y ⊆ List.range d.N := fun i hi => List.mem_range.mpr (hs.lt i hi)
    have hperm : (d.sort y).Perm (List.range d.N) := (List.subperm_of_subset hs.nodup hsub).perm_of_length_le (by rw [List.length_range]; omega)
    exact hperm.mem_iff.mpr (List.mem_range.mpr hj)
  obtain ⟨b, hb, rfl⟩ := List.getElem_of_mem hall
  have hbp : d.flips ≤ b := by
    by_contra hc
    exact hjn (List.mem_take_iff_getElem.mpr ⟨b, by omega, rfl⟩)
  have := hs.sorted a b (by omega) (by omega) (by omega)
  rwa [getD_lt 0 (show a < (d.sort y).length by omega), getD_lt 0 hb] at this

/-- Common end of the two metrics. -/
theorem close {d : Dec} (h : Ok d) {y : List Fl} (hy : y.length = d.N) {P : List Int → Prop}
    (hs : ∀ v, v.length = d.N → (d.sihoCw y v).Sat fun r => P r.2 ∧ r.2.length = d.N) (hu : ∀ x x', P x → P x' → x = x') :
    ∃ x, P x ∧ (∀ v, v.length = d.N → ∃ d', d.sihoCw y v = ok (d', x)) ∧ (d.c.sys = true → ∀ v, v.length = d.K → ∃ d', d.siho y v = ok (d', infoOf d.c x)) := by
  obtain ⟨⟨d1, x1⟩, e1, p1, l1⟩ := hs d.bestX h.bx
  refine ⟨x1, p1, fun v hv => ?_, fun hsys v hv => ⟨_, siho_of h hsys hv e1 l1⟩⟩
  obtain ⟨⟨d2, x2⟩, e2, p2, l2⟩ := hs v hv
  obtain rfl : x2 = x1 := hu _ _ p2 p1
  exact ⟨d2, e2⟩

/-- **C77** (the specification has one answer). -/
theorem C77_unique {D : Type} {lt : D → D → Prop} {cost : List Nat → D} {isCw : List Int → Bool} {l : List Nat} {h x x' : List Int} (hh : IsBits h)
    (h1 : FirstBest lt cost isCw l h x) (h2 : FirstBest lt cost isCw l h x') : x = x' := by
  obtain ⟨a1, a2⟩ := h1
  obtain ⟨b1, b2⟩ := h2
  have hv : rank l x h = rank l x' h := by
    rcases Nat.lt_trichotomy (rank l x h) (rank l x' h) with hl | hl | hl
    · exact absurd ((b2 x a1).2 hl) (a2 x' b1).1
    · exact hl
    · exact absurd ((a2 x' b1).2 hl) (b2 x a1).1
  have bits : ∀ z : List Int, IsBits (l.map fun i => if z.getD i 0 ≠ h.getD i 0 then 1 else 0) := by
    intro z b hb
    obtain ⟨i, -, rfl⟩ := List.mem_map.mp hb
    split <;> simp
  have hp : (l.map fun i => if x.getD i 0 ≠ h.getD i 0 then (1 : Int) else 0) = l.map fun i => if x'.getD i 0 ≠ h.getD i 0 then 1 else 0 := by
    have q1 := (bitsOf_value _ (bits x)).1
    have q2 := (bitsOf_value _ (bits x')).1
    rw [← q1, ← q2]
    unfold rank at hv
    rw [hv, List.length_map, List.length_map]
  refine ext_getD (by rw [a1.2.1, b1.2.1]) fun i hi => ?_
  by_cases hm : i ∈ l
  · have := List.map_inj_left.mp hp i hm
    have q1 := getD_bits a1.1 i
    have q2 := getD_bits b1.1 i
    have q3 := getD_bits hh i
    by_cases c1 : x.getD i 0 = h.getD i 0 <;> by_cases c2 : x'.getD i 0 = h.getD i 0
    · rw [c1, c2]
    · rw [if_neg (by simpa using c1), if_pos (by simpa using c2)] at this; cases this
    · rw [if_pos (by simpa using c1), if_neg (by simpa using c2)] at this; cases this
    · omega
  · rw [a1.2.2.2 i hm, b1.2.2.2 i hm]

/-- **C77** (soft metric).  Whatever was decoded before, if at least one codeword differs from the hard decisions only at tested
positions, for a cost less than `FLT_MAX`, the result is the first one of least cost: the sum of the reliabilities of the bits that
are changed. -/
theorem C77_soft {d : Dec} (hr : Reach d) (hh : d.hamming = false) {y : List Fl} (hy : y.length = d.N) (hn : ∀ b ∈ y, b ≠ .nan)
    (hex : ∃ x, Near d.c.isCw (d.tested y) (hard y) x ∧ Fl.lt (fcost y (diff (d.tested y) x (hard y))) fltMax = true) :
    ∃ x, FirstBest (fun a b => Fl.lt a b = true) (fcost y) d.c.isCw (d.tested y) (hard y) x ∧ (∀ v, v.length = d.N → ∃ d', d.sihoCw y v = ok (d', x)) ∧
      (d.c.sys = true → ∀ v, v.length = d.K → ∃ d', d.siho y v = ok (d', infoOf d.c x)) := by
  have h := hr.ok
  have hs := h.sort y hy hn
  have hlen := hs.len
  have hfN := h.fN
  have hN0 := h.N0
  have hin : ∀ t, ∀ i ∈ selList d.flips (d.sort y) t, y.getD i .nan ≠ .nan := fun t i hi => (ys_ok h hy hn i (sel_in h hy hn hi)).2
  refine close h hy (fun v hv => (ChaseSoft h hh hy hn hv hex hin)) fun x x' => C77_unique (hard_bits y)
where
  ChaseSoft {d : Dec} (h : Ok d) (hh : d.hamming = false) {y : List Fl} (hy : y.length = d.N) (hn : ∀ b ∈ y, b ≠ .nan) {v : List Int} (hv : v.length = d.N)
      (hex : ∃ x, Near d.c.isCw (d.tested y) (hard y) x ∧ Fl.lt (fcost y (diff (d.tested y) x (hard y))) fltMax = true)
      (hin : ∀ t, ∀ i ∈ selList d.flips (d.sort y) t, y.getD i .nan ≠ .nan) :
      (d.sihoCw y v).Sat fun r => FirstBest (fun a b => Fl.lt a b = true) (fcost y) d.c.isCw (d.tested y) (hard y) r.2 ∧ r.2.length = d.N := by
    have hs := h.sort y hy hn
    have hlen := hs.len
    have hfN := h.fN
    have hN0 := h.N0
    refine (soft_sat h hh hy hn hv).mono fun r hr => ⟨hr.best h hy hn (fun t => ?_) (fun t t0 t1 => ?_) hex, by rw [hr.len.1, hard_length, hy]⟩
    · exact nn_lt_zero (fcost_nn (hin t))
    · refine fcost_ge (selList_ne t0 t1) (hin t) (ys_ok h hy hn _ ?_).2 fun i hi => ?_
      · rw [getD_lt _ (by omega)]; exact List.getElem_mem _
      · obtain ⟨b, hb, -, rfl⟩ := selList_mem hi
        by_cases b0 : b = 0
        · subst b0; exact lt_irr _
        · exact hs.sorted 0 b (by omega) (by omega) (by omega)

/-- **C77** (Hamming option).  The same with the number of bits that are changed. -/
theorem C77_hamming {d : Dec} (hr : Reach d) (hh : d.hamming = true) {y : List Fl} (hy : y.length = d.N) (hn : ∀ b ∈ y, b ≠ .nan)
    (hex : ∃ x, Near d.c.isCw (d.tested y) (hard y) x) :
    ∃ x, FirstBest (· < ·) List.length d.c.isCw (d.tested y) (hard y) x ∧ (∀ v, v.length = d.N → ∃ d', d.sihoCw y v = ok (d', x)) ∧
      (d.c.sys = true → ∀ v, v.length = d.K → ∃ d', d.siho y v = ok (d', infoOf d.c x)) := by
  have h := hr.ok
  have hlen := (h.sort y hy hn).len
  have hfN := h.fN
  have hf := h.f31
  refine close h hy (fun v hv => ?_) fun x x' => C77_unique (hard_bits y)
  refine (ham_sat h hh hy hn hv).mono fun r hr => ⟨?_, by rw [hr.len.1, hard_length, hy]⟩
  have := hr.best h hy hn (fun t => by simp) (fun t t0 t1 => ?_) ?_
  · simpa only [decide_eq_true_eq] using this
  · have := List.length_pos_iff.mpr (selList_ne (l := d.sort y) t0 t1)
    rw [decide_eq_false_iff_not, List.length_singleton]
    omega
  · obtain ⟨x, hx⟩ := hex
    refine ⟨x, hx, ?_⟩
    rw [decide_eq_true_eq]
    have : (diff (d.tested y) x (hard y)).length ≤ d.flips := by
      unfold diff Dec.tested
      refine (List.length_filter_le _ _).trans ?_
      rw [List.length_take]
      omega
    omega

/-- **C77** (no error).  If the hard decisions are a codeword, they are the result. -/
theorem C77_codeword {d : Dec} (hr : Reach d) {y : List Fl} (hy : y.length = d.N) (hn : ∀ b ∈ y, b ≠ .nan) (hc : d.c.isCw (hard y) = true) :
    (∀ v, v.length = d.N → ∃ d', d.sihoCw y v = ok (d', hard y)) ∧ (d.c.sys = true → ∀ v, v.length = d.K → ∃ d', d.siho y v = ok (d', infoOf d.c (hard y))) := by
  have h := hr.ok
  have key : ∀ v, v.length = d.N → d.sihoCw y v = ok (d, hard y) := by
    intro v hv
    unfold Dec.sihoCw
    rw [harden_eq hy hv, bind_ok, if_neg]
    rw [hc]
    simp
  exact ⟨fun v hv => ⟨d, key v hv⟩, fun hs v hv => ⟨_, siho_of h hs hv (key _ h.bx) (by rw [hard_length, hy])⟩⟩

/-- **C77** (not systematic).  The message is refused. -/
theorem C77_refused {d : Dec} (hs : d.c.sys = false) (y : List Fl) (v : List Int) : d.siho y v = exc .invalidArgument := by
  unfold Dec.siho
  rw [hs]
  rfl

/-! ## Correlation -/

theorem sum_filter (l : List Nat) (P : Nat → Bool) (f : Nat → Int) : (l.map fun i => if P i then f i else 0).sum = ((l.filter P).map f).sum := by
  induction l with
  | nil => rfl
  | cons a l ih =>
    rw [List.map_cons, List.sum_cons, ih]
    by_cases h : P a = true
    · rw [if_pos h, List.filter_cons_of_pos h, List.map_cons, List.sum_cons]
    · rw [if_neg h, List.filter_cons_of_neg h, zero_add]

theorem corr_range (x y : List Int) (h : x.length = y.length) :
    corr x y = ((List.range y.length).map fun i => if x.getD i 0 ≠ 0 then -(y.getD i 0) else y.getD i 0).sum := by
  unfold corr
  congr 1
  apply List.ext_getElem (by simp; omega)
  intro i h1 h2
  simp only [List.length_map, List.length_range] at h2
  rw [List.getElem_zipWith, List.getElem_map, List.getElem_range, getD_lt _ (by omega), getD_lt _ h2]

theorem hard_getD {y : List Int} {i : Nat} (hi : i < y.length) : (hard (ofInts y)).getD i 0 = if y.getD i 0 < 0 then 1 else 0 := by
  rw [getD_lt _ (by unfold hard ofInts; simpa using hi), getD_lt _ hi]
  unfold hard ofInts
  simp [Fl.lt]

theorem corr_diff {isCw : List Int → Bool} {l : List Nat} (hl : l.Nodup) {y x : List Int} (hlt : ∀ i ∈ l, i < y.length) (hx : Near isCw l (hard (ofInts y)) x) :
    corr x y = corr (hard (ofInts y)) y - 2 * ((diff l x (hard (ofInts y))).map fun i => |y.getD i 0|).sum := by
  obtain ⟨x1, x2, -, x4⟩ := hx
  have hhl : (hard (ofInts y)).length = y.length := by unfold hard ofInts; simp
  rw [hhl] at x2
  have hperm : (diff l x (hard (ofInts y))).Perm ((List.range y.length).filter fun i => x.getD i 0 ≠ (hard (ofInts y)).getD i 0) := by
    refine (List.perm_ext_iff_of_nodup (hl.filter _) (List.nodup_range.filter _)).mpr fun i => ?_
    rw [List.mem_filter, List.mem_filter, List.mem_range]
    constructor
    · rintro ⟨a, b⟩; exact ⟨hlt i a, b⟩
    · rintro ⟨a, b⟩
      refine ⟨?_, b⟩
      by_contra hc
      rw [decide_eq_true_eq] at b
      exact b (x4 i hc)
  rw [(hperm.map _).sum_eq, ← sum_filter, corr_range x y x2, corr_range _ y hhl]
  have : ∀ (r : List Nat), (∀ i ∈ r, i < y.length) → (r.map fun i => if x.getD i 0 ≠ 0 then -(y.getD i 0) else y.getD i 0).sum =
      (r.map fun i => if (hard (ofInts y)).getD i 0 ≠ 0 then -(y.getD i 0) else y.getD i 0).sum -
      2 * (r.map fun i => if decide (x.getD i 0 ≠ (hard (ofInts y)).getD i 0) = true then |y.getD i 0| else 0).sum := by
    intro r
    induction r with
    | nil => intro _; rfl
    | cons i r ih =>
      intro hr
      rw [List.map_cons, List.sum_cons, List.map_cons, List.sum_cons, List.map_cons, List.sum_cons, ih fun j hj => hr j (List.mem_cons_of_mem _ hj)]
      have hi := hr i List.mem_cons_self
      have hb := getD_bits x1 i
      rw [hard_getD hi]
      generalize x.getD i 0 = a at hb ⊢
      generalize y.getD i 0 = b
      generalize (r.map fun i => if (hard (ofInts y)).getD i 0 ≠ 0 then -(y.getD i 0) else y.getD i 0).sum = S1
      generalize (r.map fun i => if decide (x.getD i 0 ≠ (hard (ofInts y)).getD i 0) = true then |y.getD i 0| else 0).sum = S2
      by_cases hneg : b < 0
      · rcases hb with rfl | rfl
        · simp only [hneg, abs_of_neg hneg]; simp; omega
        · simp only [hneg, abs_of_neg hneg]; simp; omega
      · rcases hb with rfl | rfl
        · simp only [hneg, abs_of_nonneg (not_lt.mp hneg)]; simp; omega
        · simp only [hneg, abs_of_nonneg (not_lt.mp hneg)]; simp; omega
  exact this _ fun i hi => List.mem_range.mp hi

theorem fcost_int {B : Int} {y : List Int} (hb : ∀ v ∈ y, |v| ≤ B) (is : List Nat) (hi : ∀ i ∈ is, i < y.length) (hB : (is.length : Int) * B < 2 ^ 24) :
    fcost (ofInts y) is = .fin (((is.map fun i => |y.getD i 0|).sum : Int) : ℚ) ∧ 0 ≤ (is.map fun i => |y.getD i 0|).sum ∧ (is.map fun i => |y.getD i 0|).sum ≤ is.length * B := by
  induction is using List.reverseRecOn with
  | nil => exact ⟨by simp [fcost], by simp, by simp⟩
  | append_singleton is i ih =>
    have him := hi i (by simp)
    have hv := hb (y.getD i 0) (by rw [getD_lt _ him]; exact List.getElem_mem _)
    have hv0 := abs_nonneg (y.getD i 0)
    rw [List.length_append, List.length_singleton] at hB ⊢
    push_cast at hB ⊢
    obtain ⟨i1, i2, i3⟩ := ih (fun j hj => hi j (List.mem_append_left _ hj)) (by nlinarith)
    have e : fcost (ofInts y) (is ++ [i]) = b32.add (fcost (ofInts y) is) ((ofInts y).getD i .nan).abs := by unfold fcost; rw [List.foldl_append]; rfl
    have e2 : (ofInts y).getD i .nan = .fin ((y.getD i 0 : Int) : ℚ) := by
      rw [getD_lt _ (by rw [show (ofInts y).length = y.length by unfold ofInts; simp]; exact him), getD_lt _ him]; unfold ofInts; simp
    have e3 : ((is ++ [i]).map fun i => |y.getD i 0|).sum = (is.map fun i => |y.getD i 0|).sum + |y.getD i 0| := by simp
    have hof : ∀ z : Int, |z| < 2 ^ 24 → b32.of (z : ℚ) = .fin z := fun z hz => of_rep b32 (rep_int b32 z hz (by decide) (by decide))
    refine ⟨?_, by rw [e3]; omega, by rw [e3]; nlinarith⟩
    rw [e, i1, e2, e3, ← hof ((is.map fun i => |y.getD i 0|).sum + |y.getD i 0|) (by rw [abs_of_nonneg (by omega)]; nlinarith)]
    simp only [Fl.abs, Fmt.add]
    congr 1
    push_cast
    rfl

/-- **C77** (integer inputs).  For quantized inputs of magnitude at most `B` with `max_flips B < 2 ^ 24`, the result has the greatest
correlation with what is received among the codewords that differ from the hard decisions only at tested positions. -/
theorem C77_int {d : Dec} (hr : Reach d) (hh : d.hamming = false) {y : List Int} (hy : y.length = d.N) {B : Int} (hb : ∀ v ∈ y, |v| ≤ B)
    (hB : (d.flips : Int) * B < 2 ^ 24) (hex : ∃ x, Near d.c.isCw (d.tested (ofInts y)) (hard (ofInts y)) x) :
    ∃ x, Near d.c.isCw (d.tested (ofInts y)) (hard (ofInts y)) x ∧ (∀ x', Near d.c.isCw (d.tested (ofInts y)) (hard (ofInts y)) x' → corr x' y ≤ corr x y) ∧
      (∀ v, v.length = d.N → ∃ d', d.sihoCw (ofInts y) v = ok (d', x)) ∧
      (d.c.sys = true → ∀ v, v.length = d.K → ∃ d', d.siho (ofInts y) v = ok (d', infoOf d.c x)) := by
  have hol : (ofInts y).length = d.N := by unfold ofInts; rw [List.length_map, hy]
  have hnan : ∀ b ∈ ofInts y, b ≠ .nan := by
    intro b hb
    unfold ofInts at hb
    obtain ⟨v, -, rfl⟩ := List.mem_map.mp hb
    simp
  obtain ⟨t1, t2, t3⟩ := C77_tested hr hol hnan
  have hlt : ∀ i ∈ d.tested (ofInts y), i < y.length := fun i hi => by rw [hy]; exact (t3 i hi).1
  have hdl : ∀ x, ((diff (d.tested (ofInts y)) x (hard (ofInts y))).length : Int) * B < 2 ^ 24 := by
    intro x
    have hle : (diff (d.tested (ofInts y)) x (hard (ofInts y))).length ≤ d.flips := by
      rw [← t1]; exact List.length_filter_le _ _
    have hB0 : 0 ≤ B := by
      have := hr.ok.N0
      exact (abs_nonneg _).trans (hb y[0] (List.getElem_mem (by omega)))
    have : ((diff (d.tested (ofInts y)) x (hard (ofInts y))).length : Int) ≤ d.flips := by exact_mod_cast hle
    nlinarith
  have hfc := fun x => fcost_int hb (diff (d.tested (ofInts y)) x (hard (ofInts y))) (fun i hi => hlt i (List.mem_of_mem_filter hi)) (hdl x)
  obtain ⟨x0, hx0⟩ := hex
  obtain ⟨x, ⟨f1, f2⟩, h2, h3⟩ := C77_soft hr hh hol hnan ⟨x0, hx0, by
    rw [(hfc x0).1, fltMax]
    simp only [Fl.lt, decide_eq_true_eq]
    have := lt_of_le_of_lt (hfc x0).2.2 (hdl x0)
    have : (((diff (d.tested (ofInts y)) x0 (hard (ofInts y))).map fun i => |y.getD i 0|).sum : ℚ) < ((2 ^ 24 : Int) : ℚ) := by exact_mod_cast this
    push_cast at this
    refine lt_of_lt_of_le this (by norm_num)⟩
  refine ⟨x, f1, fun x' hx' => ?_, h2, h3⟩
  have := (f2 x' hx').1
  simp only at this
  rw [(hfc x').1, (hfc x).1] at this
  simp only [Fl.lt, decide_eq_true_eq, Int.cast_lt] at this
  rw [corr_diff t2 hlt hx', corr_diff t2 hlt f1]
  omega

/-- **C77** (every position tested).  If `max_flips = N`, the decoder is a maximum likelihood decoder. -/
theorem C77_all {d : Dec} (hr : Reach d) (hh : d.hamming = false) (hf : d.flips = d.N) {y : List Int} (hy : y.length = d.N) {B : Int} (hb : ∀ v ∈ y, |v| ≤ B)
    (hB : (d.flips : Int) * B < 2 ^ 24) (hex : ∃ x, IsBits x ∧ x.length = d.N ∧ d.c.isCw x = true) :
    ∃ x, IsBits x ∧ x.length = d.N ∧ d.c.isCw x = true ∧ (∀ x', IsBits x' → x'.length = d.N → d.c.isCw x' = true → corr x' y ≤ corr x y) ∧
      (∀ v, v.length = d.N → ∃ d', d.sihoCw (ofInts y) v = ok (d', x)) := by
  have hol : (ofInts y).length = d.N := by unfold ofInts; rw [List.length_map, hy]
  have hnan : ∀ b ∈ ofInts y, b ≠ .nan := by
    intro b hb
    unfold ofInts at hb
    obtain ⟨v, -, rfl⟩ := List.mem_map.mp hb
    simp
  obtain ⟨t1, t2, t3⟩ := C77_tested hr hol hnan
  have hhl : (hard (ofInts y)).length = d.N := by rw [hard_length, hol]
  have hmem : ∀ i, i < d.N → i ∈ d.tested (ofInts y) := by
    intro i hi
    have hperm : (d.tested (ofInts y)).Perm (List.range d.N) :=
      (List.subperm_of_subset t2 fun i hi => List.mem_range.mpr (t3 i hi).1).perm_of_length_le (by rw [List.length_range]; omega)
    exact hperm.mem_iff.mpr (List.mem_range.mpr hi)
  have hall : ∀ x, IsBits x → x.length = d.N → d.c.isCw x = true → Near d.c.isCw (d.tested (ofInts y)) (hard (ofInts y)) x := by
    intro x x1 x2 x3
    refine ⟨x1, by rw [x2, hhl], x3, fun i hi => ?_⟩
    have : d.N ≤ i := by by_contra hc; exact hi (hmem i (by omega))
    rw [List.getD_eq_getElem?_getD, List.getD_eq_getElem?_getD, List.getElem?_eq_none (by omega), List.getElem?_eq_none (by omega)]
  obtain ⟨x0, a1, a2, a3⟩ := hex
  obtain ⟨x, ⟨b1, b2, b3, -⟩, h1, h2, -⟩ := C77_int hr hh hy hb hB ⟨x0, hall x0 a1 a2 a3⟩
  exact ⟨x, b1, by rw [b2, hhl], b3, fun x' c1 c2 c3 => h1 x' (hall x' c1 c2 c3), h2⟩

/-! ## Defects -/

/-- **C78** (stale test).  If no codeword differs from the hard decisions only at tested positions, the test found for a previous frame
is applied to this one. -/
theorem C78_stale {d : Dec} (hr : Reach d) {y : List Fl} (hy : y.length = d.N) (hn : ∀ b ∈ y, b ≠ .nan) (hf : 0 < d.flips)
    (hex : ∀ x, ¬ Near d.c.isCw (d.tested y) (hard y) x) {v : List Int} (hv : v.length = d.N) :
    ∃ d' x, d.sihoCw y v = ok (d', x) ∧ d'.best = d.best ∧ rank (d.tested y) x (hard y) = d.best ∧ ∀ i, i ∉ d.tested y → x.getD i 0 = (hard y).getD i 0 := by
  have h := hr.ok
  have hs := h.sort y hy hn
  have hlen := hs.len
  have hfN := h.fN
  have hp : d.flips ≤ (d.sort y).length := by omega
  have hxl : ∀ i ∈ d.sort y, i < (hard y).length := fun i hi => by rw [hard_length, hy]; exact hs.lt i hi
  have hno : ∀ t, d.c.isCw (app d.flips (d.sort y) t (hard y)) = false := by
    intro t
    by_contra hc
    exact hex _ (near_app hp (hard_bits y) hxl (by simpa using hc))
  have fin : ∀ {D : Type} {lt : D → D → Bool} {cost : List Nat → D} {top : D} {r : Dec × List Int}, Res lt cost top d (d.sort y) (hard y) r →
      r.1.best = d.best ∧ r.2 = app d.flips (d.sort y) d.best (hard y) := by
    intro D lt cost top r hr
    cases hr with
    | plain _ hc =>
      rcases hc with hc | hc
      · have := hno 0
        rw [app_test_zero, hc] at this; cases this
      · omega
    | one _ _ hc _ => rw [hno] at hc; cases hc
    | more e _ _ _ h1 h2 =>
      cases h2 with
      | none h2 _ =>
        simp only [Prod.mk.injEq] at h2
        refine ⟨h2.2, ?_⟩
        rw [← h2.2]
        exact congrArg Prod.snd h1
      | some _ _ h2 _ _ _ => rw [hno] at h2; cases h2
  have out : ∀ r : Dec × List Int, r.1.best = d.best ∧ r.2 = app d.flips (d.sort y) d.best (hard y) → d.sihoCw y v = ok r →
      ∃ d' x, d.sihoCw y v = ok (d', x) ∧ d'.best = d.best ∧ rank (d.tested y) x (hard y) = d.best ∧ ∀ i, i ∉ d.tested y → x.getD i 0 = (hard y).getD i 0 := by
    rintro ⟨d', x⟩ ⟨r1, r2⟩ e
    refine ⟨d', x, e, r1, ?_, fun i hi => ?_⟩
    · simp only at r2; subst r2; exact rank_app hs.nodup hp h.best hxl
    · simp only at r2
      subst r2
      by_cases hil : i < (hard y).length
      · rw [app_getD hil, sel_out hp hi]; rfl
      · rw [List.getD_eq_getElem?_getD, List.getD_eq_getElem?_getD, List.getElem?_eq_none (by rw [app_length]; omega), List.getElem?_eq_none (by omega)]
  cases hh : d.hamming
  · obtain ⟨r, e, p⟩ := soft_sat h hh hy hn hv
    exact out r (fin p) e
  · obtain ⟨r, e, p⟩ := ham_sat h hh hy hn hv
    exact out r (fin p) e

/-- A sort of the positions. -/
def sorter (y : List Fl) : List Nat :=
  (List.range y.length).insertionSort fun a b => Fl.lt (y.getD b (.fin 0)).abs (y.getD a (.fin 0)).abs = false

theorem sorter_ok (p : Nat) {y : List Fl} (hn : ∀ b ∈ y, b ≠ .nan) : LeastReliable p y.length y (sorter y) := by
  have hnn : ∀ i, NN (y.getD i (.fin 0)).abs := by
    intro i
    by_cases hi : i < y.length
    · rw [getD_lt _ hi]; exact abs_nn (hn _ (List.getElem_mem _))
    · rw [List.getD_eq_getElem?_getD, List.getElem?_eq_none (by omega)]; exact abs_nn (by simp)
  let r : Nat → Nat → Prop := fun a b => Fl.lt (y.getD b (.fin 0)).abs (y.getD a (.fin 0)).abs = false
  haveI : Std.Total r := ⟨fun a b => by
    by_contra hc
    push_neg at hc
    have h1 : Fl.lt (y.getD b (.fin 0)).abs (y.getD a (.fin 0)).abs = true := by simpa [r] using hc.1
    have h2 : Fl.lt (y.getD a (.fin 0)).abs (y.getD b (.fin 0)).abs = true := by simpa [r] using hc.2
    have := lt_trans' _ _ _ h1 h2
    rw [lt_irr] at this
    cases this⟩
  haveI : IsTrans Nat r := ⟨fun a b c h1 h2 => by
    show Fl.lt _ _ = false
    by_contra hc
    have hc : Fl.lt (y.getD c (.fin 0)).abs (y.getD a (.fin 0)).abs = true := by simpa using hc
    have := lt_cot _ (nn_ne (hnn b)) _ _ hc h1
    rw [show Fl.lt (y.getD c (.fin 0)).abs (y.getD b (.fin 0)).abs = false from h2] at this
    cases this⟩
  have hperm : (sorter y).Perm (List.range y.length) := List.perm_insertionSort _ _
  have hlt : ∀ i ∈ sorter y, i < y.length := fun i hi => List.mem_range.mp (hperm.mem_iff.mp hi)
  have hlen : (sorter y).length = y.length := by rw [hperm.length_eq, List.length_range]
  refine ⟨hlen, hperm.nodup_iff.mpr List.nodup_range, hlt, fun a b ha hab hb => ?_⟩
  have hpw : (sorter y).Pairwise r := List.pairwise_insertionSort r _
  have := List.pairwise_iff_getElem.mp hpw a b (by omega) (by omega) hab
  have l1 := hlt _ (List.getElem_mem (show a < (sorter y).length by omega))
  have l2 := hlt _ (List.getElem_mem (show b < (sorter y).length by omega))
  have e : ∀ i, i < y.length → y.getD i .nan = y.getD i (.fin 0) := fun i hi => by rw [getD_lt _ hi, getD_lt _ hi]
  rw [getD_lt 0 (show a < (sorter y).length by omega), getD_lt 0 (show b < (sorter y).length by omega), e _ l1, e _ l2]
  exact this

/-- The repetition code of 4 bits. -/
def rep4 : Coder := ⟨1, 4, fun u => List.replicate 4 (u.getD 0 0), fun x => decide (x = [0, 0, 0, 0] ∨ x = [1, 1, 1, 1]), true, [0]⟩

theorem rep4_good : rep4.Good := ⟨fun _ _ _ => rfl, rfl, by decide⟩

/-- A decoder of the repetition code with two flips. -/
def dec4 : Dec := ⟨1, 4, rep4, 2, false, sorter, [0, 0, 0, 0], 0⟩

theorem dec4_reach : Reach dec4 :=
  .make (K := 1) (N := 4) (c := rep4) (flips := 2) (hamming := false) (sort := sorter) rfl rfl rep4_good (fun y hy hn => by rw [show (4 : Int).toNat = y.length from hy.symm]; exact sorter_ok 2 hn) rfl

theorem out_ok {x : Exec (Dec × List Int)} {u : List Int} (h : x.toOption.map (·.2) = some u) : ∃ d', x = ok (d', u) := by
  cases x with
  | ok r => cases h; exact ⟨r.1, rfl⟩
  | exc e => cases h
  | ub => cases h

/-- **C78** (history).  The same input gives different words according to the previous frame: 0 0 0 1 by a new decoder, 0 1 0 1 after a
frame whose second least reliable bit was wrong. -/
theorem C78_history : ∃ d d1, Reach d ∧ d.c = rep4 ∧ (∃ x, d.sihoCw (ofInts [-2, 1, 3, 4]) [0, 0, 0, 0] = ok (d1, x)) ∧
    (∃ d', d.sihoCw (ofInts [1, 2, 3, -4]) [0, 0, 0, 0] = ok (d', [0, 0, 0, 1])) ∧ ∃ d', d1.sihoCw (ofInts [1, 2, 3, -4]) [0, 0, 0, 0] = ok (d', [0, 1, 0, 1]) := by
  obtain ⟨d1, e1⟩ := out_ok (show (dec4.sihoCw (ofInts [-2, 1, 3, 4]) [0, 0, 0, 0]).toOption.map (·.2) = some [0, 0, 0, 0] by decide +kernel)
  refine ⟨dec4, d1, dec4_reach, rfl, ⟨_, e1⟩, out_ok (by decide +kernel), out_ok ?_⟩
  have h2 : ((dec4.sihoCw (ofInts [-2, 1, 3, 4]) [0, 0, 0, 0]).toOption.bind fun p => (p.1.sihoCw (ofInts [1, 2, 3, -4]) [0, 0, 0, 0]).toOption.map (·.2)) = some [0, 1, 0, 1] := by
    decide +kernel
  rw [e1] at h2
  exact h2

/-! ## The hypotheses are met -/

example : ∃ d, Reach d ∧ d.hamming = false ∧ (∀ v ∈ [-2, 1, 3, 4], |v| ≤ (4 : Int)) ∧ (d.flips : Int) * 4 < 2 ^ 24 ∧
    ∃ x, Near d.c.isCw (d.tested (ofInts [-2, 1, 3, 4])) (hard (ofInts [-2, 1, 3, 4])) x ∧
      Fl.lt (fcost (ofInts [-2, 1, 3, 4]) (diff (d.tested (ofInts [-2, 1, 3, 4])) x (hard (ofInts [-2, 1, 3, 4])))) fltMax = true := by
  refine ⟨dec4, dec4_reach, rfl, by decide, by decide, [0, 0, 0, 0], ⟨by unfold IsBits; decide, rfl, rfl, fun i hi => ?_⟩, by decide +kernel⟩
  have ht : dec4.tested (ofInts [-2, 1, 3, 4]) = [1, 0] := by decide +kernel
  have hh : hard (ofInts [-2, 1, 3, 4]) = [1, 0, 0, 0] := by decide +kernel
  rw [ht] at hi
  rw [hh]
  rcases i with _ | _ | _ | _ | i <;> first | rfl | (simp at hi)

example : ∀ x, ¬ Near dec4.c.isCw (dec4.tested (ofInts [1, 2, 3, -4])) (hard (ofInts [1, 2, 3, -4])) x := by
  rintro x ⟨-, -, h3, h4⟩
  have ht : dec4.tested (ofInts [1, 2, 3, -4]) = [0, 1] := by decide +kernel
  have hh : hard (ofInts [1, 2, 3, -4]) = [0, 0, 0, 1] := by decide +kernel
  rw [ht, hh] at h4
  have h2 := h4 2 (by decide)
  have h3' := h4 3 (by decide)
  have : x = [0, 0, 0, 0] ∨ x = [1, 1, 1, 1] := by simpa [dec4, rep4] using h3
  rcases this with rfl | rfl
  · simp at h3'
  · simp at h2

end Verif.Chase
