import Verif.Spec.LDPCBF
import Verif.Proof.LDPCBP
import Verif.Proof.Extractor
import Mathlib.Tactic.SplitIfs

namespace Verif.LDPCBF
open Exec Verif.Sparse Verif.Float Verif.LDPCBP

variable {R : Type}

/-! ## Loops -/

theorem forEach_foldl {α σ : Type} {l : List α} {f : α → σ → Exec σ} {g : σ → α → σ} {s : σ} (h : ∀ a ∈ l, ∀ s, f a s = ok (g s a)) :
    forEach l f s = ok (l.foldl g s) := by
  induction l generalizing s with
  | nil => rfl
  | cons a l ih =>
    rw [forEach_cons, h a (by simp) s, bind_ok, ih fun b hb => h b (by simp [hb])]
    rfl

theorem fold_rd {α σ : Type} {l : List α} {n : Nat} {f : α → σ → Exec σ} {g : σ → α → σ} {s : σ} (hn : n = l.length)
    (h : ∀ a ∈ l, ∀ s, f a s = ok (g s a)) : forN n (fun j s => rd l j >>= fun a => f a s) s = ok (l.foldl g s) := by
  rw [hn, forN_rd l f s, forEach_foldl h]

theorem frameOf_length {α : Type} (n : Nat) (y : Nat → α) : (frameOf n y).length = n := by simp [frameOf]

theorem rd_frame {α : Type} {n v : Nat} (y : Nat → α) (h : v < n) : rd (frameOf n y) v = ok (y v) := by
  apply rd_eq
  unfold frameOf
  rw [getElem?_mapRange, if_pos h]

theorem rd_col {H : Mat} {A : Conns} (h : Represents H A) {c : Nat} (hc : c < A.cols) : rd H.c2r c = ok (vars H c) := by
  have : c < H.c2r.length := by rw [h.c2r_length]; exact hc
  rw [rd_lt this, vars, getD_lt _ this]

theorem rd_row {H : Mat} {A : Conns} (h : Represents H A) {v : Nat} (hv : v < A.rows) : rd H.r2c v = ok (rowOf H v) := by
  have : v < H.r2c.length := by rw [h.r2c_length]; exact hv
  rw [rd_lt this, rowOf, getD_lt _ this]

theorem vars_lt {H : Mat} {A : Conns} (h : Represents H A) {c v : Nat} (hv : v ∈ vars H c) : v < A.rows :=
  (h.range _ ((mem_vars h c v).1 hv)).1

theorem row_lt {H : Mat} {A : Conns} (h : Represents H A) {c v : Nat} (hc : c ∈ rowOf H v) : c < A.cols :=
  (h.range _ ((mem_rowOf h v c).1 hc)).2

theorem parity_vars {H : Mat} {A : Conns} (h : Represents H A) (x : Nat → Bool) (c : Nat) :
    parity x (vars H c) = !decide (Satisfied A x c) := by
  have := parity_satisfied (nodup_vars h c) (fun i => mem_vars h c i) h.range x
  cases e : parity x (vars H c)
  · simp [this.1 e]
  · have : ¬ Satisfied A x c := fun hs => by rw [this.2 hs] at e; cases e
    simp [this]

theorem foldl_congr' {α β : Type} {f g : β → α → β} {l : List α} (h : ∀ a ∈ l, ∀ b, f b a = g b a) (b : β) : l.foldl f b = l.foldl g b := by
  induction l generalizing b with
  | nil => rfl
  | cons a l ih => rw [List.foldl_cons, List.foldl_cons, h a (by simp), ih fun c hc => h c (by simp [hc])]

theorem range_ok {n : Nat} {x y : Nat → Bool} (h : ∀ v, v < n → x v = y v) : frameOf n x = frameOf n y := by
  unfold frameOf
  apply List.map_congr_left
  intro v hv
  exact h v (List.mem_range.1 hv)

/-! ## The words -/

theorem satisfied_cong {A : Conns} {x y : Nat → Bool} (h : ∀ v, v < A.rows → x v = y v) (c : Nat) : Satisfied A x c ↔ Satisfied A y c := by
  unfold Satisfied
  have : ((Finset.range A.rows).filter fun v => (v, c) ∈ A.set ∧ x v = true) =
      (Finset.range A.rows).filter fun v => (v, c) ∈ A.set ∧ y v = true := by
    apply Finset.filter_congr
    intro v hv
    rw [h v (Finset.mem_range.1 hv)]
  rw [this]

theorem codeword_cong {A : Conns} {x y : Nat → Bool} (h : ∀ v, v < A.rows → x v = y v) : Codeword A x ↔ Codeword A y := by
  constructor
  · intro hx c hc; exact (satisfied_cong h c).1 (hx c hc)
  · intro hx c hc; exact (satisfied_cong h c).2 (hx c hc)

theorem parity_xor (x y : Nat → Bool) (l : List Nat) : parity (fun v => x v ^^ y v) l = (parity x l ^^ parity y l) := by
  induction l using List.reverseRecOn with
  | nil => rfl
  | append_singleton l a ih =>
    rw [parity_append, parity_append, parity_append, ih]
    cases parity x l <;> cases parity y l <;> cases x a <;> cases y a <;> rfl

theorem satisfied_xor {H : Mat} {A : Conns} (h : Represents H A) {x z : Nat → Bool} (hz : Codeword A z) {c : Nat} (hc : c < A.cols) :
    Satisfied A (fun v => x v ^^ z v) c ↔ Satisfied A x c := by
  have h1 := parity_satisfied (nodup_vars h c) (fun i => mem_vars h c i) h.range (fun v => x v ^^ z v)
  have h2 := parity_satisfied (nodup_vars h c) (fun i => mem_vars h c i) h.range x
  have h3 := (parity_satisfied (nodup_vars h c) (fun i => mem_vars h c i) h.range z).2 (hz c hc)
  rw [← h1, ← h2, parity_xor, h3]
  simp

theorem codeword_xor {H : Mat} {A : Conns} (h : Represents H A) {x z : Nat → Bool} (hz : Codeword A z) :
    Codeword A (fun v => x v ^^ z v) ↔ Codeword A x := by
  constructor
  · intro hx c hc; exact (satisfied_xor h hz hc).1 (hx c hc)
  · intro hx c hc; exact (satisfied_xor h hz hc).2 (hx c hc)

/-! ## Weighted bit flipping -/

/-- What the calls keep. -/
structure Soft.WF (A : Conns) (H : Mat) (f : R) (n : Int) (info : List Nat) (d : Soft R) : Prop where
  hH : d.H = H
  hN : d.N = A.rows
  pos : 0 < A.rows
  hf : d.factor = f
  hn : d.nIte = n
  hi : d.info = info
  hK : info.length = d.K
  nv : d.nv = H.c2r.map fun l => l.length % 256
  np : d.np = H.r2c.map fun l => l.length % 256
  lp : d.lp.length = A.rows
  ym : d.ymin.length = A.cols
  de : d.decis.length = A.rows
  sy : d.synd.length = A.cols
  en : d.energy.length = A.rows

theorem Soft.wf_mk {o : Arith R} {A : Conns} {H : Mat} (h : Represents H A) {f : R} {n : Int} {info : List Nat} {char8 enable : Bool}
    {K N depth : Int} {d : Soft R} (e : Soft.mk? o char8 K N n H info f enable depth = ok d) : d.WF A H f n info := by
  unfold Soft.mk? at e
  by_cases h1 : K ≤ 0; · rw [if_pos h1] at e; cases e
  by_cases h2 : N ≤ 0; · rw [if_neg h1, if_pos h2] at e; cases e
  by_cases h3 : K > N; · rw [if_neg h1, if_neg h2, if_pos h3] at e; cases e
  by_cases h4 : (!checkLUT info K.toNat) = true; · rw [if_neg h1, if_neg h2, if_neg h3, if_pos h4] at e; cases e
  by_cases h5 : depth ≤ 0; · rw [if_neg h1, if_neg h2, if_neg h3, if_neg h4, if_pos h5] at e; cases e
  by_cases h6 : N ≠ H.nRows; · rw [if_neg h1, if_neg h2, if_neg h3, if_neg h4, if_neg h5, if_pos h6] at e; cases e
  by_cases h7 : char8 = true; · rw [if_neg h1, if_neg h2, if_neg h3, if_neg h4, if_neg h5, if_neg h6, if_pos h7] at e; cases e
  rw [if_neg h1, if_neg h2, if_neg h3, if_neg h4, if_neg h5, if_neg h6, if_neg h7] at e
  cases e
  have hr := h.nRows
  have hc := h.nCols
  have hl : info.length = K.toNat := by
    unfold checkLUT at h4
    simp only [Bool.not_eq_true', Bool.not_eq_false, Bool.and_eq_true, Bool.or_eq_true, decide_eq_true_eq] at h4
    rcases h4.1 with h | h
    · omega
    · exact h
  exact ⟨rfl, show N.toNat = A.rows by omega, by omega, rfl, rfl, rfl, hl, rfl, rfl, by simp; omega, by simp; omega, by simp; omega,
    by simp; omega, by simp; omega⟩

section
variable {o : Arith R} {A : Conns} {H : Mat} {f : R} {n : Int} {info : List Nat}

theorem rd_nv (h : Represents H A) (hs : SmallDegrees A) {d : Soft R} (w : d.WF A H f n info) {c : Nat} (hc : c < A.cols) :
    rd d.nv c = ok (vars H c).length := by
  have hc' : c < H.c2r.length := by rw [h.c2r_length]; exact hc
  apply rd_eq
  rw [w.nv, List.getElem?_map, List.getElem?_eq_getElem hc', Option.map_some]
  have h1 : (vars H c) = H.c2r[c] := by rw [vars, getD_lt _ hc']
  have h2 : A.colDeg c = (vars H c).length := card_col (nodup_vars h c) (fun v => mem_vars h c v)
  have h3 := hs.1 c hc
  rw [h2] at h3
  rw [← h1, Nat.mod_eq_of_lt h3]

theorem rd_np (h : Represents H A) (hs : SmallDegrees A) {d : Soft R} (w : d.WF A H f n info) {v : Nat} (hv : v < A.rows) :
    rd d.np v = ok (rowOf H v).length := by
  have hc' : v < H.r2c.length := by rw [h.r2c_length]; exact hv
  apply rd_eq
  rw [w.np, List.getElem?_map, List.getElem?_eq_getElem hc', Option.map_some]
  have h1 : (rowOf H v) = H.r2c[v] := by rw [rowOf, getD_lt _ hc']
  have h2 : A.rowDeg v = (rowOf H v).length := card_row (nodup_rowOf h v) (fun c => mem_rowOf h v c)
  have h3 := hs.2 v hv
  rw [h2] at h3
  rw [← h1, Nat.mod_eq_of_lt h3]

theorem mins_eq (h : Represents H A) (hs : SmallDegrees A) {d : Soft R} (w : d.WF A H f n info) (y : Nat → R) :
    d.mins o (frameOf A.rows y) = ok (frameOf A.cols (minMag o H y)) := by
  unfold Soft.mins
  rw [w.hH, h.nCols]
  refine Verif.Extractor.store_eq (fun m ym hm => ?_) w.ym.symm
  rw [rd_nv h hs w hm, bind_ok, rd_col h hm, bind_ok,
    fold_rd (g := fun a p => o.min a (o.abs (y p))) rfl (fun p hp s => by rw [rd_frame y (vars_lt h hp)]; rfl)]
  rfl

theorem decide0_eq {d : Soft R} (w : d.WF A H f n info) (y : Nat → R) :
    d.decide0 o (frameOf A.rows y) = ok (frameOf A.rows fun v => o.isNeg (y v)) := by
  unfold Soft.decide0
  rw [w.hN]
  refine Verif.Extractor.store_eq (fun i de hi => ?_) w.de.symm
  rw [rd_frame y hi, bind_ok]

theorem syndrome_eq (h : Represents H A) (hs : SmallDegrees A) {d : Soft R} (w : d.WF A H f n info) (x : Nat → Bool) :
    d.syndrome (frameOf A.rows x) =
      ok (frameOf A.cols (fun c => !decide (Satisfied A x c)), !decide (Codeword A x)) := by
  unfold Soft.syndrome
  rw [w.hH, h.nCols]
  obtain ⟨s, es, h1, h2, h3⟩ := forN_inv (n := A.cols) (s := (d.synd, false)) (f := fun i (s : List Bool × Bool) => do
    let len ← rd d.nv i
    let b ← forN len (fun j b => do
      let col ← rd H.c2r i
      let p ← atE col j
      let x ← rd (frameOf A.rows x) p
      ok (b ^^ x)) false
    let synd ← wr s.1 i b
    ok (synd, s.2 || b))
    (fun k (s : List Bool × Bool) => s.1.length = A.cols ∧ (∀ j : Nat, j < k → s.1[j]? = some (!decide (Satisfied A x j))) ∧
      (s.2 = false ↔ ∀ j, j < k → Satisfied A x j)) ⟨w.sy, fun j hj => absurd hj (Nat.not_lt_zero _), by simp⟩ (by
      rintro k ⟨sy, b⟩ hk ⟨h1, h2, h3⟩
      dsimp only at h1 h2 h3 ⊢
      have e : forN (vars H k).length (fun j b => do
          let col ← rd H.c2r k
          let p ← atE col j
          let x ← rd (frameOf A.rows x) p
          ok (b ^^ x)) false = ok (!decide (Satisfied A x k)) := by
        rw [forN_congr (g := fun j b => rd (vars H k) j >>= fun p => rd (frameOf A.rows x) p >>= fun x => ok (b ^^ x))]
        · rw [fold_rd (g := fun b p => b ^^ x p) rfl (fun p hp s => by rw [rd_frame x (vars_lt h hp)]; rfl)]
          exact congrArg ok (parity_vars h x k)
        · intro j b hj
          rw [rd_col h hk, bind_ok, rd_lt hj, atE, List.getElem?_eq_getElem hj]
      rw [rd_nv h hs w hk, bind_ok, e, bind_ok, wr_lt (by omega), bind_ok, sat_ok]
      refine ⟨by simpa using h1, fun j hj => ?_, ?_⟩
      · rw [List.getElem?_set]
        by_cases hj' : k = j
        · subst hj'; rw [if_pos rfl, if_pos (by omega)]
        · rw [if_neg hj', h2 j (by omega)]
      · rw [Bool.or_eq_false_iff, h3]
        constructor
        · rintro ⟨ha, hb⟩ j hj
          by_cases hj' : j = k
          · subst hj'; simpa using hb
          · exact ha j (by omega)
        · intro ha
          exact ⟨fun j hj => ha j (by omega), by simpa using ha k (by omega)⟩)
  rw [es]
  have e1 : s.1 = frameOf A.cols (fun c => !decide (Satisfied A x c)) := eq_mapRange h1 h2
  have e2 : s.2 = !decide (Codeword A x) := by
    cases hb : s.2
    · have : Codeword A x := h3.1 hb
      simp [this]
    · have : ¬ Codeword A x := fun hc => by rw [h3.2 hc] at hb; cases hb
      simp [this]
  rw [← e1, ← e2]

theorem energies_eq (h : Represents H A) (hs : SmallDegrees A) {d : Soft R} (w : d.WF A H f n info) (y : Nat → R) (x : Nat → Bool) :
    d.energies o (frameOf A.rows y) (frameOf A.cols (minMag o H y)) (frameOf A.cols fun c => !decide (Satisfied A x c)) =
      ok (frameOf A.rows (energyOf o H A f y x)) := by
  unfold Soft.energies
  rw [w.hN, w.hH, w.hf]
  refine Verif.Extractor.store_eq (fun v en hv => ?_) w.en.symm
  rw [rd_np h hs w hv, bind_ok, rd_row h hv, bind_ok,
    fold_rd (g := fun e c => o.add e (if Satisfied A x c then o.opp (minMag o H y c) else minMag o H y c)) rfl (fun c hc s => by
      rw [rd_frame _ (row_lt h hc), bind_ok, rd_frame _ (row_lt h hc), bind_ok]
      by_cases hsat : Satisfied A x c <;> simp [hsat]), bind_ok, rd_frame y hv, bind_ok]
  rfl

theorem argmax_eq {d : Soft R} (w : d.WF A H f n info) (e : Nat → R) : d.argmax o (frameOf A.rows e) = ok (worst o e (A.rows - 1)) := by
  unfold Soft.argmax
  have hp := w.pos
  rw [rd_frame e hp, bind_ok, w.hN]
  obtain ⟨s, es, h1⟩ := forRange_inv (a := 1) (b := A.rows) (s := (0, e 0)) (f := fun i (s : Nat × R) => do
    let e ← rd (frameOf A.rows e) i
    ok (if o.lt s.2 e then (i, e) else s)) (fun k s => s = (worst o e (k - 1), e (worst o e (k - 1)))) hp rfl (by
      rintro i s h1 h2 rfl
      rw [rd_frame e h2, bind_ok, sat_ok]
      obtain ⟨k, rfl⟩ : ∃ k, i = k + 1 := ⟨i - 1, by omega⟩
      simp only [Nat.add_sub_cancel, worst]
      by_cases hlt : o.lt (e (worst o e k)) (e (k + 1)) = true
      · simp [hlt]
      · simp [hlt])
  rw [es, h1]
  rfl

theorem worst_lt (o : Arith R) (e : Nat → R) (k : Nat) : worst o e k ≤ k := by
  induction k with
  | zero => exact le_refl _
  | succ k ih =>
    rw [worst]
    by_cases h : o.lt (e (worst o e k)) (e (k + 1)) = true
    · rw [if_pos h]
    · rw [if_neg h]; omega

/-- The state between two iterations. -/
structure Soft.Mid (o : Arith R) (A : Conns) (H : Mat) (f : R) (n : Int) (info : List Nat) (d d0 : Soft R) (y : Nat → R) (x : Nat → Bool) :
    Prop extends d.WF A H f n info where
  ymE : d.ymin = frameOf A.cols (minMag o H y)
  deE : d.decis = frameOf A.rows x
  sameK : d.K = d0.K
  sameE : d.enable = d0.enable

theorem process_eq (h : Represents H A) (hs : SmallDegrees A) {d0 d : Soft R} {y : Nat → R} {x : Nat → Bool}
    (w : d.Mid o A H f n info d0 y x) : (d.process o (frameOf A.rows y)).Sat fun r =>
      r.1.Mid o A H f n info d0 y (flipWorst o H A f y x) ∧ r.2 = decide (Codeword A x) := by
  unfold Soft.process
  have hlt := worst_lt o (energyOf o H A f y x) (A.rows - 1)
  have hp := w.pos
  rw [w.deE, syndrome_eq h hs w.toWF, bind_ok, w.ymE, energies_eq h hs w.toWF, bind_ok, argmax_eq w.toWF, bind_ok]
  by_cases hc : Codeword A x
  · simp only [hc, decide_true, Bool.not_true, flipIf, Bool.false_eq_true, if_false, bind_ok, sat_ok]
    refine ⟨⟨⟨w.hH, w.hN, w.pos, w.hf, w.hn, w.hi, w.hK, w.nv, w.np, w.lp, by simp [frameOf], by simp [frameOf], by simp [frameOf], by simp [frameOf]⟩,
      rfl, ?_, w.sameK, w.sameE⟩, rfl⟩
    rw [flipWorst, if_pos hc]
  · simp only [hc, decide_false, Bool.not_false, flipIf, if_true]
    rw [rd_frame x (by omega), bind_ok, wr_lt (by rw [frameOf_length]; omega), bind_ok, sat_ok]
    refine ⟨⟨⟨w.hH, w.hN, w.pos, w.hf, w.hn, w.hi, w.hK, w.nv, w.np, w.lp, by simp [frameOf], by simp [frameOf], by simp [frameOf], by simp [frameOf]⟩,
      rfl, ?_, w.sameK, w.sameE⟩, rfl⟩
    apply eq_mapRange (by simp [frameOf])
    intro i hi
    rw [List.getElem?_set, flipWorst, if_neg hc]
    by_cases hj : worst o (energyOf o H A f y x) (A.rows - 1) = i
    · rw [if_pos hj, if_pos (by rw [frameOf_length]; omega), if_pos hj.symm, hj]
    · rw [if_neg hj, if_neg (Ne.symm hj), frameOf, getElem?_mapRange, if_pos hi]

theorem decisions_stable {y : Nat → R} {k m : Nat} (hk : Codeword A (decisions o H A f y k)) (hm : k ≤ m) :
    decisions o H A f y m = decisions o H A f y k := by
  induction m with
  | zero => have : k = 0 := by omega
            subst this; rfl
  | succ m ih =>
    by_cases e : k = m + 1
    · subst e; rfl
    · rw [decisions, ih (by omega), flipWorst, if_pos hk]

theorem decode_eq (h : Represents H A) (hs : SmallDegrees A) {d : Soft R} (w : d.WF A H f n info) (y : Nat → R) :
    (d.decode o (frameOf A.rows y)).Sat fun r =>
      r.1.WF A H f n info ∧ r.1.K = d.K ∧
      r.1.lp = frameOf A.rows (fun v => if decisions o H A f y n.toNat v then o.mone else o.one) ∧ r.2 = announced o H A f y n.toNat := by
  unfold Soft.decode
  rw [mins_eq h hs w, bind_ok, decide0_eq w, bind_ok, w.hn]
  refine Sat.bind (forN_inv (fun k (s : Soft R × Bool × Bool) => s.1.Mid o A H f n info d y (decisions o H A f y k) ∧
    s.2.1 = announced o H A f y k ∧ (s.2.2 = true → s.2.1 = true ∧ 0 < k)) ?_ ?_) ?_
  · exact ⟨⟨⟨w.hH, w.hN, w.pos, w.hf, rfl, w.hi, w.hK, w.nv, w.np, w.lp, by simp [frameOf], by simp [frameOf], w.sy, w.en⟩, rfl, rfl, rfl, rfl⟩,
      rfl, fun h => by cases h⟩
  · rintro k ⟨s, b, st⟩ hk ⟨h1, h2, h3⟩
    dsimp only at h1 h2 h3 ⊢
    cases st with
    | true =>
      rw [if_pos rfl, sat_ok]
      obtain ⟨hb, hp⟩ := h3 rfl
      obtain ⟨j, rfl⟩ : ∃ j, k = j + 1 := ⟨k - 1, by omega⟩
      rw [hb] at h2
      have hcw : Codeword A (decisions o H A f y j) := by simpa [announced] using h2.symm
      have e1 := decisions_stable (o := o) (H := H) (f := f) hcw (m := j + 1) (by omega)
      have e2 := decisions_stable (o := o) (H := H) (f := f) hcw (m := j + 2) (by omega)
      rw [e1] at h1
      refine ⟨by rw [e2]; exact h1, ?_, fun _ => ⟨hb, by omega⟩⟩
      rw [hb, announced, e1]
      simpa using hcw
    | false =>
      rw [if_neg (by simp)]
      refine (process_eq h hs h1).bind ?_
      rintro ⟨p, b'⟩ ⟨hp1, hp2⟩
      dsimp only at hp1 hp2 ⊢
      rw [sat_ok]
      refine ⟨hp1, by rw [hp2, announced], fun hst => ?_⟩
      dsimp only at hst ⊢
      rw [Bool.and_eq_true] at hst
      exact ⟨hst.2, by omega⟩
  · rintro ⟨s, b, st⟩ ⟨h1, h2, -⟩
    dsimp only at h1 h2 ⊢
    rw [h1.deE, w.hN, Verif.Extractor.store_eq (g := fun v => if decisions o H A f y n.toNat v then o.mone else o.one) (fun i lp hi => by
      rw [rd_frame _ hi, bind_ok]) h1.lp.symm, bind_ok, sat_ok]
    exact ⟨⟨h1.hH, h1.hN, h1.pos, h1.hf, h1.hn, h1.hi, h1.hK, h1.nv, h1.np, by simp, h1.ym, by simp [frameOf], h1.sy, h1.en⟩, h1.sameK, rfl, h2⟩

theorem siho_eq (h : Represents H A) (hs : SmallDegrees A) (hg : Signs o) (hinfo : ∀ p ∈ info, p < A.rows) {d : Soft R}
    (w : d.WF A H f n info) (y : Nat → R) {V : List Bool} (hV : V.length = d.K) :
    (d.siho o (frameOf A.rows y) V).Sat fun r => r.1.WF A H f n info ∧
      r.2 = resOf (announced o H A f y n.toNat) (info.map (decisions o H A f y n.toNat)) := by
  unfold Soft.siho
  refine (decode_eq h hs w y).bind ?_
  rintro ⟨d', b⟩ ⟨h1, -, h3, h4⟩
  dsimp only at h1 h3 h4 ⊢
  rw [h3, h4, w.hi]
  rw [Verif.Extractor.store_eq (g := fun i => decisions o H A f y n.toNat (info.getD i 0)) (fun i V hi => by
    have hi' : i < info.length := by rw [w.hK]; exact hi
    have hp := hinfo _ (List.getElem_mem hi')
    rw [rd_lt hi', bind_ok, rd_frame _ hp, bind_ok, getD_lt _ hi']
    cases hd : decisions o H A f y n.toNat info[i]
    · simp [hg.2.2.1]
    · simp [hg.2.2.2]) hV.symm, bind_ok, sat_ok]
  refine ⟨h1, ?_⟩
  refine congrArg (resOf _) (Eq.symm ?_)
  apply eq_mapRange (by rw [List.length_map, w.hK])
  intro i hi
  have hi' : i < info.length := by rw [w.hK]; exact hi
  rw [List.getElem?_map, List.getElem?_eq_getElem hi', getD_lt _ hi']
  rfl

theorem sihoCw_eq (h : Represents H A) (hs : SmallDegrees A) (hg : Signs o) {d : Soft R}
    (w : d.WF A H f n info) (y : Nat → R) {V : List Bool} (hV : V.length = d.N) :
    (d.sihoCw o (frameOf A.rows y) V).Sat fun r => r.1.WF A H f n info ∧
      r.2 = resOf (announced o H A f y n.toNat) (frameOf A.rows (decisions o H A f y n.toNat)) := by
  unfold Soft.sihoCw
  refine (decode_eq h hs w y).bind ?_
  rintro ⟨d', b⟩ ⟨h1, -, h3, h4⟩
  dsimp only at h1 h3 h4 ⊢
  rw [h3, h4]
  rw [Verif.Extractor.store_eq (g := decisions o H A f y n.toNat) (fun i V hi => by
    rw [rd_frame _ (by rw [← w.hN]; exact hi), bind_ok]
    cases hd : decisions o H A f y n.toNat i
    · simp [hg.1]
    · simp [hg.2.1]) hV.symm, bind_ok, sat_ok]
  rw [w.hN]
  exact ⟨h1, rfl⟩

theorem siso_eq (h : Represents H A) (hs : SmallDegrees A) {d : Soft R}
    (w : d.WF A H f n info) (y : Nat → R) {V : List R} (hV : V.length = d.N) :
    (d.siso o (frameOf A.rows y) V).Sat fun r => r.1.WF A H f n info ∧
      r.2 = resOf (announced o H A f y n.toNat)
        (frameOf A.rows fun v => o.sub (if decisions o H A f y n.toNat v then o.mone else o.one) (y v)) := by
  unfold Soft.siso
  refine (decode_eq h hs w y).bind ?_
  rintro ⟨d', b⟩ ⟨h1, -, h3, h4⟩
  dsimp only at h1 h3 h4 ⊢
  rw [h3, h4]
  rw [Verif.Extractor.store_eq (g := fun v => o.sub (if decisions o H A f y n.toNat v then o.mone else o.one) (y v)) (fun i V hi => by
    have hi' : i < A.rows := by rw [← w.hN]; exact hi
    rw [rd_frame _ hi', bind_ok, rd_frame _ hi', bind_ok]) hV.symm, bind_ok, sat_ok]
  rw [w.hN]
  exact ⟨h1, rfl⟩

theorem frame_of_list {α : Type} [Inhabited α] {Y : List α} {k : Nat} (h : Y.length = k) : ∃ y : Nat → α, Y = frameOf k y := by
  refine ⟨fun v => Y.getD v default, eq_mapRange h fun i hi => ?_⟩
  have hi' : i < Y.length := by omega
  rw [getD_lt _ hi', List.getElem?_eq_getElem hi']

theorem reach_wf (h : Represents H A) (hs : SmallDegrees A) (hg : Signs o) (hinfo : ∀ p ∈ info, p < A.rows) {d : Soft R}
    (r : Soft.Reach o A H f n info d) : d.WF A H f n info := by
  haveI : Inhabited R := ⟨o.zero⟩
  induction r with
  | make e => exact Soft.wf_mk h e
  | siho _ hY hV e ih =>
    rw [ih.hN] at hY
    obtain ⟨y, rfl⟩ := frame_of_list hY
    obtain ⟨a, ea, h1, -⟩ := siho_eq h hs hg hinfo ih y hV
    rw [e] at ea
    cases ea
    exact h1
  | sihoCw _ hY hV e ih =>
    rw [ih.hN] at hY
    obtain ⟨y, rfl⟩ := frame_of_list hY
    obtain ⟨a, ea, h1, -⟩ := sihoCw_eq h hs hg ih y hV
    rw [e] at ea
    cases ea
    exact h1
  | siso _ hY hV e ih =>
    rw [ih.hN] at hY
    obtain ⟨y, rfl⟩ := frame_of_list hY
    obtain ⟨a, ea, h1, -⟩ := siso_eq h hs ih y hV
    rw [e] at ea
    cases ea
    exact h1

/-! ## Symmetry -/

theorem minMag_sym (h : Represents H A) {z : Nat → Bool} {y y' : Nat → R} (hy : SignChanged o A z y y') (c : Nat) : minMag o H y' c = minMag o H y c := by
  unfold minMag
  exact foldl_congr' (fun p hp a => by rw [(hy p (vars_lt h hp)).1]) _

theorem energy_sym (h : Represents H A) {z : Nat → Bool} (hz : Codeword A z) {y y' : Nat → R} (hy : SignChanged o A z y y') {x x' : Nat → Bool}
    (hx : ∀ v, v < A.rows → x' v = (x v ^^ z v)) {v : Nat} (hv : v < A.rows) : energyOf o H A f y' x' v = energyOf o H A f y x v := by
  unfold energyOf
  rw [(hy v hv).1]
  congr 1
  apply foldl_congr'
  intro c hc e
  rw [minMag_sym h hy]
  have := (satisfied_cong hx c).trans (satisfied_xor h hz (row_lt h hc))
  by_cases hsat : Satisfied A x c
  · rw [if_pos hsat, if_pos (this.2 hsat)]
  · rw [if_neg hsat, if_neg (fun q => hsat (this.1 q))]

theorem worst_cong {e e' : Nat → R} {k : Nat} (he : ∀ v, v ≤ k → e' v = e v) : worst o e' k = worst o e k := by
  induction k with
  | zero => rfl
  | succ k ih =>
    have hl := worst_lt o e k
    rw [worst, worst, ih fun v hv => he v (by omega), he (k + 1) (le_refl _), he (worst o e k) (by omega)]

theorem decisions_sym (h : Represents H A) (hp : 0 < A.rows) {z : Nat → Bool} (hz : Codeword A z) {y y' : Nat → R} (hy : SignChanged o A z y y') (k : Nat) :
    (∀ v, v < A.rows → decisions o H A f y' k v = (decisions o H A f y k v ^^ z v)) ∧ announced o H A f y' k = announced o H A f y k := by
  have key : ∀ k, ∀ v, v < A.rows → decisions o H A f y' k v = (decisions o H A f y k v ^^ z v) := by
    intro k
    induction k with
    | zero => intro v hv; exact (hy v hv).2
    | succ k ih =>
      intro v hv
      have hcw : Codeword A (decisions o H A f y' k) ↔ Codeword A (decisions o H A f y k) := (codeword_cong ih).trans (codeword_xor h hz)
      rw [decisions, decisions, flipWorst, flipWorst]
      by_cases hc : Codeword A (decisions o H A f y k)
      · rw [if_pos hc, if_pos (hcw.2 hc)]; exact ih v hv
      · rw [if_neg hc, if_neg (fun q => hc (hcw.1 q))]
        rw [worst_cong (o := o) (fun u hu => energy_sym h hz hy ih (v := u) (by omega))]
        by_cases hw : v = worst o (energyOf o H A f y (decisions o H A f y k)) (A.rows - 1)
        · rw [if_pos hw, if_pos hw, ih v hv]
          cases decisions o H A f y k v <;> cases z v <;> rfl
        · rw [if_neg hw, if_neg hw, ih v hv]
  refine ⟨key k, ?_⟩
  cases k with
  | zero => rfl
  | succ k =>
    rw [announced, announced]
    exact decide_eq_decide.2 ((codeword_cong (key k)).trans (codeword_xor h hz))

/-- Each iteration changes at most one decision. -/
theorem decisions_dist (y : Nat → R) (k : Nat) :
    ((Finset.range A.rows).filter fun v => decisions o H A f y k v ≠ o.isNeg (y v)).card ≤ k := by
  induction k with
  | zero =>
    have : ((Finset.range A.rows).filter fun v => decisions o H A f y 0 v ≠ o.isNeg (y v)) = ∅ := by
      apply Finset.filter_false_of_mem
      intro v _ hv
      exact hv rfl
    rw [this]
    simp
  | succ k ih =>
    refine le_trans (Finset.card_le_card (t := insert (worst o (energyOf o H A f y (decisions o H A f y k)) (A.rows - 1))
      ((Finset.range A.rows).filter fun v => decisions o H A f y k v ≠ o.isNeg (y v))) ?_) (le_trans (Finset.card_insert_le _ _) (by omega))
    intro v hv
    rw [Finset.mem_filter] at hv
    rw [Finset.mem_insert, Finset.mem_filter]
    by_cases hw : v = worst o (energyOf o H A f y (decisions o H A f y k)) (A.rows - 1)
    · exact Or.inl hw
    · refine Or.inr ⟨hv.1, ?_⟩
      have := hv.2
      rw [decisions, flipWorst] at this
      by_cases hc : Codeword A (decisions o H A f y k)
      · rwa [if_pos hc] at this
      · rwa [if_neg hc, if_neg hw] at this
end

end Verif.LDPCBF
