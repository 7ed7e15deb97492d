import Verif.Proof.PeelingCall

/-! # Properties of the LDPC peeling decoder -/

namespace Verif.Peeling
open Exec Verif.Sparse Verif.Distance

/-- C79.  The constructor accepts exactly positive sizes with `K ≤ N`, positive numbers of iterations and depth, a matrix with `N`
rows and `K` different positions of information bits. -/
theorem C79_constructor (ty : BTy) (K N nIte : Int) (H : Mat) (info : List Nat) (syndrome : Bool) (depth : Int) :
    (∃ d, Dec.mk? ty K N nIte H info syndrome depth = ok d) ↔
      0 < K ∧ K ≤ N ∧ 0 < nIte ∧ 0 < depth ∧ N = H.nRows ∧ (info.length : Int) = K ∧ info.Nodup := by
  constructor
  · rintro ⟨d, e⟩
    unfold Dec.mk? at e
    split at e; · cases e
    split at e; · cases e
    split at e; · cases e
    split at e; · cases e
    split at e; · cases e
    split at e; · cases e
    split at e; · cases e
    rename_i a1 a2 a3 a4 a5 a6 a7
    simp [checkLUT] at a7
    refine ⟨by omega, by omega, by omega, by omega, by omega, ?_, a7.2⟩
    omega
  · rintro ⟨a1, a2, a3, a4, a5, a6, a7⟩
    unfold Dec.mk?
    rw [if_neg (by omega), if_neg (by omega), if_neg (by omega), if_neg (by omega), if_neg (by omega), if_neg (by omega), if_neg]
    · exact ⟨_, rfl⟩
    · simp [checkLUT, a7]
      omega

/-- A code of 4 variables and 2 checks, `{0, 1, 2}` and `{2, 3}`. -/
def exH : Mat := ((do
  let H ← orThrow (add (new 4 2) 0 0)
  let H ← orThrow (add H 1 0)
  let H ← orThrow (add H 2 0)
  let H ← orThrow (add H 2 1)
  orThrow (add H 3 1)).toOption).getD (new 0 0)

def exA : Conns := ⟨4, 2, {(0, 0), (1, 0), (2, 0), (2, 1), (3, 1)}⟩

theorem exH_rep : Represents exH exA := by
  refine ⟨by decide, by decide, by decide, by decide, ?_, ?_, by decide, by decide, by decide, by decide⟩
  · have h : ∀ i (h : i < 4), (exH.r2c.getD i []).Nodup ∧ (∀ j ∈ exH.r2c.getD i [], (i, j) ∈ exA.set) ∧
        ∀ p ∈ exA.set, p.1 = i → p.2 ∈ exH.r2c.getD i [] := by decide
    intro i hi
    obtain ⟨a, b, c⟩ := h i hi
    rw [getD_lt [] hi] at a b c
    exact ⟨a, fun j => ⟨b j, fun hj => c _ hj rfl⟩⟩
  · have h : ∀ i (h : i < 2), (exH.c2r.getD i []).Nodup ∧ (∀ j ∈ exH.c2r.getD i [], (j, i) ∈ exA.set) ∧
        ∀ p ∈ exA.set, p.2 = i → p.1 ∈ exH.c2r.getD i [] := by decide
    intro i hi
    obtain ⟨a, b, c⟩ := h i hi
    rw [getD_lt [] hi] at a b c
    exact ⟨a, fun j => ⟨b j, fun hj => c _ hj rfl⟩⟩

/-- A decoder of this code, with early stop after one iteration. -/
def exD : Dec := ⟨.i32, 2, 4, 3, exH, true, 1, [0, 1], 0, [0, 0, 0, 0], [0, 0]⟩

theorem exD_reach : Reach exA exD :=
  .make (ty := .i32) (syndrome := true) (K := 2) (N := 4) (nIte := 3) (depth := 1) (info := [0, 1]) exH_rep (by decide) (by decide)

/-- C79.  Decoding a word of bits and unknown symbols always ends and gives a word of the same kind; `CWD` is 0 or 1 and the status
is its negation. -/
theorem C79_total {A : Conns} {d : Dec} (h : Reach A d) (hn : Narrow d.ty) {y v : List Nat} (hy : IsWord (unkSym d.ty) A y)
    (hv : v.length = d.N) : ∃ d' r, d.hihoCw y v = ok (d', r) ∧ IsWord (unkSym d.ty) A r.out ∧
      (r.cwd = 0 ∧ r.status = 1 ∨ r.cwd = 1 ∧ r.status = 0) := by
  obtain ⟨d', b, x, ho, -, e⟩ := hihoCw_out h.good hn hy hv
  obtain ⟨st, rfl, -, hr⟩ := ho.ran
  refine ⟨d', _, e, ⟨hr.inv.vn, hr.inv.word⟩, ?_⟩
  cases b
  · exact .inl ⟨rfl, rfl⟩
  · exact .inr ⟨rfl, rfl⟩

/-- Non-vacuity: two erasures. -/
example : IsWord (unkSym .i32) exA [1, 1073741823, 1073741823, 1] ∧
    (exD.hihoCw [1, 1073741823, 1073741823, 1] [9, 9, 9, 9]).toOption.map (·.2) = some ⟨1, 0, [1, 0, 1, 1]⟩ :=
  ⟨⟨rfl, by decide⟩, by decide +kernel⟩

/-- C79.  The message that is given is the part of the codeword at the positions of the information bits, and `CWD` and the status are
the same. -/
theorem C79_message {A : Conns} {d : Dec} (h : Reach A d) (hn : Narrow d.ty) {y v w : List Nat} (hy : IsWord (unkSym d.ty) A y)
    (hv : v.length = d.N) (hw : w.length = d.K) {d' : Dec} {r : Res} (e : d.hihoCw y v = ok (d', r)) :
    ∃ d'' r', d.hiho y w = ok (d'', r') ∧ r'.cwd = r.cwd ∧ r'.status = r.status ∧ r'.out = d.info.map fun p => r.out.getD p 0 := by
  obtain ⟨d1, b, x, ho, -, e1⟩ := hihoCw_out h.good hn hy hv
  obtain ⟨d2, b', x', ho', -, e2⟩ := hiho_out h.good hn hy hw
  obtain ⟨rfl, rfl⟩ := ho.unique ho' rfl rfl rfl
  rw [e1] at e
  cases e
  exact ⟨d2, _, e2, rfl, rfl, rfl⟩

example : (exD.hiho [1, 1073741823, 1073741823, 1] [9, 9]).toOption.map (·.2) = some ⟨1, 0, [1, 0]⟩ := by decide +kernel

/-- C79.  The symbols that are received are never modified. -/
theorem C79_kept {A : Conns} {d : Dec} (h : Reach A d) (hn : Narrow d.ty) {y v : List Nat} (hy : IsWord (unkSym d.ty) A y)
    (hv : v.length = d.N) {d' : Dec} {r : Res} (e : d.hihoCw y v = ok (d', r)) {i : Nat} (hk : Known (unkSym d.ty) y i) :
    r.out.getD i (unkSym d.ty) = y.getD i (unkSym d.ty) := by
  obtain ⟨d1, b, x, ho, -, e1⟩ := hihoCw_out h.good hn hy hv
  obtain ⟨st, rfl, -, hr⟩ := ho.ran
  rw [e1] at e
  cases e
  exact hr.steps.kept hk

/-- C79.  A codeword with erasures: no recovered bit is wrong. -/
theorem C79_sound {A : Conns} {d : Dec} (h : Reach A d) (hn : Narrow d.ty) {x : Nat → Bool} (hx : IsCodeword A x) {y v : List Nat}
    (hy : Erased (unkSym d.ty) A x y) (hv : v.length = d.N) {d' : Dec} {r : Res} (e : d.hihoCw y v = ok (d', r)) :
    Erased (unkSym d.ty) A x r.out := by
  have hw : IsWord (unkSym d.ty) A y := by
    refine ⟨hy.1, fun s hs => ?_⟩
    obtain ⟨i, hi, rfl⟩ := List.getElem_of_mem hs
    have := hy.2 i (by rw [← hy.1]; exact hi)
    rw [getD_lt _ hi] at this
    rcases this with h | h
    · exact .inr (.inr h)
    · rw [h]; unfold bit; split <;> simp
  obtain ⟨d1, b, x', ho, -, e1⟩ := hihoCw_out h.good hn hw hv
  obtain ⟨st, rfl, -, hr⟩ := ho.ran
  rw [e1] at e
  cases e
  exact hr.steps.agrees (narrow hn).2 hx hy

/-- Non-vacuity: the codeword `1011` with two erasures. -/
example : IsCodeword exA (fun i => i ≠ 1) ∧ Erased (unkSym .i32) exA (fun i => i ≠ 1) [1, 1073741823, 1073741823, 1] := by
  constructor
  · unfold IsCodeword Satisfied; decide
  · unfold Erased; decide

/-- C79.  When `CWD` is 1, every variable of a check is known. -/
theorem C79_cwd {A : Conns} {d : Dec} (h : Reach A d) (hn : Narrow d.ty) {y v : List Nat} (hy : IsWord (unkSym d.ty) A y)
    (hv : v.length = d.N) {d' : Dec} {r : Res} (e : d.hihoCw y v = ok (d', r)) (hc : r.cwd = 1) {i : Nat} (hi : Checked A i) :
    Known (unkSym d.ty) r.out i := by
  obtain ⟨d1, b, x, ho, -, e1⟩ := hihoCw_out h.good hn hy hv
  obtain ⟨st, rfl, -, hr⟩ := ho.ran
  rw [e1] at e
  cases e
  cases b
  · exact absurd hc (by simp [res])
  · exact hr.full h.good.ite rfl i hi

/-- C79.  When `CWD` is 1 on a codeword with erasures and all the variables are in checks, the output is the codeword. -/
theorem C79_codeword {A : Conns} {d : Dec} (h : Reach A d) (hn : Narrow d.ty) {x : Nat → Bool} (hx : IsCodeword A x) {y v : List Nat}
    (hy : Erased (unkSym d.ty) A x y) (hw : IsWord (unkSym d.ty) A y) (hA : ∀ i, i < A.rows → Checked A i) (hv : v.length = d.N)
    {d' : Dec} {r : Res} (e : d.hihoCw y v = ok (d', r)) (hc : r.cwd = 1) : r.out = (List.range A.rows).map fun i => bit (x i) := by
  obtain ⟨hl, ho⟩ := C79_sound h hn hx hy hv e
  apply List.ext_getElem?
  intro i
  by_cases hi : i < A.rows
  · have hk := C79_cwd h hn hw hv e hc (hA i hi)
    have := (ho i hi).resolve_left hk
    rw [getD_lt _ (by omega)] at this
    rw [List.getElem?_eq_getElem (by omega), this, getElem?_mapRange, if_pos hi]
  · rw [List.getElem?_eq_none (by omega), getElem?_mapRange, if_neg hi]

example : ∀ i, i < exA.rows → Checked exA i := by
  have h : ∀ i, i < 4 → ∃ c, c < 2 ∧ (i, c) ∈ exA.set := by decide
  intro i hi
  obtain ⟨c, -, hc⟩ := h i hi
  exact ⟨c, hc⟩

/-- C79.  When `CWD` is 1, the codeword is the only one that agrees with what is received, on the variables of the checks. -/
theorem C79_only {A : Conns} {d : Dec} (h : Reach A d) (hn : Narrow d.ty) {x x' : Nat → Bool} (hx : IsCodeword A x) (hx' : IsCodeword A x')
    {y v : List Nat} (hw : IsWord (unkSym d.ty) A y) (hy : Erased (unkSym d.ty) A x y) (hy' : Erased (unkSym d.ty) A x' y) (hv : v.length = d.N)
    {d' : Dec} {r : Res} (e : d.hihoCw y v = ok (d', r)) (hc : r.cwd = 1) {i : Nat} (hi : i < A.rows) (hci : Checked A i) : x' i = x i := by
  have hk := C79_cwd h hn hw hv e hc hci
  have a := ((C79_sound h hn hx hy hv e).2 i hi).resolve_left hk
  have b := ((C79_sound h hn hx' hy' hv e).2 i hi).resolve_left hk
  rw [a] at b
  unfold bit at b
  cases h1 : x i <;> cases h2 : x' i <;> rw [h1, h2] at b <;> simp_all

/-- C79.  Only variables that peeling recovers are recovered, and all those that `n_ite` rounds recover are. -/
theorem C79_rounds {A : Conns} {d : Dec} (h : Reach A d) (hn : Narrow d.ty) {y v : List Nat} (hy : IsWord (unkSym d.ty) A y)
    (hv : v.length = d.N) {d' : Dec} {r : Res} (e : d.hihoCw y v = ok (d', r)) (i : Nat) :
    (Known (unkSym d.ty) r.out i → Peeled A (Known (unkSym d.ty) y) i) ∧
      (PeeledIn A (Known (unkSym d.ty) y) d.nIte i → Known (unkSym d.ty) r.out i) := by
  obtain ⟨d1, b, x, ho, -, e1⟩ := hihoCw_out h.good hn hy hv
  obtain ⟨st, rfl, -, hr⟩ := ho.ran
  rw [e1] at e
  cases e
  exact ⟨fun hk => hr.steps.peeled hk, hr.rounds i⟩

theorem stuck_peeled {A : Conns} {unk : Nat} {V : List Nat} {k : Nat → Prop} (hs : Stuck A unk V) (hk : ∀ v, k v → Known unk V v) :
    ∀ t v, PeeledIn A k t v → Known unk V v := by
  intro t
  induction t with
  | zero => exact hk
  | succ t ih =>
    intro v h
    rcases h with h | ⟨c, hm, h⟩
    · exact ih v h
    · by_contra hv
      obtain ⟨u, hu, huv, hum⟩ := hs v c hv hm
      exact hu (ih u (h u hum huv))

/-- C79.  With as many iterations as erasures, exactly the variables that peeling recovers are recovered; with one more, `CWD` is 1
exactly when they contain all the variables of the checks. -/
theorem C79_complete {A : Conns} {d : Dec} (h : Reach A d) (hn : Narrow d.ty) {y v : List Nat} (hy : IsWord (unkSym d.ty) A y)
    (hv : v.length = d.N) {d' : Dec} {r : Res} (e : d.hihoCw y v = ok (d', r)) (hc : erasures (unkSym d.ty) y ≤ d.nIte) :
    (∀ i, Known (unkSym d.ty) r.out i ↔ Peeled A (Known (unkSym d.ty) y) i) ∧
      (erasures (unkSym d.ty) y < d.nIte → (r.cwd = 1 ↔ ∀ i, Checked A i → Peeled A (Known (unkSym d.ty) y) i)) := by
  have hcwd := fun hc i hi => (C79_rounds h hn hy hv e i).1 (C79_cwd h hn hy hv e hc hi)
  obtain ⟨d1, b, x, ho, -, e1⟩ := hihoCw_out h.good hn hy hv
  obtain ⟨st, rfl, -, hr⟩ := ho.ran
  rw [e1] at e
  cases e
  have hiff : ∀ i, Known (unkSym d.ty) st.VN i ↔ Peeled A (Known (unkSym d.ty) y) i :=
    fun i => ⟨fun hk => hr.steps.peeled hk, fun ⟨t, ht⟩ => stuck_peeled (hr.stuck hc) (fun _ hk => hr.steps.known hk) t i ht⟩
  refine ⟨hiff, fun hlt => ⟨hcwd, fun hall => ?_⟩⟩
  have := hr.done hlt fun i hi => (hiff i).2 (hall i hi)
  rw [show b = true from this]
  rfl

/-- Non-vacuity: two erasures, three iterations; and a stopping set. -/
example : erasures (unkSym .i32) [1, 1073741823, 1073741823, 1] < exD.nIte ∧
    (exD.hihoCw [1073741823, 1073741823, 1, 1073741823] [9, 9, 9, 9]).toOption.map (·.2) = some ⟨0, 1, [1073741823, 1073741823, 1, 1]⟩ := by
  decide +kernel

/-- C79.  With as many iterations as erasures, the variables left unknown are the greatest stopping set of the erased ones. -/
theorem C79_stopping {A : Conns} {d : Dec} (h : Reach A d) (hn : Narrow d.ty) {y v : List Nat} (hy : IsWord (unkSym d.ty) A y)
    (hv : v.length = d.N) {d' : Dec} {r : Res} (e : d.hihoCw y v = ok (d', r)) (hc : erasures (unkSym d.ty) y ≤ d.nIte) :
    Stopping A (fun i => ¬ Known (unkSym d.ty) r.out i) ∧
      ∀ S : Nat → Prop, Stopping A S → (∀ i, S i → ¬ Known (unkSym d.ty) y i) → ∀ i, S i → ¬ Known (unkSym d.ty) r.out i := by
  have hP := (C79_complete h hn hy hv e hc).1
  obtain ⟨d1, b, x, ho, -, e1⟩ := hihoCw_out h.good hn hy hv
  obtain ⟨st, rfl, -, hr⟩ := ho.ran
  rw [e1] at e
  cases e
  refine ⟨hr.stuck hc, fun S hS hk i hi hki => ?_⟩
  obtain ⟨t, ht⟩ := (hP i).1 hki
  have : ∀ t i, PeeledIn A (Known (unkSym d.ty) y) t i → ¬ S i := by
    intro t
    induction t with
    | zero => intro i hki hsi; exact hk i hsi hki
    | succ t ih =>
      intro i hp hsi
      rcases hp with hp | ⟨c, hm, hp⟩
      · exact ih i hp hsi
      · obtain ⟨u, hu, hui, hum⟩ := hS i c hsi hm
        exact ih u (hp u hum hui) hu
  exact this t i ht hi

/-- C79.  The result depends neither on the words decoded before nor on the settings of the early stop: two decoders of the same
matrix with the same number of iterations give the same result. -/
theorem C79_history {A : Conns} {d1 d2 : Dec} (h1 : Reach A d1) (h2 : Reach A d2) (e1 : d1.ty = d2.ty) (e2 : d1.H = d2.H) (e3 : d1.nIte = d2.nIte)
    (hn : Narrow d1.ty) {y v1 v2 : List Nat} (hy : IsWord (unkSym d1.ty) A y) (hv1 : v1.length = d1.N) (hv2 : v2.length = d2.N) {d1' d2' : Dec}
    {r1 r2 : Res} (c1 : d1.hihoCw y v1 = ok (d1', r1)) (c2 : d2.hihoCw y v2 = ok (d2', r2)) : r1 = r2 := by
  obtain ⟨_, b, x, ho, -, a1⟩ := hihoCw_out h1.good hn hy hv1
  obtain ⟨_, b', x', ho', -, a2⟩ := hihoCw_out h2.good (e1 ▸ hn) (e1 ▸ hy) hv2
  obtain ⟨rfl, rfl⟩ := ho.unique ho' e1 e2 e3
  rw [a1] at c1
  rw [a2] at c2
  cases c1
  cases c2
  rfl

/-- Non-vacuity: after another word, without early stop. -/
example : Exec.toOption (do
    let r ← Dec.hihoCw { exD with syndrome := false, depth := 5 } [0, 1073741823, 0, 1073741823] [9, 9, 9, 9]
    let q ← r.1.hihoCw [1, 1073741823, 1073741823, 1] [9, 9, 9, 9]
    ok q.2) = some ⟨1, 0, [1, 0, 1, 1]⟩ := by decide +kernel

/-- C79.  LLRs are decoded as the symbols they stand for when the size is a multiple of the number of elements of a register. -/
theorem C79_soft {A : Conns} {d : Dec} (h : Reach A d) {lanes tau : Nat} (hL : lanes ∣ d.N) {y : List Soft} (hy : y.length = d.N) :
    (∀ v, d.sihoCw lanes tau y v = d.hihoCw (symbols tau (unkSym d.ty) y) v) ∧
      (∀ v, d.siho lanes tau y v = d.hiho (symbols tau (unkSym d.ty) y) v) := by
  have hg := h.good
  have e1 := symbols_eq (tau := tau) (unk := unkSym d.ty) hy (show d.VN.length = d.N by rw [hg.vn, hg.n]) hL
  have e2 := copyTo_all (src := symbols tau (unkSym d.ty) y) (dst := d.VN) (n := d.N) (by unfold symbols; rw [List.length_map]; exact hy)
    (by rw [hg.vn, hg.n])
  constructor
  · intro v
    unfold Dec.sihoCw Dec.hihoCw
    rw [e1, e2]
  · intro v
    unfold Dec.siho Dec.hiho
    rw [e1, e2]

example : (exD.sihoCw 4 0 [⟨true, 5⟩, ⟨false, 0⟩, ⟨true, 0⟩, ⟨true, 2⟩] [9, 9, 9, 9]).toOption.map (·.2) = some ⟨1, 0, [1, 0, 1, 1]⟩ := by
  decide +kernel

/-! ## Defects -/

/-- C80, false part 1: `CWD` is 1 for every word without erasures, whether or not it satisfies the checks. -/
theorem C80_blind {A : Conns} {d : Dec} (h : Reach A d) (hn : Narrow d.ty) {y v : List Nat} (hl : y.length = A.rows)
    (hy : ∀ s ∈ y, s = 0 ∨ s = 1) (hv : v.length = d.N) : ∃ d', d.hihoCw y v = ok (d', ⟨1, 0, y⟩) := by
  obtain ⟨n0, n1⟩ := narrow hn
  have hw : IsWord (unkSym d.ty) A y := ⟨hl, fun s hs => by rcases hy s hs with h | h <;> simp [h]⟩
  have hk : ∀ i, i < A.rows → Known (unkSym d.ty) y i := by
    intro i hi
    unfold Known
    rw [getD_lt _ (by omega)]
    have := hy y[i] (List.getElem_mem _)
    omega
  obtain ⟨d1, b, x, ho, -, e1⟩ := hihoCw_out h.good hn hw hv
  obtain ⟨st, rfl, -, hr⟩ := ho.ran
  have hA : InRange A := h.good.rep.range
  have he : erasures (unkSym d.ty) y = 0 := by
    unfold erasures
    rw [List.count_eq_zero]
    intro hm
    have := hy _ hm
    omega
  have hb : b = true := hr.done (by rw [he]; exact h.good.ite) fun v ⟨c, hc⟩ => hr.steps.known (hk v (hA _ hc).1)
  have hx : st.VN = y := by
    apply List.ext_getElem?
    intro i
    by_cases hi : i < A.rows
    · have := hr.steps.kept (hk i hi)
      have l1 : i < st.VN.length := by rw [hr.inv.vn]; exact hi
      have l2 : i < y.length := by omega
      rw [getD_lt _ l1, getD_lt _ l2] at this
      rw [List.getElem?_eq_getElem l1, List.getElem?_eq_getElem l2, this]
    · rw [List.getElem?_eq_none (by rw [hr.inv.vn]; omega), List.getElem?_eq_none (by omega)]
  rw [hb, hx] at e1
  exact ⟨d1, e1⟩

/-- Non-vacuity: a word that satisfies no check. -/
example : ¬ IsCodeword exA (fun i => i = 0 ∨ i = 3) ∧
    (exD.hihoCw [1, 0, 0, 1] [9, 9, 9, 9]).toOption.map (·.2) = some ⟨1, 0, [1, 0, 0, 1]⟩ := by
  refine ⟨?_, by decide +kernel⟩
  unfold IsCodeword Satisfied
  decide

/-- The checks `{0, 1}`, `{0}` and `{1}`. -/
def lateH : Mat := ((do
  let H ← orThrow (add (new 2 3) 0 0)
  let H ← orThrow (add H 1 0)
  let H ← orThrow (add H 0 1)
  orThrow (add H 1 2)).toOption).getD (new 0 0)

/-- C80, false part 2: `CWD` is 0 although all the symbols have been recovered, when the last one is recovered in the last iteration
after a check of which it is a variable has been visited. -/
theorem C80_late :
    (do let d ← Dec.mk? .i32 1 2 1 lateH [0] true 1
        let r ← d.hihoCw [1073741823, 1073741823] [9, 9]
        ok r.2) = ok ⟨0, 1, [0, 0]⟩ ∧
    (do let d ← Dec.mk? .i32 1 2 2 lateH [0] true 1
        let r ← d.hihoCw [1073741823, 1073741823] [9, 9]
        ok r.2) = ok ⟨1, 0, [0, 0]⟩ := by decide +kernel

/-- Nine variables and the check `{7, 8}`. -/
def tailH : Mat := ((do
  let H ← orThrow (add (new 9 1) 7 0)
  orThrow (add H 8 0)).toOption).getD (new 0 0)

/-- C80, false part 3: with registers of 8 elements, the erased LLR of a codeword of 9 ones is decoded as a known 0, and `CWD` is 1. -/
theorem C80_tail :
    (do let d ← Dec.mk? .i32 8 9 10 tailH [0, 1, 2, 3, 4, 5, 6, 7] true 1
        let r ← d.sihoCw 8 0 (List.replicate 8 ⟨true, 1⟩ ++ [⟨false, 0⟩]) (List.replicate 9 9)
        ok r.2) = ok ⟨1, 0, [1, 1, 1, 1, 1, 1, 1, 1, 0]⟩ := by decide +kernel

theorem wide_check {A : Conns} {st : St} (hr : Represents st.L A) (h2 : ∀ c, c < A.cols → ∃ u v, u ≠ v ∧ (u, c) ∈ A.set ∧ (v, c) ∈ A.set)
    {i : Nat} (hi : i < A.cols) {b : Bool} : check i (st, true, b) = ok (st, true, false) := by
  have hl : i < st.L.c2r.length := by rw [hr.c2r_length]; exact hi
  obtain ⟨-, hc⟩ := hr.col i hl
  obtain ⟨u, v, huv, hu, hv⟩ := h2 i hi
  have mu := (hc u).2 hu
  have mv := (hc v).2 hv
  unfold check
  rw [rd_lt hl, bind_ok]
  generalize hL : st.L.c2r[i] = l at mu mv
  match l with
  | [] => cases mu
  | [w] =>
    rw [List.mem_singleton] at mu mv
    exact (huv (mu.trans mv.symm)).elim
  | a :: b :: l => simp

/-- C80, false part 4: for 64-bit bits the unknown symbol is 0, the bit 0.  The all-zero codeword, received without erasure, is decoded
with `CWD` 0 and a failure status whatever the code, provided every check has two variables. -/
theorem C80_wide {A : Conns} {d : Dec} (h : Reach A d) (ht : d.ty = .i64) (hA : 0 < A.cols)
    (h2 : ∀ c, c < A.cols → ∃ u v, u ≠ v ∧ (u, c) ∈ A.set ∧ (v, c) ∈ A.set) {v : List Nat} (hv : v.length = d.N) :
    unkSym d.ty = bit false ∧ ∃ d', d.hihoCw (List.replicate d.N 0) v = ok (d', ⟨0, 1, List.replicate d.N 0⟩) := by
  refine ⟨by rw [ht]; rfl, ?_⟩
  have hg := h.good
  have hsw : ∀ st : St, Represents st.L A → sweep st = ok (st, true, false) := by
    intro st hr
    unfold sweep
    rw [hr.nCols]
    have : ∀ n, n ≤ A.cols → forN n check (st, true, true) = ok (st, true, decide (n = 0)) := by
      intro n
      induction n with
      | zero => intro _; rfl
      | succ n ih => intro hn; rw [forN_succ, ih (by omega), bind_ok, wide_check hr h2 (by omega)]; simp
    rw [this _ (le_refl _)]
    simp; omega
  have hit : ∀ n (st : St), Represents st.L A → ∀ cur, 0 < n → ∀ done, (iterate d.syndrome d.depth n st cur done).Sat fun q => q.1 = st ∧ q.2.2 = false := by
    intro n
    induction n with
    | zero => intro _ _ _ hn; omega
    | succ n ih =>
      intro st hr cur _ done
      unfold iterate
      rw [hsw st hr, bind_ok]
      have hz : ∀ cur, (iterate d.syndrome d.depth n st cur false).Sat fun q => q.1 = st ∧ q.2.2 = false := by
        intro cur
        cases n with
        | zero => exact sat_ok.2 ⟨rfl, rfl⟩
        | succ n => exact ih st hr cur (by omega) false
      split
      · split
        · exact sat_ok.2 ⟨rfl, rfl⟩
        · exact hz _
      · exact hz _
  have hkn : forN d.H.nRows (known (unkSym d.ty) (List.replicate d.N 0)) (d.H, List.replicate d.CN.length 0) = ok (d.H, List.replicate d.CN.length 0) := by
    have : ∀ n, n ≤ d.H.nRows → forN n (known (unkSym d.ty) (List.replicate d.N 0)) (d.H, List.replicate d.CN.length 0) = ok (d.H, List.replicate d.CN.length 0) := by
      intro n
      induction n with
      | zero => intro _; rfl
      | succ n ih =>
        intro hn
        rw [forN_succ, ih (by omega), bind_ok]
        unfold known
        have hl : n < (List.replicate d.N 0).length := by rw [List.length_replicate, hg.n, ← hg.rep.nRows]; omega
        rw [rd_lt hl, bind_ok, List.getElem_replicate, ht]
        rfl
    exact this _ (le_refl _)
  obtain ⟨q, eq, q1, q2⟩ := hit d.nIte ⟨d.H, List.replicate d.N 0, List.replicate d.CN.length 0⟩ hg.rep 0 hg.ite false
  unfold Dec.hihoCw
  rw [copyTo_all List.length_replicate (by rw [hg.vn, hg.n]), bind_ok]
  unfold Dec.decode
  simp only [hkn, bind_ok, eq]
  rw [storeCw_eq (by show v.length = q.1.VN.length; rw [q1, hv]; exact List.length_replicate.symm), bind_ok]
  simp only [q1, q2]
  exact ⟨_, rfl⟩

/-- Non-vacuity: a decoder of the code above. -/
example : ∃ d, Dec.mk? .i64 2 4 3 exH [0, 1] true 1 = ok d ∧ Reach exA d ∧ d.ty = .i64 :=
  ⟨_, rfl, .make (ty := .i64) (syndrome := true) (K := 2) (N := 4) (nIte := 3) (depth := 1) exH_rep (info := [0, 1]) (by decide) rfl, rfl⟩

/-- C80, false part 5: a position of an information bit outside of the codeword is accepted by the constructor, and decoding then has
undefined behaviour whatever the word. -/
theorem C80_info {A : Conns} {ty : BTy} {K N nIte depth : Int} {H : Mat} {info : List Nat} {syndrome : Bool} {d : Dec} (hr : Represents H A)
    (e : Dec.mk? ty K N nIte H info syndrome depth = ok d) {p : Nat} (hp : p ∈ info) (hpN : A.rows ≤ p) {y v : List Nat}
    (hy : y.length = A.rows) (hv : v.length = info.length) : d.hiho y v = ub := by
  have hacc := (C79_constructor ty K N nIte H info syndrome depth).1 ⟨d, e⟩
  have hd : d = ⟨ty, K.toNat, N.toNat, nIte.toNat, H, syndrome, depth.toNat, info, 0, List.replicate N.toNat 0, List.replicate H.nCols 0⟩ := by
    unfold Dec.mk? at e
    split at e; · cases e
    split at e; · cases e
    split at e; · cases e
    split at e; · cases e
    split at e; · cases e
    split at e; · cases e
    split at e; · cases e
    cases e; rfl
  obtain ⟨a1, a2, a3, a4, a5, a6, a7⟩ := hacc
  have hN : N.toNat = A.rows := by rw [← hr.nRows]; omega
  have hV : d.VN.length = A.rows := by rw [hd]; simp [hN]
  have hC : d.CN.length = A.cols := by rw [hd]; simp [hr.nCols]
  have hH : Represents d.H A := by rw [hd]; exact hr
  have hdN : d.N = A.rows := by rw [hd]; exact hN
  unfold Dec.hiho
  rw [copyTo_all (by rw [hy, hdN]) (by rw [hV, hdN]), bind_ok]
  obtain ⟨q, eq, hk⟩ := decode_wk (d := { d with VN := y }) hH hy hC
  obtain ⟨_, _, _, eq1, k1, -⟩ := hk
  rw [eq, bind_ok]
  have hst : q.1.store v = ub := by
    obtain ⟨k0, hk0, ek0⟩ := List.getElem_of_mem hp
    have ei : q.1.info = info := by rw [eq1, hd]
    have eK : q.1.K = info.length := by rw [eq1, hd]; show K.toNat = _; omega
    have eV : q.1.VN.length = A.rows := by rw [eq1]; exact k1.trans hy
    unfold Dec.store
    rw [ei, eK]
    refine forN_ub (fun s => s.length = info.length) hv hk0 ?_ ?_
    · intro k s hk hs
      rw [rd_lt hk, bind_ok]
      by_cases hlt : info[k] < q.1.VN.length
      · right
        rw [rd_lt hlt, bind_ok, wr_lt (by omega)]
        exact ⟨_, rfl, by rw [List.length_set]; exact hs⟩
      · left
        rw [rd_ge (by omega), bind_ub]
    · intro s hs
      rw [rd_lt hk0, bind_ok, ek0, rd_ge (by omega), bind_ub]
  rw [hst, bind_ub]

/-- Non-vacuity. -/
example : ∃ d, Dec.mk? .i32 1 4 3 exH [7] true 1 = ok d := ⟨_, rfl⟩

end Verif.Peeling
