import Mathlib.Data.List.Count
import Verif.Proof.Distance
import Verif.Proof.Peeling

/-! # What the peeling decoder computes -/

namespace Verif.Peeling
open Exec Verif.Sparse Verif.Distance

/-- Any number of peeling steps. -/
inductive Steps (A : Conns) (unk : Nat) (V : List Nat) : List Nat → Prop
  | refl : Steps A unk V V
  | step {V' V'' : List Nat} {i : Nat} : Steps A unk V V' → i < A.cols → Stepped A unk i V' V'' → Steps A unk V V''

theorem Steps.trans {A : Conns} {unk : Nat} {U V W : List Nat} (h1 : Steps A unk U V) (h2 : Steps A unk V W) : Steps A unk U W := by
  induction h2 with
  | refl => exact h1
  | step _ hi hs ih => exact .step ih hi hs

theorem Stepped.length {A : Conns} {unk i : Nat} {V V' : List Nat} (h : Stepped A unk i V V') : V'.length = V.length := by
  obtain ⟨v, -, -, -, -, rfl⟩ := h
  rw [List.length_set]

theorem Steps.length {A : Conns} {unk : Nat} {V V' : List Nat} (h : Steps A unk V V') : V'.length = V.length := by
  induction h with
  | refl => rfl
  | step _ _ hs ih => rw [hs.length, ih]

theorem Stepped.kept {A : Conns} {unk i : Nat} {V V' : List Nat} (h : Stepped A unk i V V') {v : Nat} (hk : Known unk V v) :
    V'.getD v unk = V.getD v unk := by
  obtain ⟨w, -, -, hw, -, rfl⟩ := h
  have : v ≠ w := fun e => hw (e ▸ hk)
  rw [List.getD_eq_getElem?_getD, List.getElem?_set_ne (by omega), List.getD_eq_getElem?_getD]

theorem Steps.kept {A : Conns} {unk : Nat} {V V' : List Nat} (h : Steps A unk V V') {v : Nat} (hk : Known unk V v) :
    V'.getD v unk = V.getD v unk := by
  induction h with
  | refl => rfl
  | step _ _ hs ih => rw [hs.kept (by unfold Known; rw [ih]; exact hk), ih]

theorem Steps.known {A : Conns} {unk : Nat} {V V' : List Nat} (h : Steps A unk V V') {v : Nat} (hk : Known unk V v) : Known unk V' v := by
  unfold Known; rw [h.kept hk]; exact hk

theorem count_stepped {A : Conns} {unk i : Nat} (h0 : unk ≠ 0) (h1 : unk ≠ 1) {V V' : List Nat} (hV : V.length = A.rows) (h : Stepped A unk i V V') :
    erasures unk V' < erasures unk V := by
  obtain ⟨v, hv, -, hk, -, rfl⟩ := h
  have hv' : v < V.length := by omega
  have hu : V[v] = unk := by
    have := not_not.1 hk
    rwa [getD_lt unk hv'] at this
  have hp := par_lt A (fun u => V.getD u unk) i
  unfold erasures
  rw [List.count_set hv', hu]
  have hm : 0 < V.count unk := List.count_pos_iff.2 (by rw [← hu]; exact List.getElem_mem _)
  have : ¬ (par A (fun u => V.getD u unk) i = unk) := by omega
  generalize par A (fun u => V.getD u unk) i = q at this ⊢
  simp only [beq_self_eq_true, if_true, beq_iff_eq, this, if_false]
  omega

theorem even_par {A : Conns} {f : Nat → Nat} {c : Nat} :
    par A f c = 0 ↔ Even ((Finset.range A.rows).filter fun v => (v, c) ∈ A.set ∧ f v = 1).card := by
  unfold par; rw [Nat.even_iff]

/-- The parity of the known variables of a check is the only unknown one. -/
theorem par_eq {A : Conns} {unk i v : Nat} {V : List Nat} {x : Nat → Bool} (h1 : unk ≠ 1) (hv : v < A.rows) (hm : (v, i) ∈ A.set)
    (hx : Satisfied A x i) (he : ∀ u, u < A.rows → V.getD u unk = unk ∨ V.getD u unk = bit (x u)) (hk : ¬ Known unk V v)
    (ho : ∀ u, (u, i) ∈ A.set → u ≠ v → Known unk V u) : par A (fun u => V.getD u unk) i = bit (x v) := by
  have hfv : V.getD v unk = unk := not_not.1 hk
  have key := par_update (A := A) (f := fun u => V.getD u unk) (v := v) (s := bit (x v)) (c := i) hv (by show V.getD v unk ≠ 1; omega)
    (by unfold bit; split <;> simp)
  rw [if_pos hm] at key
  have hz : par A (Function.update (fun u => V.getD u unk) v (bit (x v))) i = 0 := by
    rw [even_par]
    unfold Satisfied at hx
    convert hx using 2
    apply Finset.filter_congr
    intro u hu
    rw [Finset.mem_range] at hu
    apply and_congr_right
    intro hui
    by_cases e : u = v
    · subst e; simp [bit]
    · rw [Function.update_of_ne e]
      rcases he u hu with h | h
      · exact (ho u hui e h).elim
      · rw [h]; simp [bit]
  rw [hz] at key
  have h3 := par_lt A (fun u => V.getD u unk) i
  generalize par A (fun u => V.getD u unk) i = q at key h3 ⊢
  have hb : bit (x v) = 0 ∨ bit (x v) = 1 := by unfold bit; split <;> simp
  generalize bit (x v) = b at key hb ⊢
  rcases h3 with rfl | rfl <;> rcases hb with rfl | rfl <;> first | rfl | exact absurd key (by decide)

theorem Steps.agrees {A : Conns} {unk : Nat} {V V' : List Nat} {x : Nat → Bool} (h1 : unk ≠ 1) (hx : IsCodeword A x) (h : Steps A unk V V')
    (he : Erased unk A x V) : Erased unk A x V' := by
  induction h with
  | refl => exact he
  | @step W W' i h hi hs ih =>
    refine ⟨by rw [hs.length]; exact ih.1, fun u hu => ?_⟩
    by_cases hk : Known unk W u
    · rw [hs.kept hk]; exact ih.2 u hu
    · obtain ⟨v, hv, hm, hkv, ho, rfl⟩ := hs
      by_cases e : u = v
      · subst e
        right
        rw [getD_lt unk (by rw [List.length_set, ih.1]; exact hu), List.getElem_set_self]
        exact par_eq h1 hv hm (hx i hi) ih.2 hkv ho
      · have : (W.set v (par A (fun u => W.getD u unk) i)).getD u unk = W.getD u unk := by
          rw [List.getD_eq_getElem?_getD, List.getElem?_set_ne (by omega), List.getD_eq_getElem?_getD]
        rw [this]
        exact ih.2 u hu

theorem PeeledIn.succ {A : Conns} {k : Nat → Prop} {t v : Nat} (h : PeeledIn A k t v) : PeeledIn A k (t + 1) v := .inl h

theorem PeeledIn.le {A : Conns} {k : Nat → Prop} {t t' v : Nat} (h : PeeledIn A k t v) (ht : t ≤ t') : PeeledIn A k t' v := by
  induction ht with
  | refl => exact h
  | step _ ih => exact ih.succ

/-- Peeling has no more to recover once it has recovered all the other variables of a check. -/
theorem Peeled.step {A : Conns} {k : Nat → Prop} {v c : Nat} (hm : (v, c) ∈ A.set)
    (h : ∀ u, (u, c) ∈ A.set → u ≠ v → Peeled A k u) : Peeled A k v := by
  classical
  have : ∃ T, ∀ u, (u, c) ∈ A.set → u ≠ v → PeeledIn A k T u := by
    have hfin : ∀ S : Finset (Nat × Nat), S ⊆ A.set → ∃ T, ∀ u, (u, c) ∈ S → u ≠ v → PeeledIn A k T u := by
      intro S
      induction S using Finset.induction_on with
      | empty => intro _; exact ⟨0, fun u hu => absurd hu (Finset.notMem_empty _)⟩
      | insert p S _ ih =>
        intro hS
        obtain ⟨T, hT⟩ := ih (fun q hq => hS (Finset.mem_insert_of_mem hq))
        by_cases hp : p.2 = c ∧ p.1 ≠ v
        · obtain ⟨T', hT'⟩ := h p.1 (by rw [← hp.1]; exact hS (Finset.mem_insert_self _ _)) hp.2
          refine ⟨max T T', fun u hu huv => ?_⟩
          rcases Finset.mem_insert.1 hu with e | hu
          · rw [← e] at hT'
            exact hT'.le (le_max_right _ _)
          · exact (hT u hu huv).le (le_max_left _ _)
        · refine ⟨T, fun u hu huv => ?_⟩
          rcases Finset.mem_insert.1 hu with e | hu
          · rw [← e] at hp
            exact (hp ⟨rfl, huv⟩).elim
          · exact hT u hu huv
    exact hfin A.set (Finset.Subset.refl _)
  obtain ⟨T, hT⟩ := this
  exact ⟨T + 1, .inr ⟨c, hm, hT⟩⟩

theorem Steps.peeled {A : Conns} {unk : Nat} {V V' : List Nat} (h : Steps A unk V V') {v : Nat} (hk : Known unk V' v) :
    Peeled A (Known unk V) v := by
  induction h generalizing v with
  | refl => exact ⟨0, hk⟩
  | @step W W' i h hi hs ih =>
    by_cases hw : Known unk W v
    · exact ih hw
    · obtain ⟨w, hwr, hm, hkw, ho, rfl⟩ := hs
      by_cases e : v = w
      · subst e
        exact Peeled.step hm fun u hu huv => ih (ho u hu huv)
      · exfalso
        apply hw
        unfold Known at hk ⊢
        rwa [List.getD_eq_getElem?_getD, List.getElem?_set_ne (by omega), ← List.getD_eq_getElem?_getD] at hk

/-! ## One iteration -/

/-- No check has exactly one unknown variable. -/
def Stuck (A : Conns) (unk : Nat) (V : List Nat) : Prop := Stopping A fun v => ¬ Known unk V v

/-- All the variables of the checks are known. -/
def Full (A : Conns) (unk : Nat) (V : List Nat) : Prop := ∀ v, Checked A v → Known unk V v

/-- What `i` checks of an iteration have done. -/
structure Swept (A : Conns) (unk : Nat) (st : St) (i : Nat) (r : St × Bool × Bool) : Prop where
  inv : Inv A unk r.1
  steps : Steps A unk st.VN r.1.VN
  round : ∀ c, c < i → ∀ v, (v, c) ∈ A.set → (∀ u, (u, c) ∈ A.set → u ≠ v → Known unk st.VN u) → Known unk r.1.VN v
  same : r.2.1 = true → r.1 = st ∧ ∀ c, c < i → ∀ v, (v, c) ∈ A.set → ¬ Known unk st.VN v → ∃ u, ¬ Known unk st.VN u ∧ u ≠ v ∧ (u, c) ∈ A.set
  less : r.2.1 = false → erasures unk r.1.VN < erasures unk st.VN ∧ ¬ Full A unk st.VN
  full : r.2.2 = true → ∀ c, c < i → ∀ v, (v, c) ∈ A.set → Known unk r.1.VN v
  lack : r.2.2 = false → ¬ Full A unk st.VN

theorem erasures_steps {A : Conns} {unk : Nat} (h0 : unk ≠ 0) (h1 : unk ≠ 1) {V V' : List Nat} (hV : V.length = A.rows) (h : Steps A unk V V') :
    erasures unk V' ≤ erasures unk V := by
  induction h with
  | refl => exact le_refl _
  | step h _ hs ih => exact le_trans (le_of_lt (count_stepped h0 h1 (by rw [h.length, hV]) hs)) ih

theorem swept_step {A : Conns} {unk : Nat} (h0 : unk ≠ 0) (h1 : unk ≠ 1) (hA : ∀ p ∈ A.set, p.1 < A.rows ∧ p.2 < A.cols) {st : St} (hst : st.VN.length = A.rows) {i : Nat}
    (hi : i < A.cols) {r : St × Bool × Bool} (h : Swept A unk st i r) : (check i r).Sat (Swept A unk st (i + 1)) := by
  refine (check_inv h0 h1 hA h.inv hi).mono fun r' hr => ?_
  obtain ⟨hinv, hr⟩ := hr
  have unk_back : ∀ {v}, ¬ Known unk r.1.VN v → ¬ Known unk st.VN v := fun hv hk => hv (h.steps.known hk)
  rcases hr with ⟨hs, hf⟩ | ⟨he, hk, hf⟩ | ⟨he, ⟨u, v, huv, hu, hv, hku, hkv⟩, hf⟩
  · have hs' := hs
    obtain ⟨w, hw, hm, hkw, ho, eq⟩ := hs
    have hst' : Steps A unk r.1.VN r'.1.VN := .step .refl hi hs'
    have hkw' : Known unk r'.1.VN w := by
      unfold Known
      rw [eq, getD_lt unk (by rw [List.length_set, h.inv.vn]; exact hw), List.getElem_set_self]
      have := par_lt A (fun u => r.1.VN.getD u unk) i
      omega
    refine ⟨hinv, h.steps.trans hst', ?_, ?_, ?_, ?_, ?_⟩
    · intro c hc v hv hall
      by_cases e : c = i
      · subst e
        by_cases ew : v = w
        · subst ew; exact hkw'
        · exact hst'.known (ho v hv ew)
      · exact hst'.known (h.round c (by omega) v hv hall)
    · intro e; rw [hf] at e; exact absurd e (by simp)
    · intro _
      refine ⟨lt_of_lt_of_le (count_stepped h0 h1 h.inv.vn hs') (erasures_steps h0 h1 hst h.steps), fun hfull => ?_⟩
      exact unk_back hkw (hfull w ⟨i, hm⟩)
    · intro e c hc v hv
      rw [hf] at e
      by_cases ec : c = i
      · subst ec
        by_cases ew : v = w
        · subst ew; exact hkw'
        · exact hst'.known (ho v hv ew)
      · exact hst'.known (h.full e c (by omega) v hv)
    · intro e; rw [hf] at e; exact h.lack e
  · refine ⟨hinv, by rw [he]; exact h.steps, ?_, ?_, ?_, ?_, ?_⟩
    · intro c hc v hv hall
      rw [he]
      by_cases e : c = i
      · subst e; exact hk v hv
      · exact h.round c (by omega) v hv hall
    · intro e
      rw [hf] at e
      obtain ⟨a1, a2⟩ := h.same e
      refine ⟨he.trans a1, fun c hc v hv hkv => ?_⟩
      by_cases ec : c = i
      · subst ec; rw [a1] at hk; exact (hkv (hk v hv)).elim
      · exact a2 c (by omega) v hv hkv
    · intro e; rw [hf] at e; rw [he]; exact h.less e
    · intro e c hc v hv
      rw [hf] at e; rw [he]
      by_cases ec : c = i
      · subst ec; exact hk v hv
      · exact h.full e c (by omega) v hv
    · intro e; rw [hf] at e; exact h.lack e
  · have hlack : ¬ Full A unk st.VN := fun hfull => unk_back hku (hfull u ⟨i, hu⟩)
    refine ⟨hinv, by rw [he]; exact h.steps, ?_, ?_, ?_, ?_, fun _ => hlack⟩
    · intro c hc w hw hall
      rw [he]
      by_cases e : c = i
      · subst e
        exfalso
        by_cases ew : u = w
        · exact unk_back hkv (hall v hv (fun e => huv (ew.trans e.symm)))
        · exact unk_back hku (hall u hu ew)
      · exact h.round c (by omega) w hw hall
    · intro e
      rw [hf] at e
      obtain ⟨a1, a2⟩ := h.same e
      refine ⟨he.trans a1, fun c hc w hw hkw => ?_⟩
      by_cases ec : c = i
      · subst ec
        by_cases ew : u = w
        · exact ⟨v, unk_back hkv, fun e => huv (ew.trans e.symm), hv⟩
        · exact ⟨u, unk_back hku, ew, hu⟩
      · exact a2 c (by omega) w hw hkw
    · intro e; rw [hf] at e; rw [he]; exact h.less e
    · intro e; rw [hf] at e; exact absurd e (by simp)

/-- Range of the connections. -/
def InRange (A : Conns) : Prop := ∀ p ∈ A.set, p.1 < A.rows ∧ p.2 < A.cols

theorem sweep_swept {A : Conns} {unk : Nat} (h0 : unk ≠ 0) (h1 : unk ≠ 1) (hA : InRange A) {st : St} (h : Inv A unk st) :
    (sweep st).Sat (Swept A unk st A.cols) := by
  unfold sweep
  rw [h.lk.rep.nCols]
  refine forN_inv (fun i r => Swept A unk st i r) ?_ fun i r hi hr => swept_step h0 h1 hA h.vn hi hr
  exact ⟨h, .refl, fun c hc => absurd hc (by omega), fun _ => ⟨rfl, fun c hc => absurd hc (by omega)⟩, fun e => absurd e (by simp),
    fun _ c hc => absurd hc (by omega), fun e => absurd e (by simp)⟩

/-- An iteration that has changed nothing or has found all the checks done can be repeated. -/
theorem sweep_again {A : Conns} {unk : Nat} (h0 : unk ≠ 0) (h1 : unk ≠ 1) (hA : InRange A) {st : St} (h : Inv A unk st)
    {r : St × Bool × Bool} (e : sweep st = ok r) (hf : (r.2.2 || r.2.1) = true) : sweep r.1 = ok (r.1, true, r.2.2) := by
  have hr := sat_of (sweep_swept h0 h1 hA h) e
  rcases hn : r.2.1 with _ | _
  · rw [hn, Bool.or_false] at hf
    have hfull : Full A unk r.1.VN := fun v ⟨c, hc⟩ => hr.full hf c (hA _ hc).2 v hc
    obtain ⟨r', e', hr'⟩ := sweep_swept h0 h1 hA hr.inv
    have a1 : r'.2.1 = true := by
      by_contra hne
      exact (hr'.less (by simpa using hne)).2 hfull
    have a2 : r'.2.2 = true := by
      by_contra hne
      exact hr'.lack (by simpa using hne) hfull
    rw [e', hf]
    congr 1
    exact Prod.ext (hr'.same a1).1 (Prod.ext a1 a2)
  · obtain ⟨a1, -⟩ := hr.same hn
    rw [a1, e]
    congr 1
    exact Prod.ext a1 (Prod.ext hn rfl)

/-! ## The iterations -/

/-- The iterations without early stop. -/
def plain : Nat → St → Bool → Exec (St × Bool)
  | 0, st, done => ok (st, done)
  | n + 1, st, _ => sweep st >>= fun r => plain n r.1 r.2.2

theorem plain_again {st : St} {b : Bool} (e : sweep st = ok (st, true, b)) : ∀ n, plain n st b = ok (st, b) := by
  intro n
  induction n with
  | zero => rfl
  | succ n ih => unfold plain; rw [e, bind_ok]; exact ih

theorem iterate_plain {A : Conns} {unk : Nat} (h0 : unk ≠ 0) (h1 : unk ≠ 1) (hA : InRange A) (syndrome : Bool) (depth : Nat) :
    ∀ (n : Nat) {st : St} (cur : Nat) (done : Bool), Inv A unk st →
      (iterate syndrome depth n st cur done).Sat fun q => plain n st done = ok (q.1, q.2.2) := by
  intro n
  induction n with
  | zero => intro st cur done h; exact sat_ok.2 rfl
  | succ n ih =>
    intro st cur done h
    obtain ⟨r, e, hr⟩ := sweep_swept h0 h1 hA h
    unfold iterate plain
    rw [e, bind_ok]
    simp only [bind_ok]
    split
    · rename_i hc
      rw [Bool.and_eq_true] at hc
      split
      · exact sat_ok.2 (plain_again (sweep_again h0 h1 hA h e hc.2) n)
      · exact ih _ _ hr.inv
    · exact ih _ _ hr.inv

theorem peeledIn_front {A : Conns} {k k' : Nat → Prop} (hk : ∀ v, PeeledIn A k 1 v → k' v) : ∀ t v, PeeledIn A k (t + 1) v → PeeledIn A k' t v := by
  intro t
  induction t with
  | zero => intro v h; exact hk v h
  | succ t ih =>
    intro v h
    rcases h with h | ⟨c, hm, h⟩
    · exact .inl (ih v h)
    · exact .inr ⟨c, hm, fun u hu huv => ih u (h u hu huv)⟩

/-- What `n` iterations give. -/
structure Ran (A : Conns) (unk : Nat) (n : Nat) (V : List Nat) (r : St × Bool) : Prop where
  inv : Inv A unk r.1
  steps : Steps A unk V r.1.VN
  rounds : ∀ v, PeeledIn A (Known unk V) n v → Known unk r.1.VN v
  stuck : erasures unk V ≤ n → Stuck A unk r.1.VN
  full : 0 < n → r.2 = true → Full A unk r.1.VN
  done : erasures unk V < n → Full A unk r.1.VN → r.2 = true

theorem plain_ran {A : Conns} {unk : Nat} (h0 : unk ≠ 0) (h1 : unk ≠ 1) (hA : InRange A) : ∀ (n : Nat) {st : St} (done : Bool), Inv A unk st →
    (plain n st done).Sat (Ran A unk n st.VN) := by
  intro n
  induction n with
  | zero =>
    intro st done h
    refine sat_ok.2 ⟨h, .refl, fun v hv => hv, fun hc => ?_, fun hn => absurd hn (by omega), fun hc => absurd hc (by omega)⟩
    intro v c hv hm
    exfalso
    apply hv
    have hvl : v < st.VN.length := by rw [h.vn]; exact (hA _ hm).1
    have hz : unk ∉ st.VN := by
      have : st.VN.count unk = 0 := by unfold erasures at hc; omega
      exact List.count_eq_zero.1 this
    show Known unk st.VN v
    unfold Known
    rw [getD_lt unk hvl]
    intro e
    exact hz (e ▸ List.getElem_mem hvl)
  | succ n ih =>
    intro st done h
    obtain ⟨r, e, hr⟩ := sweep_swept h0 h1 hA h
    unfold plain
    rw [e, bind_ok]
    obtain ⟨q, eq, hq⟩ := ih r.2.2 hr.inv
    refine ⟨q, eq, hq.inv, hr.steps.trans hq.steps, fun v hv => ?_, fun hc => ?_, fun _ => ?_, fun hc hfull => ?_⟩
    · refine hq.rounds v (peeledIn_front (fun u hu => ?_) n v hv)
      rcases hu with hu | ⟨c, hm, hu⟩
      · exact hr.steps.known hu
      · exact hr.round c (hA _ hm).2 u hm hu
    · rcases hn : r.2.1 with _ | _
      · exact hq.stuck (by have := (hr.less hn).1; omega)
      · have ea := sweep_again h0 h1 hA h e (by rw [hn, Bool.or_true])
        have ep := plain_again ea n
        rw [eq] at ep
        obtain ⟨a1, a2⟩ := hr.same hn
        cases ep
        show Stuck A unk r.1.VN
        rw [a1]
        intro v c hv hm
        exact a2 c (hA _ hm).2 v hm hv
    · cases n with
      | zero =>
        intro hb
        cases eq
        exact fun v ⟨c, hc⟩ => hr.full hb c (hA _ hc).2 v hc
      | succ n => exact hq.full (by omega)
    · rcases hn : r.2.1 with _ | _
      · exact hq.done (by have := (hr.less hn).1; omega) hfull
      · have ea := sweep_again h0 h1 hA h e (by rw [hn, Bool.or_true])
        have ep := plain_again ea n
        rw [eq] at ep
        obtain ⟨a1, -⟩ := hr.same hn
        cases ep
        by_contra hne
        apply hr.lack (by simpa using hne)
        rw [← a1]
        exact hfull

end Verif.Peeling
