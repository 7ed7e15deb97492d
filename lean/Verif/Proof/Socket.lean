import Verif.Spec.Socket
import Mathlib.Data.List.Count

/-! # Proofs about bindings -/

namespace Verif.Socket

theorem set_same (n : Net) (i : Nat) (s : Sock) : n.set i s i = s := by unfold Net.set; rw [if_pos rfl]
theorem set_ne (n : Net) {i j : Nat} (s : Sock) (h : j ≠ i) : n.set i s j = n j := by unfold Net.set; rw [if_neg h]

theorem count_insertAt (l : List Nat) (i j : Nat) (p : Int) : (insertAt l i p).count j = l.count j + if i = j then 1 else 0 := by
  unfold insertAt
  split
  · rw [List.count_append, List.count_singleton]
    simp only [beq_iff_eq]
  · rw [List.count_append, List.count_cons, ← Nat.add_assoc, ← List.count_append, List.take_append_drop]
    simp only [beq_iff_eq]

/-- What `unbind` does when it returns. -/
theorem unbind_bound {n : Net} (h : WF n) {i o : Nat} (hb : (n i).bound = some o) :
    ∃ n', unbind n i o = .done n' ∧ WF n' ∧
      (∀ j, n' j = { n j with bound := if j = i then none else (n j).bound, outs := if j = o then (n j).outs.erase i else (n j).outs }) := by
  unfold unbind
  rw [if_neg (by rw [hb]; simp), if_neg (by rw [hb]; simp)]
  have hm : i ∈ (n.set i { n i with bound := none } o).outs := by
    have : i ∈ (n o).outs := List.count_pos_iff.1 (by rw [h i o, if_pos hb]; exact Nat.one_pos)
    by_cases ho : o = i
    · subst ho; rw [set_same]; exact this
    · rw [set_ne _ _ ho]; exact this
  simp only []
  rw [if_pos hm]
  have key : ∀ j, (n.set i { n i with bound := none }).set o
      { n.set i { n i with bound := none } o with outs := (n.set i { n i with bound := none } o).outs.erase i } j =
      { n j with bound := if j = i then none else (n j).bound, outs := if j = o then (n j).outs.erase i else (n j).outs } := by
    intro j
    by_cases hj : j = o
    · subst hj
      rw [set_same]
      by_cases hi : j = i
      · subst hi; rw [set_same]; simp
      · rw [set_ne _ _ hi]; simp [hi]
    · rw [set_ne _ _ hj]
      by_cases hi : j = i
      · subst hi; rw [set_same]; simp [hj]
      · rw [set_ne _ _ hi]; simp [hj, hi]
  refine ⟨_, rfl, ?_, key⟩
  intro a b
  rw [key a, key b]
  simp only
  by_cases hbo : b = o
  · subst hbo
    rw [if_pos rfl]
    by_cases hai : a = i
    · subst hai
      rw [if_pos rfl, List.count_erase_self, h a b, if_pos hb]
      simp
    · rw [List.count_erase_of_ne hai, if_neg hai]
      exact h a b
  · rw [if_neg hbo]
    by_cases hai : a = i
    · subst hai
      rw [if_pos rfl, h a b, hb, if_neg (by simp; exact fun h => hbo h.symm)]
      simp
    · rw [if_neg hai]; exact h a b

theorem unbind_other {n : Net} {i o : Nat} (hb : (n i).bound ≠ some o) : unbind n i o = .thrown n := by
  unfold unbind
  by_cases h : (n i).bound = none
  · rw [if_pos h]
  · rw [if_neg h, if_pos hb]

/-- What `bindNew` does on an unbound socket. -/
theorem bindNew_free {n : Net} (h : WF n) {i o : Nat} (p : Int) (hb : (n i).bound = none) :
    ∃ n', bindNew i o p n = .done n' ∧ WF n' ∧
      (∀ j, n' j = { n j with
        bound := if j = i then some o else (n j).bound,
        outs := if j = o then insertAt (n j).outs i p else (n j).outs,
        ptr := if j = i then (n o).ptr else (n j).ptr }) := by
  unfold bindNew
  rw [if_neg (by rw [hb]; simp)]
  simp only []
  have ho : (n.set i { n i with bound := some o } o).outs = (n o).outs ∧ (n.set i { n i with bound := some o } o).ptr = (n o).ptr := by
    by_cases ho : o = i
    · subst ho; rw [set_same]; exact ⟨rfl, rfl⟩
    · rw [set_ne _ _ ho]; exact ⟨rfl, rfl⟩
  have hm : ¬ i ∈ (n.set i { n i with bound := some o } o).outs := by
    rw [ho.1]
    intro hm
    have := List.count_pos_iff.2 hm
    rw [h i o, hb, if_neg (by simp)] at this
    omega
  rw [if_neg hm]
  refine ⟨_, rfl, ?_⟩
  have key : ∀ j, ((n.set i { n i with bound := some o }).set o
        { n.set i { n i with bound := some o } o with outs := insertAt (n.set i { n i with bound := some o } o).outs i p }).set i
      { (n.set i { n i with bound := some o }).set o
          { n.set i { n i with bound := some o } o with outs := insertAt (n.set i { n i with bound := some o } o).outs i p } i with
        ptr := ((n.set i { n i with bound := some o }).set o
          { n.set i { n i with bound := some o } o with outs := insertAt (n.set i { n i with bound := some o } o).outs i p } o).ptr } j =
      { n j with
        bound := if j = i then some o else (n j).bound,
        outs := if j = o then insertAt (n j).outs i p else (n j).outs,
        ptr := if j = i then (n o).ptr else (n j).ptr } := by
    intro j
    by_cases hi : j = i
    · subst hi
      rw [set_same]
      by_cases hj : j = o
      · subst hj; simp only [set_same]; simp
      · rw [set_ne _ _ hj, set_same, set_same, ho.2]; simp [hj]
    · rw [set_ne _ _ hi]
      by_cases hj : j = o
      · subst hj; rw [set_same, set_ne _ _ hi]; simp [hi]
      · rw [set_ne _ _ hj, set_ne _ _ hi]; simp [hi, hj]
  refine ⟨?_, key⟩
  intro a b
  rw [key a, key b]
  simp only
  by_cases hai : a = i
  · subst hai
    rw [if_pos rfl]
    by_cases hbo : b = o
    · subst hbo
      rw [if_pos rfl, count_insertAt, h a b, hb, if_pos rfl, if_pos rfl, if_neg (by simp)]
    · rw [if_neg hbo, h a b, hb, if_neg (by simp), if_neg (by simp; exact fun h => hbo h.symm)]
  · rw [if_neg hai]
    by_cases hbo : b = o
    · subst hbo
      rw [if_pos rfl, count_insertAt, if_neg (fun h => hai h.symm)]
      exact h a b
    · rw [if_neg hbo]; exact h a b

theorem bindNew_bound {n : Net} {i o : Nat} (p : Int) (hb : (n i).bound ≠ none) : bindNew i o p n = .thrown n := by
  unfold bindNew; rw [if_pos hb]

/-- The list of an output without `i`. -/
def without (l : List Nat) (i : Nat) : List Nat := l.erase i

theorem not_mem_of_count {n : Net} (h : WF n) {i o : Nat} (hb : (n i).bound ≠ some o) : i ∉ (n o).outs := by
  intro hm
  have := List.count_pos_iff.2 hm
  rw [h i o, if_neg hb] at this
  omega

theorem bind_spec {n : Net} (h : WF n) (i o : Nat) (p : Int) :
    (Refused n i o → bind n i o p = .thrown n) ∧
    (¬ Refused n i o → ∃ n', bind n i o p = .done n' ∧ WF n' ∧
      (∀ j, n' j = { n j with
        bound := if j = i then some o else (n j).bound,
        outs := if j = o then insertAt ((n j).outs.erase i) i p else (n j).outs,
        ptr := if j = i then (n o).ptr else (n j).ptr })) := by
  unfold Refused bind
  constructor
  · rintro (hr | ⟨h1, h2⟩)
    · rw [if_pos hr]
    · rw [if_neg h2, bindNew_bound p h1]
      split <;> rfl
  · intro hr
    rw [if_neg fun hc => hr (Or.inl hc)]
    by_cases hb : (n i).bound = some o
    · rw [if_pos hb]
      obtain ⟨n1, e1, w1, k1⟩ := unbind_bound h hb
      have hb1 : (n1 i).bound = none := by rw [k1 i]; simp
      obtain ⟨n2, e2, w2, k2⟩ := bindNew_free w1 (o := o) p hb1
      rw [e1]
      refine ⟨n2, e2, w2, fun j => ?_⟩
      rw [k2 j, k1 j, k1 o]
      by_cases hj : j = o
      · subst hj; by_cases hi : j = i <;> simp [hi]
      · by_cases hi : j = i
        · subst hi; simp [hj]
        · simp [hj, hi]
    · have hn : (n i).bound = none := by
        cases e : (n i).bound with
        | none => rfl
        | some x => exact absurd (Or.inr ⟨by rw [e]; simp, hb⟩) hr
      rw [if_neg hb]
      obtain ⟨n2, e2, w2, k2⟩ := bindNew_free h (o := o) p hn
      refine ⟨n2, e2, w2, fun j => ?_⟩
      rw [k2 j]
      by_cases hj : j = o
      · subst hj; rw [List.erase_of_not_mem (not_mem_of_count h hb)]
      · simp [hj]

/-- `WF`, `Same`, `Directed`, `Checked` only look at some fields. -/
theorem WF_set {n : Net} (h : WF n) (i : Nat) (s : Sock) (hb : s.bound = (n i).bound) (ho : s.outs = (n i).outs) : WF (n.set i s) := by
  intro a b
  have e1 : (n.set i s a).bound = (n a).bound := by
    by_cases e : a = i
    · subst e; rw [set_same, hb]
    · rw [set_ne _ _ e]
  have e2 : (n.set i s b).outs = (n b).outs := by
    by_cases e : b = i
    · subst e; rw [set_same, ho]
    · rw [set_ne _ _ e]
  rw [e1, e2]
  exact h a b

theorem WF_ptr {n : Net} (h : WF n) (i : Nat) (p : Option Nat) : WF (fastPtr n i p) := by
  unfold fastPtr
  split
  · exact WF_set h i _ rfl rfl
  · exact h

/-- The calls other than `bind`, `assign`, `unbind`, `reset` do not touch the bindings. -/
theorem bindPtr_wf {n : Net} (h : WF n) (i : Nat) (p : Option Nat) : (bindPtr n i p).All WF := by
  unfold bindPtr
  split
  · exact h
  · exact WF_set h i _ rfl rfl

theorem bindArr_wf {n : Net} (h : WF n) (i T : Nat) (p : Option Nat) : (bindArr n i T p).All WF := by
  unfold bindArr
  simp only []
  split
  · exact WF_ptr h i p
  · exact bindPtr_wf (WF_ptr h i p) i p

theorem bindVec_wf {n : Net} (h : WF n) (i T len : Nat) (p : Option Nat) : (bindVec n i T len p).All WF := by
  unfold bindVec
  simp only []
  split
  · exact WF_ptr h i p
  · exact bindArr_wf (WF_ptr h i p) i T p

theorem unbind_wf {n : Net} (h : WF n) (i o : Nat) : (unbind n i o).All WF := by
  by_cases hb : (n i).bound = some o
  · obtain ⟨n', e, w, -⟩ := unbind_bound h hb
    rw [e]; exact w
  · rw [unbind_other hb]; exact h

theorem bind_wf {n : Net} (h : WF n) (i o : Nat) (p : Int) : (bind n i o p).All WF := by
  by_cases hr : Refused n i o
  · rw [(bind_spec h i o p).1 hr]; exact h
  · obtain ⟨n', e, w, -⟩ := (bind_spec h i o p).2 hr
    rw [e]; exact w

theorem andThen_all {P Q : Net → Prop} {r : Res} {f : Net → Res} (hr : r.All P) (hPQ : ∀ n, P n → Q n) (hf : ∀ n, P n → (f n).All Q) :
    (r.andThen f).All Q := by
  cases r with
  | done n => exact hf n hr
  | thrown n => exact hPQ n hr
  | ub => trivial

theorem resetLoop_wf (i : Nat) : ∀ (k j : Nat) {n : Net}, WF n → (resetLoop i k j n).All WF
  | 0, _, _, h => h
  | k + 1, j, n, h => by
    unfold resetLoop
    split
    · trivial
    · exact andThen_all (unbind_wf h _ i) (fun _ h => h) fun n hn => resetLoop_wf i k (j + 1) hn

theorem resetIn_wf {n : Net} (h : WF n) (i : Nat) : (resetIn n i).All WF := by
  unfold resetIn
  split
  · exact h
  · exact unbind_wf h i _

theorem reset_wf {n : Net} (h : WF n) (i : Nat) : (reset n i).All WF :=
  andThen_all (resetIn_wf h i) (fun _ h => h) fun _ hn => resetLoop_wf i _ 0 hn

theorem op_wf {n : Net} (h : WF n) (o : Op) : (o.run n).All WF := by
  cases o with
  | bind i o p => exact bind_wf h i o p
  | assign i s =>
    show (assign n i s).All WF
    unfold assign
    split
    · exact bind_wf h i s (-1)
    · split
      · exact bind_wf h s i (-1)
      · exact h
  | unbind i o => exact unbind_wf h i o
  | reset i => exact reset_wf h i
  | bindPtr i p => exact bindPtr_wf h i p
  | bindArr i T p => exact bindArr_wf h i T p
  | bindVec i T len p => exact bindVec_wf h i T len p
  | setBytes i b =>
    show (setBytes n i b).All WF
    unfold setBytes
    split
    · split
      · exact h
      · exact WF_set h i _ rfl rfl
    · exact h
  | setType i T e =>
    show (setType n i T e).All WF
    unfold setType
    split
    · split
      · exact h
      · exact WF_set h i _ rfl rfl
    · exact h
  | setPtr i p =>
    show (setPtr n i p).All WF
    unfold setPtr
    split
    · split
      · exact h
      · exact WF_set h i _ rfl rfl
    · exact h
  | setFast i f => exact WF_set h i _ rfl rfl

/-! ## Type, size and pointer -/

/-- The invariant of careful histories. -/
structure Good (sz : Nat → Nat) (n : Net) : Prop where
  wf : WF n
  same : Same n
  dir : Directed n
  chk : Checked sz n

theorem good_unbound {sz : Nat → Nat} {n : Net} (h : Good sz n) (i : Nat) (s : Sock) (hi : isBound (n i) = false) (hb : s.bound = (n i).bound)
    (ho : s.outs = (n i).outs) (hd : s.isOut = (n i).isOut) (hf : s.fast = false) (hs : s.esize = sz s.dt) : Good sz (n.set i s) := by
  unfold isBound at hi
  rw [decide_eq_false_iff_not] at hi
  have hout : (n i).outs = [] := by
    cases e : (n i).outs with
    | nil => rfl
    | cons a l => exact absurd (Or.inl (by rw [e]; simp)) hi
  have hbn : (n i).bound = none := by
    cases e : (n i).bound with
    | none => rfl
    | some a => exact absurd (Or.inr (by rw [e]; simp)) hi
  have hno : ∀ a, (n a).bound ≠ some i := by
    intro a ha
    have := h.wf a i
    rw [if_pos ha, hout] at this
    simp at this
  have key : ∀ a b, (n.set i s a).bound = some b → (n a).bound = some b ∧ a ≠ i ∧ b ≠ i := by
    intro a b hab
    by_cases e : a = i
    · subst e; rw [set_same, hb, hbn] at hab; cases hab
    · rw [set_ne _ _ e] at hab
      exact ⟨hab, e, fun e' => hno a (e' ▸ hab)⟩
  refine ⟨WF_set h.wf i s hb ho, ?_, ?_, ?_⟩
  · intro a b hab
    obtain ⟨h1, h2, h3⟩ := key a b hab
    rw [set_ne _ _ h2, set_ne _ _ h3]
    exact h.same a b h1
  · intro a b hab
    obtain ⟨h1, h2, h3⟩ := key a b hab
    rw [set_ne _ _ h2, set_ne _ _ h3]
    exact h.dir a b h1
  · intro a
    by_cases e : a = i
    · subst e; rw [set_same]; exact ⟨hf, hs⟩
    · rw [set_ne _ _ e]; exact h.chk a

theorem good_unbind {sz : Nat → Nat} {n : Net} (h : Good sz n) (i o : Nat) : (unbind n i o).All (Good sz) := by
  by_cases hb : (n i).bound = some o
  · obtain ⟨n', e, w, k⟩ := unbind_bound h.wf hb
    rw [e]
    have key : ∀ a b, (n' a).bound = some b → (n a).bound = some b := by
      intro a b hab
      rw [k a] at hab
      simp only at hab
      split at hab
      · cases hab
      · exact hab
    refine ⟨w, ?_, ?_, ?_⟩
    · intro a b hab
      have := h.same a b (key a b hab)
      rw [k a, k b]
      exact this
    · intro a b hab
      have := h.dir a b (key a b hab)
      rw [k a, k b]
      exact this
    · intro a
      rw [k a]
      exact h.chk a
  · rw [unbind_other hb]; exact h

theorem good_bind {sz : Nat → Nat} {n : Net} (h : Good sz n) (i o : Nat) (p : Int) (hi : (n i).isOut = false) (ho : (n o).isOut = true) :
    (bind n i o p).All (Good sz) := by
  by_cases hr : Refused n i o
  · rw [(bind_spec h.wf i o p).1 hr]; exact h
  · obtain ⟨n', e, w, k⟩ := (bind_spec h.wf i o p).2 hr
    rw [e]
    have hio : i ≠ o := by rintro rfl; rw [hi] at ho; cases ho
    have hob : (n o).bound = none := by
      cases eb : (n o).bound with
      | none => rfl
      | some x => have := (h.dir o x eb).1; rw [ho] at this; cases this
    have hnb : ∀ a, (n a).bound ≠ some i := by
      intro a ha
      have := (h.dir a i ha).2
      rw [hi] at this; cases this
    unfold Refused at hr
    have hch : (n o).dt = (n i).dt ∧ (n o).bytes = (n i).bytes ∧ (n o).ptr ≠ none := by
      refine ⟨?_, ?_, ?_⟩
      · by_cases hh : (n o).dt = (n i).dt
        · exact hh
        · exact absurd (Or.inl ⟨(h.chk i).1, Or.inl hh⟩) hr
      · by_cases hh : (n o).bytes = (n i).bytes
        · exact hh
        · exact absurd (Or.inl ⟨(h.chk i).1, Or.inr (Or.inl hh)⟩) hr
      · intro hh
        exact hr (Or.inl ⟨(h.chk i).1, Or.inr (Or.inr hh)⟩)
    have hnot : ∀ a b, a ≠ i → (n' a).bound = some b → (n a).bound = some b ∧ b ≠ i := by
      intro a b ha hab
      rw [k a] at hab
      simp only [if_neg ha] at hab
      exact ⟨hab, fun e' => hnb a (e' ▸ hab)⟩
    refine ⟨w, ?_, ?_, ?_⟩
    · intro a b hab
      by_cases ha : a = i
      · subst ha
        rw [k a] at hab
        simp only [if_true, Option.some.injEq] at hab
        subst hab
        rw [k a, k o]
        simp only [if_true, if_neg hio.symm]
        exact ⟨hch.1.symm, by rw [(h.chk a).2, (h.chk o).2, hch.1], hch.2.1.symm, trivial, hch.2.2⟩
      · obtain ⟨h1, h2⟩ := hnot a b ha hab
        rw [k a, k b]
        simp only [if_neg ha, if_neg h2]
        exact h.same a b h1
    · intro a b hab
      by_cases ha : a = i
      · subst ha
        rw [k a] at hab
        simp only [if_true, Option.some.injEq] at hab
        subst hab
        rw [k a, k o]
        exact ⟨hi, ho⟩
      · obtain ⟨h1, h2⟩ := hnot a b ha hab
        rw [k a, k b]
        exact h.dir a b h1
    · intro a
      rw [k a]
      exact h.chk a

theorem good_resetLoop {sz : Nat → Nat} (i : Nat) : ∀ (k j : Nat) {n : Net}, Good sz n → (resetLoop i k j n).All (Good sz)
  | 0, _, _, h => h
  | k + 1, j, n, h => by
    unfold resetLoop
    split
    · trivial
    · exact andThen_all (good_unbind h _ i) (fun _ h => h) fun n hn => good_resetLoop i k (j + 1) hn

theorem good_bindPtr {sz : Nat → Nat} {n : Net} (h : Good sz n) (i : Nat) (p : Option Nat) : (bindPtr n i p).All (Good sz) := by
  unfold bindPtr
  split
  · exact h
  · rename_i hc
    refine good_unbound h i _ ?_ rfl rfl rfl (h.chk i).1 (h.chk i).2
    cases e : isBound (n i) with
    | false => rfl
    | true => exact absurd ⟨(h.chk i).1, Or.inr e⟩ hc

theorem good_bindArr {sz : Nat → Nat} {n : Net} (h : Good sz n) (i T : Nat) (p : Option Nat) : (bindArr n i T p).All (Good sz) := by
  unfold bindArr fastPtr
  rw [(h.chk i).1]
  simp only [Bool.false_eq_true, if_false]
  split
  · exact h
  · exact good_bindPtr h i p

theorem good_bindVec {sz : Nat → Nat} {n : Net} (h : Good sz n) (i T len : Nat) (p : Option Nat) : (bindVec n i T len p).All (Good sz) := by
  unfold bindVec fastPtr
  rw [(h.chk i).1]
  simp only [Bool.false_eq_true, if_false]
  split
  · exact h
  · exact good_bindArr h i T p

theorem good_op {sz : Nat → Nat} {n : Net} (h : Good sz n) (o : Op) (hc : o.careful sz n) : (o.run n).All (Good sz) := by
  cases o with
  | bind i o p => exact good_bind h i o p hc.1 hc.2
  | assign i s =>
    show (assign n i s).All _
    unfold assign
    split
    · rename_i h'; exact good_bind h i s (-1) h'.2 h'.1
    · split
      · rename_i h'; exact good_bind h s i (-1) h'.1 h'.2
      · exact h
  | unbind i o => exact good_unbind h i o
  | reset i =>
    refine andThen_all (P := Good sz) ?_ (fun _ h => h) fun _ hn => good_resetLoop i _ 0 hn
    unfold resetIn
    split
    · exact h
    · exact good_unbind h i _
  | bindPtr i p => exact good_bindPtr h i p
  | bindArr i T p => exact good_bindArr h i T p
  | bindVec i T len p => exact good_bindVec h i T len p
  | setBytes i b =>
    show (setBytes n i b).All _
    unfold setBytes
    split
    · split
      · exact h
      · rename_i hb; exact good_unbound h i _ (by simpa using hb) rfl rfl rfl (h.chk i).1 (h.chk i).2
    · exact h
  | setType i T e =>
    show (setType n i T e).All _
    unfold setType
    split
    · split
      · exact h
      · rename_i hb; exact good_unbound h i _ (by simpa using hb) rfl rfl rfl (h.chk i).1 hc
    · exact h
  | setPtr i p =>
    show (setPtr n i p).All _
    unfold setPtr
    split
    · split
      · exact h
      · rename_i hb; exact good_unbound h i _ (by simpa using hb) rfl rfl rfl (h.chk i).1 (h.chk i).2
    · exact h
  | setFast i f =>
    have hf : f = false := hc
    show Good sz (n.set i { n i with fast := f })
    have : n.set i { n i with fast := f } = n := by
      funext a
      by_cases e : a = i
      · subst e; rw [set_same, hf, ← (h.chk a).1]
      · rw [set_ne _ _ e]
    rw [this]; exact h

end Verif.Socket
