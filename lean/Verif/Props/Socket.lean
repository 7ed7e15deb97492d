import Verif.Proof.Socket

/-! # C35, C60: bindings of sockets -/

namespace Verif.Socket

theorem fresh_good {sz : Nat → Nat} {n : Net} (h : Fresh n) (hc : Checked sz n) : Good sz n := by
  refine ⟨fun i o => ?_, fun i o hb => ?_, fun i o hb => ?_, hc⟩
  · rw [(h o).2, (h i).1]; simp
  · rw [(h i).1] at hb; cases hb
  · rw [(h i).1] at hb; cases hb

theorem runAll_wf : ∀ (os : List Op) {n n' : Net}, WF n → runAll n os = some n' → WF n'
  | [], n, n', h, e => by rw [← Option.some.inj e]; exact h
  | o :: os, n, n', h, e => by
    unfold runAll at e
    have := op_wf h o
    split at e
    · rename_i n1 e1; rw [e1] at this; exact runAll_wf os this e
    · rename_i n1 e1; rw [e1] at this; exact runAll_wf os this e
    · cases e

theorem runAll_good {sz : Nat → Nat} : ∀ (os : List Op) {n n' : Net}, Good sz n → carefulAll sz n os → runAll n os = some n' → Good sz n'
  | [], n, n', h, _, e => by rw [← Option.some.inj e]; exact h
  | o :: os, n, n', h, hc, e => by
    unfold runAll at e
    unfold carefulAll at hc
    have := good_op h o hc.1
    cases e1 : o.run n with
    | done n1 => rw [e1] at this e hc; exact runAll_good os this hc.2 e
    | thrown n1 => rw [e1] at this e hc; exact runAll_good os this hc.2 e
    | ub => rw [e1] at e; cases e

/-- C35: after any history of calls, exceptions included, an input is bound to an output if and only if it appears exactly
once in the list of this output, and appears nowhere else. -/
theorem C35_histories (n n' : Net) (h : Fresh n) (os : List Op) (e : runAll n os = some n') (i o : Nat) :
    ((n' i).bound = some o → (n' o).outs.count i = 1) ∧ ((n' i).bound ≠ some o → i ∉ (n' o).outs) := by
  have h0 : WF n := fun i o => by rw [(h o).2, (h i).1]; simp
  have hw := runAll_wf os h0 e
  exact ⟨fun hb => by rw [hw i o, if_pos hb], fun hb => not_mem_of_count hw hb⟩

/-- C35: after any history of calls which bind inputs to outputs without the fast mode, bound sockets have the same type,
size and non-null data pointer. -/
theorem C35_same (sz : Nat → Nat) (n n' : Net) (h : Fresh n) (hc : Checked sz n) (os : List Op) (ho : carefulAll sz n os)
    (e : runAll n os = some n') (i o : Nat) (hb : (n' i).bound = some o) :
    (n' i).dt = (n' o).dt ∧ (n' i).bytes = (n' o).bytes ∧ (n' i).ptr = (n' o).ptr ∧ (n' o).ptr ≠ none := by
  obtain ⟨h1, -, h2, h3, h4⟩ := (runAll_good os (fresh_good h hc) ho e).same i o hb
  exact ⟨h1, h2, h3, h4⟩

/-- C35: in these histories a call which throws changes nothing. -/
theorem C35_throw (n n' : Net) (h : WF n) (hc : ∀ i, (n i).fast = false) (o : Op) (ho : ∀ i, o ≠ .reset i) (e : o.run n = .thrown n') :
    n' = n := by
  have inj : ∀ {a b : Net}, Res.thrown a = Res.thrown b → b = a := fun h => by cases h; rfl
  have hbind : ∀ i o p, bind n i o p = .thrown n' → n' = n := by
    intro i o p e
    by_cases hr : Refused n i o
    · rw [(bind_spec h i o p).1 hr] at e; exact inj e
    · obtain ⟨x, e', -⟩ := (bind_spec h i o p).2 hr
      rw [e'] at e; cases e
  have hptr : ∀ i p, bindPtr n i p = .thrown n' → n' = n := by
    intro i p e
    unfold bindPtr at e
    split at e
    · exact inj e
    · cases e
  have harr : ∀ i T p, bindArr n i T p = .thrown n' → n' = n := by
    intro i T p e
    unfold bindArr fastPtr at e
    rw [hc i] at e
    simp only [Bool.false_eq_true, if_false] at e
    split at e
    · exact inj e
    · exact hptr i p e
  cases o with
  | bind i o p => exact hbind i o p e
  | assign i s =>
    change assign n i s = _ at e
    unfold assign at e
    split at e
    · exact hbind _ _ _ e
    · split at e
      · exact hbind _ _ _ e
      · exact inj e
  | unbind i o =>
    change unbind n i o = _ at e
    by_cases hb : (n i).bound = some o
    · obtain ⟨x, e', -⟩ := unbind_bound h hb
      rw [e'] at e; cases e
    · rw [unbind_other hb] at e; exact inj e
  | reset i => exact absurd rfl (ho i)
  | bindPtr i p => exact hptr i p e
  | bindArr i T p => exact harr i T p e
  | bindVec i T len p =>
    change bindVec n i T len p = _ at e
    unfold bindVec fastPtr at e
    rw [hc i] at e
    simp only [Bool.false_eq_true, if_false] at e
    split at e
    · exact inj e
    · exact harr i T p e
  | setBytes i b =>
    change setBytes n i b = _ at e
    unfold setBytes at e
    split at e
    · split at e
      · exact inj e
      · cases e
    · cases e
  | setType i T z =>
    change setType n i T z = _ at e
    unfold setType at e
    split at e
    · split at e
      · exact inj e
      · cases e
    · cases e
  | setPtr i p =>
    change setPtr n i p = _ at e
    unfold setPtr at e
    split at e
    · split at e
      · exact inj e
      · cases e
    · cases e
  | setFast i f => cases e

/-- C35: `bind` is refused if and only if a check fails or the input is bound to another output; otherwise the input is
bound (moved, if it was already bound to this output) at the place given by the priority in the list of the output, takes
its data pointer, and nothing else changes. -/
theorem C35_bind (n : Net) (h : WF n) (i o : Nat) (p : Int) :
    (Refused n i o → bind n i o p = .thrown n) ∧
    (¬ Refused n i o → ∃ n', bind n i o p = .done n' ∧
      (n' i).bound = some o ∧ (n' i).ptr = (n o).ptr ∧
      (n' o).outs = insertAt ((n o).outs.erase i) i p ∧
      (∀ j, j ≠ i → (n' j).bound = (n j).bound ∧ (n' j).ptr = (n j).ptr) ∧
      (∀ j, j ≠ o → (n' j).outs = (n j).outs) ∧
      (∀ j, (n' j).dt = (n j).dt ∧ (n' j).bytes = (n j).bytes)) := by
  refine ⟨(bind_spec h i o p).1, fun hr => ?_⟩
  obtain ⟨n', e, -, k⟩ := (bind_spec h i o p).2 hr
  refine ⟨n', e, by rw [k i]; simp, by rw [k i]; simp, by rw [k o]; simp, fun j hj => ?_, fun j hj => ?_, fun j => ?_⟩
  · rw [k j]; simp [hj]
  · rw [k j]; simp [hj]
  · rw [k j]; exact ⟨rfl, rfl⟩

/-- C35: the place: a priority between 0 and the number of bound sockets is the position of the new one, the others keep
their order; any other priority puts it at the end. -/
theorem C35_priority (l : List Nat) (i : Nat) (p : Int) (h : i ∉ l) :
    (insertAt l i p).erase i = l ∧
    (insertAt l i p)[(if 0 ≤ p ∧ p ≤ l.length then p.toNat else l.length)]? = some i := by
  unfold insertAt
  by_cases hc : p < 0 ∨ (l.length : Int) < p
  · rw [if_pos hc, if_neg (by omega), List.erase_append_right _ h]
    simp
  · rw [if_neg hc, if_pos (by omega)]
    constructor
    · rw [List.erase_append_right _ (fun hm => h (List.mem_of_mem_take hm)), List.erase_cons_head, List.take_append_drop]
    · rw [List.getElem?_append_right (by rw [List.length_take]; omega)]
      rw [List.length_take, Nat.min_eq_left (by omega), Nat.sub_self]
      rfl

/-- C35: `unbind` returns the position of the input in the list of its output and removes it; it throws if the input is not
bound to this output. -/
theorem C35_unbind (n : Net) (h : WF n) (i o : Nat) :
    ((n i).bound ≠ some o → unbind n i o = .thrown n) ∧
    ((n i).bound = some o → (n o).outs[unbindPos n i o]? = some i ∧ ∃ n', unbind n i o = .done n' ∧
      (n' i).bound = none ∧ (n' o).outs = (n o).outs.eraseIdx (unbindPos n i o) ∧
      (∀ j, j ≠ i → (n' j).bound = (n j).bound) ∧ (∀ j, j ≠ o → (n' j).outs = (n j).outs) ∧
      (∀ j, (n' j).dt = (n j).dt ∧ (n' j).bytes = (n j).bytes ∧ (n' j).ptr = (n j).ptr)) := by
  refine ⟨unbind_other, fun hb => ?_⟩
  have hm : i ∈ (n o).outs := List.count_pos_iff.1 (by rw [h i o, if_pos hb]; exact Nat.one_pos)
  obtain ⟨n', e, -, k⟩ := unbind_bound h hb
  refine ⟨?_, n', e, by rw [k i]; simp, ?_, fun j hj => by rw [k j]; simp [hj], fun j hj => by rw [k j]; simp [hj],
    fun j => by rw [k j]; exact ⟨rfl, rfl, rfl⟩⟩
  · unfold unbindPos
    rw [List.getElem?_eq_getElem (List.idxOf_lt_length_of_mem hm), List.getElem_idxOf]
  · rw [k o]
    simp only [if_true]
    unfold unbindPos
    exact List.erase_eq_eraseIdx_of_idxOf rfl

/-- C35: `reset` of a socket to which at most one socket is bound leaves it unbound, as well as that socket, and touches no
other binding. -/
theorem C35_reset (n : Net) (h : WF n) (i : Nat) (hl : (n i).outs.length ≤ 1) :
    ∃ n', reset n i = .done n' ∧ (n' i).bound = none ∧ (n' i).outs = [] ∧
      (∀ j, (n j).bound = some i → (n' j).bound = none) ∧
      (∀ j, j ≠ i → (n j).bound ≠ some i → (n' j).bound = (n j).bound) := by
  have h1 : ∃ n1, resetIn n i = .done n1 ∧ WF n1 ∧ (n1 i).bound = none ∧ (n1 i).outs.length ≤ 1 ∧ (∀ j, j ≠ i → (n1 j).bound = (n j).bound) := by
    unfold resetIn
    cases hb : (n i).bound with
    | none => exact ⟨n, rfl, h, hb, hl, fun _ _ => rfl⟩
    | some o =>
      obtain ⟨n', e, w, k⟩ := unbind_bound h hb
      refine ⟨n', e, w, by rw [k i]; simp, ?_, fun j hj => by rw [k j]; simp [hj]⟩
      rw [k i]
      simp only
      split
      · exact Nat.le_trans List.length_erase_le hl
      · exact hl
  obtain ⟨n1, e1, w1, b1, l1, k1⟩ := h1
  unfold reset
  rw [e1]
  show ∃ n', resetLoop i (n1 i).outs.length 0 n1 = _ ∧ _
  cases ho : (n1 i).outs with
  | nil =>
    refine ⟨n1, rfl, b1, ho, fun j hj => ?_, fun j hj _ => k1 j hj⟩
    by_cases hji : j = i
    · rw [hji]; exact b1
    · have := w1 j i
      rw [k1 j hji, if_pos hj, ho] at this
      simp at this
  | cons s l =>
    have hnil : l = [] := by
      rw [ho] at l1
      cases l with
      | nil => rfl
      | cons a l => simp at l1
    subst hnil
    have hs : (n1 s).bound = some i := by
      by_cases hc : (n1 s).bound = some i
      · exact hc
      · exact absurd (by rw [ho]; simp) (not_mem_of_count w1 hc)
    have hsi : s ≠ i := by rintro rfl; rw [b1] at hs; cases hs
    obtain ⟨n', e, w, k⟩ := unbind_bound w1 hs
    refine ⟨n', ?_, ?_, ?_, fun j hj => ?_, fun j hj hne => ?_⟩
    · show resetLoop i 1 0 n1 = _
      unfold resetLoop
      rw [ho]
      show (unbind n1 s i).andThen _ = _
      rw [e]
      rfl
    · rw [k i]; simp [b1]
    · rw [k i]; simp [ho]
    · rw [k j]
      simp only
      split
      · rfl
      · by_cases hji : j = i
        · rw [hji]; exact b1
        · have hji' : (n1 j).bound = some i := by rw [k1 j hji, hj]
          have hcount := w1 j i
          rw [if_pos hji', ho] at hcount
          rename_i hjs
          rw [List.count_singleton] at hcount
          simp only [beq_iff_eq] at hcount
          rw [if_neg (fun h => hjs h.symm)] at hcount
          cases hcount
    · rw [k j]
      simp only
      split
      · rename_i hjs
        subst hjs
        rw [k1 j hj] at hs
        exact absurd hs hne
      · exact k1 j hj

/-- C35: `operator=` accepts an output and an input only, in any order, and binds the input to the output. -/
theorem C35_assign (n : Net) (i o : Nat) (hi : (n i).isOut = false) (ho : (n o).isOut = true) :
    assign n i o = bind n i o (-1) ∧ assign n o i = bind n i o (-1) ∧ (∀ a b, (n a).isOut = (n b).isOut → assign n a b = .thrown n) := by
  refine ⟨?_, ?_, fun a b hab => ?_⟩
  · unfold assign; rw [if_pos ⟨ho, hi⟩]
  · unfold assign; rw [if_neg (by rw [hi]; simp), if_pos ⟨hi, ho⟩]
  · unfold assign
    rw [hab]
    cases (n b).isOut <;> simp

/-- Three sockets: output 0, inputs 1 and 2. -/
def net0 : Net := fun i => ⟨i = 0, 1, 4, 16, false, if i = 0 then some 7 else none, none, []⟩

example : Fresh net0 ∧ Checked (fun _ => 4) net0 ∧
    carefulAll (fun _ => 4) net0 [.bind 1 0 (-1), .bind 2 0 0, .setBytes 1 3, .bind 1 0 0, .unbind 2 0] :=
  ⟨fun _ => ⟨rfl, rfl⟩, fun _ => ⟨rfl, rfl⟩, ⟨rfl, rfl⟩, ⟨rfl, rfl⟩, trivial, ⟨rfl, rfl⟩, trivial, trivial⟩

example : ((runAll net0 [.bind 1 0 (-1), .bind 2 0 0]).map fun n => ((n 0).outs, (n 1).bound, (n 2).ptr)) = some ([2, 1], some 0, some 7) := rfl

/-! ## C60: defects -/

theorem resetLoop_ub (i : Nat) : ∀ (r j : Nat) {n : Net}, WF n → (n i).outs.length = r → 1 ≤ r → 2 ≤ j + r → resetLoop i r j n = .ub
  | 0, _, _, _, _, h, _ => absurd h (by decide)
  | r + 1, j, n, h, hl, _, h2 => by
    unfold resetLoop
    by_cases hj : r + 1 ≤ j
    · rw [List.getElem?_eq_none (by omega)]
    · have hlt : j < (n i).outs.length := by omega
      rw [List.getElem?_eq_getElem hlt]
      have hs : (n ((n i).outs[j])).bound = some i := by
        by_cases hc : (n ((n i).outs[j])).bound = some i
        · exact hc
        · exact absurd (List.getElem_mem hlt) (not_mem_of_count h hc)
      obtain ⟨n', e, w, k⟩ := unbind_bound h hs
      simp only []
      rw [e]
      refine resetLoop_ub i r (j + 1) w ?_ (by omega) (by omega)
      rw [k i]
      simp only [if_true]
      rw [List.length_erase_of_mem (List.getElem_mem hlt)]
      omega

/-- C60, defect: `reset` of an output to which several sockets are bound is undefined behaviour: the loop erases elements of
the list it goes through. -/
theorem C60_reset (n : Net) (h : WF n) (i : Nat) (hb : (n i).bound = none) (hl : 2 ≤ (n i).outs.length) : reset n i = .ub := by
  unfold reset resetIn
  rw [hb]
  show resetLoop i (n i).outs.length 0 n = _
  exact resetLoop_ub i _ 0 h rfl (by omega) (by omega)

/-- C60, defect: in fast mode `bind` of a vector of the wrong size throws after it changed the data pointer, even of a bound
socket. -/
theorem C60_fast_vector (n : Net) (i T len p : Nat) (hf : (n i).fast = true) (hl : len ≠ (n i).bytes / (n i).esize) :
    ∃ n', bindVec n i T len (some p) = .thrown n' ∧ (n' i).ptr = some p ∧ (n' i).bound = (n i).bound := by
  unfold bindVec fastPtr
  rw [if_pos hf]
  simp only [set_same]
  rw [if_pos hl]
  exact ⟨_, rfl, by rw [set_same], by rw [set_same]⟩

/-- C60, defect: `bind` does not check the directions; binding again the middle socket of a chain leaves a stale pointer at
its end: 2 is bound to 1 but their pointers differ. -/
theorem C60_chain :
    (runAll (fun i => ⟨false, 1, 4, 16, false, some i, none, []⟩) [.bind 1 0 (-1), .bind 2 1 (-1), .unbind 1 0, .bind 1 3 (-1)]).map
      (fun n => ((n 2).bound, (n 2).ptr, (n 1).ptr)) = some (some 1, some 0, some 3) := rfl

end Verif.Socket
