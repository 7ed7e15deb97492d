import Verif.Spec.PolarFast
import Verif.Proof.PolarFast

/-! # The parser labels the nodes according to the frozen bits -/

namespace Verif.PolarFast
open Exec Verif.PolarSC Verif.Polar

variable {R : Type} {w : Nat}

/-- The labels of a tree agree with the frozen bits of its leaves. -/
def Lab : Nat → List Bool → Bin (NT × Nat) → Prop
  | k, fr, .leaf _ c => c.1.terminal = true ∧ c.2 = 2 ^ k ∧ (k = 0 → c.1 = .r0 ∨ c.1 = .r1) ∧ fr = expand c
  | 0, _, .node _ _ _ _ => False
  | k + 1, fr, .node _ c l r => c.1.terminal = false ∧ (c.1 = .r0l → l.c.1 = .r0) ∧ (c.1 = .repl → l.c.1 = .rep) ∧
      fr.length = 2 ^ (k + 1) ∧ Lab k (fr.take (2 ^ k)) l ∧ Lab k (fr.drop (2 ^ k)) r

theorem expand_length {c : NT × Nat} (h : c.1.terminal = true) (h0 : 0 < c.2) : (expand c).length = c.2 := by
  obtain ⟨t, n⟩ := c
  cases t <;> simp [NT.terminal] at h <;> simp [expand]
  all_goals (simp at h0; omega)

theorem Lab.length : ∀ {k : Nat} {fr : List Bool} {t : Bin (NT × Nat)}, Lab k fr t → fr.length = 2 ^ k
  | k, _, .leaf _ c, h => by
    obtain ⟨h1, h2, _, h4⟩ : c.1.terminal = true ∧ c.2 = 2 ^ k ∧ (k = 0 → c.1 = .r0 ∨ c.1 = .r1) ∧ _ = expand c := by cases k <;> exact h
    rw [h4, expand_length h1 (by rw [h2]; exact Nat.two_pow_pos _), h2]
  | 0, _, .node _ _ _ _, h => h.elim
  | _ + 1, _, .node _ _ _ _, h => h.2.2.2.1

/-- A terminal label is on a leaf. -/
theorem Lab.of_type : ∀ {k : Nat} {fr : List Bool} {t : Bin (NT × Nat)}, Lab k fr t → t.c.1.terminal = true → fr = expand (t.c.1, 2 ^ k)
  | k, fr, .leaf _ c, h, _ => by
    obtain ⟨_, h2, _, h4⟩ : c.1.terminal = true ∧ c.2 = 2 ^ k ∧ (k = 0 → c.1 = .r0 ∨ c.1 = .r1) ∧ fr = expand c := by cases k <;> exact h
    rw [h4, ← h2]; rfl
  | 0, _, .node _ _ _ _, h, _ => h.elim
  | _ + 1, _, .node _ c _ _, h, ht => by have := h.1; rw [show c.1.terminal = true from ht] at this; cases this

theorem rep2 {α : Type} {k : Nat} {x : α} : List.replicate (2 ^ k) x ++ List.replicate (2 ^ k) x = List.replicate (2 ^ (k + 1)) x := by
  rw [List.replicate_append_replicate, Nat.pow_succ]; congr 1; omega

theorem r0Check_sound : ∀ {k : Nat} {fr : List Bool} {t : Bin (NT × Nat)}, Lab k fr t → r0Check t = true → fr = List.replicate (2 ^ k) true
  | k, fr, .leaf ln c, h, hc => by
    have : c.1 = .r0 := by simpa [r0Check] using hc
    have h1 := h.of_type (by show c.1.terminal = true; rw [this]; rfl)
    rw [show (Bin.leaf ln c).c.1 = .r0 from this] at h1
    exact h1
  | 0, _, .node _ _ _ _, h, _ => h.elim
  | k + 1, fr, .node _ c l r, h, hc => by
    obtain ⟨_, _, _, h4, h5, h6⟩ := h
    unfold r0Check at hc
    rw [← List.take_append_drop (2 ^ k) fr, ← rep2]
    split at hc
    · rename_i e
      have h1 := h5.of_type (by rw [e.1]; rfl)
      have h2 := h6.of_type (by rw [e.2]; rfl)
      rw [e.1] at h1; rw [e.2] at h2
      rw [h1, h2]; rfl
    · rw [Bool.and_eq_true] at hc
      rw [r0Check_sound h5 hc.1, r0Check_sound h6 hc.2]

theorem r1Check_sound : ∀ {k : Nat} {fr : List Bool} {t : Bin (NT × Nat)}, Lab k fr t → r1Check t = true → fr = List.replicate (2 ^ k) false
  | k, fr, .leaf ln c, h, hc => by
    have : c.1 = .r1 := by simpa [r1Check] using hc
    have h1 := h.of_type (by show c.1.terminal = true; rw [this]; rfl)
    rw [show (Bin.leaf ln c).c.1 = .r1 from this] at h1
    exact h1
  | 0, _, .node _ _ _ _, h, _ => h.elim
  | k + 1, fr, .node _ c l r, h, hc => by
    obtain ⟨_, _, _, h4, h5, h6⟩ := h
    unfold r1Check at hc
    rw [← List.take_append_drop (2 ^ k) fr, ← rep2]
    split at hc
    · rename_i e
      have h1 := h5.of_type (by rw [e.1]; rfl)
      have h2 := h6.of_type (by rw [e.2]; rfl)
      rw [e.1] at h1; rw [e.2] at h2
      rw [h1, h2]; rfl
    · rw [Bool.and_eq_true] at hc
      rw [r1Check_sound h5 hc.1, r1Check_sound h6 hc.2]

theorem lab_r0 {k : Nat} {fr : List Bool} {t : Bin (NT × Nat)} (h : Lab k fr t) (hc : t.c.1 = .r0 ∨ r0Check t = true) : fr = List.replicate (2 ^ k) true := by
  rcases hc with hc | hc
  · have h1 := h.of_type (by rw [hc]; rfl)
    rw [hc] at h1; exact h1
  · exact r0Check_sound h hc

theorem lab_r1 {k : Nat} {fr : List Bool} {t : Bin (NT × Nat)} (h : Lab k fr t) (hc : t.c.1 = .r1 ∨ r1Check t = true) : fr = List.replicate (2 ^ k) false := by
  rcases hc with hc | hc
  · have h1 := h.of_type (by rw [hc]; rfl)
    rw [hc] at h1; exact h1
  · exact r1Check_sound h hc

theorem rep_cat {k : Nat} : List.replicate (2 ^ k) true ++ expand (.rep, 2 ^ k) = expand (.rep, 2 ^ (k + 1)) := by
  have := Nat.two_pow_pos k
  simp only [expand]
  rw [← List.append_assoc, List.replicate_append_replicate, Nat.pow_succ]
  congr 2; omega

theorem spc_cat {k : Nat} : expand (.spc, 2 ^ k) ++ List.replicate (2 ^ k) false = expand (.spc, 2 ^ (k + 1)) := by
  have := Nat.two_pow_pos k
  simp only [expand]
  rw [List.cons_append, List.replicate_append_replicate, Nat.pow_succ]
  congr 2; omega

theorem repCheck_sound : ∀ {k : Nat} {fl fr : List Bool} {l r : Bin (NT × Nat)}, Lab k fl l → Lab k fr r → repCheck (k + 1) l r = true → fl ++ fr = expand (.rep, 2 ^ (k + 1))
  | k, fl, fr, l, .leaf ln c, hl, hr, hc => by
    unfold repCheck at hc
    split at hc
    · rename_i h1
      rw [lab_r0 hl h1]
      split at hc
      · rename_i h2
        have := hr.of_type (by rw [h2]; rfl)
        rw [h2] at this
        rw [this, rep_cat]
      · split at hc
        · rename_i h2
          obtain ⟨h2, h3⟩ := h2
          have hk : k = 0 := by omega
          subst hk
          have := hr.of_type (by rw [h2]; rfl)
          rw [h2] at this
          rw [this]; rfl
        · cases hc
    · cases hc
  | 0, _, _, _, .node _ _ _ _, _, hr, _ => hr.elim
  | k + 1, fl, fr, l, .node ln c rl rr, hl, hr, hc => by
    unfold repCheck at hc
    split at hc
    · rename_i h1
      rw [lab_r0 hl h1]
      split at hc
      · rename_i h2
        have := hr.of_type (by rw [h2]; rfl)
        rw [h2] at this
        rw [this, rep_cat]
      · split at hc
        · rename_i h2
          omega
        · have := repCheck_sound hr.2.2.2.2.1 hr.2.2.2.2.2 hc
          rw [List.take_append_drop] at this
          rw [this, rep_cat]
    · cases hc

theorem spcCheck_sound : ∀ {k : Nat} {fl fr : List Bool} {l r : Bin (NT × Nat)}, Lab k fl l → Lab k fr r → spcCheck (k + 1) r l = true → fl ++ fr = expand (.spc, 2 ^ (k + 1))
  | k, fl, fr, .leaf ln c, r, hl, hr, hc => by
    unfold spcCheck at hc
    split at hc
    · rename_i h1
      rw [lab_r1 hr h1]
      split at hc
      · rename_i h2
        have := hl.of_type (by rw [h2]; rfl)
        rw [h2] at this
        rw [this, spc_cat]
      · split at hc
        · rename_i h2
          obtain ⟨h2, h3⟩ := h2
          have hk : k = 1 := by omega
          subst hk
          have := hl.of_type (by rw [h2]; rfl)
          rw [h2] at this
          rw [this]; rfl
        · split at hc
          · rename_i h2
            obtain ⟨h2, h3⟩ := h2
            have hk : k = 0 := by omega
            subst hk
            have := hl.of_type (by rw [h2]; rfl)
            rw [h2] at this
            rw [this]; rfl
          · cases hc
    · cases hc
  | 0, _, _, .node _ _ _ _, _, hl, _, _ => hl.elim
  | k + 1, fl, fr, .node ln c ll lr, r, hl, hr, hc => by
    unfold spcCheck at hc
    split at hc
    · rename_i h1
      rw [lab_r1 hr h1]
      split at hc
      · rename_i h2
        have := hl.of_type (by rw [h2]; rfl)
        rw [h2] at this
        rw [this, spc_cat]
      · split at hc
        · rename_i h2
          have := hl.1
          rw [show c.1 = .rep from h2.1] at this
          cases this
        · split at hc
          · rename_i h2
            omega
          · have := spcCheck_sound hl.2.2.2.2.1 hl.2.2.2.2.2 hc
            rw [List.take_append_drop] at this
            rw [this, spc_cat]
    · cases hc

theorem bestMatch_sat (d : Nat) (l r : Bin (NT × Nat)) (pats : List Pat) : (bestMatch d l r pats).Sat fun id => id = 0 ∨ ∃ p, pats[id]? = some p ∧ 0 < matchVal d l r p := by
  unfold bestMatch
  refine Sat.bind (P := fun st : Nat × Nat => (st.1 = 0 ∨ ∃ p, pats[st.1]? = some p ∧ 0 < matchVal d l r p)) ?_ fun st h => by rw [sat_ok]; exact h
  refine (forN_inv (fun _ (st : Nat × Nat) => (st.1 = 0 ∨ ∃ p, pats[st.1]? = some p ∧ 0 < matchVal d l r p)) (Or.inl rfl) ?_)
  intro i st hi h
  rw [rd_lt hi, bind_ok, sat_ok]
  split
  · exact Or.inr ⟨_, List.getElem?_eq_getElem hi, by omega⟩
  · exact h

theorem parse_sat {pats : List Pat} {i0 i1 : Nat} {fr : List Bool} (hp : PatsOk pats i0 i1) : ∀ {k off : Nat} {t : Bin Unit}, Lanes k off t → off + 2 ^ k ≤ fr.length →
    (parse pats i0 i1 fr k t).Sat (Lab k (sl fr off (2 ^ k)))
  | 0, off, .leaf lane _, h, hl => by
    have h : lane = off := h
    subst h
    simp only [Nat.pow_zero] at hl ⊢
    unfold parse
    have hlt : lane < fr.length := by omega
    rw [rd_lt hlt, bind_ok]
    have e : sl fr lane 1 = [fr[lane]] := by
      unfold sl
      rw [List.drop_eq_getElem_cons hlt]; rfl
    rw [e]
    obtain ⟨_, ⟨p0, a0, b0⟩, ⟨p1, a1, b1⟩⟩ := hp
    cases fr[lane] with
    | true =>
      obtain ⟨g1, g2⟩ := List.getElem?_eq_some_iff.1 a0
      simp only [if_true]
      rw [rd_lt g1, bind_ok, sat_ok, g2, b0]
      exact ⟨rfl, rfl, fun _ => Or.inl rfl, rfl⟩
    | false =>
      obtain ⟨g1, g2⟩ := List.getElem?_eq_some_iff.1 a1
      simp only [Bool.false_eq_true, if_false]
      rw [rd_lt g1, bind_ok, sat_ok, g2, b1]
      exact ⟨rfl, rfl, fun _ => Or.inr rfl, rfl⟩
  | 0, _, .node _ _ _ _, h, _ => h.elim
  | _ + 1, _, .leaf _ _, h, _ => h.elim
  | k + 1, off, .node lane _ l r, h, hl => by
    have h2 : 2 ^ (k + 1) = 2 ^ k + 2 ^ k := by rw [Nat.pow_succ]; omega
    have hpos := Nat.two_pow_pos k
    unfold parse
    rw [Nat.add_sub_cancel]
    refine (parse_sat hp h.1 (by omega)).bind fun tl ll => ?_
    refine (parse_sat hp h.2 (by omega)).bind fun tr lr => ?_
    refine (bestMatch_sat (k + 1) tl tr pats).bind fun id hid => ?_
    have key : ∃ p, pats[id]? = some p ∧ (p.t = .std ∨ 0 < matchType (k + 1) tl tr p.t) := by
      rcases hid with rfl | ⟨p, h1, h2⟩
      · obtain ⟨p, h1, h2⟩ := hp.1
        exact ⟨p, h1, Or.inl h2⟩
      · refine ⟨p, h1, Or.inr ?_⟩
        unfold matchVal at h2
        split at h2
        · exact h2
        · omega
    obtain ⟨p, h1, hm⟩ := key
    obtain ⟨g1, g2⟩ := List.getElem?_eq_some_iff.1 h1
    rw [rd_lt g1, bind_ok, g2]
    have hlen : (sl fr off (2 ^ (k + 1))).length = 2 ^ (k + 1) := sl_length (by omega)
    have ht : (sl fr off (2 ^ (k + 1))).take (2 ^ k) = sl fr off (2 ^ k) := by rw [h2]; exact sl_take
    have hd : (sl fr off (2 ^ (k + 1))).drop (2 ^ k) = sl fr (off + 2 ^ k) (2 ^ k) := by rw [h2]; exact sl_drop
    have hcat : sl fr off (2 ^ (k + 1)) = sl fr off (2 ^ k) ++ sl fr (off + 2 ^ k) (2 ^ k) := by rw [← ht, ← hd, List.take_append_drop]
    split
    · rename_i hterm
      rw [sat_ok]
      refine ⟨hterm, rfl, fun h => by omega, ?_⟩
      rw [hcat]
      rcases hm with hm | hm
      · rw [hm] at hterm; cases hterm
      · cases hpt : p.t <;> rw [hpt] at hm hterm <;> simp [NT.terminal] at hterm
        · have hc : (tl.c.1 = .r0 ∨ r0Check tl = true) ∧ (tr.c.1 = .r0 ∨ r0Check tr = true) := by
            simp only [matchType] at hm
            by_cases e : tl.c.1 = .r0 ∧ tr.c.1 = .r0
            · exact ⟨Or.inl e.1, Or.inl e.2⟩
            · rw [if_neg e] at hm
              by_cases e2 : (r0Check tl && r0Check tr) = true
              · rw [Bool.and_eq_true] at e2
                exact ⟨Or.inr e2.1, Or.inr e2.2⟩
              · rw [if_neg e2] at hm
                omega
          rw [lab_r0 ll hc.1, lab_r0 lr hc.2, rep2]
          rfl
        · have hc : (tl.c.1 = .r1 ∨ r1Check tl = true) ∧ (tr.c.1 = .r1 ∨ r1Check tr = true) := by
            simp only [matchType] at hm
            by_cases e : tl.c.1 = .r1 ∧ tr.c.1 = .r1
            · exact ⟨Or.inl e.1, Or.inl e.2⟩
            · rw [if_neg e] at hm
              by_cases e2 : (r1Check tl && r1Check tr) = true
              · rw [Bool.and_eq_true] at e2
                exact ⟨Or.inr e2.1, Or.inr e2.2⟩
              · rw [if_neg e2] at hm
                omega
          rw [lab_r1 ll hc.1, lab_r1 lr hc.2, rep2]
          rfl
        · simp only [matchType] at hm
          split at hm
          · rename_i hc; exact repCheck_sound ll lr hc
          · omega
        · simp only [matchType] at hm
          split at hm
          · rename_i hc; exact spcCheck_sound ll lr hc
          · omega
    · rename_i hterm
      rw [sat_ok]
      refine ⟨by simpa using hterm, ?_, ?_, hlen, by rw [ht]; exact ll, by rw [hd]; exact lr⟩
      · intro e
        simp only at e
        rw [e] at hm
        rcases hm with hm | hm
        · cases hm
        · simp only [matchType] at hm
          by_contra hn
          rw [if_neg hn] at hm
          omega
      · intro e
        simp only at e
        rw [e] at hm
        rcases hm with hm | hm
        · cases hm
        · simp only [matchType] at hm
          by_contra hn
          rw [if_neg hn] at hm
          omega

theorem Lab.tree : ∀ {k : Nat} {fr : List Bool} {t : Bin (NT × Nat)}, Lab k fr t → Tree k t
  | k, fr, .leaf _ c, h => by
    obtain ⟨h1, h2, h3, h4⟩ : c.1.terminal = true ∧ c.2 = 2 ^ k ∧ (k = 0 → c.1 = .r0 ∨ c.1 = .r1) ∧ fr = expand c := by cases k <;> exact h
    have : c.1.terminal = true ∧ (k = 0 → c.1 = .r0 ∨ c.1 = .r1) := ⟨h1, h3⟩
    cases k <;> exact this
  | 0, _, .node _ _ _ _, h => h.elim
  | _ + 1, _, .node _ _ _ _, h => ⟨h.1, h.2.1, h.2.2.2.2.1.tree, h.2.2.2.2.2.tree⟩

/-- The leaves describe the frozen bits. -/
theorem Lab.leaves : ∀ {k : Nat} {fr : List Bool} {t : Bin (NT × Nat)}, Lab k fr t → (PolarFast.leaves t).flatMap expand = fr ∧ ∀ c ∈ PolarFast.leaves t, c.1.terminal = true ∧ 0 < c.2
  | k, fr, .leaf _ c, h => by
    obtain ⟨h1, h2, h3, h4⟩ : c.1.terminal = true ∧ c.2 = 2 ^ k ∧ (k = 0 → c.1 = .r0 ∨ c.1 = .r1) ∧ fr = expand c := by cases k <;> exact h
    simp only [PolarFast.leaves, List.flatMap_cons, List.flatMap_nil, List.append_nil, List.mem_singleton, forall_eq]
    exact ⟨h4.symm, h1, by rw [h2]; exact Nat.two_pow_pos _⟩
  | 0, _, .node _ _ _ _, h => h.elim
  | k + 1, fr, .node _ _ l r, h => by
    obtain ⟨_, _, _, _, h5, h6⟩ := h
    obtain ⟨a1, a2⟩ := h5.leaves
    obtain ⟨b1, b2⟩ := h6.leaves
    simp only [PolarFast.leaves, List.flatMap_append, a1, b1, List.take_append_drop, List.mem_append, true_and]
    rintro c (hc | hc)
    · exact a2 c hc
    · exact b2 c hc

theorem parseBits_sat {pats : List Pat} {i0 i1 n : Nat} {fr : List Bool} (hp : PatsOk pats i0 i1) (hl : fr.length = 2 ^ n) :
    (parseBits pats i0 i1 fr).Sat fun p => ∃ t, Lab n fr t ∧ p = (types t, leaves t) := by
  unfold parseBits
  rw [hl, Nat.log2_two_pow]
  refine (createTree_sat n).bind fun t0 h0 => ?_
  refine (parse_sat hp h0 (by omega)).bind fun t ht => ?_
  rw [sat_ok]
  refine ⟨t, ?_, rfl⟩
  have : sl fr 0 (2 ^ n) = fr := by unfold sl; rw [List.drop_zero, List.take_of_length_le (by omega)]
  rwa [this] at ht

end Verif.PolarFast
