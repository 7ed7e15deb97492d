import Verif.Prelude.Loops
import Verif.Props.Distance
import Verif.Spec.Monitor

/-! # Lemmas on monitors -/

namespace Verif.Monitor
open Exec

/-! ## Histograms -/

/-- Total weight of a key. -/
def tot (l : List (Int × Nat)) (x : Int) : Nat := ((l.filter fun e => e.1 == x).map (·.2)).sum

theorem tot_upsert (x : Int) (w : Nat) (y : Int) : ∀ l, tot (upsert x w l) y = tot l y + if x = y then w else 0
  | [] => by
    unfold upsert tot
    by_cases h : x = y <;> simp [h]
  | (k, c) :: l => by
    have ih := tot_upsert x w y l
    unfold upsert
    unfold tot at ih ⊢
    split
    · by_cases h : x = y <;> by_cases h' : k = y <;> simp [h, h'] <;> omega
    · split
      · rename_i h
        subst h
        by_cases h' : x = y <;> simp [h'] <;> omega
      · by_cases h' : k = y <;> simp [h'] at ih ⊢ <;> omega

theorem mem_upsert {x : Int} {w : Nat} {e : Int × Nat} : ∀ {l}, e ∈ upsert x w l → e.1 = x ∨ ∃ e' ∈ l, e'.1 = e.1
  | [], h => by
    unfold upsert at h
    left
    rw [List.mem_singleton.1 h]
  | (k, c) :: l, h => by
    unfold upsert at h
    split at h
    · rcases List.mem_cons.1 h with h | h
      · left; rw [h]
      · exact Or.inr ⟨e, h, rfl⟩
    · split at h
      · rcases List.mem_cons.1 h with h | h
        · right; exact ⟨(k, c), by simp, by rw [h]⟩
        · right; exact ⟨e, by simp [h], rfl⟩
      · rcases List.mem_cons.1 h with h | h
        · right; exact ⟨(k, c), by simp, by rw [h]⟩
        · rcases mem_upsert h with h | ⟨e', h1, h2⟩
          · exact Or.inl h
          · exact Or.inr ⟨e', by simp [h1], h2⟩

theorem sorted_upsert (x : Int) (w : Nat) : ∀ l : List (Int × Nat), l.Pairwise (fun a b => a.1 < b.1) →
    (upsert x w l).Pairwise (fun a b => a.1 < b.1)
  | [], _ => by simp [upsert]
  | (k, c) :: l, h => by
    have h' := List.pairwise_cons.1 h
    unfold upsert
    split
    · rename_i hx
      refine List.pairwise_cons.2 ⟨fun e he => ?_, h⟩
      rcases List.mem_cons.1 he with he | he
      · rw [he]; exact hx
      · have := h'.1 e he
        simp only at this ⊢
        omega
    · split
      · exact List.pairwise_cons.2 ⟨h'.1, h'.2⟩
      · rename_i h1 h2
        refine List.pairwise_cons.2 ⟨fun e he => ?_, sorted_upsert x w l h'.2⟩
        rcases mem_upsert he with he | ⟨e', h3, h4⟩
        · simp only; omega
        · have := h'.1 e' h3
          simp only at this ⊢
          omega

theorem tot_none {l : List (Int × Nat)} {x : Int} (h : ∀ e ∈ l, e.1 ≠ x) : tot l x = 0 := by
  unfold tot
  rw [List.filter_eq_nil_iff.2]
  · rfl
  · intro e he; simp [h e he]

theorem find_tot : ∀ {l : List (Int × Nat)} {x : Int}, l.Pairwise (fun a b => a.1 < b.1) →
    ((l.find? fun e => e.1 == x).map (·.2)).getD 0 = tot l x
  | [], _, _ => rfl
  | (k, c) :: l, x, h => by
    have h' := List.pairwise_cons.1 h
    by_cases hk : k = x
    · have : tot l x = 0 := tot_none fun e he => by
        have := h'.1 e he
        simp only at this
        omega
      unfold tot at this ⊢
      simp [hk, this]
    · have := find_tot (x := x) h'.2
      unfold tot at this ⊢
      simp [hk, this]

theorem Hist.Holds.tot_eq {h : Hist} {l : List Int} (H : h.Holds l) (v : Int) : tot h.hist (v * h.scale) = l.count v := by
  rw [← H.count v, Hist.count, find_tot H.sorted]

theorem holds_addW {h : Hist} {l : List Int} (H : h.Holds l) (v : Int) (w : Nat) : (h.addW v w).Holds (l ++ List.replicate w v) := by
  refine ⟨H.scale, sorted_upsert _ _ _ H.sorted, fun u => ?_, ?_⟩
  · unfold Hist.count
    show ((List.find? (fun e => e.1 == u * h.scale) (upsert (v * h.scale) w h.hist)).map (·.2)).getD 0 = _
    rw [find_tot (sorted_upsert _ _ _ H.sorted), tot_upsert, H.tot_eq, List.count_append, List.count_replicate]
    have hs : (h.scale : Int) ≠ 0 := by have := H.scale; omega
    by_cases hv : v = u
    · simp [hv]
    · rw [if_neg (fun h => hv (Int.eq_of_mul_eq_mul_right hs h)), if_neg (by simp [hv])]
  · show h.nValues + w = _
    rw [H.total]; simp

theorem holds_add {h : Hist} {l : List Int} (H : h.Holds l) (v : Int) : (h.add v).Holds (l ++ [v]) := holds_addW H v 1

theorem foldl_upsert (o : List (Int × Nat)) : ∀ l : List (Int × Nat), l.Pairwise (fun a b => a.1 < b.1) →
    (o.foldl (fun l e => upsert e.1 e.2 l) l).Pairwise (fun a b => a.1 < b.1) ∧
    ∀ x, tot (o.foldl (fun l e => upsert e.1 e.2 l) l) x = tot l x + tot o x := by
  induction o with
  | nil => intro l h; exact ⟨h, fun x => by simp [tot]⟩
  | cons e o ih =>
    intro l h
    obtain ⟨h1, h2⟩ := ih _ (sorted_upsert e.1 e.2 l h)
    refine ⟨h1, fun x => ?_⟩
    rw [List.foldl_cons, h2, tot_upsert]
    unfold tot
    by_cases hx : e.1 = x <;> simp [hx] <;> omega

theorem holds_merge {h o : Hist} {l l' : List Int} (H : h.Holds l) (H' : o.Holds l') (hs : h.scale = o.scale) :
    ∃ h', h.merge o = some h' ∧ h'.Holds (l ++ l') ∧ h'.scale = h.scale := by
  unfold Hist.merge
  rw [if_neg (by simp [hs])]
  obtain ⟨h1, h2⟩ := foldl_upsert o.hist h.hist H.sorted
  refine ⟨_, rfl, ⟨H.scale, h1, fun v => ?_, ?_⟩, rfl⟩
  · unfold Hist.count
    simp only []
    rw [find_tot h1, h2, H.tot_eq, List.count_append, hs, H'.tot_eq]
  · show h.nValues + o.nValues = _
    rw [H.total, H'.total, List.length_append]

theorem holds_reset {h : Hist} {l : List Int} (H : h.Holds l) : h.reset.Holds [] :=
  ⟨H.scale, List.Pairwise.nil, fun _ => rfl, rfl⟩

theorem holds_init (p : Nat) : (Hist.mk' p).Holds [] :=
  ⟨Nat.pow_pos (by decide), List.Pairwise.nil, fun _ => rfl, rfl⟩

theorem holds_assign {h o : Hist} {l' : List Int} (H' : o.Holds l') (hs : h.scale = o.scale) :
    ∃ h', h.assign o = some h' ∧ h'.Holds l' ∧ h'.scale = h.scale := by
  unfold Hist.assign
  rw [if_neg (by simp [hs])]
  refine ⟨_, rfl, ⟨hs ▸ H'.scale, H'.sorted, fun v => ?_, H'.total⟩, rfl⟩
  rw [← H'.count v]
  unfold Hist.count
  rw [hs]

/-! ## One frame -/

theorem D_sum_countP {f : Int → Int → Bool} (x y : List Int) : ∀ size, size ≤ x.length → size ≤ y.length →
    ∑ i ∈ Finset.range size, Distance.D f x y i = (List.range size).countP fun i => f (x.getD i 0) (y.getD i 0) := by
  intro size
  induction size with
  | zero => intros; rfl
  | succ n ih =>
    intro hx hy
    rw [Finset.sum_range_succ, ih (by omega) (by omega), List.range_succ, List.countP_append]
    congr 1
    unfold Distance.D
    rw [List.getElem?_eq_getElem (by omega : n < x.length), List.getElem?_eq_getElem (by omega : n < y.length)]
    simp [List.countP_cons, List.getD_eq_getElem?_getD, List.getElem?_eq_getElem (by omega : n < x.length),
      List.getElem?_eq_getElem (by omega : n < y.length)]

theorem distance_ok {a : Args} (ha : a.Ok) {U V : List Int} {f : Nat} (hU : (f + 1) * a.K ≤ U.length)
    (hV : (f + 1) * a.K ≤ V.length) :
    distance a (U.drop (f * a.K)) (V.drop (f * a.K)) = ok (frameErrors a U V f) := by
  rw [Nat.add_mul, Nat.one_mul] at hU hV
  have hx : a.K ≤ (U.drop (f * a.K)).length := by rw [List.length_drop]; omega
  have hy : a.K ≤ (V.drop (f * a.K)).length := by rw [List.length_drop]; omega
  have key : ∀ {e : Exec Nat} {g : Int → Int → Bool}, e.Sat (fun d => d = ∑ i ∈ Finset.range a.K, Distance.D g (U.drop (f * a.K)) (V.drop (f * a.K)) i) →
      (∀ u v : Int, g u v = decide ((u = 0 ↔ v ≠ 0) ∨ a.unk = true ∧ (u = a.sat ∨ v = a.sat))) →
      e = ok (frameErrors a U V f) := by
    intro e g h hg
    obtain ⟨d, h1, h2⟩ := h
    rw [h1, h2, D_sum_countP _ _ _ hx hy]
    congr 1
    unfold frameErrors
    apply List.countP_congr
    intro i _
    rw [hg]
    simp only [List.getD_eq_getElem?_getD, List.getElem?_drop]
  unfold distance
  by_cases hu : a.unk = true
  · rw [if_pos hu]
    have hg : ∀ u v : Int, booleanDiffUnk a.sat u v = decide ((u = 0 ↔ v ≠ 0) ∨ a.unk = true ∧ (u = a.sat ∨ v = a.sat)) := by
      intro u v
      unfold booleanDiffUnk Distance.booleanDiff
      simp only [bne, beq_eq_decide, hu]
      by_cases h1 : u = 0 <;> by_cases h2 : v = 0 <;> by_cases h3 : u = a.sat <;> by_cases h4 : v = a.sat <;> simp only [h1, h2, h3, h4] <;> simp <;> omega
    rcases ha.bits with h | h | h | h <;> rw [h]
    · exact key (Distance.distanceNarrow_sat (by omega) (by omega) (by omega) hx hy ha.int) hg
    · exact key (Distance.distanceNarrow_sat (by omega) (by omega) (by omega) hx hy ha.int) hg
    · exact key (Distance.distanceWide_sat (by omega) (by omega) hx hy (by have := ha.int; omega)) hg
    · exact key (Distance.distanceWide_sat (by omega) (by omega) hx hy (by have := ha.int; omega)) hg
  · rw [if_neg hu]
    have hg : ∀ u v : Int, Distance.booleanDiff u v = decide ((u = 0 ↔ v ≠ 0) ∨ a.unk = true ∧ (u = a.sat ∨ v = a.sat)) := by
      intro u v
      unfold Distance.booleanDiff
      by_cases h1 : u = 0 <;> by_cases h2 : v = 0 <;> simp [bne, beq_eq_decide, h1, h2, hu]
    unfold Distance.hammingDistance
    rcases ha.bits with h | h | h | h <;> rw [h]
    · exact key (Distance.distanceNarrow_sat (by omega) (by omega) (by omega) hx hy ha.int) hg
    · exact key (Distance.distanceNarrow_sat (by omega) (by omega) (by omega) hx hy ha.int) hg
    · exact key (Distance.distanceWide_sat (by omega) (by omega) hx hy (by have := ha.int; omega)) hg
    · exact key (Distance.distanceWide_sat (by omega) (by omega) hx hy (by have := ha.int; omega)) hg

theorem Attr.of_append (l l' : List Nat) : Attr.of (l ++ l') = (Attr.of l).add (Attr.of l') := by
  unfold Attr.of Attr.add
  simp only [List.length_append, List.sum_append, List.countP_append, BitVec.ofNat_add]

theorem checkFrame_ok {a : Args} (ha : a.Ok) {m : Mnt} (hm : m.args = a) {errs recs : List Nat} (S : Shows m errs recs)
    {U V : List Int} {f : Nat} (hU : (f + 1) * a.K ≤ U.length) (hV : (f + 1) * a.K ≤ V.length) :
    ∃ m', m.checkFrame U V f = ok (m', (if frameErrors a U V f = 0 then [] else [Ev.fe (frameErrors a U V f) f]), frameErrors a U V f) ∧
      m'.args = a ∧ m'.nFrames = m.nFrames ∧ m'.histOn = m.histOn ∧ m'.tmp = m.tmp ∧
      Shows m' (errs ++ [frameErrors a U V f])
        (recs ++ if m.histOn = true ∧ frameErrors a U V f ≠ 0 then [frameErrors a U V f] else []) := by
  unfold Mnt.checkFrame
  rw [hm, distance_ok ha hU hV, bind_ok]
  generalize frameErrors a U V f = e
  by_cases he : e ≠ 0
  · rw [if_pos he, if_neg he]
    refine ⟨_, rfl, rfl, rfl, rfl, rfl, ?_, ?_, ?_⟩
    · rw [Attr.of_append, ← S.vals]
      unfold Attr.of Attr.add
      simp [he]
    · simp only []
      by_cases hh : m.histOn = true
      · rw [if_pos hh, if_pos ⟨hh, he⟩, List.map_append]
        exact holds_add S.hist e
      · rw [if_neg hh, if_neg (fun h => hh h.1), List.append_nil]
        exact S.hist
    · simp only []
      split
      · exact S.scale
      · exact S.scale
  · have he' : e = 0 := Classical.not_not.1 he
    subst he'
    rw [if_neg he, if_pos rfl]
    refine ⟨_, rfl, rfl, rfl, rfl, rfl, ?_, ?_, S.scale⟩
    · rw [Attr.of_append, ← S.vals]
      unfold Attr.of Attr.add
      simp
    · simpa using S.hist

theorem callErrors_succ (a : Args) (n : Nat) (U V : List Int) :
    callErrors a (n + 1) U V = callErrors a n U V ++ [frameErrors a U V n] := by
  unfold callErrors; rw [List.range_succ, List.map_append]; rfl

theorem sum_prefix (a : Args) (U V : List Int) {k n : Nat} (h : k ≤ n) : (callErrors a k U V).sum ≤ (callErrors a n U V).sum := by
  induction n with
  | zero => rw [Nat.le_zero.1 h]
  | succ n ih =>
    rcases Nat.lt_or_ge n k with h' | h'
    · rw [show k = n + 1 by omega]
    · rw [callErrors_succ, List.sum_append]
      have := ih h'
      omega

theorem checkAll_ok {a : Args} (ha : a.Ok) {m : Mnt} (hm : m.args = a) {errs recs : List Nat} (S : Shows m errs recs)
    {U V : List Int} (hU : m.nFrames * a.K ≤ U.length) (hV : m.nFrames * a.K ≤ V.length)
    (hs : (callErrors a m.nFrames U V).sum < 2 ^ 31) :
    ∃ m', m.checkAll U V = ok (m', callEvents a m.nFrames U V m'.feLimit, (callErrors a m.nFrames U V).sum) ∧
      m'.args = a ∧ m'.nFrames = m.nFrames ∧ m'.histOn = m.histOn ∧ m'.tmp = m.tmp ∧
      Shows m' (errs ++ callErrors a m.nFrames U V)
        (recs ++ if m.histOn = true then (callErrors a m.nFrames U V).filter (· ≠ 0) else []) := by
  unfold Mnt.checkAll
  have loop : (forN m.nFrames (Mnt.checkStep U V) (m, [], 0)).Sat fun x =>
      x.1.args = a ∧ x.1.nFrames = m.nFrames ∧ x.1.histOn = m.histOn ∧ x.1.tmp = m.tmp ∧
      Shows x.1 (errs ++ callErrors a m.nFrames U V)
        (recs ++ if m.histOn = true then (callErrors a m.nFrames U V).filter (· ≠ 0) else []) ∧
      x.2.1 = (List.range m.nFrames).filterMap (fun f => if frameErrors a U V f = 0 then none else some (Ev.fe (frameErrors a U V f) f)) ∧
      x.2.2 = (callErrors a m.nFrames U V).sum := by
    refine forN_inv (Inv := fun k (x : Mnt × List Ev × Nat) => x.1.args = a ∧ x.1.nFrames = m.nFrames ∧ x.1.histOn = m.histOn ∧ x.1.tmp = m.tmp ∧
      Shows x.1 (errs ++ callErrors a k U V)
        (recs ++ if m.histOn = true then (callErrors a k U V).filter (· ≠ 0) else []) ∧
      x.2.1 = (List.range k).filterMap (fun f => if frameErrors a U V f = 0 then none else some (Ev.fe (frameErrors a U V f) f)) ∧
      x.2.2 = (callErrors a k U V).sum) ?_ ?_
    · refine ⟨hm, rfl, rfl, rfl, ?_, rfl, rfl⟩
      have e : callErrors a 0 U V = [] := rfl
      rw [e]
      simpa using S
    · intro k x hk ⟨i1, i2, i3, i4, i5, i6, i7⟩
      have hk1 : (k + 1) * a.K ≤ m.nFrames * a.K := Nat.mul_le_mul_right _ hk
      obtain ⟨m', c1, c2, c3, c4, c5, c6⟩ := checkFrame_ok ha i1 i5 (U := U) (V := V) (f := k) (by omega) (by omega)
      unfold Mnt.checkStep
      rw [c1, bind_ok]
      have hsum := sum_prefix a U V (show k + 1 ≤ m.nFrames from hk)
      have es : (callErrors a (k + 1) U V).sum = (callErrors a k U V).sum + frameErrors a U V k := by
        rw [callErrors_succ, List.sum_append]; simp
      unfold addInt
      simp only []
      rw [i7, if_pos (by omega), bind_ok]
      refine ⟨_, rfl, c2, c3.trans i2, c4.trans i3, c5.trans i4, ?_, ?_, es.symm⟩
      · rw [callErrors_succ, ← List.append_assoc]
        have : (recs ++ if m.histOn = true then (callErrors a k U V ++ [frameErrors a U V k]).filter (· ≠ 0) else []) =
            (recs ++ if m.histOn = true then (callErrors a k U V).filter (· ≠ 0) else []) ++
              if x.1.histOn = true ∧ frameErrors a U V k ≠ 0 then [frameErrors a U V k] else [] := by
          rw [i3, List.append_assoc]
          congr 1
          by_cases hh : m.histOn = true
          · rw [if_pos hh, if_pos hh, List.filter_append]
            congr 1
            by_cases he : frameErrors a U V k = 0 <;> simp [hh, he]
          · simp [hh]
        rw [this]
        exact c6
      · simp only []
        rw [i6, List.range_succ, List.filterMap_append]
        congr 1
        by_cases he : frameErrors a U V k = 0 <;> simp [he]
  obtain ⟨x, h1, h2, h3, h4, h5, h6, h7, h8⟩ := loop
  rw [h1, bind_ok]
  refine ⟨x.1, ?_, h2, h3, h4, h5, h6⟩
  rw [h7, h8]
  rfl

end Verif.Monitor
