import Verif.Proof.PolarSCLRef

/-! # The list of the paths -/

namespace Verif.PolarSCL
open Exec Verif.Polar
open Verif.PolarSC (Fns)

variable {R : Type} {w : Nat} {F : Fns R w} {A : Ar R} {m : Nat} {y : List R}

/-- A path. -/
def vw (s : St R) (p : Nat) : List Bool × R := (s.u p, s.met p)

/-- The paths. -/
def view (s : St R) : List (List Bool × R) := s.active.map (vw s)

/-- A hypothetic path. -/
def ex (s : St R) (c : Cand R w) : List Bool × R := (s.u c.path ++ [decide (c.bit ≠ 0)], c.met)

theorem filter_perm {l q : List Nat} (hl : l.Nodup) {p : Nat} (hp : p ∈ l) (hq : p ∈ q) : (l.filter (· ∉ q.filter (· ≠ p))).Perm (p :: l.filter (· ∉ q)) := by
  refine (List.perm_ext_iff_of_nodup (hl.filter _) (List.nodup_cons.2 ⟨by simp [hq], hl.filter _⟩)).2 fun x => ?_
  simp only [List.mem_filter, List.mem_cons, decide_eq_true_eq, not_and, not_not]
  constructor
  · rintro ⟨h1, h2⟩
    by_cases e : x = p
    · exact Or.inl e
    · exact Or.inr ⟨h1, fun c => e (h2 c)⟩
  · rintro (h | ⟨h1, h2⟩)
    · subst h; exact ⟨hp, fun _ => rfl⟩
    · exact ⟨h1, fun c => absurd c h2⟩

theorem keep_view : ∀ {fuel : Nat} {rest : List (Cand R w)} {L : Nat} {q : List Nat} {s : St R}, rest.length ≤ fuel → KOk F A m y L q rest s →
    (view (aKeep F A m y fuel rest s)).Perm ((s.active.filter (· ∉ q)).map (vw s) ++ rest.map (ex s))
  | fuel, [], L, q, s, _, hk => by
    have e : aKeep F A m y fuel [] s = s := by cases fuel <;> rfl
    rw [e, List.map_nil, List.append_nil]
    have : s.active.filter (· ∉ q) = s.active := by
      refine List.filter_eq_self.2 fun p _ => ?_
      have : p ∉ q := fun c => by obtain ⟨_, h, _⟩ := (hk.mem p).1 c; exact absurd h (by simp)
      simpa using this
    rw [this]
    exact List.Perm.refl _
  | 0, c :: rest, _, _, _, h, _ => by simp at h
  | fuel + 1, c :: rest, L, q, s, hf, hk => by
    have hcq : c.path ∈ q := (hk.mem _).2 ⟨c, by simp, rfl⟩
    have hca := hk.act _ hcq
    simp only [List.length_cons] at hf
    unfold aKeep
    by_cases ha : rest.any (fun x => x.path = c.path) = true
    · rw [if_pos ha]
      obtain ⟨k1, -⟩ := hk.dup ha
      refine (keep_view (Nat.le_trans eraseP_length (by omega)) k1).trans ?_
      obtain ⟨l1, x, l2, e1, e2, e3, -⟩ := any_split ha
      subst e1
      obtain ⟨h3, h4⟩ := hk.two e2
      rw [e3]
      have hfn := free_not_mem hk.anodup
      have hfc : free s.active ≠ c.path := fun e => hfn (e ▸ hca)
      have hne : ∀ z ∈ l1 ++ l2, z.path ≠ free s.active := fun z hz e => hfn (e ▸ hk.act _ ((hk.mem _).2 ⟨z, by simp only [List.mem_append, List.mem_cons] at hz ⊢; tauto, rfl⟩))
      have t1 : (l1 ++ l2).map (ex (aDup F A m y c.path s)) = (l1 ++ l2).map (ex s) := by
        refine List.map_congr_left fun z hz => ?_
        unfold ex aDup
        dsimp only
        rw [upd_ne _ _ (h3 z hz), upd_ne _ _ (hne z hz)]
      have t2 : ((aDup F A m y c.path s).active.filter (· ∉ q.filter (· ≠ c.path))).Perm (free s.active :: c.path :: s.active.filter (· ∉ q)) := by
        refine ((ins_perm hfn).filter _).trans ?_
        have hfq : free s.active ∉ q.filter (· ≠ c.path) := fun g => hfn (hk.act _ (List.mem_filter.1 g).1)
        rw [List.filter_cons_of_pos (by exact decide_eq_true hfq)]
        exact List.Perm.cons _ (filter_perm hk.anodup hca hcq)
      have t3 : (s.active.filter (· ∉ q)).map (vw (aDup F A m y c.path s)) = (s.active.filter (· ∉ q)).map (vw s) := by
        refine List.map_congr_left fun p hp => ?_
        rw [List.mem_filter, decide_eq_true_eq] at hp
        have n1 : p ≠ c.path := fun e => hp.2 (e ▸ hcq)
        have n2 : p ≠ free s.active := fun e => hfn (e ▸ hp.1)
        unfold vw aDup
        dsimp only
        rw [upd_ne _ _ n1, upd_ne _ _ n1, upd_ne _ _ n2, upd_ne _ _ n2]
      have mc := hk.met c (by simp)
      have mx := hk.met x (by simp)
      rw [e2, h4] at mx
      have t4 : [vw (aDup F A m y c.path s) (free s.active), vw (aDup F A m y c.path s) c.path].Perm [ex s c, ex s x] := by
        unfold vw aDup ex
        dsimp only
        rw [upd_same, upd_same, upd_ne _ _ hfc, upd_same, upd_ne _ _ hfc, upd_same, e2, h4, mx, mc]
        cases decide (c.bit ≠ 0)
        · exact List.Perm.swap _ _ _
        · exact List.Perm.refl _
      rw [t1]
      refine ((t2.map _).append_right _).trans ?_
      rw [List.map_cons, List.map_cons, t3]
      have t5 : ((c :: (l1 ++ x :: l2)).map (ex s)).Perm ([ex s c, ex s x] ++ (l1 ++ l2).map (ex s)) := by
        rw [List.map_cons, List.cons_append]
        refine List.Perm.cons _ ?_
        have := (List.perm_middle (a := x) (l₁ := l1) (l₂ := l2)).map (ex s)
        exact this
      refine List.Perm.trans ?_ (t5.symm.append_left _)
      rw [← List.append_assoc]
      refine List.Perm.append_right _ ?_
      have : (vw (aDup F A m y c.path s) (free s.active) :: vw (aDup F A m y c.path s) c.path :: List.map (vw s) (List.filter (fun x => decide (x ∉ q)) s.active)) =
        [vw (aDup F A m y c.path s) (free s.active), vw (aDup F A m y c.path s) c.path] ++ List.map (vw s) (List.filter (fun x => decide (x ∉ q)) s.active) := rfl
      rw [this]
      exact (t4.append_right _).trans List.perm_append_comm
    · rw [if_neg ha]
      refine (keep_view (by omega) (hk.choose ha)).trans ?_
      have h3 : ∀ z ∈ rest, z.path ≠ c.path := fun z hz e => ha (List.any_eq_true.2 ⟨z, hz, by simpa using e⟩)
      have t1 : rest.map (ex (aChoose c s)) = rest.map (ex s) := by
        refine List.map_congr_left fun z hz => ?_
        unfold ex aChoose
        dsimp only
        rw [upd_ne _ _ (h3 z hz)]
      have t3 : (s.active.filter (· ∉ q)).map (vw (aChoose c s)) = (s.active.filter (· ∉ q)).map (vw s) := by
        refine List.map_congr_left fun p hp => ?_
        rw [List.mem_filter, decide_eq_true_eq] at hp
        have n1 : p ≠ c.path := fun e => hp.2 (e ▸ hcq)
        unfold vw aChoose
        dsimp only
        rw [upd_ne _ _ n1, upd_ne _ _ n1]
      rw [t1]
      refine (((filter_perm hk.anodup hca hcq).map _).append_right _).trans ?_
      rw [List.map_cons, t3]
      have : vw (aChoose c s) c.path = ex s c := by
        unfold vw aChoose ex
        dsimp only
        rw [upd_same, upd_same]
      rw [this, List.map_cons]
      exact List.perm_middle.symm

theorem cands_view (hw : 0 < w) (s : St R) : (aCands F A m y s).map (ex s) = (view s).flatMap fun p => [extend F A m y false p, extend F A m y true p] := by
  have hb : ¬ bitInit w = 0#w := bitInit_ne hw
  unfold aCands view
  induction s.active with
  | nil => rfl
  | cons p l ih =>
    rw [List.flatMap_cons, List.map_append, ih, List.map_cons (f := vw s), List.flatMap_cons]
    congr 1
    simp [ex, extend, vw, hb]

theorem info_view (hw : 0 < w) {L : Nat} (hL : ∃ k, L = 2 ^ k) {sort : List (Cand R w) → List (Cand R w)} (hsort : SortOk A sort) {s : St R} (hs : s.active.Nodup) (hsl : s.active.length ≤ L) (hs0 : s.active ≠ [])
    {fr : List Bool} (h : Lists F A m y L fr (view s)) : Lists F A m y L (fr ++ [false]) (view (aInfo F A m y L sort s)) := by
  have hk := kept_ok (F := F) (A := A) (m := m) (y := y) hw (fun l => (hsort l).1) hs hsl
  have hv := keep_view (le_refl _) hk
  have e0 : List.filter (fun x => decide (x ∉ aAlive F A m y L sort s)) (aAlive F A m y L sort s) = [] := by
    rw [List.filter_eq_nil_iff]; simp
  dsimp only at hv
  rw [e0, List.map_nil, List.nil_append] at hv
  have e1 : (aKept F A m y L sort s).map (ex { s with active := aAlive F A m y L sort s }) = (aKept F A m y L sort s).map (ex s) := rfl
  rw [e1] at hv
  have hlen : (view s).length = s.active.length := List.length_map _
  refine Lists.perm ?_ hv.symm
  unfold aKept
  by_cases hg : s.active.length ≤ L / 2
  · rw [if_pos hg, cands_view hw]
    exact Lists.info h (by omega)
  · rw [if_neg hg]
    obtain ⟨hp, hpw⟩ := hsort (aCands F A m y s)
    have hl := hp.length_eq
    rw [cands_length] at hl
    refine Lists.prune (dropped := ((sort (aCands F A m y s)).drop ((sort (aCands F A m y s)).length / 2)).map (ex s)) h ?_ ?_ ?_ ?_
    · have := List.length_pos_iff.2 hs0
      obtain ⟨k, rfl⟩ := hL
      cases k with
      | zero => simp at *; omega
      | succ k => rw [Nat.pow_succ] at *; omega
    · rw [← List.map_append, List.take_append_drop, ← cands_view hw]
      exact hp.map _
    · rw [List.length_map, List.length_take, hlen]; omega
    · intro k hk x hx
      rw [List.mem_map] at hk hx
      obtain ⟨a, ha, rfl⟩ := hk
      obtain ⟨b, hb, rfl⟩ := hx
      rw [← List.take_append_drop ((sort (aCands F A m y s)).length / 2) (sort (aCands F A m y s))] at hpw
      exact (List.pairwise_append.1 hpw).2.2 a ha b hb

theorem frozen_view {L : Nat} {s : St R} {fr : List Bool} (h : Lists F A m y L fr (view s)) : Lists F A m y L (fr ++ [true]) (view (aFrozen F A m y s)) := by
  have := Lists.frozen h
  have e : normalize A ((view s).map (extend F A m y false)) = view (aFrozen F A m y s) := by
    unfold normalize view aFrozen aMin
    dsimp only
    rw [List.map_map, List.map_map, List.foldl_map, List.foldl_map]
    rfl
  rwa [e] at this

/-! ## The active paths -/

/-- The active paths are the first ones. -/
structure First (L : Nat) (s : St R) : Prop where
  nodup : s.active.Nodup
  lt : ∀ p ∈ s.active, p < s.active.length
  pos : 0 < s.active.length
  le : s.active.length ≤ L

theorem First.zero {L : Nat} {s : St R} (h : First L s) : 0 ∈ s.active := by
  have hsub : s.active ⊆ List.range s.active.length := fun p hp => List.mem_range.2 (h.lt p hp)
  have hp := (List.subperm_of_subset h.nodup hsub).perm_of_length_le (by rw [List.length_range])
  exact hp.mem_iff.2 (List.mem_range.2 h.pos)

theorem keep_first : ∀ {fuel : Nat} {rest : List (Cand R w)} {n : Nat} {q : List Nat} {s : St R}, rest.length ≤ fuel → KOk F A m y n q rest s → (∀ p ∈ s.active, p < n) →
    (aKeep F A m y fuel rest s).active.Nodup ∧ ∀ p ∈ (aKeep F A m y fuel rest s).active, p < n
  | fuel, [], n, q, s, _, hk, h => by
    have e : aKeep F A m y fuel [] s = s := by cases fuel <;> rfl
    rw [e]
    exact ⟨hk.anodup, h⟩
  | 0, c :: rest, _, _, _, h, _, _ => by simp at h
  | fuel + 1, c :: rest, n, q, s, hf, hk, h => by
    simp only [List.length_cons] at hf
    unfold aKeep
    by_cases ha : rest.any (fun x => x.path = c.path) = true
    · rw [if_pos ha]
      obtain ⟨k1, k2⟩ := hk.dup ha
      refine keep_first (Nat.le_trans eraseP_length (by omega)) k1 fun p hp => ?_
      rcases mem_ins.1 hp with e | e
      · rw [e]; exact Nat.lt_of_le_of_lt (free_le _) k2
      · exact h p e
    · rw [if_neg ha]
      exact keep_first (by omega) (hk.choose ha) h

theorem info_first (hw : 0 < w) {L : Nat} {sort : List (Cand R w) → List (Cand R w)} (hsort : SortOk A sort) {s : St R} (h : First L s) : First L (aInfo F A m y L sort s) := by
  have hk := kept_ok (F := F) (A := A) (m := m) (y := y) hw (fun l => (hsort l).1) h.nodup h.le
  have hv := (keep_view (le_refl _) hk).length_eq
  have e0 : List.filter (fun x => decide (x ∉ aAlive F A m y L sort s)) (aAlive F A m y L sort s) = [] := by
    rw [List.filter_eq_nil_iff]; simp
  dsimp only at hv
  rw [e0, List.map_nil, List.nil_append, List.length_map, view, List.length_map] at hv
  change (aInfo F A m y L sort s).active.length = _ at hv
  have hlen : (aKept F A m y L sort s).length = if s.active.length ≤ L / 2 then 2 * s.active.length else s.active.length := by
    unfold aKept
    split
    · exact cands_length s
    · rw [List.length_take, (hsort (aCands F A m y s)).1.length_eq, cands_length]; omega
  have hk' : KOk F A m y (aKept F A m y L sort s).length (aAlive F A m y L sort s) (aKept F A m y L sort s) { s with active := aAlive F A m y L sort s } :=
    ⟨hk.mem, hk.act, hk.qnd, hk.bits, hk.met, hk.nd, by dsimp only; omega, hk.anodup⟩
  obtain ⟨g1, g2⟩ := keep_first (le_refl _) hk' (fun p hp => Nat.lt_of_lt_of_le (h.lt p (alive_sub hp)) (by rw [hlen]; split <;> omega))
  have := h.le
  have := h.pos
  exact ⟨g1, by rw [hv]; exact g2, by rw [hv, hlen]; split <;> omega, by rw [hv, hlen]; split <;> omega⟩

theorem frozen_first {L : Nat} {s : St R} (h : First L s) : First L (aFrozen F A m y s) := ⟨h.nodup, h.lt, h.pos, h.le⟩

theorem run_view (hw : 0 < w) {L : Nat} (hL : ∃ k, L = 2 ^ k) {sort : List (Cand R w) → List (Cand R w)} (hsort : SortOk A sort) (frozen : List Bool) :
    Lists F A m y L frozen (view (aRun F A m y L sort frozen (start A))) ∧ First L (aRun F A m y L sort frozen (start A)) := by
  induction frozen using List.reverseRecOn with
  | nil =>
    refine ⟨Lists.start, ⟨by simp [aRun, start], by simp [aRun, start], by simp [aRun, start], ?_⟩⟩
    obtain ⟨k, rfl⟩ := hL
    have := Nat.two_pow_pos k
    simp [aRun, start]
    omega
  | append_singleton fr b ih =>
    have e : aRun F A m y L sort (fr ++ [b]) (start A) = aLeaf F A m y L sort b (aRun F A m y L sort fr (start A)) := by
      unfold aRun
      rw [List.foldl_append]
      rfl
    rw [e]
    unfold aLeaf
    cases b
    · rw [if_neg (by simp)]
      exact ⟨info_view hw hL hsort ih.2.nodup ih.2.le (List.length_pos_iff.1 ih.2.pos) ih.1, info_first hw hsort ih.2⟩
    · rw [if_pos rfl]
      exact ⟨frozen_view ih.1, frozen_first ih.2⟩

/-! ## The choice of a path -/

theorem foldl_best (hA : Strict A) {met : Nat → R} : ∀ {l : List Nat} {b : Nat} {l0 : List Nat}, (∀ q ∈ l0, A.lt (met q) (met b) = false) → b ∈ l0 →
    (l.foldl (fun b p => if A.lt (met p) (met b) then p else b) b) ∈ l0 ++ l ∧ ∀ q ∈ l0 ++ l, A.lt (met q) (met (l.foldl (fun b p => if A.lt (met p) (met b) then p else b) b)) = false
  | [], b, l0, h, hb => by simpa using ⟨hb, h⟩
  | x :: l, b, l0, h, hb => by
    rw [List.foldl_cons]
    have key := foldl_best hA (met := met) (l := l) (b := if A.lt (met x) (met b) then x else b) (l0 := l0 ++ [x]) (by
      intro q hq
      rw [List.mem_append, List.mem_singleton] at hq
      split
      · rename_i hlt
        rcases hq with hq | hq
        · cases hc : A.lt (met q) (met x) with
          | false => rfl
          | true => exact absurd (hA.2 _ _ _ hc hlt) (by rw [h q hq]; simp)
        · rw [hq]; exact hA.1 _
      · rename_i hlt
        rcases hq with hq | hq
        · exact h q hq
        · rw [hq]; simpa using hlt) (by split <;> simp [hb])
    simpa using key

/-- The paths among which the best one is chosen. -/
def aPass (sys : Bool) (crc : Option (List (BitVec w) → Bool)) (frozen : List Bool) (m : Nat) (s : St R) : List Nat :=
  match crc with
  | none => s.active
  | some check => s.active.filter fun p => check (seen sys frozen m (s.u p))

/-- The chosen path. -/
def aPick (A : Ar R) (sys : Bool) (crc : Option (List (BitVec w) → Bool)) (frozen : List Bool) (m : Nat) (s : St R) : Nat :=
  (aPass sys crc frozen m s).foldl (fun b p => if A.lt (s.met p) (s.met b) then p else b) ((aPass sys crc frozen m s).headD 0)

theorem pick_spec (hA : Strict A) (sys : Bool) (crc : Option (List (BitVec w) → Bool)) (frozen : List Bool) (m : Nat) {L : Nat} {s : St R} (h : First L s) :
    aPick A sys crc frozen m s ∈ s.active ∧ (∀ p ∈ aPass sys crc frozen m s, aPick A sys crc frozen m s ∈ aPass sys crc frozen m s ∧ A.lt (s.met p) (s.met (aPick A sys crc frozen m s)) = false) := by
  have hsub : ∀ p ∈ aPass sys crc frozen m s, p ∈ s.active := by
    intro p hp
    unfold aPass at hp
    split at hp
    · exact hp
    · exact (List.mem_filter.1 hp).1
  have key : ∀ p ∈ aPass sys crc frozen m s, aPick A sys crc frozen m s ∈ aPass sys crc frozen m s ∧ A.lt (s.met p) (s.met (aPick A sys crc frozen m s)) = false := by
    intro p hp
    unfold aPick
    cases hl : aPass sys crc frozen m s with
    | nil => rw [hl] at hp; exact absurd hp (by simp)
    | cons b l =>
      rw [hl] at hp
      have := foldl_best hA (met := s.met) (l := l) (b := b) (l0 := [b]) (by intro q hq; rw [List.mem_singleton] at hq; rw [hq]; exact hA.1 _) (by simp)
      rw [List.headD_cons, List.foldl_cons, hA.1, if_neg (by simp)]
      exact ⟨this.1, this.2 p hp⟩
  refine ⟨?_, key⟩
  cases hl : aPass sys crc frozen m s with
  | nil =>
    unfold aPick
    rw [hl]
    exact h.zero
  | cons b l => exact hsub _ (key b (by rw [hl]; simp)).1

end Verif.PolarSCL
