import Verif.Spec.Sequence
import Mathlib.Algebra.BigOperators.Group.Finset.Basic
import Mathlib.Algebra.Order.BigOperators.Group.Finset
import Mathlib.Data.List.Nodup
import Mathlib.Data.Fintype.Card
import Mathlib.Tactic.ByContra

/-! # Construction of sequences: the walk -/

namespace Verif.Sequence
open Exec

variable {g : Graph} {cf : Conf} {F : List Nat}

/-- Bindings from `s` to `u` that the walk follows. -/
def cnt (g : Graph) (cf : Conf) (s u : Nat) : Nat := if s ∈ cf.lasts ∨ u ∈ cf.excl then 0 else (dests g s).count u

/-- Bindings from the tasks of a list. -/
def tot (g : Graph) (cf : Conf) (l : List Nat) (u : Nat) : Nat := (l.map fun s => cnt g cf s u).sum

/-- Some destinations more. -/
def add (cf : Conf) (r : Nat → Nat) (l : List Nat) (u : Nat) : Nat := r u + if u ∈ cf.excl then 0 else l.count u

theorem add_nil (r : Nat → Nat) : add cf r [] = r := by
  funext u; unfold add; simp

theorem add_append (r : Nat → Nat) (a b : List Nat) : add cf r (a ++ b) = add cf (add cf r b) a := by
  funext u; unfold add
  split
  · omega
  · rw [List.count_append]; omega

theorem bound_eq (t : Nat) : bound g t = ∑ s ∈ (List.range g.length).toFinset, (dests g s).count t := by
  unfold bound
  rw [List.sum_toFinset _ List.nodup_range]

theorem tot_eq {l : List Nat} (h : l.Nodup) (u : Nat) : tot g cf l u = ∑ s ∈ l.toFinset, cnt g cf s u := by
  unfold tot
  rw [List.sum_toFinset _ h]

theorem cnt_le (s u : Nat) : cnt g cf s u ≤ (dests g s).count u := by
  unfold cnt; split
  · exact Nat.zero_le _
  · exact Nat.le_refl _

theorem tot_le {l : List Nat} (h : l.Nodup) (hl : ∀ s ∈ l, s < g.length) (u : Nat) : tot g cf l u ≤ bound g u := by
  rw [tot_eq h, bound_eq]
  refine Nat.le_trans (Finset.sum_le_sum fun s _ => cnt_le s u) ?_
  exact Finset.sum_le_sum_of_subset (fun s hs => by
    rw [List.mem_toFinset] at hs ⊢; exact List.mem_range.2 (hl s hs))

/-- When all the bindings come from the list. -/
theorem tot_full {l : List Nat} (h : l.Nodup) (hl : ∀ s ∈ l, s < g.length) {u : Nat} (he : bound g u ≤ tot g cf l u) {s : Nat} (hs : u ∈ dests g s) :
    s ∈ l ∧ s ∉ cf.lasts := by
  have hsl : s < g.length := by
    by_contra hc
    unfold dests at hs
    rw [List.getElem?_eq_none (by omega)] at hs
    exact absurd hs (by simp)
  have hpos : 0 < (dests g s).count u := List.count_pos_iff.2 hs
  rw [tot_eq h, bound_eq] at he
  have hsub : l.toFinset ⊆ (List.range g.length).toFinset := fun x hx => by
    rw [List.mem_toFinset] at hx ⊢; exact List.mem_range.2 (hl x hx)
  have hmem : s ∈ (List.range g.length).toFinset := by rw [List.mem_toFinset]; exact List.mem_range.2 hsl
  by_contra hc
  have hlt : ∑ x ∈ l.toFinset, cnt g cf x u < ∑ x ∈ (List.range g.length).toFinset, (dests g x).count u := by
    by_cases hm : s ∈ l
    · have hlast : s ∈ cf.lasts := by by_contra h'; exact hc ⟨hm, h'⟩
      refine Nat.lt_of_lt_of_le (Finset.sum_lt_sum (fun x _ => cnt_le x u) ⟨s, List.mem_toFinset.2 hm, ?_⟩) (Finset.sum_le_sum_of_subset hsub)
      unfold cnt
      rw [if_pos (Or.inl hlast)]
      exact hpos
    · refine Nat.lt_of_le_of_lt (Finset.sum_le_sum fun x _ => cnt_le x u) ?_
      exact Finset.sum_lt_sum_of_subset hsub hmem (fun hx => hm (List.mem_toFinset.1 hx)) hpos fun _ _ _ => Nat.zero_le _
  omega

/-- State of the walk; `rem` counts the bindings of the tasks on the stack that are still to be followed, `x` is a task which
is about to be visited. -/
structure Inv (g : Graph) (cf : Conf) (F : List Nat) (st : St) (rem : Nat → Nat) (x : Option Nat) : Prop where
  nd : st.tasks.Nodup
  lt : ∀ u ∈ st.tasks, u < g.length
  rch : ∀ u ∈ st.tasks, Reached g cf u
  bal : ∀ u, st.feed u + rem u = tot g cf st.tasks u
  out : ∀ u, u ∉ st.tasks → u ∉ cf.firsts → some u ≠ x → st.feed u < need g u ∨ st.feed u = 0
  inn : ∀ u ∈ st.tasks, u ∈ cf.firsts ∨ need g u ≤ st.feed u
  ord : ∀ pre t post, st.tasks = pre ++ t :: post → t ∈ cf.firsts ∨ (t ∉ cf.excl ∧ Fed g cf pre t)
  rl : ∀ u ∈ st.realLasts, u ∈ st.tasks
  ids : (st.realLastsId.map fun i => st.tasks[i]?) = st.realLasts.map some
  last : ∀ u ∈ st.tasks, u ∈ cf.lasts → u ∈ st.realLasts
  fst : ∀ u ∈ st.tasks, u ∈ cf.firsts → u ∈ F

/-- What a visit ensures. -/
def Post (g : Graph) (cf : Conf) (F : List Nat) (rem : Nat → Nat) (base : List Nat) (st : St) : Prop := Inv g cf F st rem none ∧ base <+: st.tasks

/-- What a part of the walk from a task ensures. -/
def PostB (g : Graph) (cf : Conf) (F : List Nat) (rem : Nat → Nat) (p0 p : St × Bool) : Prop :=
  Inv g cf F p.1 rem none ∧ p0.1.tasks <+: p.1.tasks ∧ (p.2 = false → p0.2 = false ∧ p.1.tasks = p0.1.tasks)

theorem PostB.trans {r1 r2 : Nat → Nat} {p0 p1 p2 : St × Bool} (h1 : PostB g cf F r1 p0 p1) (h2 : PostB g cf F r2 p1 p2) : PostB g cf F r2 p0 p2 := by
  obtain ⟨_, a2, a3⟩ := h1
  obtain ⟨b1, b2, b3⟩ := h2
  refine ⟨b1, a2.trans b2, fun h => ?_⟩
  obtain ⟨c1, c2⟩ := b3 h
  obtain ⟨d1, d2⟩ := a3 c1
  exact ⟨d1, c2.trans d2⟩

theorem need_eq {t : Nat} {ta : Task} (h : g[t]? = some ta) : need g t = nInputs ta - nStatic ta := by
  unfold need; rw [h]

/-- The hypothesis on recursive calls. -/
def Visits (g : Graph) (cf : Conf) (F : List Nat) (fuel : Nat) : Prop :=
  ∀ t st rem, Inv g cf F st rem (some t) → g.length < fuel + st.tasks.length → t < g.length → t ∉ st.tasks → Reached g cf t →
    (t ∈ cf.firsts ∨ (t ∉ cf.excl ∧ Fed g cf st.tasks t ∧ need g t ≤ st.feed t)) → (t ∈ cf.firsts → t ∈ F) → (visit g cf fuel t st).Sat (Post g cf F rem (st.tasks ++ [t]))

theorem follow_sat (wf : Wf g cf) {fuel : Nat} (hv : Visits g cf F fuel) {s t : Nat} {r : Nat → Nat} {p : St × Bool}
    (hf : g.length < fuel + p.1.tasks.length) (hs : s ∈ p.1.tasks) (hsl : s ∉ cf.lasts) (ht : t ∈ dests g s)
    (h : Inv g cf F p.1 (add cf r [t]) none) : (follow g cf (visit g cf fuel) t p).Sat (PostB g cf F r p) := by
  obtain ⟨st, b⟩ := p
  simp only at hf hs h
  have htl := wf.known s t ht
  obtain ⟨ta, hta⟩ : ∃ ta, g[t]? = some ta := ⟨g[t], List.getElem?_eq_getElem htl⟩
  unfold follow
  by_cases he : t ∈ cf.excl
  · rw [if_pos he, sat_ok]
    have : add cf r [t] = r := by
      funext u; unfold add
      split
      · rfl
      · rename_i hu
        rw [List.count_eq_zero.2]; rfl
        simp only [List.mem_singleton]
        rintro rfl
        exact hu he
    rw [this] at h
    exact ⟨h, List.prefix_refl _, fun hb => ⟨hb, rfl⟩⟩
  · rw [if_neg he]
    simp only
    rw [rd_eq hta, bind_ok]
    have hadd : ∀ u, add cf r [t] u = r u + if u = t then 1 else 0 := by
      intro u; unfold add
      by_cases e : u = t
      · subst e; rw [if_neg he, if_pos rfl, List.count_singleton_self]
      · rw [if_neg e, List.count_eq_zero.2 (by simpa using e)]
        split <;> rfl
    have hfeed : ∀ u, (st.fed t).feed u = if u = t then st.feed u + 1 else st.feed u := fun u => rfl
    have hrs := h.rch s hs
    have htf : t ∉ cf.firsts := fun hc => wf.top t hc s hrs hsl ht
    have hbt := h.bal t
    rw [hadd, if_pos rfl] at hbt
    have htot := tot_le (g := g) (cf := cf) h.nd h.lt t
    have honce := wf.once t
    have hnt : t ∉ st.tasks := by
      intro hc
      rcases h.inn t hc with h1 | h1
      · exact htf h1
      · omega
    have hinv : Inv g cf F (st.fed t) r (some t) := by
      refine ⟨h.nd, h.lt, h.rch, fun u => ?_, fun u h1 h2 h3 => ?_, fun u h1 => ?_, h.ord, h.rl, h.ids, h.last, h.fst⟩
      · have := h.bal u
        rw [hadd] at this
        rw [hfeed]
        show _ = tot g cf st.tasks u
        split at this
        · rename_i e; rw [if_pos e]; omega
        · rename_i e; rw [if_neg e]; omega
      · rw [hfeed, if_neg (fun e => h3 (by rw [e]))]
        exact h.out u h1 h2 (by simp)
      · rw [hfeed]
        rcases h.inn u h1 with h4 | h4
        · exact Or.inl h4
        · right; split <;> omega
    rw [need_eq hta] at honce
    have hft : (st.fed t).feed t = st.feed t + 1 := by rw [hfeed, if_pos rfl]
    by_cases hc : nInputs ta - nStatic ta ≤ (st.fed t).feed t
    · rw [if_pos hc]
      have hc1 := hc
      rw [hft] at hc1
      have hfed : Fed g cf st.tasks t := by
        refine ⟨by omega, by rw [need_eq hta]; omega, fun s' hs' => ?_⟩
        exact tot_full h.nd h.lt (by omega) hs'
      refine (hv t (st.fed t) r hinv hf htl hnt (.next hrs hsl ht he) (Or.inr ⟨he, hfed, by rw [need_eq hta]; exact hc⟩) fun hc => absurd hc htf).bind ?_
      rintro st' ⟨h1, h2⟩
      rw [sat_ok]
      exact ⟨h1, (List.prefix_append _ _).trans h2, fun hb => by cases hb⟩
    · rw [if_neg hc, sat_ok]
      refine ⟨⟨hinv.nd, hinv.lt, hinv.rch, hinv.bal, fun u h1 h2 _ => ?_, hinv.inn, hinv.ord, hinv.rl, hinv.ids, hinv.last, hinv.fst⟩, List.prefix_refl _, fun hb => ⟨hb, rfl⟩⟩
      by_cases e : u = t
      · subst e
        left
        rw [need_eq hta]; exact Nat.lt_of_not_le hc
      · exact hinv.out u h1 h2 (by simpa using e)

theorem dsts_sat (wf : Wf g cf) {fuel : Nat} (hv : Visits g cf F fuel) {s : Nat} (hsl : s ∉ cf.lasts) (dst : List Nat) :
    ∀ (r : Nat → Nat) (p : St × Bool), (∀ t ∈ dst, t ∈ dests g s) → g.length < fuel + p.1.tasks.length → s ∈ p.1.tasks →
    Inv g cf F p.1 (add cf r dst) none → (forEach dst (follow g cf (visit g cf fuel)) p).Sat (PostB g cf F r p) := by
  induction dst with
  | nil =>
    intro r p _ _ _ h
    rw [add_nil] at h
    exact sat_ok.2 ⟨h, List.prefix_refl _, fun hb => ⟨hb, rfl⟩⟩
  | cons t dst ih =>
    intro r p hd hf hs h
    rw [forEach_cons]
    rw [show t :: dst = [t] ++ dst from rfl, add_append] at h
    refine (follow_sat wf hv hf hs hsl (hd t (by simp)) h).bind fun p1 h1 => ?_
    have hpre := h1.2.1
    have hle := hpre.length_le
    exact (ih r p1 (fun t' ht' => hd t' (by simp [ht'])) (by omega) (hpre.subset hs) h1.1).mono fun p2 h2 => h1.trans h2

/-- Destinations of a list of sockets. -/
def dst (l : List Sock) : List Nat := l.flatMap fun k => match k with | .sout dst => dst | .sin _ _ => []

theorem socks_sat (wf : Wf g cf) {fuel : Nat} (hv : Visits g cf F fuel) {s : Nat} (hsl : s ∉ cf.lasts) (l : List Sock) :
    ∀ (r : Nat → Nat) (p : St × Bool), (∀ t ∈ dst l, t ∈ dests g s) → (∀ st n, Sock.sin st n ∈ l → n ≤ 1) → g.length < fuel + p.1.tasks.length →
    s ∈ p.1.tasks → Inv g cf F p.1 (add cf r (dst l)) none → (forEach l (perSock g cf (visit g cf fuel)) p).Sat (PostB g cf F r p) := by
  induction l with
  | nil =>
    intro r p _ _ _ _ h
    have e : add cf r (dst []) = r := add_nil r
    rw [e] at h
    exact sat_ok.2 ⟨h, List.prefix_refl _, fun hb => ⟨hb, rfl⟩⟩
  | cons k l ih =>
    intro r p hd hi hf hs h
    rw [forEach_cons]
    cases k with
    | sin st n =>
      have hn := hi st n (by simp)
      have e0 : perSock g cf (visit g cf fuel) (Sock.sin st n) p = ok p := by
        show (if n > 1 then _ else _) = _
        rw [if_neg (by omega)]
      rw [e0, bind_ok]
      exact ih r p hd (fun st n hm => hi st n (by simp [hm])) hf hs h
    | sout d =>
      have e : dst (Sock.sout d :: l) = d ++ dst l := by unfold dst; rw [List.flatMap_cons]
      rw [e] at hd h
      rw [add_append] at h
      refine (dsts_sat wf hv hsl d _ p (fun t ht => hd t (by simp [ht])) hf hs h).bind fun p1 h1 => ?_
      have hpre := h1.2.1
      have hle := hpre.length_le
      exact (ih r p1 (fun t' ht' => hd t' (by simp [ht'])) (fun st n hm => hi st n (by simp [hm])) (by omega) (hpre.subset hs) h1.1).mono
        fun p2 h2 => h1.trans h2

theorem nodup_lt {l : List Nat} {n : Nat} (h : l.Nodup) (hl : ∀ u ∈ l, u < n) : l.length ≤ n := by
  have := List.toFinset_card_of_nodup h
  rw [← this]
  have hsub : l.toFinset ⊆ Finset.range n := fun x hx => Finset.mem_range.2 (hl x (List.mem_toFinset.1 hx))
  simpa using Finset.card_le_card hsub

theorem split_last {l pre post : List Nat} {t u : Nat} (h : l ++ [t] = pre ++ u :: post) : (u = t ∧ pre = l) ∨ ∃ post', l = pre ++ u :: post' := by
  rcases List.eq_nil_or_concat post with rfl | ⟨q, x, rfl⟩
  · have := List.append_inj' h rfl
    left
    exact ⟨by simpa using this.2.symm, this.1.symm⟩
  · right
    rw [List.concat_eq_append, ← List.cons_append, ← List.append_assoc] at h
    exact ⟨q, (List.append_inj' h rfl).1⟩

theorem visits (wf : Wf g cf) : ∀ fuel, Visits g cf F fuel
  | 0 => by
    intro t st rem h hf htl hnt _ _ _
    have := nodup_lt (h.nd) h.lt
    omega
  | fuel + 1 => by
    have hv := visits wf fuel
    intro t st rem h hf htl hnt hr hw hF
    obtain ⟨ta, hta⟩ : ∃ ta, g[t]? = some ta := ⟨g[t], List.getElem?_eq_getElem htl⟩
    have hmem : ta ∈ g := List.mem_of_getElem? hta
    have hdest : dests g t = dst ta.socks := by unfold dests dst; rw [hta]; rfl
    unfold visit
    rw [rd_eq hta, bind_ok, if_neg (by
        rintro ⟨h1, h2⟩
        rw [wf.alloc h1 ta hmem] at h2
        cases h2), if_neg (by
        rintro ⟨h1, h2⟩
        have hi : cf.inplace = false := by simpa using h2
        rw [wf.adaptor hi ta hmem] at h1
        cases h1), if_neg (fun hc => hnt (h.rl t hc))]
    have hndt : (st.tasks ++ [t]).Nodup := by
      rw [List.nodup_append]
      refine ⟨h.nd, by simp, ?_⟩
      intro a ha b hb
      rw [List.mem_singleton] at hb
      rintro rfl
      exact hnt (hb ▸ ha)
    have htott : ∀ u, tot g cf (st.tasks ++ [t]) u = tot g cf st.tasks u + cnt g cf t u := by
      intro u; unfold tot; rw [List.map_append, List.sum_append]; simp
    have hord : ∀ pre u post, st.tasks ++ [t] = pre ++ u :: post → u ∈ cf.firsts ∨ (u ∉ cf.excl ∧ Fed g cf pre u) := by
      intro pre u post e
      rcases split_last e with ⟨rfl, rfl⟩ | ⟨post', e'⟩
      · rcases hw with h1 | ⟨h1, h2, _⟩
        · exact Or.inl h1
        · exact Or.inr ⟨h1, h2⟩
      · exact h.ord pre u post' e'
    have hinn : ∀ u ∈ st.tasks ++ [t], u ∈ cf.firsts ∨ need g u ≤ st.feed u := by
      intro u hu
      rcases List.mem_append.1 hu with h1 | h1
      · exact h.inn u h1
      · rw [List.mem_singleton] at h1
        subst h1
        rcases hw with h1 | ⟨_, _, h3⟩
        · exact Or.inl h1
        · exact Or.inr h3
    have hids : ∀ (tasks' : List Nat), st.tasks <+: tasks' → (st.realLastsId.map fun i => tasks'[i]?) = st.realLasts.map some := by
      rintro tasks' ⟨q, rfl⟩
      rw [← h.ids]
      refine List.map_congr_left fun i hi => ?_
      have hlt : i < st.tasks.length := by
        by_contra hc
        have : st.tasks[i]? ∈ st.realLasts.map some := by rw [← h.ids]; exact List.mem_map.2 ⟨i, hi, rfl⟩
        rw [List.getElem?_eq_none (by omega)] at this
        simp at this
      rw [List.getElem?_append_left hlt]
    have hltt : ∀ u ∈ st.tasks ++ [t], u < g.length := by
      intro u hu
      rcases List.mem_append.1 hu with h1 | h1
      · exact h.lt u h1
      · rw [List.mem_singleton] at h1; omega
    have hrch : ∀ u ∈ st.tasks ++ [t], Reached g cf u := by
      intro u hu
      rcases List.mem_append.1 hu with h1 | h1
      · exact h.rch u h1
      · rw [List.mem_singleton] at h1; rw [h1]; exact hr
    have hfst : ∀ u ∈ st.tasks ++ [t], u ∈ cf.firsts → u ∈ F := by
      intro u hu huf
      rcases List.mem_append.1 hu with h1 | h1
      · exact h.fst u h1 huf
      · rw [List.mem_singleton] at h1; rw [h1] at huf ⊢; exact hF huf
    have hout : ∀ u, u ∉ st.tasks ++ [t] → u ∉ cf.firsts → some u ≠ (none : Option Nat) → st.feed u < need g u ∨ st.feed u = 0 := by
      intro u h1 h2 _
      rw [List.mem_append, not_or, List.mem_singleton] at h1
      exact h.out u h1.1 h2 (by simpa using h1.2)
    unfold sockets
    by_cases hl : t ∈ cf.lasts
    · rw [if_pos hl, bind_ok, sat_ok]
      unfold ending
      simp only
      rw [if_pos ⟨trivial, fun hc => hnt (h.rl t hc)⟩]
      refine ⟨⟨hndt, hltt, hrch, fun u => ?_, hout, hinn, hord, ?_, ?_, ?_, hfst⟩, List.prefix_refl _⟩
      · show st.feed u + rem u = _
        rw [htott]
        unfold cnt
        rw [if_pos (Or.inl hl), Nat.add_zero]
        exact h.bal u
      · intro u hu
        rcases List.mem_append.1 hu with h1 | h1
        · exact List.mem_append_left _ (h.rl u h1)
        · exact List.mem_append_right _ h1
      · show ((st.realLastsId ++ [(st.tasks ++ [t]).length - 1]).map fun i => (st.tasks ++ [t])[i]?) = (st.realLasts ++ [t]).map some
        rw [List.map_append, List.map_append, hids _ (List.prefix_append _ _)]
        simp
      · intro u hu hul
        rcases List.mem_append.1 hu with h1 | h1
        · exact List.mem_append_left _ (h.last u h1 hul)
        · exact List.mem_append_right _ h1
    · rw [if_neg hl]
      refine (socks_sat wf hv hl ta.socks rem (⟨st.tasks ++ [t], st.realLasts, st.realLastsId, st.feed⟩, false) (fun u hu => by rw [hdest]; exact hu)
        (wf.single ta hmem) (by simp; omega) (by simp) ?_).bind ?_
      · refine ⟨hndt, hltt, hrch, fun u => ?_, hout, hinn, hord, fun u hu => List.mem_append_left _ (h.rl u hu), hids _ (List.prefix_append _ _), ?_, hfst⟩
        · show st.feed u + add cf rem (dst ta.socks) u = tot g cf (st.tasks ++ [t]) u
          rw [htott, ← h.bal u, ← hdest]
          unfold add cnt
          by_cases hu : u ∈ cf.excl
          · rw [if_pos hu, if_pos (Or.inr hu)]; rfl
          · rw [if_neg hu, if_neg (by rintro (h1 | h1); exacts [hl h1, hu h1])]; omega
        · intro u hu hul
          rcases List.mem_append.1 hu with h1 | h1
          · exact h.last u h1 hul
          · rw [List.mem_singleton] at h1; rw [h1] at hul; exact absurd hul hl
      · rintro ⟨st', b⟩ ⟨h1, h2, h3⟩
        rw [sat_ok]
        simp only at h1 h2 h3
        unfold ending
        simp only
        split
        · rename_i hb
          obtain ⟨_, e⟩ := h3 hb.1
          refine ⟨⟨h1.nd, h1.lt, h1.rch, h1.bal, h1.out, h1.inn, h1.ord, ?_, ?_, fun u hu hul => List.mem_append_left _ (h1.last u hu hul), h1.fst⟩, h2⟩
          · intro u hu
            rcases List.mem_append.1 hu with h4 | h4
            · exact h1.rl u h4
            · rw [List.mem_singleton] at h4
              show u ∈ st'.tasks
              rw [e, h4]; simp
          · show ((st'.realLastsId ++ [st'.tasks.length - 1]).map fun i => st'.tasks[i]?) = (st'.realLasts ++ [t]).map some
            rw [List.map_append, List.map_append, h1.ids]
            simp [e]
        · exact ⟨h1, h2⟩

/-- State of the loop over the first tasks, after those of `p`. -/
structure Top (g : Graph) (cf : Conf) (p : List Nat) (q : St × List Nat) : Prop where
  inv : Inv g cf p q.1 (fun _ => 0) none
  sub : List.Sublist p q.1.tasks
  len : q.2.length = p.length
  zero : p ≠ [] → q.2[0]? = some 0 ∧ q.1.tasks[0]? = p[0]?
  ids : ∀ i, 1 ≤ i → i < p.length → ∃ k, q.2[i]? = some k ∧ q.1.tasks[k + 1]? = p[i]?

theorem Inv.mono {F' : List Nat} {st : St} {rem : Nat → Nat} {x : Option Nat} (h : Inv g cf F st rem x) (hs : F ⊆ F') : Inv g cf F' st rem x :=
  ⟨h.nd, h.lt, h.rch, h.bal, h.out, h.inn, h.ord, h.rl, h.ids, h.last, fun u h1 h2 => hs (h.fst u h1 h2)⟩

theorem prefix_get {a b : List Nat} (h : a <+: b) {i x : Nat} (hi : a[i]? = some x) : b[i]? = some x := by
  obtain ⟨c, rfl⟩ := h
  have : i < a.length := by
    by_contra hc
    rw [List.getElem?_eq_none (by omega)] at hi
    cases hi
  rw [List.getElem?_append_left this]; exact hi

theorem firsts_sat (wf : Wf g cf) {fuel : Nat} (hf : g.length < fuel) :
    (forEach cf.firsts (perFirst g cf fuel) (⟨[], [], [], fun _ => 0⟩, [])).Sat (Top g cf cf.firsts) := by
  refine forEach_inv (Top g cf) ?_ ?_
  · exact ⟨⟨by simp, by simp, by simp, fun u => rfl, fun u _ _ _ => Or.inr rfl, by simp, by simp, by simp, by simp, by simp, by simp⟩, by simp, rfl,
      fun h => absurd rfl h, fun i h1 h2 => absurd h2 (by simp)⟩
  · rintro p a q ⟨st, ids⟩ e h
    have haf : a ∈ cf.firsts := by rw [e]; simp
    have hnp : a ∉ p := by
      intro hc
      have := wf.nodup
      rw [e, List.nodup_append] at this
      exact this.2.2 a hc a (by simp) rfl
    have hnt : a ∉ st.tasks := fun hc => hnp (h.inv.fst a hc haf)
    unfold perFirst
    have hi := (h.inv.mono (F' := p ++ [a]) (by simp))
    have hi' : Inv g cf (p ++ [a]) st (fun _ => 0) (some a) :=
      ⟨hi.nd, hi.lt, hi.rch, hi.bal, fun u h1 h2 _ => hi.out u h1 h2 (by simp), hi.inn, hi.ord, hi.rl, hi.ids, hi.last, hi.fst⟩
    refine (visits wf fuel a st _ hi' (by omega) (wf.firstsKnown a haf) hnt (.first haf) (Or.inl haf) fun _ => by simp).bind ?_
    rintro st' ⟨h1, h2⟩
    rw [sat_ok]
    have hsub := h.sub
    have hlen := h.len
    have hsl := hsub.length_le
    simp only at hsub hlen hsl
    refine ⟨h1, ?_, ?_, fun _ => ?_, ?_⟩
    · exact (hsub.append (List.Sublist.refl [a])).trans h2.sublist
    · show (ids ++ [_]).length = _
      rw [List.length_append, List.length_append, hlen]; rfl
    · show (ids ++ [st.tasks.length - 1])[0]? = some 0 ∧ st'.tasks[0]? = (p ++ [a])[0]?
      rcases List.eq_nil_or_concat p with rfl | ⟨p', x, hp⟩
      · have : ids = [] := List.eq_nil_of_length_eq_zero (by simpa using hlen)
        subst this
        have ht : st.tasks = [] := by
          by_contra hc
          obtain ⟨y, l, hl⟩ := List.exists_cons_of_ne_nil hc
          rcases h.inv.ord [] y l hl with h3 | h3
          · have := h.inv.fst y (by show y ∈ st.tasks; rw [hl]; simp) h3
            simp at this
          · have hp := h3.2.some
            have hb : bound g y ≤ 0 := by
              rw [bound_eq]
              refine Nat.le_of_eq (Finset.sum_eq_zero fun s _ => List.count_eq_zero.2 fun hm => ?_)
              have := (h3.2.from' s hm).1
              simp at this
            omega
        rw [ht] at h2 ⊢
        refine ⟨by simp, ?_⟩
        rw [prefix_get (x := a) h2 (by simp)]; rfl
      · have hne : p ≠ [] := by rw [hp]; simp
        obtain ⟨k1, k2⟩ := h.zero hne
        have hpos : 0 < p.length := List.length_pos_iff.2 hne
        rw [List.getElem?_append_left (by omega), List.getElem?_append_left hpos]
        refine ⟨k1, ?_⟩
        have hst : 0 < st.tasks.length := by omega
        have k3 : st.tasks[0]? = p[0]? := k2
        rw [← k3, List.getElem?_eq_getElem hst]
        exact prefix_get h2 (by rw [List.getElem?_append_left hst, List.getElem?_eq_getElem hst])
    · intro i hi1 hi2
      rw [List.length_append, List.length_singleton] at hi2
      by_cases hip : i < p.length
      · obtain ⟨k, k1, k2⟩ := h.ids i hi1 hip
        refine ⟨k, by show (ids ++ [_])[i]? = _; rw [List.getElem?_append_left (by omega)]; exact k1, ?_⟩
        rw [List.getElem?_append_left hip]
        simp only at k2 ⊢
        rw [List.getElem?_eq_getElem hip] at k2 ⊢
        exact prefix_get h2 (prefix_get (List.prefix_append _ _) k2)
      · have : i = p.length := by omega
        subst this
        refine ⟨st.tasks.length - 1, ?_, ?_⟩
        · show (ids ++ [_])[p.length]? = _
          rw [← hlen]; simp
        · rw [show st.tasks.length - 1 + 1 = st.tasks.length by omega]
          rw [prefix_get (x := a) h2 (by simp)]; simp

theorem top_schedule (wf : Wf g cf) {q : St × List Nat} (h : Top g cf cf.firsts q) : Schedule g cf q.1.tasks := by
  refine ⟨h.inv.nd, fun f hf => h.sub.subset hf, h.inv.ord, fun t ht hfed => ?_⟩
  by_contra hc
  have hbal := h.inv.bal t
  have hnf : t ∉ cf.firsts := fun h1 => hc (h.sub.subset h1)
  have htot : tot g cf q.1.tasks t = bound g t := by
    rw [tot_eq h.inv.nd, bound_eq]
    have hsub : q.1.tasks.toFinset ⊆ (List.range g.length).toFinset := fun x hx => by
      rw [List.mem_toFinset] at hx ⊢; exact List.mem_range.2 (h.inv.lt x hx)
    rw [← Finset.sum_subset hsub (f := fun s => (dests g s).count t)]
    · refine Finset.sum_congr rfl fun s hs => ?_
      unfold cnt
      by_cases hd : t ∈ dests g s
      · rw [if_neg]
        rintro (h1 | h1)
        · exact (hfed.from' s hd).2 h1
        · exact ht h1
      · rw [List.count_eq_zero.2 hd]; split <;> rfl
    · intro s _ hs
      refine List.count_eq_zero.2 fun hm => hs ?_
      rw [List.mem_toFinset]
      exact (hfed.from' s hm).1
  have h1 := hfed.some
  have h2 := hfed.all
  rcases h.inv.out t hc hnf (by simp) with h3 | h3 <;> omega

end Verif.Sequence
