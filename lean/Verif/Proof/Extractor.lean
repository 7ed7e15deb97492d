import Verif.Spec.Extractor
import Verif.Prelude.Loops
import Mathlib.Data.List.Nodup
import Mathlib.Data.List.Perm.Basic

/-! # Proofs about extractors and cosets -/

namespace Verif.Extractor
open Exec

/-- A loop that stores one value per index. -/
theorem store_sat {α : Type _} {n : Nat} {f : Nat → List α → Exec (List α)} {g : Nat → α} {out : List α}
    (h : ∀ i o, i < n → f i o = wr o i (g i)) (hn : n ≤ out.length) :
    (forN n f out).Sat fun o => o.length = out.length ∧ ∀ j : Nat, o[j]? = if j < n then some (g j) else out[j]? := by
  refine (forN_inv (fun k (o : List α) => o.length = out.length ∧
    ∀ j : Nat, o[j]? = if j < k then some (g j) else out[j]?) ⟨rfl, fun j => by rw [if_neg (by omega)]⟩ ?_)
  rintro k o hk ⟨h1, h2⟩
  rw [h k o hk, wr_lt (by omega), sat_ok]
  refine ⟨by simpa using h1, fun j => ?_⟩
  rw [List.getElem?_set]
  by_cases hj : k = j
  · subst hj; rw [if_pos rfl, if_pos (by omega), if_pos (by omega)]
  · rw [if_neg hj, h2]
    by_cases hc : j < k
    · rw [if_pos hc, if_pos (by omega)]
    · rw [if_neg hc, if_neg (by omega)]

/-- ... which fills the output when its length is the number of indexes. -/
theorem store_eq {α : Type _} {n : Nat} {f : Nat → List α → Exec (List α)} {g : Nat → α} {out : List α}
    (h : ∀ i o, i < n → f i o = wr o i (g i)) (hn : n = out.length) : forN n f out = ok ((List.range n).map g) := by
  obtain ⟨o, e, h1, h2⟩ := store_sat h (Nat.le_of_eq hn)
  rw [e, eq_mapRange (l := o) (f := g) (n := n) (by omega) fun i hi => by rw [h2, if_pos hi]]

/-- A loop that stores the values of the indexes that satisfy `c`, one after the other. -/
theorem compress {α : Type _} (c : Nat → Bool) (g : Nat → α) (out : List α) (n : Nat) :
    (((List.range n).filter c).length ≤ out.length →
      (forN n (fun i (s : List α × Nat) => if c i = true then wr s.1 s.2 (g i) >>= fun p => ok (p, s.2 + 1) else ok s)
        (out, 0)).Sat fun s => s.2 = ((List.range n).filter c).length ∧ s.1.length = out.length ∧
          ∀ j : Nat, s.1[j]? = if j < ((List.range n).filter c).length then (((List.range n).filter c)[j]?).map g
            else out[j]?) ∧
    (out.length < ((List.range n).filter c).length →
      forN n (fun i (s : List α × Nat) => if c i = true then wr s.1 s.2 (g i) >>= fun p => ok (p, s.2 + 1) else ok s)
        (out, 0) = ub) := by
  induction n with
  | zero => exact ⟨fun _ => sat_ok.2 ⟨rfl, rfl, fun j => rfl⟩, fun h => absurd h (Nat.not_lt_zero _)⟩
  | succ n ih =>
    obtain ⟨ih1, ih2⟩ := ih
    rw [List.range_succ, List.filter_append]
    by_cases hc : c n = true
    · rw [show List.filter c [n] = [n] by simp [hc], List.length_append, List.length_singleton]
      generalize hF : (List.range n).filter c = F at *
      refine ⟨fun h => ?_, fun h => ?_⟩
      · rw [forN_succ]
        refine (ih1 (by omega)).bind fun s hs => ?_
        rw [if_pos hc, wr_lt (by omega), bind_ok, sat_ok]
        refine ⟨by rw [← hs.1], by rw [List.length_set]; exact hs.2.1, fun j => ?_⟩
        rw [List.getElem?_set]
        by_cases hj : s.2 = j
        · subst hj
          rw [if_pos rfl, if_pos (by omega), if_pos (by omega), hs.1, List.getElem?_append_right (Nat.le_refl _),
            Nat.sub_self]
          rfl
        · rw [if_neg hj, hs.2.2 j]
          by_cases hjl : j < F.length
          · rw [if_pos hjl, if_pos (by omega), List.getElem?_append_left hjl]
          · rw [if_neg hjl, if_neg (by omega)]
      · rw [forN_succ]
        by_cases hlt : out.length < F.length
        · rw [ih2 hlt, bind_ub]
        · obtain ⟨s, e, hs⟩ := ih1 (by omega)
          rw [e, bind_ok, if_pos hc, wr_ge (by omega), bind_ub]
    · rw [show List.filter c [n] = [] by simp [hc], List.append_nil]
      refine ⟨fun h => ?_, fun h => ?_⟩
      · rw [forN_succ]
        refine (ih1 h).bind fun s hs => ?_
        rw [if_neg hc, sat_ok]
        exact hs
      · rw [forN_succ, ih2 h, bind_ub]

/-- Adding values at different positions. -/
theorem addLoop_sat {Q : Type _} {add : Q → Q → Q} {pos : List Nat} {K N : Nat} (hp : ValidPos pos K N) {ext Y : List Q}
    (he : ext.length = K) (hY : Y.length = N) :
    (forN K (fun i o => do
      let p ← rd pos i
      let y ← rd o p
      let e ← rd ext i
      wr o p (add y e)) Y).Sat fun o => o.length = N ∧
        (∀ (i p : Nat) (y e : Q), pos[i]? = some p → Y[p]? = some y → ext[i]? = some e → o[p]? = some (add y e)) ∧
        (∀ p : Nat, p ∉ pos → o[p]? = Y[p]?) := by
  obtain ⟨h1, h2, h3⟩ := hp
  refine (forN_inv (fun k (o : List Q) => o.length = N ∧
    (∀ (i p : Nat) (y e : Q), i < k → pos[i]? = some p → Y[p]? = some y → ext[i]? = some e → o[p]? = some (add y e)) ∧
    (∀ p : Nat, (∀ i : Nat, i < k → pos[i]? ≠ some p) → o[p]? = Y[p]?))
    ⟨hY, fun i _ _ _ hi => absurd hi (Nat.not_lt_zero i), fun _ _ => rfl⟩ ?_).mono ?_
  · rintro k o hk ⟨g1, g2, g3⟩
    have hkp : pos[k]? = some pos[k] := List.getElem?_eq_getElem (by omega)
    have hlt : pos[k] < N := h3 _ (List.getElem_mem _)
    have hold : o[pos[k]]? = Y[pos[k]]? := g3 _ fun i hi hc => by
      have := (List.Nodup.getElem_inj_iff h2 (hi := by omega) (hj := by omega)).1
        (Option.some.inj ((List.getElem?_eq_getElem (by omega)).symm.trans (hc.trans rfl)))
      omega
    have hYk : Y[pos[k]]? = some Y[pos[k]] := List.getElem?_eq_getElem (by omega)
    rw [rd_eq hkp, bind_ok, rd_eq (hold.trans hYk), bind_ok, rd_lt (by omega), bind_ok, wr_lt (by omega), sat_ok]
    refine ⟨by simpa using g1, fun i p y e hi hip hy hee => ?_, fun p hpn => ?_⟩
    · rw [List.getElem?_set]
      by_cases hpp : pos[k] = p
      · have hik : i = k := by
          obtain ⟨hil, hie⟩ := List.getElem?_eq_some_iff.1 hip
          exact (List.Nodup.getElem_inj_iff h2).1 (hie.trans hpp.symm)
        subst hik
        subst hpp
        rw [if_pos rfl, if_pos (by omega)]
        rw [hYk] at hy
        rw [List.getElem?_eq_getElem (by omega)] at hee
        cases hy
        cases hee
        rfl
      · rw [if_neg hpp]
        have hik : i ≠ k := by
          rintro rfl
          rw [hkp] at hip
          exact hpp (Option.some.inj hip)
        exact g2 i p y e (by omega) hip hy hee
    · rw [List.getElem?_set, if_neg fun hpp => hpn k (by omega) (by rw [hkp, hpp])]
      exact g3 p fun i hi => hpn i (by omega)
  · rintro o ⟨g1, g2, g3⟩
    refine ⟨g1, fun i p y e hip hy hee => g2 i p y e ?_ hip hy hee, fun p hpn => g3 p fun i hi hc => hpn (List.mem_of_getElem? hc)⟩
    rw [← h1]
    exact (List.getElem?_eq_some_iff.1 hip).1

theorem filter_mem_perm {pos : List Nat} {K N : Nat} (hp : ValidPos pos K N) :
    ((List.range N).filter fun i => decide (i ∈ pos)).Perm pos := by
  refine (List.perm_ext_iff_of_nodup (List.nodup_range.filter _) hp.2.1).2 fun a => ?_
  rw [List.mem_filter, List.mem_range, decide_eq_true_iff]
  exact ⟨fun h => h.2, fun h => ⟨hp.2.2 a h, h⟩⟩

end Verif.Extractor
