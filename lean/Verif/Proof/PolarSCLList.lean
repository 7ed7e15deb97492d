import Verif.Proof.PolarSCLView
import Mathlib.Data.List.Forall2

/-! # The lists of paths -/

namespace Verif.PolarSCL
open Verif.Polar
open Verif.PolarSC (Fns soft)

variable {R : Type} {w : Nat} {F : Fns R w} {A : Ar R} {m : Nat} {y : List R} {L : Nat}

theorem fits_snoc {fr u : List Bool} {f : Bool} : Fits (fr ++ [f]) u ↔ ∃ v b, u = v ++ [b] ∧ Fits fr v ∧ (f = true → b = false) := by
  unfold Fits
  constructor
  · intro h
    rw [← List.forall₂_reverse_iff, List.reverse_append, List.reverse_singleton, List.singleton_append] at h
    rcases hr : u.reverse with _ | ⟨b, v⟩
    · rw [hr] at h; cases h
    · rw [hr, List.forall₂_cons] at h
      refine ⟨v.reverse, b, ?_, ?_, h.1⟩
      · rw [← List.reverse_reverse u, hr, List.reverse_cons]
      · rw [← List.forall₂_reverse_iff, List.reverse_reverse]; exact h.2
  · rintro ⟨v, b, rfl, h1, h2⟩
    exact List.rel_append h1 (.cons h2 .nil)

/-- The information positions of frozen flags. -/
def infos (fr : List Bool) : Nat := (fr.filter (· = false)).length

theorem infos_snoc (fr : List Bool) (f : Bool) : infos (fr ++ [f]) = infos fr + if f then 0 else 1 := by
  unfold infos
  rw [List.filter_append, List.length_append]
  cases f <;> simp

theorem pairs_mem {V : List (List Bool × R)} {q : List Bool × R} :
    q ∈ (V.flatMap fun p => [extend F A m y false p, extend F A m y true p]) ↔ ∃ p ∈ V, ∃ b, q = extend F A m y b p := by
  rw [List.mem_flatMap]
  constructor
  · rintro ⟨p, hp, hq⟩
    simp only [List.mem_cons, List.not_mem_nil, or_false] at hq
    rcases hq with rfl | rfl
    · exact ⟨p, hp, _, rfl⟩
    · exact ⟨p, hp, _, rfl⟩
  · rintro ⟨p, hp, b, rfl⟩
    refine ⟨p, hp, ?_⟩
    cases b <;> simp

theorem pairs_length (V : List (List Bool × R)) : (V.flatMap fun p => [extend F A m y false p, extend F A m y true p]).length = 2 * V.length := by
  induction V with
  | nil => rfl
  | cons p V ih => rw [List.flatMap_cons, List.length_append, ih, List.length_cons]; simp; omega

theorem pairs_nodup {V : List (List Bool × R)} (h : (V.map Prod.fst).Nodup) : ((V.flatMap fun p => [extend F A m y false p, extend F A m y true p]).map Prod.fst).Nodup := by
  induction V with
  | nil => exact List.nodup_nil
  | cons p V ih =>
    rw [List.map_cons, List.nodup_cons] at h
    rw [List.flatMap_cons, List.map_append]
    refine List.Nodup.append ?_ (ih h.2) ?_
    · simp [extend]
    · rintro x hx hx'
      obtain ⟨q, hq, rfl⟩ := List.mem_map.1 hx
      obtain ⟨q', hq', e⟩ := List.mem_map.1 hx'
      obtain ⟨p', hp', b', rfl⟩ := pairs_mem.1 hq'
      refine h.1 (List.mem_map.2 ⟨p', hp', ?_⟩)
      simp only [List.mem_cons, List.not_mem_nil, or_false] at hq
      rcases hq with rfl | rfl <;> simp only [extend] at e <;> exact (List.append_inj' e (by simp)).1

theorem norm_mem {V : List (List Bool × R)} {q : List Bool × R} : q ∈ normalize A V ↔ ∃ p ∈ V, q = (p.1, A.sub p.2 (V.foldl (fun r p => minR A r p.2) A.max)) := by
  unfold normalize
  rw [List.mem_map]
  constructor
  · rintro ⟨p, hp, rfl⟩; exact ⟨p, hp, rfl⟩
  · rintro ⟨p, hp, rfl⟩; exact ⟨p, hp, rfl⟩

theorem Lists.fits {fr : List Bool} {V : List (List Bool × R)} (h : Lists F A m y L fr V) : ∀ p ∈ V, Fits fr p.1 := by
  induction h with
  | start =>
    intro p hp
    rw [List.mem_singleton.1 hp]
    exact .nil
  | frozen _ ih =>
    intro p hp
    obtain ⟨q, hq, rfl⟩ := norm_mem.1 hp
    obtain ⟨q, hq', rfl⟩ := List.mem_map.1 hq
    exact fits_snoc.2 ⟨_, _, rfl, ih q hq', fun _ => rfl⟩
  | info _ _ ih =>
    intro p hp
    obtain ⟨q, hq, b, rfl⟩ := pairs_mem.1 hp
    exact fits_snoc.2 ⟨_, _, rfl, ih q hq, by simp⟩
  | prune _ _ hperm _ _ ih =>
    intro p hp
    obtain ⟨q, hq, b, rfl⟩ := pairs_mem.1 (hperm.subset (List.mem_append_left _ hp))
    exact fits_snoc.2 ⟨_, _, rfl, ih q hq, by simp⟩
  | perm _ hp ih => exact fun p h => ih p (hp.mem_iff.2 h)

theorem Lists.nodup {fr : List Bool} {V : List (List Bool × R)} (h : Lists F A m y L fr V) : (V.map Prod.fst).Nodup := by
  induction h with
  | start => simp
  | @frozen fr V h ih =>
    have : (normalize A (V.map (extend F A m y false))).map Prod.fst = (V.map Prod.fst).map (· ++ [false]) := by
      unfold normalize
      simp [List.map_map, Function.comp_def, extend]
    rw [this]
    exact List.Nodup.map (fun a b e => (List.append_inj' e rfl).1) ih
  | info _ _ ih => exact pairs_nodup ih
  | prune _ _ hperm _ _ ih =>
    have := (hperm.map Prod.fst).nodup_iff.2 (pairs_nodup ih)
    rw [List.map_append] at this
    exact this.of_append_left
  | perm _ hp ih => exact (hp.map Prod.fst).nodup_iff.1 ih

theorem Lists.length {k : Nat} (hL : L = 2 ^ k) {fr : List Bool} {V : List (List Bool × R)} (h : Lists F A m y L fr V) : V.length = min (2 ^ infos fr) L := by
  have hk := Nat.two_pow_pos k
  induction h with
  | start =>
    rw [show infos [] = 0 from rfl, List.length_singleton]
    omega
  | frozen _ ih =>
    rw [infos_snoc]
    simpa [normalize] using ih
  | @info fr V _ hle ih =>
    rw [pairs_length, infos_snoc, ih]
    simp only [Bool.false_eq_true, if_false, Nat.pow_succ]
    have : 2 ^ infos fr ≤ L ∨ L < 2 ^ infos fr := by omega
    rcases this with h | h
    · rw [ih] at hle
      omega
    · omega
  | @prune fr V kept dropped _ hlt _ hl _ ih =>
    rw [hl, infos_snoc, ih]
    rw [ih] at hlt
    simp only [Bool.false_eq_true, if_false, Nat.pow_succ]
    have hp := Nat.two_pow_pos (infos fr)
    by_cases h : 2 ^ infos fr < L
    · rw [hL] at h
      have h2 := (Nat.pow_lt_pow_iff_right (by omega)).1 h
      have : 2 ^ (infos fr + 1) ≤ 2 ^ k := Nat.pow_le_pow_right (by omega) h2
      rw [Nat.pow_succ] at this
      omega
    · omega
  | perm _ hp ih => rw [← hp.length_eq]; exact ih

theorem infos_mono {fr : List Bool} {f : Bool} : infos fr ≤ infos (fr ++ [f]) := by rw [infos_snoc]; omega

/-- When the list is large enough, nothing is dropped. -/
theorem Lists.full {k : Nat} (hL : L = 2 ^ k) {fr : List Bool} {V : List (List Bool × R)} (h : Lists F A m y L fr V) (hi : 2 ^ infos fr ≤ L) {u : List Bool} (hu : Fits fr u) : ∃ mu, (u, mu) ∈ V := by
  induction h generalizing u with
  | start => cases hu; exact ⟨_, List.mem_singleton.2 rfl⟩
  | frozen _ ih =>
    obtain ⟨v, b, rfl, h1, h2⟩ := fits_snoc.1 hu
    rw [h2 rfl]
    obtain ⟨mu, hmu⟩ := ih (by rwa [infos_snoc] at hi) h1
    exact ⟨_, norm_mem.2 ⟨_, List.mem_map.2 ⟨_, hmu, rfl⟩, rfl⟩⟩
  | info _ _ ih =>
    obtain ⟨v, b, rfl, h1, h2⟩ := fits_snoc.1 hu
    obtain ⟨mu, hmu⟩ := ih (le_trans (Nat.pow_le_pow_right (by omega) infos_mono) hi) h1
    exact ⟨_, pairs_mem.2 ⟨_, hmu, b, rfl⟩⟩
  | @prune fr V kept dropped hV hlt _ _ _ ih =>
    exfalso
    have := hV.length hL
    rw [infos_snoc] at hi
    simp only [Bool.false_eq_true, if_false, Nat.pow_succ] at hi
    have hp := Nat.two_pow_pos (infos fr)
    omega
  | perm _ hp ih =>
    obtain ⟨mu, hmu⟩ := ih hi hu
    exact ⟨mu, hp.mem_iff.1 hmu⟩

end Verif.PolarSCL
