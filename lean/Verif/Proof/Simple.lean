import Verif.Spec.Simple
import Verif.Proof.Extractor

/-! # Lemmas of C131–C132 -/

namespace Verif.Simple
open Exec

variable {I O T : Type}

/-- The object holds the data `s`. -/
structure IOk (n : Nat) (i : Ini T) (s : Nat × (Nat → List T)) : Prop where
  frames : i.frames = s.1
  pos : 0 < s.1
  data : i.data = (List.range s.1).map s.2
  len : ∀ f, f < s.1 → (s.2 f).length = n

theorem fill_new {D : List (List T)} {g : List T → List T} {a k : Nat} (ha : 0 < a) (hD : D.length = a) (hk : a ≤ k)
    {h : Nat → List (List T) → Exec (List (List T))}
    (hh : ∀ f E d0, a ≤ f → f < E.length → E[0]? = some d0 → E[f]? = some [] → h f E = wr E f (g d0)) :
    (forRange a k h (D.take k ++ List.replicate (k - D.length) [])) =
      ok ((List.range k).map fun f => if f < a then D.getD f [] else g (D.getD 0 [])) := by
  have : (forRange a k h (D.take k ++ List.replicate (k - D.length) [])).Sat fun E => E.length = k ∧
      ∀ f, f < k → E[f]? = some (if f < a then D.getD f [] else if f < k then g (D.getD 0 []) else []) := by
    refine forRange_inv (fun m (E : List (List T)) => E.length = k ∧
      ∀ f, f < k → E[f]? = some (if f < a then D.getD f [] else if f < m then g (D.getD 0 []) else [])) hk ⟨?_, ?_⟩ ?_
    · simp; omega
    · intro f hf
      by_cases q : f < a
      · rw [if_pos q, List.getElem?_append_left (by simp; omega), List.getElem?_take_of_lt hf, List.getElem?_eq_getElem (by omega),
          getD_lt [] (by omega)]
      · rw [if_neg q, if_neg q, List.getElem?_append_right (by simp; omega), List.getElem?_replicate, if_pos (by simp; omega)]
    · rintro m E hm1 hm2 ⟨l, v⟩
      have v0 := v 0 (by omega)
      rw [if_pos ha] at v0
      have vm := v m hm2
      rw [if_neg (by omega), if_neg (by omega)] at vm
      rw [hh m E _ hm1 (by omega) v0 vm, wr_lt (by omega), sat_ok]
      refine ⟨by rw [List.length_set, l], fun f hf => ?_⟩
      by_cases q : f = m
      · subst q
        rw [List.getElem?_set_self (by omega), if_neg (by omega), if_pos (by omega)]
      · rw [List.getElem?_set_ne (by omega), v f hf]
        by_cases q1 : f < a
        · rw [if_pos q1, if_pos q1]
        · rw [if_neg q1, if_neg q1]
          by_cases q2 : f < m
          · rw [if_pos q2, if_pos (by omega)]
          · rw [if_neg q2, if_neg (by omega)]
  obtain ⟨E, e, l, v⟩ := this
  rw [e]
  congr 1
  refine eq_mapRange l fun f hf => ?_
  rw [v f hf, if_pos hf]

theorem setEach_ok {n : Nat} : ∀ {vs : List (List T)} {f : Nat} {D : List (List T)}, D.length = f + vs.length → (∀ d ∈ D, d.length = n) →
    (∀ v ∈ vs, v.length = n) → setEach vs f D = ok (D.take f ++ vs, true)
  | [], f, D, h, _, _ => by
    rw [setEach, List.take_of_length_le (by simp at h; omega), List.append_nil]
  | v :: vs, f, D, h, hD, hv => by
    rw [List.length_cons] at h
    rw [setEach, rd_lt (by omega), bind_ok, hD _ (List.getElem_mem ..), if_neg (by simp [hv v (List.mem_cons_self ..)]), wr_lt (by omega), bind_ok,
      setEach_ok (n := n) (by rw [List.length_set]; omega) (by
        intro d hd
        rcases List.mem_or_eq_of_mem_set hd with hd | rfl
        · exact hD d hd
        · exact hv _ (List.mem_cons_self ..)) fun v h => hv v (List.mem_cons_of_mem _ h)]
    congr 2
    rw [List.take_add_one, List.getElem?_set_self (by omega), List.take_set_of_le (Nat.le_refl f)]
    simp

/-- Whatever the sizes given, the loop keeps the number of frames and the sizes. -/
theorem setEach_safe {n : Nat} : ∀ {vs : List (List T)} {f : Nat} {D : List (List T)}, D.length = f + vs.length → (∀ d ∈ D, d.length = n) →
    (setEach vs f D).Sat fun r => r.1.length = D.length ∧ ∀ d ∈ r.1, d.length = n
  | [], f, D, h, hD => by rw [setEach, sat_ok]; exact ⟨rfl, hD⟩
  | v :: vs, f, D, h, hD => by
    rw [List.length_cons] at h
    rw [setEach, rd_lt (by omega), bind_ok, hD _ (List.getElem_mem ..)]
    by_cases q : v.length = n
    · rw [if_neg (by simpa using q), wr_lt (by omega), bind_ok]
      refine Sat.mono (setEach_safe (n := n) (by rw [List.length_set]; omega) ?_) fun r hr => ⟨by rw [hr.1, List.length_set], hr.2⟩
      intro d hd
      rcases List.mem_or_eq_of_mem_set hd with hd | rfl
      · exact hD d hd
      · exact q
    · rw [if_pos q, sat_ok]
      exact ⟨rfl, hD⟩

theorem mapRange_getD {D : List (List T)} {k : Nat} (h : D.length = k) : D = (List.range k).map fun f => D.getD f [] :=
  eq_mapRange h fun f hf => by rw [List.getElem?_eq_getElem (by omega), getD_lt [] (by omega)]

/-- One call, other than one with a wrong size for a frame. -/
theorem iop_eq {n : Nat} {i : Ini T} {s : Nat × (Nat → List T)} (h : IOk n i s) (o : IOp T)
    (ho : ∀ vs, o = .each vs → ∀ v ∈ vs, v.length = n) :
    (o.run i).Sat fun r => r.2 = o.accepted n s.1 ∧ IOk n r.1 (if o.accepted n s.1 then o.expect s else s) := by
  obtain ⟨h1, h2, h3, h4⟩ := h
  have hl : i.data.length = s.1 := by rw [h3]; simp
  have hd0 : i.data[0]? = some (s.2 0) := by rw [h3, getElem?_mapRange, if_pos h2]
  have hget : ∀ f, f < s.1 → i.data.getD f [] = s.2 f := by
    intro f hf
    rw [List.getD_eq_getElem?_getD, h3, getElem?_mapRange, if_pos hf]; rfl
  cases o with
  | all v =>
    unfold IOp.run
    dsimp only
    rw [rd_eq hd0, bind_ok, h4 0 h2]
    by_cases q : v.length = n
    · rw [if_neg (by simpa using q), sat_ok]
      have q' : (IOp.all v).accepted n s.1 = true := by simpa [IOp.accepted] using q
      simp only [q', if_true, IOp.expect]
      exact ⟨trivial, h1, h2, by rw [h3, List.map_map]; rfl, fun _ _ => q⟩
    · rw [if_pos q, sat_ok]
      have q' : (IOp.all v).accepted n s.1 = false := by simpa [IOp.accepted] using q
      simp only [q', Bool.false_eq_true, if_false]
      exact ⟨trivial, h1, h2, h3, h4⟩
  | each vs =>
    have hv := ho vs rfl
    unfold IOp.run
    dsimp only
    have hall : vs.all (fun v => v.length == n) = true := by simpa using hv
    rw [h1]
    by_cases q : vs.length = s.1
    · rw [if_neg (by simpa using q), setEach_ok (n := n) (by omega) (by
        intro d hd
        rw [h3] at hd
        obtain ⟨f, hf, rfl⟩ := List.mem_map.mp hd
        exact h4 f (List.mem_range.mp hf)) hv, bind_ok, sat_ok]
      have q' : (IOp.each vs).accepted n s.1 = true := by simp only [IOp.accepted, hall, Bool.and_true]; simpa using q
      simp only [q', if_true, IOp.expect]
      refine ⟨trivial, rfl, h2, ?_, fun f hf => ?_⟩
      · show i.data.take 0 ++ vs = _
        rw [List.take_zero, List.nil_append]
        exact mapRange_getD q
      · show (vs.getD f []).length = n
        rw [getD_lt [] (by omega)]
        exact hv _ (List.getElem_mem ..)
    · rw [if_pos q, sat_ok]
      have q' : (IOp.each vs).accepted n s.1 = false := by simp only [IOp.accepted, hall, Bool.and_true]; simpa using q
      simp only [q', Bool.false_eq_true, if_false]
      exact ⟨trivial, h1, h2, h3, h4⟩
  | frames k =>
    unfold IOp.run
    dsimp only
    rw [h1]
    by_cases q : s.1 = k
    · rw [if_pos q, sat_ok]
      have q' : (IOp.frames (T := T) k).accepted n s.1 = true := by unfold IOp.accepted; simp; omega
      simp only [q', if_true, IOp.expect]
      refine ⟨trivial, by rw [h1, q], by omega, ?_, fun f hf => ?_⟩
      · rw [h3, q]
        apply List.map_congr_left
        intro f hf
        dsimp only
        rw [if_pos (List.mem_range.mp hf)]
      · dsimp only at hf ⊢
        rw [if_pos (by omega)]; exact h4 f (by omega)
    · rw [if_neg q]
      by_cases q0 : k = 0
      · rw [if_pos q0, sat_ok]
        have q' : (IOp.frames (T := T) k).accepted n s.1 = false := by unfold IOp.accepted; simp; omega
        simp only [q', Bool.false_eq_true, if_false]
        exact ⟨trivial, h1, h2, h3, h4⟩
      · have q' : (IOp.frames (T := T) k).accepted n s.1 = true := by unfold IOp.accepted; simp; omega
        rw [if_neg q0]
        simp only [q', if_true, IOp.expect]
        have key : forRange s.1 k (fun f D => do
            let d0 ← rd D 0
            wr D f d0) (i.data.take k ++ List.replicate (k - i.data.length) []) =
            ok ((List.range k).map fun f => if f < s.1 then s.2 f else s.2 0) := by
          by_cases hk : s.1 ≤ k
          · rw [fill_new (g := id) h2 hl hk (by
              intro f E d0 _ _ e0 _
              rw [rd_eq e0, bind_ok]; rfl)]
            congr 1
            apply List.map_congr_left
            intro f hf
            by_cases q1 : f < s.1
            · rw [if_pos q1, if_pos q1, hget f q1]
            · rw [if_neg q1, if_neg q1, id, hget 0 h2]
          · unfold forRange
            rw [show k - s.1 = 0 by omega, forN_zero]
            congr 1
            rw [show k - i.data.length = 0 by omega, List.replicate_zero, List.append_nil, h3, ← List.map_take, List.take_range,
              Nat.min_eq_left (by omega)]
            apply List.map_congr_left
            intro f hf
            have := List.mem_range.mp hf
            rw [if_pos (by omega)]
        rw [key, bind_ok, sat_ok]
        refine ⟨rfl, rfl, by dsimp only; omega, rfl, fun f hf => ?_⟩
        dsimp only at hf ⊢
        by_cases q1 : f < s.1
        · rw [if_pos q1]; exact h4 f q1
        · rw [if_neg q1]; exact h4 0 h2

/-- Any call keeps a well-formed object. -/
theorem iop_safe {n : Nat} {i : Ini T} {s : Nat × (Nat → List T)} (h : IOk n i s) (o : IOp T) :
    (o.run i).Sat fun r => ∃ s', IOk n r.1 s' := by
  by_cases q : ∀ vs, o = .each vs → ∀ v ∈ vs, v.length = n
  · exact Sat.mono (iop_eq h o q) fun r hr => ⟨_, hr.2⟩
  · cases o with
    | all v => exact absurd (fun vs e => by cases e) q
    | frames k => exact absurd (fun vs e => by cases e) q
    | each vs =>
      obtain ⟨h1, h2, h3, h4⟩ := h
      have hl : i.data.length = s.1 := by rw [h3]; simp
      unfold IOp.run
      dsimp only
      by_cases q' : vs.length = i.frames
      · rw [if_neg (by simpa using q')]
        refine Sat.bind (setEach_safe (n := n) (vs := vs) (f := 0) (D := i.data) (by omega) (by
          intro d hd
          rw [h3] at hd
          obtain ⟨f, hf, rfl⟩ := List.mem_map.mp hd
          exact h4 f (List.mem_range.mp hf))) ?_
        rintro r ⟨a, b⟩
        rw [sat_ok]
        refine ⟨(s.1, fun f => r.1.getD f []), h1, h2, mapRange_getD (by rw [a, hl]), fun f hf => ?_⟩
        dsimp only at hf ⊢
        rw [getD_lt [] (by omega)]
        exact b _ (List.getElem_mem ..)
      · rw [if_pos q', sat_ok]
        exact ⟨s, h1, h2, h3, h4⟩

theorem initialize_eq {n : Nat} {i : Ini T} {s : Nat × (Nat → List T)} (h : IOk n i s) {f : Nat} (hf : f < s.1) {out : List T}
    (ho : out.length = n) : i.initialize f out = ok (s.2 f) := by
  have hd : i.data[f]? = some (s.2 f) := by rw [h.data, getElem?_mapRange, if_pos hf]
  have hn := h.len f hf
  unfold Ini.initialize
  rw [rd_eq hd, bind_ok]
  obtain ⟨o, e, l, v⟩ := copyTo_sat (src := s.2 f) (so := 0) (n := (s.2 f).length) (dst := out) (d := 0) (by omega) (by omega)
  rw [e]
  congr 1
  apply List.ext_getElem?
  intro j
  rw [v]
  by_cases q : j < n
  · rw [if_pos (by omega)]; simp
  · rw [if_neg (by omega), List.getElem?_eq_none (by omega), List.getElem?_eq_none (by omega)]

/-- The finalizer holds the data `s`; the frames that do not exist are expected to be zeros. -/
structure FOk (zeros : List T) (i : Fin' T) (s : Nat × (Nat → List T)) : Prop where
  frames : i.frames = s.1
  pos : 0 < s.1
  data : i.data = (List.range s.1).map s.2
  len : ∀ f, (s.2 f).length = zeros.length
  out : ∀ f, s.1 ≤ f → s.2 f = zeros

theorem finalize_eq {zero : T} {n : Nat} {i : Fin' T} {s : Nat × (Nat → List T)} (h : FOk (List.replicate n zero) i s) (f : Nat) (inp : List T)
    (hf : f < s.1) (hi : inp.length = n) :
    ((FOp.finalize f inp).run zero i).Sat fun i' => FOk (List.replicate n zero) i' (FOp.expect (List.replicate n zero) s (.finalize f inp)) := by
  obtain ⟨h1, h2, h3, h4, h5⟩ := h
  have hl : i.data.length = s.1 := by rw [h3]; simp
  have hd : ∀ g, g < s.1 → i.data[g]? = some (s.2 g) := by
    intro g hg
    rw [h3, getElem?_mapRange, if_pos hg]
  have hlen : ∀ f, (s.2 f).length = n := fun f => by rw [h4 f, List.length_replicate]
  unfold FOp.run FOp.expect
  dsimp only
  rw [rd_eq (hd 0 h2), bind_ok, rd_eq (hd f hf), bind_ok]
  obtain ⟨o, e, l, v⟩ := copyTo_sat (src := inp) (so := 0) (n := (s.2 0).length) (dst := s.2 f) (d := 0) (by rw [hlen]; omega)
    (by rw [hlen, hlen]; omega)
  have : o = inp := by
    apply List.ext_getElem?
    intro j
    rw [v]
    have l0 := hlen 0
    have lf := hlen f
    by_cases q : j < n
    · rw [if_pos (by omega)]; simp
    · rw [if_neg (by omega), List.getElem?_eq_none (by omega), List.getElem?_eq_none (by omega)]
  rw [e, bind_ok, this, wr_lt (by omega), bind_ok, sat_ok]
  refine ⟨h1, h2, ?_, fun g => ?_, fun g hg => ?_⟩
  · refine eq_mapRange (by rw [List.length_set, hl]) fun g hg => ?_
    dsimp only at hg ⊢
    by_cases q : g = f
    · subst q
      rw [List.getElem?_set_self (by omega), if_pos rfl]
    · rw [List.getElem?_set_ne (by omega), if_neg q, hd g hg]
  · dsimp only
    by_cases q : g = f
    · rw [if_pos q, hi, List.length_replicate]
    · rw [if_neg q, h4]
  · dsimp only at hg ⊢
    rw [if_neg (by omega), h5 g hg]

theorem fframes_eq {zero : T} {n : Nat} {i : Fin' T} {s : Nat × (Nat → List T)} (h : FOk (List.replicate n zero) i s) (k : Nat) :
    ((FOp.frames k).run zero i).Sat fun i' => FOk (List.replicate n zero) i' (FOp.expect (List.replicate n zero) s (.frames k)) := by
  obtain ⟨h1, h2, h3, h4, h5⟩ := h
  have hl : i.data.length = s.1 := by rw [h3]; simp
  have hget : ∀ f, f < s.1 → i.data.getD f [] = s.2 f := by
    intro f hf
    rw [List.getD_eq_getElem?_getD, h3, getElem?_mapRange, if_pos hf]; rfl
  unfold FOp.run FOp.expect
  dsimp only
  rw [h1]
  by_cases q : s.1 = k
  · rw [if_pos q, sat_ok, if_neg (by omega)]
    refine ⟨by rw [h1, q], by dsimp only; omega, ?_, fun g => ?_, fun g hg => ?_⟩
    · rw [h3, q]
      apply List.map_congr_left
      intro f hf
      dsimp only
      rw [if_pos (List.mem_range.mp hf)]
    · dsimp only
      split
      · exact h4 g
      · rfl
    · dsimp only at hg ⊢
      rw [if_neg (by omega)]
  · rw [if_neg q]
    by_cases q0 : k = 0
    · rw [if_pos q0, if_pos q0, sat_ok]
      exact ⟨h1, h2, h3, h4, h5⟩
    · rw [if_neg q0, if_neg q0]
      have key : forRange s.1 k (fun f D => do
          let d0 ← rd D 0
          let d ← rd D f
          wr D f (d.take d0.length ++ List.replicate (d0.length - d.length) zero)) (i.data.take k ++ List.replicate (k - i.data.length) []) =
          ok ((List.range k).map fun f => if f < k then s.2 f else List.replicate n zero) := by
        by_cases hk : s.1 ≤ k
        · rw [fill_new (g := fun d => List.replicate d.length zero) h2 hl hk (by
            intro f E d0 _ _ e0 ef
            rw [rd_eq e0, bind_ok, rd_eq ef, bind_ok]; simp)]
          congr 1
          apply List.map_congr_left
          intro f hf
          have hf' := List.mem_range.mp hf
          rw [if_pos hf']
          by_cases q1 : f < s.1
          · rw [if_pos q1, hget f q1]
          · rw [if_neg q1, hget 0 h2, h4, List.length_replicate, h5 f (by omega)]
        · unfold forRange
          rw [show k - s.1 = 0 by omega, forN_zero]
          congr 1
          rw [show k - i.data.length = 0 by omega, List.replicate_zero, List.append_nil, h3, ← List.map_take, List.take_range,
            Nat.min_eq_left (by omega)]
          apply List.map_congr_left
          intro f hf
          have := List.mem_range.mp hf
          rw [if_pos (by omega)]
      rw [key, bind_ok, sat_ok]
      refine ⟨rfl, by dsimp only; omega, rfl, fun g => ?_, fun g hg => ?_⟩
      · dsimp only
        split
        · exact h4 g
        · rfl
      · dsimp only at hg ⊢
        rw [if_neg (by omega)]

end Verif.Simple
