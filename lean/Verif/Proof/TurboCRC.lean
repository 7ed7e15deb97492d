import Verif.Proof.TurboPres
import Verif.Spec.TurboStop

/-! # Turbo decoder: early termination -/

namespace Verif.Turbo
open Exec Verif.RSC Verif.Interleaver Verif.BCJR

variable {R D : Type}

theorem strip_some {p : PP R} {ps : List (PP R)} {c : List Int → Bool} (h : p.checks = some c) : strip (p :: ps) = strip ps := by
  unfold strip
  rw [List.filter_cons_of_neg]
  simp [h]

theorem strip_none {p : PP R} {ps : List (PP R)} (h : p.checks = none) : strip (p :: ps) = p :: strip ps := by
  unfold strip
  rw [List.filter_cons_of_pos]
  simp [h]

theorem flips_len {q pattern : Nat} {pos : List Nat} {s t : List Int} (h : flips q pattern pos s = ok t) : t.length = s.length := by
  unfold flips at h
  refine forN_pres (fun x => x.length = s.length) ?_ rfl h
  intro i a b _ g hb
  obtain ⟨_, _, hb⟩ := bind_inv hb
  obtain ⟨_, _, hb⟩ := bind_inv hb
  obtain ⟨_, rfl⟩ := wr_inv hb
  simpa using g

theorem flipCheck_ok {chk : List Int → Bool} {q : Nat} {pos : List Nat} {s : List Int} {r : List Int × Bool} (h : flipCheck chk q pos s = ok r) :
    r.1.length = s.length ∧ (r.2 = true → chk r.1 = true) := by
  unfold flipCheck at h
  split at h
  · cases h
  obtain ⟨o, ho, h⟩ := bind_inv h
  have key : ∀ t, o = some t → t.length = s.length ∧ chk t = true := by
    refine forN_pres (fun o => ∀ t, o = some t → t.length = s.length ∧ chk t = true) ?_ (fun t ht => by cases ht) ho
    intro i a b _ g hb
    cases a with
    | some t =>
      cases hb
      exact g
    | none =>
      obtain ⟨t, ht, hb⟩ := bind_inv hb
      injection hb with hb
      intro t' ht'
      rw [← hb] at ht'
      split at ht'
      next hc =>
        injection ht' with ht'
        subst ht'
        exact ⟨flips_len ht, hc⟩
      · cases ht'
  cases o with
  | some t =>
    cases h
    exact ⟨(key t rfl).1, fun _ => (key t rfl).2⟩
  | none =>
    cases h
    exact ⟨rfl, fun h => by cases h⟩

section
variable {A : Arith R D} {zero : R} {ite : Nat}

theorem crcStep_ok {start : Nat} {chk : List Int → Bool} {sys ext : List R} {s : List Int} {r : List Int × Bool}
    (h : crcStep A start chk ite sys ext s = ok r) : r.1.length = s.length ∧ (r.2 = true → chk r.1 = true) := by
  unfold crcStep at h
  split at h
  · obtain ⟨s', h1, h⟩ := bind_inv h
    cases h
    exact ⟨decide_len h1, id⟩
  · cases h
    exact ⟨rfl, fun h => by cases h⟩

/-- A post-processing with a check: it changes neither the extrinsic LLRs nor itself. -/
theorem sisoN_some {p : PP R} {c : List Int → Bool} (hc : p.checks = some c) {sys ext : List R} {s : List Int} {r} (h : p.sisoN A zero ite sys ext s = ok r) :
    r.1 = p ∧ r.2.1 = ext ∧ r.2.2.1.length = s.length ∧ (r.2.2.2 = true → c r.2.2.1 = true) := by
  cases p with
  | scale f => cases hc
  | selfc _ _ _ _ _ _ _ => cases hc
  | crc a c' =>
    injection hc with hc
    subst hc
    simp only [PP.sisoN] at h
    obtain ⟨w, hw, h⟩ := bind_inv h
    cases h
    exact ⟨rfl, rfl, crcStep_ok hw⟩
  | fnc a c' q its order =>
    injection hc with hc
    subst hc
    simp only [PP.sisoN] at h
    obtain ⟨w, hw, h⟩ := bind_inv h
    split at h
    · obtain ⟨u, hu, h⟩ := bind_inv h
      cases h
      obtain ⟨g1, g2⟩ := flipCheck_ok hu
      exact ⟨rfl, rfl, by dsimp only; rw [g1]; exact (crcStep_ok hw).1, g2⟩
    · cases h
      exact ⟨rfl, rfl, crcStep_ok hw⟩

/-- A post-processing without check does not stop, and does not use the decisions. -/
theorem sisoN_none {p : PP R} (hc : p.checks = none) {sys ext : List R} {s : List Int} {r} (h : p.sisoN A zero ite sys ext s = ok r) :
    r.1.checks = none ∧ r.2.2.1 = s ∧ r.2.2.2 = false ∧ ∀ s0, p.sisoN A zero ite sys ext s0 = ok (r.1, r.2.1, s0, false) := by
  cases p with
  | crc a c => cases hc
  | fnc _ _ _ _ _ => cases hc
  | scale f =>
    cases h
    exact ⟨rfl, rfl, rfl, fun s0 => rfl⟩
  | selfc m M sgn en ei pn pi =>
    simp only [PP.sisoN] at h ⊢
    obtain ⟨w, hw, h⟩ := bind_inv h
    cases h
    exact ⟨rfl, rfl, rfl, fun s0 => by rw [hw, bind_ok]⟩

theorem ppsN_crc {sys : List R} : ∀ {pps : List (PP R)} {ext : List R} {s : List Int} {r}, ppsN A zero ite sys pps ext s = ok r →
    r.2.2.1.length = s.length ∧ r.1.map PP.checks = pps.map PP.checks ∧
    (r.2.2.2 = true → ∃ c, some c ∈ pps.map PP.checks ∧ c r.2.2.1 = true) ∧
    (r.2.2.2 = false → ∀ s0, ppsN A zero ite sys (strip pps) ext s0 = ok (strip r.1, r.2.1, s0, false)) := by
  intro pps
  induction pps with
  | nil =>
    intro ext s r h
    cases h
    exact ⟨rfl, rfl, fun h => (by cases h), fun _ s0 => rfl⟩
  | cons p ps ih =>
    intro ext s r h
    unfold ppsN at h
    obtain ⟨q, hq, h⟩ := bind_inv h
    cases hc : p.checks with
    | some c =>
      obtain ⟨e1, e2, e3, e4⟩ := sisoN_some hc hq
      split at h
      next hst =>
        cases h
        refine ⟨e3, by dsimp only; rw [e1], fun _ => ⟨c, by simp [hc], e4 hst⟩, fun h => by cases h⟩
      · obtain ⟨w, hw, h⟩ := bind_inv h
        cases h
        obtain ⟨i1, i2, i3, i4⟩ := ih hw
        refine ⟨by dsimp only; omega, by dsimp only; rw [List.map_cons, i2, e1]; rfl, fun h => ?_, fun h s0 => ?_⟩
        · obtain ⟨c', h1, h2⟩ := i3 h
          exact ⟨c', by rw [List.map_cons]; exact List.mem_cons_of_mem _ h1, h2⟩
        · have := i4 h s0
          rw [e2] at this
          rw [strip_some hc, this, e1, strip_some hc]
    | none =>
      obtain ⟨e1, e2, e3, e4⟩ := sisoN_none hc hq
      rw [e3] at h
      rw [if_neg (by simp)] at h
      obtain ⟨w, hw, h⟩ := bind_inv h
      cases h
      obtain ⟨i1, i2, i3, i4⟩ := ih hw
      refine ⟨by dsimp only; rw [i1, e2], by dsimp only; rw [List.map_cons, List.map_cons, i2, e1, hc], fun h => ?_, fun h s0 => ?_⟩
      · obtain ⟨c', h1, h2⟩ := i3 h
        exact ⟨c', by rw [List.map_cons]; exact List.mem_cons_of_mem _ h1, h2⟩
      · rw [strip_none hc, strip_none e1]
        unfold ppsN
        rw [e4 s0, bind_ok]
        dsimp only
        rw [if_neg (by simp), i4 h s0, bind_ok]

theorem ppsI_crc : ∀ {pps : List (PP R)} {ext : List R} {r}, ppsI zero ite pps ext = ok r →
    r.1.map PP.checks = pps.map PP.checks ∧ r.2.2 = false ∧ ppsI zero ite (strip pps) ext = ok (strip r.1, r.2.1, false) := by
  intro pps
  induction pps with
  | nil =>
    intro ext r h
    cases h
    exact ⟨rfl, rfl, rfl⟩
  | cons p ps ih =>
    intro ext r h
    unfold ppsI at h
    obtain ⟨q, hq, h⟩ := bind_inv h
    have key : q.2.2 = false ∧ q.1.checks = p.checks ∧ (∀ c, p.checks = some c → q.2.1 = ext) := by
      cases p with
      | scale f => cases hq; exact ⟨rfl, rfl, fun c h => by cases h⟩
      | crc a c => cases hq; exact ⟨rfl, rfl, fun _ _ => rfl⟩
      | fnc a c q its o => cases hq; exact ⟨rfl, rfl, fun _ _ => rfl⟩
      | selfc m M sgn en ei pn pi =>
        simp only [PP.sisoI] at hq
        obtain ⟨w, hw, hq⟩ := bind_inv hq
        cases hq
        exact ⟨rfl, rfl, fun c h => by cases h⟩
    rw [key.1, if_neg (by simp)] at h
    obtain ⟨w, hw, h⟩ := bind_inv h
    cases h
    obtain ⟨i1, i2, i3⟩ := ih hw
    refine ⟨by dsimp only; rw [List.map_cons, List.map_cons, i1, key.2.1], i2, ?_⟩
    cases hc : p.checks with
    | some c =>
      rw [key.2.2 c hc] at i3
      rw [strip_some hc, strip_some (by rw [key.2.1, hc]), i3]
    | none =>
      rw [strip_none hc, strip_none (by rw [key.2.1, hc])]
      unfold ppsI
      rw [hq, bind_ok, key.1, if_neg (by simp), i3, bind_ok]

theorem hardDecide_det {K : Nat} {l : List R} {s s0 o : List Int} (hs : s.length = K) (hs0 : s0.length = K) (h : hardDecide A true K l s = ok o) :
    hardDecide A true K l s0 = ok o := by
  have key : ∀ k o, forN k (fun i s => do
      let a ← rd l i
      wr s i (if A.neg a then 1 else 0)) s = ok o → ∃ o0, forN k (fun i s => do
      let a ← rd l i
      wr s i (if A.neg a then 1 else 0)) s0 = ok o0 ∧ o.length = K ∧ o0.length = K ∧ ∀ i : Nat, i < k → o0[i]? = o[i]? := by
    intro k
    induction k with
    | zero =>
      intro o h
      cases h
      exact ⟨s0, rfl, hs, hs0, fun i hi => absurd hi (by omega)⟩
    | succ k ih =>
      intro o h
      rw [forN_succ] at h
      obtain ⟨o1, h1, h⟩ := bind_inv h
      obtain ⟨o0, e, l1, l2, e2⟩ := ih o1 h1
      obtain ⟨a, ha, h⟩ := bind_inv h
      obtain ⟨hlt, rfl⟩ := wr_inv h
      refine ⟨o0.set k (if A.neg a then 1 else 0), ?_, by simpa using l1, by simpa using l2, fun i hi => ?_⟩
      · rw [forN_succ, e, bind_ok, ha, bind_ok, wr_lt (by omega)]
      · rw [List.getElem?_set, List.getElem?_set]
        by_cases hik : k = i
        · subst hik
          simp [hlt, show k < o0.length by omega]
        · rw [if_neg hik, if_neg hik]
          exact e2 i (by omega)
  unfold hardDecide at h ⊢
  rw [if_pos rfl] at h ⊢
  obtain ⟨o0, e, l1, l2, e2⟩ := key K o h
  rw [e]
  congr 1
  apply List.ext_getElem?
  intro i
  by_cases hi : i < K
  · exact e2 i hi
  · rw [List.getElem?_eq_none (by omega), List.getElem?_eq_none (by omega)]

/-- The decoder without the checks, with other decisions. -/
def TDec.bare (d : TDec R) (s0 : List Int) : TDec R := { d with pps := strip d.pps, s := s0 }

theorem second_crc {d : TDec R} {f : Nat} {r : TDec R × Bool} (h : d.second A zero f ite = ok r) {s0 : List Int} (hs : d.s.length = d.K)
    (hs0 : s0.length = d.K) :
    r.2 = false ∧ r.1.K = d.K ∧ r.1.nIte = d.nIte ∧ r.1.s.length = d.K ∧ r.1.pps.map PP.checks = d.pps.map PP.checks ∧
      ∃ s1, s1.length = d.K ∧ (d.bare s0).second A zero f ite = ok (r.1.bare s1, false) ∧ (ite = d.nIte → s1 = r.1.s) := by
  unfold TDec.second at h
  obtain ⟨e1i, h1, h⟩ := bind_inv h
  obtain ⟨sei, h2, h⟩ := bind_inv h
  obtain ⟨w, h3, h⟩ := bind_inv h
  obtain ⟨q, h4, h⟩ := bind_inv h
  obtain ⟨e2i, h5, h⟩ := bind_inv h
  obtain ⟨e1n, h6, h⟩ := bind_inv h
  obtain ⟨s, h7, h⟩ := bind_inv h
  cases h
  obtain ⟨c1, c2, c3⟩ := ppsI_crc h4
  have hlen := hardDecide_len h7
  have hd : ∃ s1, hardDecide A (ite == d.nIte || q.2.2) d.K e1n s0 = ok s1 ∧ s1.length = d.K ∧ (ite = d.nIte → s1 = s) := by
    rw [c2] at h7 ⊢
    by_cases hi : ite = d.nIte
    · have e : (ite == d.nIte || false) = true := by simp [hi]
      rw [e] at h7 ⊢
      exact ⟨s, hardDecide_det hs hs0 h7, by omega, fun _ => rfl⟩
    · have e : (ite == d.nIte || false) = false := by simp [hi]
      rw [e]
      exact ⟨s0, rfl, hs0, fun h => absurd h hi⟩
  obtain ⟨s1, g1, g2, g3⟩ := hd
  refine ⟨c2, rfl, rfl, by dsimp only; omega, c1, s1, g2, ?_, g3⟩
  unfold TDec.second TDec.bare
  dsimp only
  rw [h1, bind_ok, h2, bind_ok, h3, bind_ok, c3, bind_ok]
  dsimp only
  rw [c2] at h5 g1
  rw [h5, bind_ok, h6, bind_ok, g1, bind_ok]

theorem iteration_crc {d : TDec R} {f : Nat} {r : TDec R × Bool} (h : d.iteration A zero f ite = ok r) {s0 : List Int} (hs : d.s.length = d.K)
    (hs0 : s0.length = d.K) :
    r.1.K = d.K ∧ r.1.nIte = d.nIte ∧ r.1.s.length = d.K ∧ r.1.pps.map PP.checks = d.pps.map PP.checks ∧
      (r.2 = true → ∃ c, some c ∈ d.pps.map PP.checks ∧ c r.1.s = true) ∧
      (r.2 = false → ∃ s1, s1.length = d.K ∧ (d.bare s0).iteration A zero f ite = ok (r.1.bare s1, false) ∧ (ite = d.nIte → s1 = r.1.s)) := by
  unfold TDec.iteration at h
  obtain ⟨sen, h1, h⟩ := bind_inv h
  obtain ⟨w, h2, h⟩ := bind_inv h
  obtain ⟨q, h3, h⟩ := bind_inv h
  obtain ⟨c1, c2, c3, c4⟩ := ppsN_crc h3
  split at h
  next hst =>
    cases h
    exact ⟨rfl, rfl, by dsimp only; omega, c2, fun _ => c3 hst, fun h => by cases h⟩
  next hst =>
    have hst : q.2.2.2 = false := by simpa using hst
    obtain ⟨g1, g2, g3, g4, g5, s1, g6, g7, g8⟩ := second_crc (s0 := s0) h (by dsimp only; omega) hs0
    dsimp only at g2 g3 g4 g5 g6 g8
    refine ⟨g2, g3, g4, by rw [g5, c2], fun h => (by rw [g1] at h; cases h), fun _ => ⟨s1, g6, ?_, g8⟩⟩
    unfold TDec.iteration
    simp only [TDec.bare] at g7 ⊢
    rw [h1, bind_ok, h2, bind_ok, c4 hst s0, bind_ok]
    dsimp only
    rw [if_neg (by simp)]
    exact g7

theorem load_frame {d d1 : TDec R} {f : Nat} {y : List R} (h : d.load zero f y = ok d1) (s0 : List Int) :
    d1.K = d.K ∧ d1.nIte = d.nIte ∧ d1.s = d.s ∧ d1.pps = d.pps ∧ (d.bare s0).load zero f y = ok (d1.bare s0) := by
  unfold TDec.load at h ⊢
  split at h
  next hb =>
    unfold TDec.bufferedLoad at h
    obtain ⟨sn, h1, h⟩ := bind_inv h
    obtain ⟨pn, h2, h⟩ := bind_inv h
    obtain ⟨si, h3, h⟩ := bind_inv h
    obtain ⟨pi, h4, h⟩ := bind_inv h
    obtain ⟨si', h5, h⟩ := bind_inv h
    cases h
    refine ⟨rfl, rfl, rfl, rfl, ?_⟩
    rw [if_pos (by exact hb)]
    unfold TDec.bufferedLoad TDec.bare
    dsimp only
    rw [h1, bind_ok, h2, bind_ok, h3, bind_ok, h4, bind_ok, h5, bind_ok]
  next hb =>
    unfold TDec.standardLoad at h
    obtain ⟨a, h1, h⟩ := bind_inv h
    obtain ⟨si, h2, h⟩ := bind_inv h
    obtain ⟨tn, h3, h⟩ := bind_inv h
    obtain ⟨ti, h4, h⟩ := bind_inv h
    cases h
    refine ⟨rfl, rfl, rfl, rfl, ?_⟩
    rw [if_neg (by exact hb)]
    unfold TDec.standardLoad TDec.bare
    dsimp only
    rw [h1, bind_ok, h2, bind_ok, h3, bind_ok, h4, bind_ok]

/-- The decoding with checks against the decoding without them. -/
theorem decode_crc {d : TDec R} {f : Nat} {y : List R} {r : TDec R × List Int} (h : d.decode A zero f y = ok r) (hs : d.s.length = d.K) (hI : 0 < d.nIte) :
    (r.1.K = d.K ∧ r.1.nIte = d.nIte ∧ r.1.s.length = d.K ∧ r.1.pps.map PP.checks = d.pps.map PP.checks) ∧
    ((∃ c, some c ∈ d.pps.map PP.checks ∧ c r.2 = true) ∨ ∃ d0, d.unchecked.decode A zero f y = ok (d0, r.2)) := by
  unfold TDec.decode at h
  obtain ⟨d1, h1, h⟩ := bind_inv h
  obtain ⟨q, h2, h⟩ := bind_inv h
  cases h
  obtain ⟨a1, a2, a3, a4, a5⟩ := load_frame h1 d.s
  have key : ∀ k q, forN k (fun k (st : TDec R × Bool) => if st.2 then ok st else st.1.iteration A zero f (k + 1)) (d1, false) = ok q →
      q.1.K = d.K ∧ q.1.nIte = d.nIte ∧ q.1.s.length = d.K ∧ q.1.pps.map PP.checks = d.pps.map PP.checks ∧
      (q.2 = true → ∃ c, some c ∈ d.pps.map PP.checks ∧ c q.1.s = true) ∧
      (q.2 = false → ∃ s1, s1.length = d.K ∧ forN k (fun k (st : TDec R × Bool) => if st.2 then ok st else st.1.iteration A zero f (k + 1))
        (d1.bare d.s, false) = ok (q.1.bare s1, false) ∧ (k = d.nIte → s1 = q.1.s)) := by
    intro k
    induction k with
    | zero =>
      intro q h
      cases h
      exact ⟨a1, a2, by dsimp only; rw [a3]; exact hs, by dsimp only; rw [a4], fun h => (by cases h), fun _ => ⟨d.s, hs, rfl, fun h => absurd h (by omega)⟩⟩
    | succ k ih =>
      intro q h
      rw [forN_succ] at h
      obtain ⟨⟨e, b⟩, he, h⟩ := bind_inv h
      obtain ⟨b1, b2, b3, b4, b5, b6⟩ := ih _ he
      dsimp only at b1 b2 b3 b4 b5 b6 h
      split at h
      next hb =>
        cases h
        exact ⟨b1, b2, b3, b4, b5, fun h => by rw [hb] at h; cases h⟩
      next hb =>
        obtain ⟨s1, c1, c2, _⟩ := b6 (by simpa using hb)
        obtain ⟨i1, i2, i3, i4, i5, i6⟩ := iteration_crc (s0 := s1) h (by omega) (by omega)
        refine ⟨by omega, by omega, by omega, by rw [i4, b4], fun h => by rw [← b4]; exact i5 h, fun h => ?_⟩
        obtain ⟨s2, j1, j2, j3⟩ := i6 h
        refine ⟨s2, by omega, ?_, fun h => j3 (by omega)⟩
        rw [forN_succ, c2, bind_ok]
        dsimp only
        rw [if_neg (by simp)]
        exact j2
  rw [a2] at h2
  obtain ⟨b1, b2, b3, b4, b5, b6⟩ := key _ _ h2
  refine ⟨⟨b1, b2, b3, b4⟩, ?_⟩
  have et : q.1.s.take q.1.K = q.1.s := List.take_of_length_le (by omega)
  dsimp only
  rw [et]
  cases hq : q.2 with
  | true => exact Or.inl (b5 hq)
  | false =>
    right
    obtain ⟨s1, c1, c2, c3⟩ := b6 hq
    show ∃ d0, (d.bare d.s).decode A zero f y = _
    unfold TDec.decode
    rw [a5, bind_ok]
    refine ⟨q.1.bare s1, ?_⟩
    show (forN d1.nIte _ _ >>= _) = _
    rw [a2, c2, bind_ok]
    show ok (q.1.bare s1, s1.take q.1.K) = _
    rw [c3 rfl, et]

theorem Any.facts {pps : List (PP R)} {d : TDec R} (h : Any A zero pps d) : d.s.length = d.K ∧ 0 < d.nIte ∧ d.pps.map PP.checks = pps.map PP.checks := by
  induction h with
  | init h =>
    unfold TDec.mk? at h
    repeat' split at h
    all_goals first
      | cases h; done
      | (injection h with h; subst h; exact ⟨List.length_replicate, by dsimp only; omega, rfl⟩)
  | decode _ h ih =>
    obtain ⟨⟨g1, g2, g3, g4⟩, _⟩ := decode_crc h ih.1 ih.2.1
    exact ⟨by rw [g3, g1], by rw [g2]; exact ih.2.1, by rw [g4, ih.2.2]⟩

end
end Verif.Turbo
