import Verif.Proof.TurboDec

/-! # Turbo decoder: what every call preserves -/

namespace Verif.Turbo
open Exec Verif.RSC Verif.Interleaver Verif.BCJR

variable {R D : Type}

theorem copyTo_len {α : Type} {src dst o : List α} {so n d : Nat} (h : copyTo src so n dst d = ok o) : o.length = dst.length := by
  unfold copyTo at h
  refine forN_pres (fun x => x.length = dst.length) ?_ rfl h
  intro i a b _ h1 hb
  obtain ⟨v, _, hb⟩ := bind_inv hb
  obtain ⟨_, rfl⟩ := wr_inv hb
  simpa using h1

theorem sat_of {α : Type} {x : Exec α} {P : α → Prop} {a : α} (h : x.Sat P) (e : x = ok a) : P a := by
  obtain ⟨b, hb, hP⟩ := h
  rw [e] at hb
  cases hb
  exact hP

theorem loadTail_len {K n o : Nat} {y s p : List R} {q : List R × List R} (h : loadTail K n o y s p = ok q) :
    q.1.length = s.length ∧ q.2.length = p.length := by
  unfold loadTail at h
  refine forN_pres (fun x : List R × List R => x.1.length = s.length ∧ x.2.length = p.length) ?_ ⟨rfl, rfl⟩ h
  rintro i ⟨a1, a2⟩ b _ ⟨h1, h2⟩ hb
  obtain ⟨v, _, hb⟩ := bind_inv hb
  obtain ⟨s', hs, hb⟩ := bind_inv hb
  obtain ⟨w, _, hb⟩ := bind_inv hb
  obtain ⟨p', hp, hb⟩ := bind_inv hb
  cases hb
  obtain ⟨_, rfl⟩ := wr_inv hs
  obtain ⟨_, rfl⟩ := wr_inv hp
  exact ⟨by simpa using h1, by simpa using h2⟩

/-- What the calls keep of a component decoder. -/
structure Keep (A : Arith R D) (K : Nat) (G : Dec R → Prop) : Prop where
  run : ∀ d sys par ext r, G d → d.sisoAlt A sys par ext = ok r → G r.1 ∧ r.2.length = ext.length

theorem inv_keep {A : Arith R D} {fill : R} {K S m : Nat} {bf : Bool} {T : List (List Int)} : Keep A K (Inv A fill K S m bf T) where
  run d sys par ext r h e := by
    obtain ⟨d', o⟩ := r
    refine ⟨(sisoAlt_inv h e).1, ?_⟩
    unfold Dec.sisoAlt at e
    obtain ⟨_, _, e⟩ := bind_inv e
    obtain ⟨_, _, e⟩ := bind_inv e
    obtain ⟨o', he, e⟩ := bind_inv e
    cases e
    exact betaExt_len he

section
variable {A : Arith R D} {llr : Int → R} {zero : R} {cn ci : Code} {K nf nIte : Nat} {core : Core} {bf : Bool}
  {pps : List (PP R)} {Gn Gi : Dec R → Prop} {π ρ : Nat → Nat} {f : Nat}

theorem load_pres (hp : ItlOk core nf f K π ρ) {d d' : TDec R} (hd : DInv llr cn ci K nf nIte core bf pps Gn Gi d) {y : List R}
    (h : d.load zero f y = ok d') : DInv llr cn ci K nf nIte core bf pps Gn Gi d' := by
  have l1 := hd.sn
  have l2 := hd.si
  have l3 := hd.pn
  have l4 := hd.pi
  unfold TDec.load at h
  split at h
  · unfold TDec.bufferedLoad at h
    obtain ⟨sn, h1, h⟩ := bind_inv h
    obtain ⟨pn, h2, h⟩ := bind_inv h
    obtain ⟨si, h3, h⟩ := bind_inv h
    obtain ⟨pi, h4, h⟩ := bind_inv h
    obtain ⟨si', h5, h⟩ := bind_inv h
    cases h
    have e1 := copyTo_len h1
    have e2 := copyTo_len h2
    have e3 := copyTo_len h3
    have e4 := copyTo_len h4
    rw [hd.core, hd.nf] at h5
    have e5 := (sat_of (hp.fwd R sn si (by omega) (by omega)) h5).1
    exact ⟨hd.hK, hd.hN, hd.nIte, hd.bf, hd.core, hd.nf, hd.n, hd.i, by dsimp only; omega, by dsimp only; omega, hd.sen, hd.sei, by dsimp only; omega,
      by dsimp only; omega, by simp [hd.e1n], hd.e2n, hd.e1i, hd.e2i, hd.s, hd.pps⟩
  · unfold TDec.standardLoad at h
    obtain ⟨⟨a, b, c⟩, h1, h⟩ := bind_inv h
    obtain ⟨si, h2, h⟩ := bind_inv h
    obtain ⟨tn, h3, h⟩ := bind_inv h
    obtain ⟨ti, h4, h⟩ := bind_inv h
    cases h
    have e1 : a.length = d.sn.length ∧ b.length = d.pn.length ∧ c.length = d.pi.length := by
      refine forN_pres (fun x : List R × List R × List R => x.1.length = d.sn.length ∧ x.2.1.length = d.pn.length ∧ x.2.2.length = d.pi.length)
        ?_ ⟨rfl, rfl, rfl⟩ h1
      rintro i ⟨a1, a2, a3⟩ b _ ⟨g1, g2, g3⟩ hb
      obtain ⟨_, _, hb⟩ := bind_inv hb
      obtain ⟨s1, k1, hb⟩ := bind_inv hb
      obtain ⟨_, _, hb⟩ := bind_inv hb
      obtain ⟨s2, k2, hb⟩ := bind_inv hb
      obtain ⟨_, _, hb⟩ := bind_inv hb
      obtain ⟨s3, k3, hb⟩ := bind_inv hb
      cases hb
      obtain ⟨_, rfl⟩ := wr_inv k1
      obtain ⟨_, rfl⟩ := wr_inv k2
      obtain ⟨_, rfl⟩ := wr_inv k3
      exact ⟨by simpa using g1, by simpa using g2, by simpa using g3⟩
    dsimp only at h2 h3 h4
    rw [hd.core, hd.nf] at h2
    have e2 := (sat_of (hp.fwd R a d.si (by omega) (by omega)) h2).1
    have e3 := loadTail_len h3
    have e4 := loadTail_len h4
    exact ⟨hd.hK, hd.hN, hd.nIte, hd.bf, hd.core, hd.nf, hd.n, hd.i, by dsimp only; omega, by dsimp only; omega, hd.sen, hd.sei, by dsimp only; omega,
      by dsimp only; omega, by simp [hd.e1n], hd.e2n, hd.e1i, hd.e2i, hd.s, hd.pps⟩

theorem addSys_len {n t : Nat} {s e o o' : List R} (h : addSys A n t s e o = ok o') : o'.length = o.length := by
  unfold addSys at h
  obtain ⟨o1, h1, h⟩ := bind_inv h
  have e1 : o1.length = o.length := by
    refine forN_pres (fun x => x.length = o.length) ?_ rfl h1
    intro i a b _ g hb
    obtain ⟨_, _, hb⟩ := bind_inv hb
    obtain ⟨_, _, hb⟩ := bind_inv hb
    obtain ⟨_, rfl⟩ := wr_inv hb
    simpa using g
  refine forN_pres (fun x => x.length = o.length) ?_ e1 h
  intro i a b _ g hb
  obtain ⟨_, _, hb⟩ := bind_inv hb
  obtain ⟨_, rfl⟩ := wr_inv hb
  simpa using g

theorem addPost_len {b : Bool} {n : Nat} {l e o : List R} (h : addPost A b n l e = ok o) : o.length = e.length := by
  unfold addPost at h
  split at h
  · refine forN_pres (fun x => x.length = e.length) ?_ rfl h
    intro i a b _ g hb
    obtain ⟨_, _, hb⟩ := bind_inv hb
    obtain ⟨_, _, hb⟩ := bind_inv hb
    obtain ⟨_, rfl⟩ := wr_inv hb
    simpa using g
  · cases h
    rfl

theorem hardDecide_len {b : Bool} {n : Nat} {l : List R} {s o : List Int} (h : hardDecide A b n l s = ok o) : o.length = s.length := by
  unfold hardDecide at h
  split at h
  · refine forN_pres (fun x => x.length = s.length) ?_ rfl h
    intro i a b _ g hb
    obtain ⟨_, _, hb⟩ := bind_inv hb
    obtain ⟨_, rfl⟩ := wr_inv hb
    simpa using g
  · cases h
    rfl

theorem decide_len {sys ext : List R} {s o : List Int} (h : decide' A sys ext s = ok o) : o.length = s.length := by
  unfold decide' at h
  refine forN_pres (fun x => x.length = s.length) ?_ rfl h
  intro i a b _ g hb
  obtain ⟨_, _, hb⟩ := bind_inv hb
  obtain ⟨_, _, hb⟩ := bind_inv hb
  obtain ⟨_, rfl⟩ := wr_inv hb
  simpa using g

/-- The post-processings without state. -/
def PP.Stateless : PP R → Prop
  | .scale _ => True
  | .crc _ _ => True
  | _ => False

theorem ppsN_pres {ite : Nat} {sys : List R} : ∀ {pps : List (PP R)} {ext : List R} {s : List Int} {r}, (∀ p ∈ pps, p.Stateless) →
    ppsN A zero ite sys pps ext s = ok r → r.1 = pps ∧ r.2.1.length = ext.length ∧ r.2.2.1.length = s.length := by
  intro pps
  induction pps with
  | nil =>
    intro ext s r _ h
    cases h
    exact ⟨rfl, rfl, rfl⟩
  | cons p ps ih =>
    intro ext s r hs h
    unfold ppsN at h
    obtain ⟨q, hq, h⟩ := bind_inv h
    have hp := hs p (List.mem_cons_self ..)
    have e : q.1 = p ∧ q.2.1.length = ext.length ∧ q.2.2.1.length = s.length := by
      cases p with
      | scale f => cases hq; exact ⟨rfl, by simp, rfl⟩
      | crc a c =>
        simp only [PP.sisoN, crcStep] at hq
        obtain ⟨w, hw, hq⟩ := bind_inv hq
        cases hq
        refine ⟨rfl, rfl, ?_⟩
        split at hw
        · obtain ⟨s', h1, hw⟩ := bind_inv hw
          cases hw
          exact decide_len h1
        · cases hw
          rfl
      | selfc _ _ _ _ _ _ _ => exact absurd hp id
      | fnc _ _ _ _ _ => exact absurd hp id
    split at h
    · cases h
      exact ⟨by dsimp only; rw [e.1], e.2⟩
    · obtain ⟨w, hw, h⟩ := bind_inv h
      cases h
      obtain ⟨g1, g2, g3⟩ := ih (fun p hp => hs p (List.mem_cons_of_mem _ hp)) hw
      exact ⟨by dsimp only; rw [e.1, g1], by dsimp only; rw [g2, e.2.1], by dsimp only; rw [g3, e.2.2]⟩

theorem ppsI_pres {ite : Nat} : ∀ {pps : List (PP R)} {ext : List R} {r}, (∀ p ∈ pps, p.Stateless) →
    ppsI zero ite pps ext = ok r → r.1 = pps ∧ r.2.1.length = ext.length := by
  intro pps
  induction pps with
  | nil =>
    intro ext r _ h
    cases h
    exact ⟨rfl, rfl⟩
  | cons p ps ih =>
    intro ext r hs h
    unfold ppsI at h
    obtain ⟨q, hq, h⟩ := bind_inv h
    have hp := hs p (List.mem_cons_self ..)
    have e : q.1 = p ∧ q.2.1.length = ext.length := by
      cases p with
      | scale f => cases hq; exact ⟨rfl, by simp⟩
      | crc a c => cases hq; exact ⟨rfl, rfl⟩
      | selfc _ _ _ _ _ _ _ => exact absurd hp id
      | fnc _ _ _ _ _ => exact absurd hp id
    split at h
    · cases h
      exact ⟨by dsimp only; rw [e.1], e.2⟩
    · obtain ⟨w, hw, h⟩ := bind_inv h
      cases h
      obtain ⟨g1, g2⟩ := ih (fun p hp => hs p (List.mem_cons_of_mem _ hp)) hw
      exact ⟨by dsimp only; rw [e.1, g1], by dsimp only; rw [g2, e.2]⟩

theorem second_pres (hp : ItlOk core nf f K π ρ) (ki : Keep A K Gi) (hs : ∀ p ∈ pps, p.Stateless) {d : TDec R}
    (hd : DInv llr cn ci K nf nIte core bf pps Gn Gi d) {ite : Nat} {r : TDec R × Bool} (h : d.second A zero f ite = ok r) :
    DInv llr cn ci K nf nIte core bf pps Gn Gi r.1 := by
  have l1 := hd.e1i
  have l2 := hd.e2n
  have l3 := hd.e2i
  have l4 := hd.e1n
  have l5 := hd.sei
  unfold TDec.second at h
  obtain ⟨e1i, h1, h⟩ := bind_inv h
  obtain ⟨sei, h2, h⟩ := bind_inv h
  obtain ⟨w, h3, h⟩ := bind_inv h
  obtain ⟨q, h4, h⟩ := bind_inv h
  obtain ⟨e2i, h5, h⟩ := bind_inv h
  obtain ⟨e1n, h6, h⟩ := bind_inv h
  obtain ⟨s, h7, h⟩ := bind_inv h
  cases h
  rw [hd.core, hd.nf] at h1 h6
  have a1 := (sat_of (hp.fwd R _ _ (by omega) (by omega)) h1).1
  have a2 := addSys_len h2
  obtain ⟨a3, a3'⟩ := ki.run _ _ _ _ _ hd.i h3
  obtain ⟨a4, a4'⟩ := ppsI_pres (by rw [hd.pps]; exact hs) h4
  have a5 := addPost_len h5
  have a6 := (sat_of (hp.bwd R _ _ (by omega) (by omega)) h6).1
  have a7 := hardDecide_len h7
  exact ⟨hd.hK, hd.hN, hd.nIte, hd.bf, hd.core, hd.nf, hd.n, a3, hd.sn, hd.si, hd.sen, by dsimp only; omega, hd.pn, hd.pi, by dsimp only; omega,
    hd.e2n, by dsimp only; omega, by dsimp only; omega, by dsimp only; rw [a7]; exact hd.s, by dsimp only; rw [a4, hd.pps]⟩

theorem iteration_pres (hp : ItlOk core nf f K π ρ) (kn : Keep A K Gn) (ki : Keep A K Gi) (hs : ∀ p ∈ pps, p.Stateless) {d : TDec R}
    (hd : DInv llr cn ci K nf nIte core bf pps Gn Gi d) {ite : Nat} {r : TDec R × Bool} (h : d.iteration A zero f ite = ok r) :
    DInv llr cn ci K nf nIte core bf pps Gn Gi r.1 := by
  unfold TDec.iteration at h
  obtain ⟨sen, h1, h⟩ := bind_inv h
  obtain ⟨w, h2, h⟩ := bind_inv h
  obtain ⟨q, h3, h⟩ := bind_inv h
  have a1 := addSys_len h1
  obtain ⟨a2, a2'⟩ := kn.run _ _ _ _ _ hd.n h2
  obtain ⟨a3, a3', a3''⟩ := ppsN_pres (by rw [hd.pps]; exact hs) h3
  have hd' : DInv llr cn ci K nf nIte core bf pps Gn Gi ({ d with n := w.1, sen, e2n := q.2.1, s := q.2.2.1, pps := q.1 } : TDec R) :=
    ⟨hd.hK, hd.hN, hd.nIte, hd.bf, hd.core, hd.nf, a2, hd.i, hd.sn, hd.si, by dsimp only; rw [a1]; exact hd.sen, hd.sei, hd.pn, hd.pi, hd.e1n,
      by dsimp only; rw [a3', a2']; exact hd.e2n, hd.e1i, hd.e2i, by dsimp only; rw [a3'']; exact hd.s, by dsimp only; rw [a3, hd.pps]⟩
  split at h
  · cases h
    exact hd'
  · exact second_pres hp ki hs hd' h

/-- Every call of `decode_siho` that returns keeps the invariant, whatever the LLRs. -/
theorem decode_pres (hp : ItlOk core nf f K π ρ) (kn : Keep A K Gn) (ki : Keep A K Gi) (hs : ∀ p ∈ pps, p.Stateless) {d : TDec R}
    (hd : DInv llr cn ci K nf nIte core bf pps Gn Gi d) {y : List R} {r : TDec R × List Int} (h : d.decode A zero f y = ok r) :
    DInv llr cn ci K nf nIte core bf pps Gn Gi r.1 := by
  unfold TDec.decode at h
  obtain ⟨d1, h1, h⟩ := bind_inv h
  obtain ⟨q, h2, h⟩ := bind_inv h
  cases h
  refine forN_pres (fun x : TDec R × Bool => DInv llr cn ci K nf nIte core bf pps Gn Gi x.1) ?_ (load_pres hp hd h1) h2
  intro i a b _ g hb
  split at hb
  · cases hb
    exact g
  · exact iteration_pres hp kn ki hs g hb

/-- The constructor establishes the invariant. -/
theorem mk_dinv {fill : R} {K' N nIte' : Int} {n i : Dec R} {d : TDec R} (hn : n.K = K ∧ n.nff = cn.m) (hi : i.K = K ∧ i.nff = ci.m)
    (gn : Gn n) (gi : Gi i) (h : TDec.mk? fill K' N nIte' n i core nf bf pps = ok d) :
    K' = K ∧ 0 < nIte' ∧ N = 3 * K + 2 * cn.m + 2 * ci.m ∧ core.size = K ∧ DInv llr cn ci K nf nIte'.toNat core bf pps Gn Gi d := by
  unfold TDec.mk? at h
  have t1 : dtail n = 2 * cn.m := by unfold dtail; rw [hn.2]
  have t2 : dtail i = 2 * ci.m := by unfold dtail; rw [hi.2]
  rw [t1, t2, hn.1, hi.1] at h
  split at h
  · cases h
  split at h
  · cases h
  split at h
  · cases h
  split at h
  · cases h
  split at h
  · cases h
  split at h
  · cases h
  split at h
  · cases h
  dsimp only at h
  injection h with h
  subst h
  have e : K' = K := by omega
  have e2 : N = 3 * K + 2 * cn.m + 2 * ci.m := by push_cast at *; omega
  refine ⟨e, by omega, e2, by omega, by dsimp only; omega, by dsimp only; omega, rfl, rfl, rfl, rfl, gn, gi, ?_, ?_, ?_, ?_, ?_, ?_, ?_, ?_, ?_, ?_,
    ?_, rfl⟩ <;> simp only [List.length_replicate] <;> omega

end
end Verif.Turbo
