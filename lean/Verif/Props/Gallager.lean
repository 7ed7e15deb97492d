import Verif.Proof.Gallager
import Verif.Props.LDPCBP

/-!
# C117, C118: the Gallager A, B and E decoders
-/

namespace Verif.Gallager
open Exec Verif.Sparse Verif.LDPCBP

variable {R : Type} {o : Ops R} {lanes : Nat} {A : Conns} {H : Mat} {a : Algo} {w : Bool} {K N nIte depth : Int} {info : List Nat} {syn : Bool}
  {d0 d : Gal}

/-- From a result of the decoding to the two outputs. -/
theorem outputs {q : Gal × Bool} {y : Nat → Bool} (hd : GOk A d) (hcfg : d.cfg = ⟨K.toNat, N.toNat, nIte.toNat, H, syn, depth.toNat, info⟩)
    (halgo : d.algo = a) (hq : Out A d y q) :
    ∃ n cwd : Nat, StopsAt syn (Run (fun j => Codeword A (decision a H y j)) depth.toNat d.cur) nIte.toNat n ∧
      (cwd = if syn = false ∨ (n : Int) < nIte ∨ nIte = 1 then 1 else 0) ∧
      ((n : Int) < nIte → Codeword A (decision a H y n)) ∧
      (∀ V : List Int, (V.length : Int) = K →
        (q.1.store V >>= fun V => ok (q.1, res q.2 V)) = ok (q.1, ⟨cwd, 1 - cwd, info.map fun i => bit (decision a H y n i)⟩)) ∧
      (∀ V : List Int, (V.length : Int) = N →
        (q.1.storeCw V >>= fun V => ok (q.1, res q.2 V)) = ok (q.1, ⟨cwd, 1 - cwd, bits N.toNat (decision a H y n)⟩)) := by
  obtain ⟨g1, g2, g3, n, g4, g5, g6, g7⟩ := hq
  have hpos := hd.nIte
  have hN := hd.N
  rw [halgo] at g4 g5 g7
  rw [hcfg] at g2 g4 g5 g6 g7 hpos hN
  dsimp only at g4 g5 g6 g7 hpos hN
  have hst : res q.2 = fun (out : List Int) => ⟨if syn = false ∨ (n : Int) < nIte ∨ nIte = 1 then 1 else 0,
      1 - (if syn = false ∨ (n : Int) < nIte ∨ nIte = 1 then 1 else 0), out⟩ := by
    funext out
    have : q.2 = false ↔ (syn = false ∨ (n : Int) < nIte ∨ nIte = 1) := by
      rw [g6, show (n < nIte.toNat ↔ (n : Int) < nIte) by omega, show (nIte.toNat = 1 ↔ nIte = 1) by omega]
    cases e : q.2 with
    | false => rw [if_pos (this.1 e)]; rfl
    | true => rw [if_neg (fun h => absurd (this.2 h) (by simp [e]))]; rfl
  have g5' : q.1.V = bits q.1.cfg.H.nRows (decision a H y n) := by rw [g2]; exact g5
  refine ⟨n, _, g4, rfl, fun h => g7 (by omega), ?_, ?_⟩
  · intro V hV
    rw [store_eq g1 g5' (by rw [g2]; dsimp only; omega), bind_ok, hst, g2]
  · intro V hV
    rw [storeCw_eq g1 g5' (by rw [g2]; dsimp only; omega), bind_ok, hst, g2]

/-- C117: hard inputs.  Take a decoder A, B or E (E not on 64-bit values) built on the matrix of any graph whose variables have at most 256
checks, after any history of calls, and any bits.  The two calls give the votes of message passing on the graph after `n` iterations, `n` being
the first iteration that ends `depth` consecutive codewords (`k` of them may have been counted before this frame, none by a new decoder), or
`n_ite`.  The codeword is announced as detected when the criterion stopped the decoding before the last iteration (the votes are then a
codeword), when the criterion is disabled or when there is only one iteration. -/
theorem C117_hard (hA : Represents H A) (hdeg : ∀ v, v < A.rows → A.rowDeg v ≤ 256) (hi : ∀ p ∈ info, p < A.rows) (hw : a = .E → w = false)
    (h0 : Gal.mk? a w K N nIte H info syn depth = ok d0) (h : Gal.Hist o lanes d0 d) :
    ∃ k : Nat, (k : Int) < depth ∧ (d = d0 → k = 0) ∧ ∀ y : Nat → Bool, ∃ n cwd : Nat,
      StopsAt syn (Run (fun j => Codeword A (decision a H y j)) depth.toNat k) nIte.toNat n ∧
      (cwd = if syn = false ∨ (n : Int) < nIte ∨ nIte = 1 then 1 else 0) ∧
      ((n : Int) < nIte → Codeword A (decision a H y n)) ∧
      (∀ V : List Int, (V.length : Int) = K → ∃ d', d.hiho (bits N.toNat y) V =
        ok (d', ⟨cwd, 1 - cwd, info.map fun i => bit (decision a H y n i)⟩)) ∧
      (∀ V : List Int, (V.length : Int) = N → ∃ d', d.hihoCw (bits N.toNat y) V =
        ok (d', ⟨cwd, 1 - cwd, bits N.toNat (decision a H y n)⟩)) := by
  obtain ⟨f1, f2, f3, f4, f5, f6⟩ := gal_mk hw hA hdeg hi h0
  obtain ⟨k1, k2, k3⟩ := gal_hist f1 h
  rw [f2] at k2
  rw [f4] at k3
  have hcur := k1.cur
  have hN : d.cfg.N = N.toNat := by rw [k2]
  rw [k2] at hcur
  dsimp only at hcur
  refine ⟨d.cur, by omega, fun h => by rw [h]; exact f3, fun y => ?_⟩
  obtain ⟨q, e, hq⟩ := hard_sat y k1
  rw [hN] at e
  obtain ⟨n, cwd, g1, g2, g3, g4, g5⟩ := outputs k1 k2 k3 hq
  refine ⟨n, cwd, g1, g2, g3, ?_, ?_⟩
  · intro V hV
    refine ⟨q.1, ?_⟩
    unfold Gal.hiho
    rw [e, bind_ok]
    exact g4 V hV
  · intro V hV
    refine ⟨q.1, ?_⟩
    unfold Gal.hihoCw
    rw [e, bind_ok]
    exact g5 V hV

/-- C117: soft inputs.  On LLRs, the two calls do the same on the hard decisions of the LLRs. -/
theorem C117_soft (hA : Represents H A) (hdeg : ∀ v, v < A.rows → A.rowDeg v ≤ 256) (hi : ∀ p ∈ info, p < A.rows) (hw : a = .E → w = false)
    (h0 : Gal.mk? a w K N nIte H info syn depth = ok d0) (h : Gal.Hist o lanes d0 d) :
    ∃ k : Nat, (k : Int) < depth ∧ (d = d0 → k = 0) ∧ ∀ Y : List R, (Y.length : Int) = N → ∃ n cwd : Nat,
      StopsAt syn (Run (fun j => Codeword A (decision a H (hardOf o lanes N.toNat Y) j)) depth.toNat k) nIte.toNat n ∧
      (cwd = if syn = false ∨ (n : Int) < nIte ∨ nIte = 1 then 1 else 0) ∧
      ((n : Int) < nIte → Codeword A (decision a H (hardOf o lanes N.toNat Y) n)) ∧
      (∀ V : List Int, (V.length : Int) = K → ∃ d', d.siho o lanes Y V =
        ok (d', ⟨cwd, 1 - cwd, info.map fun i => bit (decision a H (hardOf o lanes N.toNat Y) n i)⟩)) ∧
      (∀ V : List Int, (V.length : Int) = N → ∃ d', d.sihoCw o lanes Y V =
        ok (d', ⟨cwd, 1 - cwd, bits N.toNat (decision a H (hardOf o lanes N.toNat Y) n)⟩)) := by
  obtain ⟨f1, f2, f3, f4, f5, f6⟩ := gal_mk hw hA hdeg hi h0
  obtain ⟨k1, k2, k3⟩ := gal_hist f1 h
  rw [f2] at k2
  rw [f4] at k3
  have hcur := k1.cur
  have hN : d.cfg.N = N.toNat := by rw [k2]
  rw [k2] at hcur
  dsimp only at hcur
  refine ⟨d.cur, by omega, fun h => by rw [h]; exact f3, fun Y hY => ?_⟩
  obtain ⟨q, e, hq⟩ := soft_sat o lanes (Y := Y) (by rw [hN]; omega) k1
  rw [hN] at hq
  obtain ⟨n, cwd, g1, g2, g3, g4, g5⟩ := outputs k1 k2 k3 hq
  refine ⟨n, cwd, g1, g2, g3, ?_, ?_⟩
  · intro V hV
    refine ⟨q.1, ?_⟩
    unfold Gal.siho
    rw [e, bind_ok]
    exact g4 V hV
  · intro V hV
    refine ⟨q.1, ?_⟩
    unfold Gal.sihoCw
    rw [e, bind_ok]
    exact g5 V hV

/-- C117: the constructor succeeds exactly on these parameters and throws `invalid_argument` on all the others. -/
theorem C117_constructor (hA : Represents H A) (a : Algo) (w : Bool) (K N nIte depth : Int) (info : List Nat) (syn : Bool) :
    (Params A K N nIte depth info → ∃ d, Gal.mk? a w K N nIte H info syn depth = ok d) ∧
    (¬ Params A K N nIte depth info → Gal.mk? a w K N nIte H info syn depth = exc .invalidArgument) := by
  have hr := hA.nRows
  constructor
  · rintro ⟨h1, h2, h3, h4, h5, h6, h7⟩
    obtain ⟨tr, ht, _⟩ := buildTr_any (good hA)
    constructor
    unfold Gal.mk?
    rw [cfg_iff.2 ⟨⟨h1, h2, h4, h5, by omega, by omega, h7⟩, rfl⟩, bind_ok, ht, bind_ok]
  · intro h
    unfold Gal.mk?
    rw [cfg_throws, bind_exc]
    rintro ⟨h1, h2, h3, h4, h5, h6, h7⟩
    exact h ⟨h1, h2, by omega, h3, h4, by omega, h7⟩

/-- C117: with the criterion enabled and at least two iterations, a frame announced as a codeword is one. -/
theorem C117_announced (hA : Represents H A) (hdeg : ∀ v, v < A.rows → A.rowDeg v ≤ 256) (hi : ∀ p ∈ info, p < A.rows) (hw : a = .E → w = false)
    (hn : nIte ≠ 1) (h0 : Gal.mk? a w K N nIte H info true depth = ok d0) (h : Gal.Hist o lanes d0 d) (y : Nat → Bool) {V : List Int}
    (hV : (V.length : Int) = N) {d' : Gal} {r : Res Int} (e : d.hihoCw (bits N.toNat y) V = ok (d', r)) (hc : r.cwd = 1) :
    ∃ x, r.out = bits N.toNat x ∧ Codeword A x := by
  obtain ⟨k, -, -, hk⟩ := C117_hard hA hdeg hi hw h0 h
  obtain ⟨n, cwd, -, h2, h3, -, h5⟩ := hk y
  obtain ⟨d'', e'⟩ := h5 V hV
  rw [e] at e'
  cases e'
  refine ⟨_, rfl, h3 ?_⟩
  by_contra hlt
  rw [if_neg (by simp [hlt, hn])] at h2
  dsimp only at hc
  omega

/-- C117: a codeword is returned unchanged.  It is announced as such when the criterion is disabled, when there is only one iteration, or when
one valid word is enough to stop. -/
theorem C117_codeword (hA : Represents H A) (hdeg : ∀ v, v < A.rows → A.rowDeg v ≤ 256) (hi : ∀ p ∈ info, p < A.rows) (hw : a = .E → w = false)
    (h0 : Gal.mk? a w K N nIte H info syn depth = ok d0) (h : Gal.Hist o lanes d0 d) {z : Nat → Bool} (hz : Codeword A z) :
    ∃ cwd : Nat, (syn = false ∨ nIte = 1 ∨ depth = 1 → cwd = 1) ∧
      (∀ V : List Int, (V.length : Int) = K → ∃ d', d.hiho (bits N.toNat z) V = ok (d', ⟨cwd, 1 - cwd, info.map fun i => bit (z i)⟩)) ∧
      (∀ V : List Int, (V.length : Int) = N → ∃ d', d.hihoCw (bits N.toNat z) V = ok (d', ⟨cwd, 1 - cwd, bits N.toNat z⟩)) := by
  obtain ⟨k, hk, -, h1⟩ := C117_hard hA hdeg hi hw h0 h
  obtain ⟨n, cwd, h1, h2, h3, h4, h5⟩ := h1 z
  have hn := h1.pos
  rw [decision_codeword a hA hz (by omega)] at h4 h5
  refine ⟨cwd, fun hc => ?_, h4, h5⟩
  rw [h2, if_pos]
  rcases hc with hc | hc | hc
  · exact Or.inl hc
  · exact Or.inr (Or.inr hc)
  · subst hc
    by_cases hs : syn = false
    · exact Or.inl hs
    by_cases h1' : nIte = 1
    · exact Or.inr (Or.inr h1')
    refine Or.inr (Or.inl ?_)
    have hle := h1.le
    have : ¬ 1 < n := by
      intro hlt
      refine h1.before (by simpa using hs) 1 (le_refl _) hlt ⟨by omega, fun j j1 j2 _ => ?_⟩
      dsimp only
      rw [decision_codeword a hA hz (by omega)]
      exact hz
    omega

/-- C117: the decoders are symmetric.  From the same state, adding a codeword to the input adds it to the output and does not change what is
announced. -/
theorem C117_symmetric (hA : Represents H A) (hdeg : ∀ v, v < A.rows → A.rowDeg v ≤ 256) (hi : ∀ p ∈ info, p < A.rows) (hw : a = .E → w = false)
    (h0 : Gal.mk? a w K N nIte H info syn depth = ok d0) (h : Gal.Hist o lanes d0 d) (y : Nat → Bool) {z : Nat → Bool} (hz : Codeword A z)
    {V : List Int} (hV : (V.length : Int) = N) :
    ∃ (d1 d2 : Gal) (cwd : Nat) (x : Nat → Bool), d.hihoCw (bits N.toNat y) V = ok (d1, ⟨cwd, 1 - cwd, bits N.toNat x⟩) ∧
      d.hihoCw (bits N.toNat fun v => y v ^^ z v) V = ok (d2, ⟨cwd, 1 - cwd, bits N.toNat fun v => x v ^^ z v⟩) := by
  obtain ⟨k, -, -, hk⟩ := C117_hard hA hdeg hi hw h0 h
  obtain ⟨n, cwd, a1, a2, -, -, a5⟩ := hk y
  obtain ⟨n', cwd', b1, b2, -, -, b5⟩ := hk fun v => y v ^^ z v
  have hx : ∀ i, 1 ≤ i → decision a H (fun v => y v ^^ z v) i = fun v => decision a H y i v ^^ z v := fun i hi => by
    funext v
    exact decision_sym a hA hz (by omega) v
  have hn : n = n' := by
    refine stopsAt_unique (stopsAt_congr (fun _ i h1 h2 => run_congr h2 fun j j1 _ => ?_) a1) b1
    rw [hx j j1]
    exact (Verif.LDPCBF.codeword_xor hA hz).symm
  subst hn
  rw [← a2] at b2
  subst b2
  obtain ⟨d1, e1⟩ := a5 V hV
  obtain ⟨d2, e2⟩ := b5 V hV
  refine ⟨d1, d2, _, _, e1, ?_⟩
  rw [e2, hx n a1.pos]

/-- C117: without the criterion, or when one valid word is enough to stop, the result of a call does not depend on the calls before. -/
theorem C117_history (hA : Represents H A) (hdeg : ∀ v, v < A.rows → A.rowDeg v ≤ 256) (hi : ∀ p ∈ info, p < A.rows) (hw : a = .E → w = false)
    (h0 : Gal.mk? a w K N nIte H info syn depth = ok d0) (h : Gal.Hist o lanes d0 d) (hs : syn = false ∨ depth = 1) (y : Nat → Bool) :
    (∀ V V' : List Int, (V.length : Int) = K → (V'.length : Int) = K →
      ∃ d1 d2 q, d.hiho (bits N.toNat y) V = ok (d1, q) ∧ d0.hiho (bits N.toNat y) V' = ok (d2, q)) ∧
    (∀ V V' : List Int, (V.length : Int) = N → (V'.length : Int) = N →
      ∃ d1 d2 q, d.hihoCw (bits N.toNat y) V = ok (d1, q) ∧ d0.hihoCw (bits N.toNat y) V' = ok (d2, q)) := by
  obtain ⟨k, a1, -, hk⟩ := C117_hard hA hdeg hi hw h0 h
  obtain ⟨k', b1, -, hk'⟩ := C117_hard hA hdeg hi hw h0 (.init : Gal.Hist o lanes d0 d0)
  obtain ⟨n, cwd, a3, a4, -, a6, a7⟩ := hk y
  obtain ⟨n', cwd', b3, b4, -, b6, b7⟩ := hk' y
  have hn : n = n' := by
    rcases hs with hs | hs
    · refine stopsAt_unique (stopsAt_congr (fun he => ?_) a3) b3
      rw [hs] at he; cases he
    · have e1 : k = 0 := by omega
      have e2 : k' = 0 := by omega
      subst e1 e2
      exact stopsAt_unique a3 b3
  subst hn
  rw [← a4] at b4
  subst b4
  refine ⟨fun V V' h1 h2 => ?_, fun V V' h1 h2 => ?_⟩
  · obtain ⟨d1, e1⟩ := a6 V h1
    obtain ⟨d2, e2⟩ := b6 V' h2
    exact ⟨d1, d2, _, e1, e2⟩
  · obtain ⟨d1, e1⟩ := a7 V h1
    obtain ⟨d2, e2⟩ := b7 V' h2
    exact ⟨d1, d2, _, e1, e2⟩

/-- C117: the messages of the decoders A and E are extrinsic: the message of a variable to a check does not depend on the message of this check. -/
theorem C117_extrinsic (ha : a ≠ .B) (n : Nat) (y : Int) (l : List Nat) (c : Nat) {m m' : Nat → Int} (h : ∀ c', c' ≠ c → m c' = m' c') :
    varMsg a n y l m c = varMsg a n y l m' c := by
  have ho : ∀ x ∈ others l c, m x = m' x := fun x hx => h x (mem_others.1 hx).2
  unfold varMsg
  cases a with
  | A =>
    have : (∀ c' ∈ others l c, m c' = -y) ↔ ∀ c' ∈ others l c, m' c' = -y :=
      forall_congr' fun x => forall_congr' fun hx => by rw [ho x hx]
    simp only [this]
  | B => exact absurd rfl ha
  | E => simp only [List.map_congr_left ho]

/-! ## Non-vacuity -/

/-- Frames decoded one after another by `decode_hiho_cw` of a decoder on the graph of C89. -/
def exRun (a : Algo) (w : Bool) (nIte : Int) (syn : Bool) (depth : Int) (Ys : List (List Int)) : Exec (List (Res Int)) :=
  Gal.mk? a w 2 5 nIte exH [0, 1] syn depth >>= fun d =>
    Ys.foldl (fun x Y => x >>= fun p => p.1.hihoCw Y [9, 9, 9, 9, 9] >>= fun q => ok (q.1, p.2 ++ [q.2])) (ok (d, [])) >>= fun p => ok p.2

/-- The hypotheses of C117 are met by the three decoders after a first frame of LLRs: they correct an error on the first bit. -/
example (a : Algo) : ∃ d0 d q d', Gal.mk? a false 2 5 10 exH [0, 1] true 1 = ok d0 ∧ Gal.Hist (opsInt 8) 16 d0 d ∧
    d.hihoCw (bits 5 fun v => decide (v = 0)) [9, 9, 9, 9, 9] = ok (d', q) ∧ q = ⟨1, 0, [0, 0, 0, 0, 0]⟩ := by
  have h : (Gal.mk? a false 2 5 10 exH [0, 1] true 1 >>= fun d0 => d0.siho (opsInt 8) 16 [5, -5, 5, -5, 5] [7, 7] >>=
      fun q => q.1.hihoCw (bits 5 fun v => decide (v = 0)) [9, 9, 9, 9, 9] >>= fun q' => ok q'.2) =
      ok ⟨1, 0, [0, 0, 0, 0, 0]⟩ := by cases a <;> decide +kernel
  obtain ⟨d0, h0, h⟩ := bind_ok_inv h
  obtain ⟨⟨d1, q1⟩, h1, h⟩ := bind_ok_inv h
  obtain ⟨⟨d2, q2⟩, h2, h⟩ := bind_ok_inv h
  cases h
  obtain ⟨f1, f2, f3, f4, f5, f6⟩ := gal_mk (fun _ => rfl) exH_rep exH_deg (by decide) h0
  exact ⟨d0, d1, _, d2, h0, .siho .init (by rw [f2]; rfl) (by rw [f2]; rfl) h1, h2, rfl⟩

/-- A codeword and a word that is not one. -/
example : Codeword (conns 5 3 exL) (fun v => decide (v = 0 ∨ v = 1 ∨ v = 3)) ∧ ¬ Codeword (conns 5 3 exL) (fun v => decide (v = 4)) := by
  decide +kernel

/-- The symmetry on two frames: the decoder B does not correct the second bit, with or without a codeword added. -/
example : exRun .B false 3 true 1 [[0, 1, 0, 0, 0], [1, 0, 0, 1, 0]] = ok [⟨0, 1, [0, 0, 1, 0, 0]⟩, ⟨0, 1, [1, 1, 1, 1, 0]⟩] := by decide +kernel

/-! ## Defects -/

/-- C118: on 64-bit values (`B_64`), the decoder E decides 0 everywhere, because half of the sum is computed as the sum times `(int64_t)0.5`: a
codeword without any error is replaced by the null codeword, which is announced as detected. -/
theorem C118_wide : Codeword (conns 5 3 exL) (fun v => decide (v = 0 ∨ v = 1 ∨ v = 3)) ∧
    exRun .E true 3 true 1 [[1, 1, 0, 1, 0]] = ok [⟨1, 0, [0, 0, 0, 0, 0]⟩] ∧
    exRun .E false 3 true 1 [[1, 1, 0, 1, 0]] = ok [⟨1, 0, [1, 1, 0, 1, 0]⟩] := by decide +kernel

/-- C118: without the criterion, or with one iteration, a word that is not a codeword is announced as a codeword. -/
theorem C118_unchecked : ¬ Codeword (conns 5 3 exL) (fun v => decide (v = 4)) ∧ ¬ Codeword (conns 5 3 exL) (fun v => decide (v = 2)) ∧
    exRun .A false 1 true 1 [[1, 0, 0, 0, 0]] = ok [⟨1, 0, [0, 0, 0, 0, 1]⟩] ∧
    exRun .B false 3 false 1 [[0, 1, 0, 0, 0]] = ok [⟨1, 0, [0, 0, 1, 0, 0]⟩] := by decide +kernel

/-- C118: the word after the last iteration is not checked: the decoding reaches a codeword and announces a failure. -/
theorem C118_last : exRun .A false 2 true 1 [[1, 0, 0, 0, 0]] = ok [⟨0, 1, [0, 0, 0, 0, 0]⟩] ∧
    exRun .A false 3 true 1 [[1, 0, 0, 0, 0]] = ok [⟨1, 0, [0, 0, 0, 0, 0]⟩] := by decide +kernel

/-- C118: with a depth of 2, the count of the valid words is not reset between two frames: the same frame is announced differently the second time. -/
theorem C118_depth : exRun .A false 2 true 2 [[0, 0, 0, 0, 0], [0, 0, 0, 0, 0]] = ok [⟨0, 1, [0, 0, 0, 0, 0]⟩, ⟨1, 0, [0, 0, 0, 0, 0]⟩] := by
  decide +kernel

/-- C118: the messages of the decoder B are not extrinsic: the message of a variable to a check depends on the message of this check. -/
theorem C118_intrinsic : ∃ (y : Int) (l : List Nat) (c : Nat) (m m' : Nat → Int), (∀ c', c' ≠ c → m c' = m' c') ∧ c ∈ l ∧
    varMsg .B 1 y l m c ≠ varMsg .B 1 y l m' c := by
  refine ⟨1, [0, 1], 0, fun c => if c = 0 then 1 else -1, fun _ => -1, fun c' h => ?_, by decide, by decide⟩
  dsimp only
  rw [if_neg h]

end Verif.Gallager
