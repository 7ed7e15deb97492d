import Verif.Proof.LDPCBPLay
import Verif.Proof.LDPCUse

/-!
# C89: belief propagation decoders of LDPC codes
-/

namespace Verif.LDPCBP
open Exec Verif.Sparse Verif.Float

variable {R : Type}

/-- What the constructors accept: `K` information bits among `N` variables, as many variables as the matrix, a positive number of
iterations, a positive depth of the syndrome criterion, `K` distinct positions of information bits. -/
def Params (A : Conns) (K N nIte depth : Int) (info : List Nat) : Prop :=
  0 < K ∧ K ≤ N ∧ N = A.rows ∧ 0 < nIte ∧ 0 < depth ∧ (info.length : Int) = K ∧ info.Nodup

/-- C89: the constructor of the decoder by flooding succeeds exactly on these parameters and throws `invalid_argument` on all the
others. -/
theorem C89_flooding_constructor {o : Ops R} {p0 : R} {A : Conns} {H : Mat} (hA : Represents H A) (K N nIte depth : Int) (info : List Nat) (syn : Bool) :
    (Params A K N nIte depth info → ∃ d, Flood.mk? o p0 K N nIte H info syn depth = ok d) ∧
    (¬ Params A K N nIte depth info → Flood.mk? o p0 K N nIte H info syn depth = exc .invalidArgument) := by
  have hr := hA.nRows
  constructor
  · rintro ⟨h1, h2, h3, h4, h5, h6, h7⟩
    obtain ⟨tr, ht, _⟩ := buildTr_any (good hA)
    constructor
    unfold Flood.mk?
    rw [cfg_iff.2 ⟨⟨h1, h2, h4, h5, by omega, by omega, h7⟩, rfl⟩, bind_ok, ht, bind_ok]
  · intro h
    unfold Flood.mk?
    rw [cfg_throws, bind_exc]
    rintro ⟨h1, h2, h3, h4, h5, h6, h7⟩
    exact h ⟨h1, h2, by omega, h3, h4, by omega, h7⟩

/-- C89: the same for the layered decoders. -/
theorem C89_layered_constructor {o : Ops R} (sc : Sched) {A : Conns} {H : Mat} (hA : Represents H A) (K N nIte depth : Int)
    (info : List Nat) (syn : Bool) :
    (Params A K N nIte depth info → ∃ d, Layer.mk? o sc K N nIte H info syn depth = ok d) ∧
    (¬ Params A K N nIte depth info → Layer.mk? o sc K N nIte H info syn depth = exc .invalidArgument) := by
  have hr := hA.nRows
  constructor
  · rintro ⟨h1, h2, h3, h4, h5, h6, h7⟩
    have : ∃ offs, offsFor sc H = ok offs := by
      cases sc with
      | horizontal => exact ⟨_, rfl⟩
      | vertical =>
        obtain ⟨tr, ht, _⟩ := buildOffs_sat (good hA)
        exact ⟨tr, ht⟩
    obtain ⟨offs, ht⟩ := this
    constructor
    unfold Layer.mk?
    rw [cfg_iff.2 ⟨⟨h1, h2, h4, h5, by omega, by omega, h7⟩, rfl⟩, bind_ok, ht, bind_ok]
  · intro h
    unfold Layer.mk?
    rw [cfg_throws, bind_exc]
    rintro ⟨h1, h2, h3, h4, h5, h6, h7⟩
    exact h ⟨h1, h2, by omega, h3, h4, by omega, h7⟩

/-- C89: flooding.  Take a decoder built on the matrix of any graph whose variables have at most 256 checks, after any history of
calls that leaves it ready for a codeword, and any LLRs.  The three calls decide on the a posteriori values of message passing
after `n` iterations, `n` being the first iteration that ends `depth` consecutive valid ones (`k` of them may have been counted
before this codeword, none by a new decoder), or `n_ite`.  The codeword is announced as detected when the criterion stopped the
decoding before the last iteration (the hard decisions are then a codeword), when the criterion is disabled or when there is only
one iteration. -/
theorem C89_flooding {o : Ops R} {r : Rule R} {p0 : R} {A : Conns} {H : Mat} (hA : Represents H A)
    (hdeg : ∀ v, v < A.rows → A.rowDeg v ≤ 256) {K N nIte depth : Int} {info : List Nat} {syn : Bool} (hi : ∀ p ∈ info, p < A.rows)
    {d0 d : Flood R} (h0 : Flood.mk? o p0 K N nIte H info syn depth = ok d0) (h : Flood.Hist o r d0 true d) {Y : List R}
    (hY : (Y.length : Int) = N) :
    ∃ k n cwd : Nat, (k : Int) < depth ∧ (d = d0 → k = 0) ∧
      StopsAt syn (Run (fun j => Valid o A (floodPost o r H (llr o Y) j)) depth.toNat k) nIte.toNat n ∧
      (cwd = if syn = false ∨ (n : Int) < nIte ∨ nIte = 1 then 1 else 0) ∧
      ((n : Int) < nIte → Valid o A (floodPost o r H (llr o Y) n)) ∧
      (∀ V : List Nat, (V.length : Int) = K → ∃ d', d.siho o r Y V =
        ok (d', ⟨cwd, 1 - cwd, info.map fun i => if o.nonneg (floodPost o r H (llr o Y) n i) then 0 else 1⟩)) ∧
      (∀ (lanes : Nat) (V : List Nat), (V.length : Int) = N → ∃ d', d.sihoCw o r lanes Y V =
        ok (d', ⟨cwd, 1 - cwd, (List.range N.toNat).map fun v =>
          if (if v < N.toNat / lanes * lanes then o.sign (floodPost o r H (llr o Y) n v) else o.isNeg (floodPost o r H (llr o Y) n v))
          then 1 else 0⟩)) ∧
      (∀ Y2 : List R, (Y2.length : Int) = N → ∃ d', d.siso o r Y Y2 =
        ok (d', ⟨cwd, 1 - cwd, (List.range N.toNat).map fun v => o.sub (floodPost o r H (llr o Y) n v) (llr o Y v)⟩)) := by
  obtain ⟨f1, f2, f3, f4, f5, f6⟩ := flood_mk hA hdeg hi h0
  obtain ⟨k1, k2, k3⟩ := flood_hist f1 (by rw [f2, f3]) h
  rw [f3] at k2
  have hYN : Y.length = d.cfg.N := by rw [k2]; dsimp only; omega
  obtain ⟨⟨d1, st⟩, e, g1, g2, g3, n, g4, g5, g6, g7⟩ := flood_decode (r := r) k1 (k3 rfl) hYN
  have hH : d.cfg.H = H := by rw [k2]
  have hK := k1.K
  have hcur := k1.cur
  have hN := k1.N
  have hpos := k1.nIte
  have hin := k1.info
  dsimp only at g1 g2 g3 g5 g6 g7
  rw [k2] at g2 g4 g5 g6 g7 hcur hK hN hYN hpos hin
  dsimp only at g2 g4 g5 g6 g7 hcur hK hN hYN hpos hin
  have hst : res st = fun (out : List Nat) => ⟨if syn = false ∨ (n : Int) < nIte ∨ nIte = 1 then 1 else 0,
      1 - (if syn = false ∨ (n : Int) < nIte ∨ nIte = 1 then 1 else 0), out⟩ := by
    funext out
    have : st = false ↔ (syn = false ∨ (n : Int) < nIte ∨ nIte = 1) := by
      rw [g6, show (n < nIte.toNat ↔ (n : Int) < nIte) by omega, show (nIte.toNat = 1 ↔ nIte = 1) by omega]
    cases st with
    | false => rw [if_pos (this.1 rfl)]; rfl
    | true => rw [if_neg (fun h => absurd (this.2 h) (by simp))]; rfl
  have hst' : res st = fun (out : List R) => ⟨if syn = false ∨ (n : Int) < nIte ∨ nIte = 1 then 1 else 0,
      1 - (if syn = false ∨ (n : Int) < nIte ∨ nIte = 1 then 1 else 0), out⟩ := by
    funext out
    have := congrFun hst []
    have h1 := congrArg Res.cwd this
    have h2 := congrArg Res.status this
    dsimp only [res] at h1 h2 ⊢
    rw [h1, h2]
  refine ⟨d.cur, n, _, by omega, ?_, g4, rfl, fun h => g7 (by omega), ?_, ?_, ?_⟩
  · rintro rfl; exact f4
  · intro V hV
    constructor
    unfold Flood.siho
    rw [e, bind_ok]
    dsimp only
    rw [g2, g5, store_eq (g := ⟨K.toNat, N.toNat, nIte.toNat, H, syn, depth.toNat, info⟩) o _ hK hin (by dsimp only; omega), bind_ok, hst]
  · intro lanes V hV
    constructor
    unfold Flood.sihoCw
    rw [e, bind_ok]
    dsimp only
    rw [g2, g5, storeCw_eq (g := ⟨K.toNat, N.toNat, nIte.toNat, H, syn, depth.toNat, info⟩) o lanes _ hN (by dsimp only; omega), bind_ok, hst]
  · intro Y2 hV
    constructor
    unfold Flood.siso
    rw [e, bind_ok]
    dsimp only
    rw [g2, g5, extrinsic_eq (g := ⟨K.toNat, N.toNat, nIte.toNat, H, syn, depth.toNat, info⟩) o _ hN hYN (by dsimp only; omega), bind_ok, hst']

/-- C89: the layered schedulings, for any graph.  The codeword is announced as detected when the criterion stopped the decoding
(the hard decisions are then a codeword, even at the last iteration), when it is disabled, and always by the vertical scheduling. -/
theorem C89_layered {o : Ops R} {r : Rule R} {sc : Sched} {A : Conns} {H : Mat} (hA : Represents H A)
    {K N nIte depth : Int} {info : List Nat} {syn : Bool} (hi : ∀ p ∈ info, p < A.rows)
    {d0 d : Layer R} (h0 : Layer.mk? o sc K N nIte H info syn depth = ok d0) (h : Layer.Hist o r d0 true d) {Y : List R}
    (hY : (Y.length : Int) = N) :
    ∃ k n cwd : Nat, (k : Int) < depth ∧ (d = d0 → k = 0) ∧
      StopsAt syn (Run (fun j => Valid o A (layPost o r H sc (llr o Y) j)) depth.toNat k) nIte.toNat n ∧
      (cwd = 1 ∨ cwd = 0) ∧
      (cwd = 1 ↔ sc = .vertical ∨ syn = false ∨ Run (fun j => Valid o A (layPost o r H sc (llr o Y) j)) depth.toNat k n) ∧
      (sc = .horizontal → syn = true → cwd = 1 → Valid o A (layPost o r H sc (llr o Y) n)) ∧
      (∀ V : List Nat, (V.length : Int) = K → ∃ d', d.siho o r Y V =
        ok (d', ⟨cwd, 1 - cwd, info.map fun i => if o.nonneg (layPost o r H sc (llr o Y) n i) then 0 else 1⟩)) ∧
      (∀ (lanes : Nat) (V : List Nat), (V.length : Int) = N → ∃ d', d.sihoCw o r lanes Y V =
        ok (d', ⟨cwd, 1 - cwd, (List.range N.toNat).map fun v =>
          if (if v < N.toNat / lanes * lanes then o.sign (layPost o r H sc (llr o Y) n v) else o.isNeg (layPost o r H sc (llr o Y) n v))
          then 1 else 0⟩)) ∧
      (∀ Y2 : List R, (Y2.length : Int) = N → ∃ d', d.siso o r Y Y2 =
        ok (d', ⟨cwd, 1 - cwd, (List.range N.toNat).map fun v => o.sub (layPost o r H sc (llr o Y) n v) (llr o Y v)⟩)) := by
  obtain ⟨f1, f2, f3, f4, f5, f7, f6⟩ := lay_mk hA hi h0
  obtain ⟨k1, k2, k4, k3⟩ := lay_hist f1 f2 h
  rw [f3] at k2
  rw [f7] at k4
  have hYN : Y.length = d.cfg.N := by rw [k2]; dsimp only; omega
  obtain ⟨⟨d1, st⟩, e, g1, g2, g3, g3', n, g4, g5, g6, g7⟩ := lay_decode (r := r) k1 (k3 rfl) hYN
  have hH : d.cfg.H = H := by rw [k2]
  have hK := k1.K
  have hcur := k1.cur
  have hN := k1.N
  have hpos := k1.nIte
  have hin := k1.info
  dsimp only at g1 g2 g3 g5 g6 g7
  rw [k2] at g2 g4 g5 g6 g7 hcur hK hN hYN hpos hin
  rw [k4] at g4 g5 g6 g7
  dsimp only at g2 g4 g5 g6 g7 hcur hK hN hYN hpos hin
  have hst : ∀ {α : Type}, res st = fun (out : List α) => ⟨(if st then 0 else 1), 1 - (if st then 0 else 1), out⟩ := by
    intro α
    funext out
    cases st <;> rfl
  refine ⟨d.cur, n, if st then 0 else 1, by omega, ?_, g4, ?_, ?_, ?_, ?_, ?_, ?_⟩
  · rintro rfl; exact f4
  · cases st <;> simp
  · rw [← g6]; cases st <;> simp
  · intro h1 h2 h3
    have hf : st = false := by cases st <;> simp_all
    rcases g6.1 hf with h | h | h
    · rw [h1] at h; cases h
    · rw [h2] at h; cases h
    · exact g7 h
  · intro V hV
    constructor
    unfold Layer.siho
    rw [e, bind_ok]
    dsimp only
    rw [g2, g5, store_eq (g := ⟨K.toNat, N.toNat, nIte.toNat, H, syn, depth.toNat, info⟩) o _ hK hin (by dsimp only; omega), bind_ok, hst]
  · intro lanes V hV
    constructor
    unfold Layer.sihoCw
    rw [e, bind_ok]
    dsimp only
    rw [g2, g5, storeCw_eq (g := ⟨K.toNat, N.toNat, nIte.toNat, H, syn, depth.toNat, info⟩) o lanes _ hN (by dsimp only; omega), bind_ok, hst]
  · intro Y2 hV
    have hc : ∃ w, copyTo ((List.range N.toNat).map fun v => o.sub (layPost o r H sc (llr o Y) n v) (llr o Y v)) 0 N.toNat
        ((List.range H.nRows).map (layPost o r H sc (llr o Y) n)) 0 = ok w := by
      obtain ⟨w, hw, _⟩ := copyTo_sat (src := (List.range N.toNat).map fun v => o.sub (layPost o r H sc (llr o Y) n v) (llr o Y v))
        (so := 0) (n := N.toNat) (dst := (List.range H.nRows).map (layPost o r H sc (llr o Y) n)) (d := 0) (by simp) (by simp; omega)
      exact ⟨w, hw⟩
    obtain ⟨w, hw⟩ := hc
    constructor
    unfold Layer.siso
    rw [e, bind_ok]
    dsimp only
    rw [g2, g5, extrinsic_eq (g := ⟨K.toNat, N.toNat, nIte.toNat, H, syn, depth.toNat, info⟩) o _ hN hYN (by dsimp only; omega), bind_ok]
    dsimp only
    rw [hw, bind_ok, hst]

/-- C89: when the criterion is disabled or its depth is 1, the results of flooding do not depend on the history: they are those of the
new decoder, whatever the outputs contained. -/
theorem C89_flooding_history {o : Ops R} {r : Rule R} {p0 : R} {A : Conns} {H : Mat} (hA : Represents H A)
    (hdeg : ∀ v, v < A.rows → A.rowDeg v ≤ 256) {K N nIte depth : Int} {info : List Nat} {syn : Bool} (hi : ∀ p ∈ info, p < A.rows)
    {d0 d : Flood R} (h0 : Flood.mk? o p0 K N nIte H info syn depth = ok d0) (h : Flood.Hist o r d0 true d)
    (hs : syn = false ∨ depth = 1) {Y : List R} (hY : (Y.length : Int) = N) :
    (∀ V V' : List Nat, (V.length : Int) = K → (V'.length : Int) = K →
      ∃ d1 d2 q, d.siho o r Y V = ok (d1, q) ∧ d0.siho o r Y V' = ok (d2, q)) ∧
    (∀ (lanes : Nat) (V V' : List Nat), (V.length : Int) = N → (V'.length : Int) = N →
      ∃ d1 d2 q, d.sihoCw o r lanes Y V = ok (d1, q) ∧ d0.sihoCw o r lanes Y V' = ok (d2, q)) ∧
    (∀ V V' : List R, (V.length : Int) = N → (V'.length : Int) = N →
      ∃ d1 d2 q, d.siso o r Y V = ok (d1, q) ∧ d0.siso o r Y V' = ok (d2, q)) := by
  obtain ⟨k, n, cwd, a1, -, a3, a4, -, a6, a7, a8⟩ := C89_flooding hA hdeg hi h0 h hY
  obtain ⟨k', n', cwd', b1, -, b3, b4, -, b6, b7, b8⟩ := C89_flooding (r := r) hA hdeg hi h0 .init hY
  have hn : n = n' := by
    rcases hs with hs | hs
    · refine stopsAt_unique (stopsAt_congr (fun he => ?_) a3) b3
      rw [hs] at he; cases he
    · have e1 : k = 0 := by omega
      have e2 : k' = 0 := by omega
      subst e1 e2
      exact stopsAt_unique a3 b3
  subst hn
  rw [← a4] at b4
  subst b4
  refine ⟨fun V V' h1 h2 => ?_, fun lanes V V' h1 h2 => ?_, fun V V' h1 h2 => ?_⟩
  · obtain ⟨d1, e1⟩ := a6 V h1
    obtain ⟨d2, e2⟩ := b6 V' h2
    exact ⟨d1, d2, _, e1, e2⟩
  · obtain ⟨d1, e1⟩ := a7 lanes V h1
    obtain ⟨d2, e2⟩ := b7 lanes V' h2
    exact ⟨d1, d2, _, e1, e2⟩
  · obtain ⟨d1, e1⟩ := a8 V h1
    obtain ⟨d2, e2⟩ := b8 V' h2
    exact ⟨d1, d2, _, e1, e2⟩

/-- C89: the same for the layered decoders. -/
theorem C89_layered_history {o : Ops R} {r : Rule R} {sc : Sched} {A : Conns} {H : Mat} (hA : Represents H A)
    {K N nIte depth : Int} {info : List Nat} {syn : Bool} (hi : ∀ p ∈ info, p < A.rows)
    {d0 d : Layer R} (h0 : Layer.mk? o sc K N nIte H info syn depth = ok d0) (h : Layer.Hist o r d0 true d)
    (hs : syn = false ∨ depth = 1) {Y : List R} (hY : (Y.length : Int) = N) :
    (∀ V V' : List Nat, (V.length : Int) = K → (V'.length : Int) = K →
      ∃ d1 d2 q, d.siho o r Y V = ok (d1, q) ∧ d0.siho o r Y V' = ok (d2, q)) ∧
    (∀ (lanes : Nat) (V V' : List Nat), (V.length : Int) = N → (V'.length : Int) = N →
      ∃ d1 d2 q, d.sihoCw o r lanes Y V = ok (d1, q) ∧ d0.sihoCw o r lanes Y V' = ok (d2, q)) ∧
    (∀ V V' : List R, (V.length : Int) = N → (V'.length : Int) = N →
      ∃ d1 d2 q, d.siso o r Y V = ok (d1, q) ∧ d0.siso o r Y V' = ok (d2, q)) := by
  obtain ⟨k, n, cwd, a1, -, a3, a4, a5, -, a6, a7, a8⟩ := C89_layered hA hi h0 h hY
  obtain ⟨k', n', cwd', b1, -, b3, b4, b5, -, b6, b7, b8⟩ := C89_layered (r := r) hA hi h0 .init hY
  have hn : n = n' ∧ (cwd = 1 ↔ cwd' = 1) := by
    rcases hs with hs | hs
    · refine ⟨stopsAt_unique (stopsAt_congr (fun he => ?_) a3) b3, ?_⟩
      · rw [hs] at he; cases he
      · rw [a5, b5]; simp [hs]
    · have e1 : k = 0 := by omega
      have e2 : k' = 0 := by omega
      subst e1 e2
      have := stopsAt_unique a3 b3
      subst this
      exact ⟨rfl, by rw [a5, b5]⟩
  obtain ⟨hn, hc⟩ := hn
  subst hn
  have : cwd = cwd' := by omega
  subst this
  refine ⟨fun V V' h1 h2 => ?_, fun lanes V V' h1 h2 => ?_, fun V V' h1 h2 => ?_⟩
  · obtain ⟨d1, e1⟩ := a6 V h1
    obtain ⟨d2, e2⟩ := b6 V' h2
    exact ⟨d1, d2, _, e1, e2⟩
  · obtain ⟨d1, e1⟩ := a7 lanes V h1
    obtain ⟨d2, e2⟩ := b7 lanes V' h2
    exact ⟨d1, d2, _, e1, e2⟩
  · obtain ⟨d1, e1⟩ := a8 V h1
    obtain ⟨d2, e2⟩ := b8 V' h2
    exact ⟨d1, d2, _, e1, e2⟩

/-! ## A concrete case -/

/-- The matrix of `n` variables and `m` checks with the given connections. -/
def mat (n m : Nat) (l : List (Nat × Nat)) : Exec Mat := l.foldl (fun e p => e >>= fun H => orThrow (add H p.1 p.2)) (ok (new n m))

/-- The connections of `mat`. -/
def conns (n m : Nat) (l : List (Nat × Nat)) : Conns := ⟨n, m, l.toFinset⟩

theorem mat_sat (n m : Nat) (l : List (Nat × Nat)) (hn : l.Nodup) (hl : ∀ p ∈ l, p.1 < n ∧ p.2 < m) :
    (mat n m l).Sat fun H => Represents H (conns n m l) := by
  induction l using List.reverseRecOn with
  | nil =>
    have : (conns n m []) = Conns.empty n m := rfl
    rw [this]
    exact sat_ok.2 (represents_new n m)
  | append_singleton l a ih =>
    have h1 := List.nodup_append.1 hn
    have hs := ih h1.1 fun p hp => hl p (by simp [hp])
    unfold mat at hs ⊢
    rw [List.foldl_append, List.foldl_cons, List.foldl_nil]
    refine hs.bind fun H hH => ?_
    have := orThrow_add hH (hl a (by simp)).1 (hl a (by simp)).2 (by
      intro hm
      exact h1.2.2 a (List.mem_toFinset.1 hm) a (by simp) rfl)
    refine this.mono fun t ht => ?_
    have e : conns n m (l ++ [a]) = { conns n m l with set := insert (a.1, a.2) (conns n m l).set } := by
      unfold conns
      congr 1
      ext p
      simp [or_comm]
    rw [e]; exact ht

theorem mat_rep {n m : Nat} {l : List (Nat × Nat)} {H : Mat} (h : mat n m l = ok H) (hn : l.Nodup) (hl : ∀ p ∈ l, p.1 < n ∧ p.2 < m) :
    Represents H (conns n m l) := by
  obtain ⟨t, et, ht⟩ := mat_sat n m l hn hl
  rw [h] at et
  cases et
  exact ht

/-- A code of length 5 with 3 checks: the connections. -/
def exL : List (Nat × Nat) := [(0, 0), (1, 0), (2, 0), (1, 1), (2, 1), (3, 1), (0, 2), (3, 2), (4, 2)]

/-- Its matrix. -/
def exH : Mat := ((mat 5 3 exL).toOption).getD (new 0 0)

theorem exH_rep : Represents exH (conns 5 3 exL) :=
  mat_rep (n := 5) (m := 3) (l := exL) (H := exH) (by decide +kernel) (by decide) (by decide)

/-- The parameters of the constructors, met. -/
example : Params (conns 5 3 exL) 2 5 10 1 [0, 1] := by refine ⟨?_, ?_, rfl, ?_, ?_, rfl, ?_⟩ <;> decide

theorem exH_deg : ∀ v, v < (conns 5 3 exL).rows → (conns 5 3 exL).rowDeg v ≤ 256 := by decide

/-- The hypotheses of C89 are met by a decoder on 8-bit integers, after a first codeword and a change of the automatic reset: it
corrects an error on the first bit. -/
example : ∃ d0 d q d', Flood.mk? (opsInt 8) (-1) 2 5 10 exH [0, 1] true 1 = ok d0 ∧ Flood.Hist (opsInt 8) (ms (opsInt 8)) d0 true d ∧
    d.sihoCw (opsInt 8) (ms (opsInt 8)) 16 [-1, 5, 5, 5, 5] [9, 9, 9, 9, 9] = ok (d', q) ∧ q = ⟨1, 0, [0, 0, 0, 0, 0]⟩ := by
  have h : (Flood.mk? (opsInt 8) (-1) 2 5 10 exH [0, 1] true 1 >>= fun d0 => d0.siho (opsInt 8) (ms (opsInt 8)) [5, -5, 5, -5, 5] [7, 7] >>=
      fun q => q.1.sihoCw (opsInt 8) (ms (opsInt 8)) 16 [-1, 5, 5, 5, 5] [9, 9, 9, 9, 9] >>= fun q' => ok q'.2) =
      ok ⟨1, 0, [0, 0, 0, 0, 0]⟩ := by decide +kernel
  obtain ⟨d0, h0, h⟩ := bind_ok_inv h
  obtain ⟨⟨d1, q1⟩, h1, h⟩ := bind_ok_inv h
  obtain ⟨⟨d2, q2⟩, h2, h⟩ := bind_ok_inv h
  cases h
  obtain ⟨-, -, f3, -, f5, -⟩ := flood_mk exH_rep exH_deg (by decide) h0
  exact ⟨d0, d1, _, d2, h0, f5 ▸ Flood.Hist.siho .init (by rw [f3]; rfl) (by rw [f3]; rfl) h1, h2, rfl⟩

/-- The same for the two layered decoders. -/
example (sc : Sched) : ∃ d0 d q d', Layer.mk? (opsInt 8) sc 2 5 10 exH [0, 1] true 1 = ok d0 ∧
    Layer.Hist (opsInt 8) (ms (opsInt 8)) d0 true d ∧
    d.sihoCw (opsInt 8) (ms (opsInt 8)) 16 [-1, 5, 5, 5, 5] [9, 9, 9, 9, 9] = ok (d', q) ∧ q = ⟨1, 0, [0, 0, 0, 0, 0]⟩ := by
  have h : (Layer.mk? (opsInt 8) sc 2 5 10 exH [0, 1] true 1 >>= fun d0 => d0.siho (opsInt 8) (ms (opsInt 8)) [5, -5, 5, -5, 5] [7, 7] >>=
      fun q => q.1.sihoCw (opsInt 8) (ms (opsInt 8)) 16 [-1, 5, 5, 5, 5] [9, 9, 9, 9, 9] >>= fun q' => ok q'.2) =
      ok ⟨1, 0, [0, 0, 0, 0, 0]⟩ := by cases sc <;> decide +kernel
  obtain ⟨d0, h0, h⟩ := bind_ok_inv h
  obtain ⟨⟨d1, q1⟩, h1, h⟩ := bind_ok_inv h
  obtain ⟨⟨d2, q2⟩, h2, h⟩ := bind_ok_inv h
  cases h
  obtain ⟨-, -, f3, -, f5, -⟩ := lay_mk exH_rep (by decide) h0
  exact ⟨d0, d1, _, d2, h0, f5 ▸ Layer.Hist.siho .init (by rw [f3]; rfl) (by rw [f3]; rfl) h1, h2, rfl⟩

end Verif.LDPCBP
