import Verif.Model.LDPCObj
import Verif.Spec.LDPCEnc
import Verif.Proof.LDPCEnc
import Verif.Proof.LU

/-! # The encoders built from a parity check matrix -/

namespace Verif.Sparse
open Exec

theorem satisfied_word {A : Conns} {x y : Nat → Bool} (h : ∀ v, v < A.rows → x v = y v) {c : Nat} (hx : Satisfied A x c) : Satisfied A y c := by
  rw [satisfied_bsum] at hx ⊢
  rw [← hx]
  exact bsum_congr fun v hv => by rw [h v hv]

theorem isEncoder_of {w : Nat} {A : Conns} {K : Nat} {pos : List Nat}
    {enc : List (BitVec w) → List (BitVec w) → Exec (List (BitVec w))} (hp : pos.length = K)
    (h : ∀ (u : Nat → Bool) (X : List (BitVec w)), X.length = A.rows → ∃ c : Nat → Bool,
      enc (frame w K u) X = ok (frame w A.rows c) ∧ (∀ k, k < A.cols → Satisfied A c k) ∧
      ∀ i (hi : i < pos.length), pos[i] < A.rows ∧ c pos[i] = u i) : IsEncoder w A K pos enc := by
  refine ⟨hp, fun u X hu hX => ?_⟩
  obtain ⟨c, e, hc, hi⟩ := h (fun i => u.getD i false) X hX
  refine ⟨(List.range A.rows).map c, ?_, ⟨by simp, fun k hk => satisfied_word ?_ (hc k hk)⟩, ?_⟩
  · have e1 : u.map (b2v w) = frame w K fun i => u.getD i false := by
      refine eq_mapRange (by simp [hu]) fun i hi => ?_
      rw [List.getElem?_map, List.getElem?_eq_getElem (by omega)]
      beta_reduce
      rw [List.getD_eq_getElem?_getD, List.getElem?_eq_getElem (by omega)]
      rfl
    rw [e1, e, frame, List.map_map]
    rfl
  · intro v hv
    rw [List.getD_eq_getElem?_getD, getElem?_mapRange, if_pos hv]
    rfl
  · apply List.ext_getElem?
    intro i
    rw [List.getElem?_map, List.getElem?_map]
    by_cases hlt : i < pos.length
    · obtain ⟨h1, h2⟩ := hi i hlt
      rw [List.getElem?_eq_getElem hlt, List.getElem?_eq_getElem (show i < u.length by omega), Option.map_some, Option.map_some,
        getElem?_mapRange, if_pos h1, h2, List.getD_eq_getElem?_getD, List.getElem?_eq_getElem (show i < u.length by omega)]
      rfl
    · rw [List.getElem?_eq_none (by omega), List.getElem?_eq_none (by omega)]
      rfl

/-! ## The parity part -/

theorem satisfied_split {A : Conns} {K M : Nat} (hrows : A.rows = K + M) {x : Nat → Bool} {c : Nat} :
    Satisfied A x c ↔ bsum M (fun j => decide ((K + j, c) ∈ A.set) && x (K + j)) = bsum K fun v => decide ((v, c) ∈ A.set) && x v := by
  rw [satisfied_bsum, hrows, bsum_add]
  generalize bsum K _ = a
  generalize bsum M _ = b
  cases a <;> cases b <;> simp

/-- `R` is the inverse of the parity part of `A`. -/
def Inverts (A : Conns) (K M : Nat) (R : Nat → Nat → Bool) : Prop :=
  ∀ y z : Nat → Bool, (∀ i, i < M → bsum M (fun j => decide ((K + j, i) ∈ A.set) && y j) = z i) ↔
    ∀ i, i < M → y i = bsum M fun j => R i j && z j

/-- The codeword of message `u`. -/
def sysWord (A : Conns) (K M : Nat) (R : Nat → Nat → Bool) (u : Nat → Bool) (v : Nat) : Bool :=
  if v < K then u v else bsum M fun j => R (v - K) j && bsum K fun t => decide ((t, j) ∈ A.set) && u t

theorem sysWord_satisfied {A : Conns} {K M : Nat} (hrows : A.rows = K + M) {R : Nat → Nat → Bool} (h : Inverts A K M R)
    (u : Nat → Bool) {c : Nat} (hc : c < M) : Satisfied A (sysWord A K M R u) c := by
  rw [satisfied_split hrows]
  have h1 := (h (fun j => sysWord A K M R u (K + j)) fun i => bsum K fun t => decide ((t, i) ∈ A.set) && u t).2 (fun i _ => by
    rw [sysWord, if_neg (by omega), Nat.add_sub_cancel_left]) c hc
  rw [h1]
  exact bsum_congr fun t ht => by rw [sysWord, if_pos ht]

theorem codeword_range {A : Conns} {c : Nat → Bool} (h : ∀ k, k < A.cols → Satisfied A c k) : Codeword A ((List.range A.rows).map c) :=
  ⟨by simp, fun k hk => satisfied_word (fun v hv => by
    rw [List.getD_eq_getElem?_getD, getElem?_mapRange, if_pos hv]; rfl) (h k hk)⟩

theorem getD_range {n : Nat} {c : Nat → Bool} {v : Nat} : ((List.range n).map c).getD v false = (decide (v < n) && c v) := by
  rw [List.getD_eq_getElem?_getD, getElem?_mapRange]
  split
  · rename_i h; simp [h]
  · rename_i h; simp [h]

theorem inverts_determined {A : Conns} {K M : Nat} (hrows : A.rows = K + M) (hcols : A.cols = M) {R : Nat → Nat → Bool}
    (h : Inverts A K M R) : Determined A K := by
  rintro c ⟨hl, hc⟩ hz v
  by_cases hv : v < K
  · exact hz v hv
  · by_cases hv' : v < K + M
    · have h1 := (h (fun j => c.getD (K + j) false) fun _ => false).1 (fun i hi => by
        rw [(satisfied_split hrows).1 (hc i (by omega))]
        exact bsum_zero fun t ht => by rw [hz t ht, Bool.and_false]) (v - K) (by omega)
      rw [bsum_zero fun t _ => Bool.and_false _] at h1
      rw [← h1]
      congr 1
      omega
    · rw [List.getD_eq_getElem?_getD, List.getElem?_eq_none (by omega)]
      rfl

theorem singular_not_determined {A : Conns} {K M : Nat} (hrows : A.rows = K + M) (hcols : A.cols = M)
    (h : Singular M fun i j => decide ((K + j, i) ∈ A.set)) : ¬ Determined A K := by
  obtain ⟨y, ⟨j, hj, hy⟩, hs⟩ := h
  intro hd
  have := hd _ (codeword_range (A := A) (c := fun v => decide (K ≤ v) && y (v - K)) fun k hk => by
    rw [satisfied_split hrows, bsum_zero (n := K)]
    · rw [← hs k (by omega)]
      exact bsum_congr fun i _ => by simp
    · intro v hv
      simp [show ¬ K ≤ v by omega]) (fun v hv => by rw [getD_range]; simp [show ¬ K ≤ v by omega]) (K + j)
  rw [getD_range] at this
  simp [hrows, hj, hy] at this

/-! ## Orientation -/

theorem transpose_transpose (A : Conns) : A.transpose.transpose = A := by
  obtain ⟨n, m, s⟩ := A
  simp only [Conns.transpose, Conns.mk.injEq, true_and]
  ext ⟨i, j⟩
  simp

theorem turn_horizontal {H : Mat} {A : Conns} (h : Holds H A) (hlt : A.cols < A.rows) : Represents (turn H .horizontal) A.transpose := by
  rcases h with h | h
  · have := represents_turn h .horizontal
    rwa [effect, if_pos hlt] at this
  · have := represents_turn h .horizontal
    rwa [effect, if_neg (by simp only [Conns.transpose]; omega)] at this

theorem turn_vertical {H : Mat} {A : Conns} (h : Holds H A) (hlt : A.cols < A.rows) : Represents (turn H .vertical) A := by
  rcases h with h | h
  · have := represents_turn h .vertical
    rwa [effect, if_neg (by omega)] at this
  · have := represents_turn h .vertical
    rwa [effect, if_pos (by simp only [Conns.transpose]; omega), transpose_transpose] at this

theorem encoderArgs_eq {K N : Nat} (hK : 0 < K) (hN : K ≤ N) : encoderArgs K N = ok () := by
  rw [encoderArgs, if_neg (by omega), if_neg (by omega), if_neg (by omega)]

theorem checkG_eq {G : Mat} {A : Conns} (h : Holds G A) (hlt : A.cols < A.rows) : checkG A.cols A.rows G = ok (turn G .vertical) := by
  have h' := turn_vertical h hlt
  rw [checkG, if_neg (by rw [h'.nCols]; simp), if_neg (by rw [h'.nRows]; simp)]

theorem checkH_eq {H : Mat} {A : Conns} (h : Holds H A) (hlt : A.cols < A.rows) : checkH A.rows H = ok (turn H .vertical) := by
  have h' := turn_vertical h hlt
  rw [checkH, if_neg (by rw [h'.nRows]; simp)]

theorem checkHP_eq {H : Mat} {A : Conns} (h : Holds H A) {K : Nat} (hlt : A.cols < A.rows) (hK : A.rows = K + A.cols) :
    checkHP K A.rows H = ok (turn H .vertical) := by
  have h' := turn_vertical h hlt
  rw [checkHP, checkH_eq h hlt, bind_ok, if_neg (by rw [h'.nCols]; omega)]

/-! ## Inversion -/

theorem luSparse_out {H : Mat} {A : Conns} (h : Holds H A) {K M : Nat} (hrows : A.rows = K + M) (hcols : A.cols = M) (hM : 0 < M)
    (hK : 0 < K) :
    Out (luSparse H) (fun t => ∃ R, FRep t M M R ∧ Inverts A K M R)
      (fun e => e = .runtimeError ∧ Singular M fun i j => decide ((K + j, i) ∈ A.set)) := by
  have ht := turn_horizontal h (by omega)
  have hr : (turn H .horizontal).nRows = M := by rw [ht.nRows]; exact hcols
  unfold luSparse
  rw [hr]
  refine Out.bind (resize_sat ht .topRight hM hM).out fun t h1 => ?_
  refine Out.bind (sparseToFull_sat h1).out fun f hf => ?_
  refine luDecomp_out hM (hf.congr fun i hi j hj => ?_)
  rw [decide_eq_decide]
  have e : A.transpose.cols = K + M := hrows
  simp only [Conns.resize, Finset.mem_filter, Finset.mem_product, Finset.mem_range, Prod.exists, mem_transpose, hi, hj, true_and]
  simp only [Conns.moved, Conns.bottom, Conns.right, if_true, decide_eq_true_iff, Bool.false_eq_true, if_false, e]
  constructor
  · rintro ⟨_, a, b, h1, h2, h3⟩
    rw [show K + j = b by omega, ← h2]
    exact h1
  · intro h1
    exact ⟨⟨hi, hj⟩, i, K + j, h1, rfl, by omega⟩

theorem luDense_out {s : FM} {K M : Nat} {g : Nat → Nat → Bool} (hs : FRep s M (K + M) g) (hM : 0 < M) {A : Conns}
    (hg : ∀ i j, i < M → j < K + M → g i j = decide ((j, i) ∈ A.set)) :
    Out (luDense s) (fun t => ∃ R, FRep t M M R ∧ Inverts A K M R)
      (fun e => e = .runtimeError ∧ Singular M fun i j => decide ((K + j, i) ∈ A.set)) := by
  unfold luDense horizontalOrThrow
  rw [hs.nRows, hs.nCols, if_pos (by omega)]
  refine Out.bind (fresize_sat hs fun _ => Or.inl (Nat.le_refl _)).out fun t ht => ?_
  refine luDecomp_out hM (ht.congr fun i hi j hj => ?_)
  simp only [resizeF]
  rw [show j + (K + M) - M = K + j by omega, hg i _ hi (by omega),
    show decide (i < M ∧ M ≤ j + (K + M)) = true by rw [decide_eq_true_iff]; omega, Bool.true_and]

/-- The generator matrix `[I | P]`. -/
def genF (A : Conns) (K M : Nat) (R : Nat → Nat → Bool) (r c : Nat) : Bool :=
  if c < K then decide (r = c) else bsum M fun j => R (c - K) j && decide ((r, j) ∈ A.set)

theorem hToGLU_out {s : FM} {K M : Nat} {g : Nat → Nat → Bool} (hs : FRep s M (K + M) g) (hM : 0 < M) {A : Conns}
    (hg : ∀ i j, i < M → j < K + M → g i j = decide ((j, i) ∈ A.set)) :
    Out (hToGLU s) (fun x => (∃ R, FRep x.1 K (K + M) (genF A K M R) ∧ Inverts A K M R) ∧ x.2 = List.range K)
      (fun e => e = .runtimeError ∧ Singular M fun i j => decide ((K + j, i) ∈ A.set)) := by
  unfold hToGLU
  refine Out.bind (luDense_out hs hM hg) ?_
  rintro Gp ⟨R, hR, hI⟩
  rw [hs.nRows, hs.nCols, show K + M - M = K by omega]
  refine Sat.out ?_
  refine (fresize_sat hs (n := M) (m := K) (o := .topLeft) (by simp)).bind fun Hs h1 => ?_
  refine (ftranspose_sat h1).bind fun Hs h2 => ?_
  refine (fbgemmt_sat hR h2).bind fun GH h3 => ?_
  refine (ftranspose_sat h3).bind fun GH h4 => ?_
  refine (fresize_sat h4 (n := K) (m := K + M) (o := .topRight) fun _ => Or.inl (Nat.le_refl _)).bind fun GH h5 => ?_
  rw [h5.v]
  refine (forN_inv (fun k (v : List (List Bool)) => v = mk K (K + M) fun r c => if c < K then decide (r = c ∧ r < k) else
    bsum M fun j => R (c - K) j && decide ((r, j) ∈ A.set)) ?_ ?_).bind ?_
  · refine mk_congr fun r hr c hc => ?_
    simp only [resizeF]
    by_cases e : c < K
    · rw [if_pos e, show decide (r < K ∧ K + M ≤ c + M) = false by rw [decide_eq_false_iff_not]; omega]
      simp
    · rw [if_neg e, show decide (r < K ∧ K + M ≤ c + M) = true by rw [decide_eq_true_iff]; omega, Bool.true_and,
        show c + M - (K + M) = c - K by omega]
      refine bsum_congr fun j hj => ?_
      rw [show decide (j < M ∧ r < K + M) = true by rw [decide_eq_true_iff]; omega, Bool.true_and, hg j r hj (by omega)]
  · rintro k v hk rfl
    rw [wrM_mkR hk (by omega), sat_ok]
    refine mk_congr fun r _ c _ => ?_
    by_cases e : r = k ∧ c = k
    · rw [if_pos e, if_pos (by omega)]
      symm
      rw [decide_eq_true_iff]
      omega
    · rw [if_neg e]
      split
      · rw [decide_eq_decide]
        omega
      · rfl
  · rintro v rfl
    rw [sat_ok]
    refine ⟨⟨R, ⟨h5.nRows, h5.nCols, ?_⟩, hI⟩, rfl⟩
    refine mk_congr fun r hr c _ => ?_
    simp only [genF]
    split
    · rw [decide_eq_decide]
      omega
    · rfl

/-! ## Encoding with the inverse -/

theorem setWidth_b2v {w : Nat} (hw : 0 < w) (b : Bool) : (b2v w b).setWidth 8 = b2v 8 b := by
  cases b
  · simp [b2v]
  · apply BitVec.eq_of_toNat_eq
    have : 1 % 2 ^ w = 1 := Nat.mod_eq_of_lt (Nat.one_lt_two_pow (by omega))
    simp [b2v, this]

theorem signExtend_b2v (w : Nat) (a b : Bool) : (b2v 8 a &&& b2v 8 b).signExtend w = b2v w (a && b) := by
  have h0 : (0#8 : BitVec 8).signExtend w = 0#w := by
    rw [BitVec.signExtend_eq_setWidth_of_msb_false (by decide)]
    simp
  have h1 : (1#8 : BitVec 8).signExtend w = 1#w := by
    rw [BitVec.signExtend_eq_setWidth_of_msb_false (by decide)]
    apply BitVec.eq_of_toNat_eq
    simp
  cases a <;> cases b <;> simp [b2v, h0, h1]

theorem qcParity_eq {w : Nat} (hw : 0 < w) {H : Mat} {A : Conns} (h : Represents H A) {K : Nat} (hK : K ≤ A.rows) (u : Nat → Bool) :
    qcParity H K A.cols (frame w K u) = ok (frame 8 A.cols fun i => bsum K fun v => decide ((v, i) ∈ A.set) && u v) := by
  unfold qcParity
  refine Eq.trans (b := ?_) ?_ ?_
  · exact ok (frame 8 A.cols fun i => bsum K fun v => decide ((v, i) ∈ A.set) && u v)
  · obtain ⟨Y, e, hY⟩ := forN_inv (n := A.cols) (s := List.replicate A.cols 0#8)
      (f := fun i parity => rd H.c2r i >>= fun col => forEach col (fun l parity => if l < K then rd (frame w K u) l >>= fun u =>
        rd parity i >>= fun p => wr parity i (p ^^^ u.setWidth 8) else ok parity) parity)
      (fun k (Y : List (BitVec 8)) => Y = frame 8 A.cols fun i => decide (i < k) && bsum K fun v => decide ((v, i) ∈ A.set) && u v)
      (by
        refine eq_mapRange (by simp) fun i hi => ?_
        rw [List.getElem?_replicate, if_pos hi]
        simp [b2v]) (by
        rintro i Y hi rfl
        have hi' : i < H.c2r.length := by rw [h.c2r_length]; exact hi
        obtain ⟨hn, hm⟩ := h.col i hi'
        rw [rd_lt hi', bind_ok]
        refine (forEach_inv (fun p (Y : List (BitVec 8)) => Y = frame 8 A.cols fun t => if t = i then
          parity (fun v => decide (v < K) && u v) p else decide (t < i) && bsum K fun v => decide ((v, t) ∈ A.set) && u v) ?_ ?_).mono ?_
        · refine frame_congr fun t _ => ?_
          split
          · rename_i e
            simp [e, parity]
          · rfl
        · rintro p l q Y e rfl
          rw [parity_append]
          by_cases hl : l < K
          · rw [if_pos hl, rd_frame u hl, bind_ok, rd_frame _ hi, bind_ok, setWidth_b2v hw, b2v_xor, wr_frame _ hi, sat_ok]
            refine frame_congr fun t _ => ?_
            by_cases et : t = i
            · simp [et, hl]
            · simp [et]
          · rw [if_neg hl, sat_ok]
            refine frame_congr fun t _ => ?_
            simp [hl]
        · rintro Y rfl
          refine frame_congr fun t _ => ?_
          by_cases et : t = i
          · rw [if_pos et, parity_bsum (n := A.rows) hn hm fun i hi => (h.range _ hi).1, et,
              show A.rows = K + (A.rows - K) by omega, bsum_add, bsum_zero (n := A.rows - K) (by intro j _; simp), Bool.xor_false]
            rw [show decide (i < i + 1) = true by simp, Bool.true_and]
            apply bsum_congr
            intro v hv
            simp [hv]
          · rw [if_neg et]
            congr 1
            rw [decide_eq_decide]
            omega)
    rw [e, hY]
    congr 1
    refine frame_congr fun i hi => ?_
    simp [hi]
  · rfl

theorem encQC_eq {w : Nat} (hw : 0 < w) {H : Mat} {A : Conns} (h : Represents H A) {K M : Nat} (hrows : A.rows = K + M)
    (hcols : A.cols = M) (R : Nat → Nat → Bool) (u : Nat → Bool) {X : List (BitVec w)} (hX : X.length = K + M) :
    encQC H (mk M M R) K (K + M) (frame w K u) X = ok (frame w (K + M) (sysWord A K M R u)) := by
  unfold encQC
  rw [show K + M - K = M by omega]
  obtain ⟨X1, e1, h1, h1'⟩ := copy_frame u hX (Nat.le_add_right K M)
  rw [e1, bind_ok]
  have hq := qcParity_eq (w := w) hw h (K := K) (by omega) u
  rw [hcols] at hq
  rw [hq, bind_ok]
  set s : Nat → Bool := fun t => bsum K fun v => decide ((v, t) ∈ A.set) && u v with hs
  obtain ⟨Y, e, g1, g2, g3⟩ := forN_inv (n := M) (s := X1) (f := fun i X =>
      forN M (fun j x => rd (frame 8 M s) j >>= fun p => rd (mk M M R) i >>= fun row => rd row j >>= fun b =>
        ok (x ^^^ (p &&& b2v 8 b).signExtend w)) 0#w >>= fun x => wr X (K + i) x)
    (fun k (Y : List (BitVec w)) => Y.length = K + M ∧ (∀ i, i < K → Y[i]? = some (b2v w (u i))) ∧
      ∀ i, i < k → Y[K + i]? = some (b2v w (bsum M fun j => R i j && s j))) ⟨h1, h1', by omega⟩ (by
      rintro i Y hi ⟨g1, g2, g3⟩
      refine (forN_inv (fun k (x : BitVec w) => x = b2v w (bsum k fun j => R i j && s j)) rfl ?_).bind ?_
      · rintro j x hj rfl
        have hm : (rd (mk M M R) i >>= fun row => rd row j) = ok (R i j) := rdM_mkR hi hj
        rw [rd_frame _ hj, bind_ok]
        rw [← bind_assoc', hm, bind_ok, sat_ok, signExtend_b2v, b2v_xor, bsum_succ, Bool.and_comm]
      · rintro x rfl
        rw [wr_lt (by omega), sat_ok]
        refine ⟨by simpa using g1, fun j hj => ?_, fun j hj => ?_⟩
        · rw [List.getElem?_set_ne (by omega)]
          exact g2 j hj
        · by_cases e : j = i
          · subst e
            rw [List.getElem?_set_self (by omega)]
          · rw [List.getElem?_set_ne (by omega)]
            exact g3 j (by omega))
  rw [e]
  congr 1
  refine eq_mapRange g1 fun i hi => ?_
  by_cases hk : i < K
  · rw [g2 i hk, sysWord, if_pos hk]
  · have := g3 (i - K) (by omega)
    rw [show K + (i - K) = i by omega] at this
    rw [this, sysWord, if_neg hk]

theorem gen_word {A : Conns} {K M : Nat} {R : Nat → Nat → Bool} (u : Nat → Bool) {i : Nat} :
    (bsum K fun r => genF A K M R r i && u r) = sysWord A K M R u i := by
  simp only [genF, sysWord]
  by_cases hi : i < K
  · rw [if_pos hi, bsum_single hi fun r _ hr => by rw [if_pos hi]; simp [hr]]
    simp [hi]
  · rw [if_neg hi]
    simp only [if_neg hi, ← bsum_and_right]
    rw [bsum_comm]
    refine bsum_congr fun j _ => ?_
    rw [← bsum_and_left]
    exact bsum_congr fun t _ => Bool.and_assoc _ _ _

end Verif.Sparse
