import Verif.Proof.LDPCObj
import Verif.Proof.LDPCIdentity
import Verif.Proof.DVBS2

/-!
# C24: LDPC encoders

In all the statements `A` is the parity check matrix with the variables as rows and the checks as columns.
-/

namespace Verif.Sparse
open Exec

/-! ## Generator matrix -/

/-- C24: the encoder with a given generator matrix `B` (coded bits are rows, message bits are columns) whose columns satisfy
all the checks of `A` and whose rows at the positions `pos` are those of the identity.  The constructor accepts the two
matrices in any direction. -/
theorem C24_G {w : Nat} {G H : Mat} {B A : Conns} (hG : Holds G B) (hH : Holds H A) (hrows : B.rows = A.rows) (hK : 0 < B.cols)
    (hB : B.cols < B.rows) (hA : A.cols < A.rows)
    (horth : ∀ j, j < B.cols → ∀ c, c < A.cols → Satisfied A (fun v => decide ((v, j) ∈ B.set)) c)
    {pos : List Nat} (hp : pos.length = B.cols) (hlt : ∀ p ∈ pos, p < B.rows)
    (hid : ∀ i (hi : i < pos.length) j, j < B.cols → ((pos[i], j) ∈ B.set ↔ j = i)) :
    ∃ G' H', makeGH B.cols B.rows G H = ok (G', H') ∧ Represents H' A ∧ IsEncoder w A B.cols pos (encG G' A.rows) := by
  refine ⟨turn G .vertical, turn H .vertical, ?_, turn_vertical hH hA, ?_⟩
  · rw [makeGH, encoderArgs_eq hK (by omega), bind_ok, checkG_eq hG hB, bind_ok, hrows, checkH_eq hH hA, bind_ok]
  · refine isEncoder_of hp fun u X hX =>
      ⟨fun i => bsum B.cols fun j => decide ((i, j) ∈ B.set) && u j, ?_, ?_, ?_⟩
    · rw [← hrows]
      exact encG_eq (turn_vertical hG hB) u (by omega)
    · intro k hk
      refine gen_satisfied hrows fun j hj => ?_
      have := horth j hj k hk
      unfold Satisfied at this
      rw [hrows, Finset.filter_congr fun v _ => show (v, j) ∈ B.set ∧ (v, k) ∈ A.set ↔ (v, k) ∈ A.set ∧ decide ((v, j) ∈ B.set) = true by
        rw [decide_eq_true_iff, and_comm]]
      exact this
    · intro i hi
      refine ⟨by rw [← hrows]; exact hlt _ (List.getElem_mem hi), ?_⟩
      beta_reduce
      rw [bsum_single (g := fun j => decide ((pos[i], j) ∈ B.set) && u j) (a := i) (by omega) fun j hj hne => by
        rw [show decide ((pos[i], j) ∈ B.set) = false by rw [decide_eq_false_iff_not, hid i hi j hj]; exact hne, Bool.false_and]]
      rw [show decide ((pos[i], i) ∈ B.set) = true by rw [decide_eq_true_iff, hid i hi i (by omega)], Bool.true_and]

example : ∃ G' H', makeGH 1 2 ⟨1, 2, 2, 1, 2, [[0, 1]], [[0], [0]]⟩ ⟨2, 1, 1, 2, 2, [[0], [0]], [[0, 1]]⟩ = ok (G', H') ∧
    encG G' 2 [1#8] [7#8, 7#8] = ok [1#8, 1#8] ∧ isCodeword [1, 1] H' = ok true ∧ isCodeword [1, 0] H' = ok false :=
  ⟨_, _, rfl, rfl, rfl, rfl⟩

/-- C24: whatever the generator matrix, the encoder computes the product of the message and the matrix over GF(2). -/
theorem C24_product {w : Nat} {G : Mat} {B : Conns} (hG : Holds G B) (hK : 0 < B.cols) (hB : B.cols < B.rows) :
    ∃ G', makeG B.cols B.rows G = ok G' ∧ ∀ (u : List Bool) (X : List (BitVec w)), u.length = B.cols → X.length = B.rows →
      ∃ c : List Bool, encG G' B.rows (u.map (b2v w)) X = ok (c.map (b2v w)) ∧ c.length = B.rows ∧
        ∀ i, i < B.rows → (c.getD i false = true ↔
          Odd ((Finset.range B.cols).filter fun j => (i, j) ∈ B.set ∧ u.getD j false = true).card) := by
  refine ⟨turn G .vertical, ?_, fun u X hu hX =>
    ⟨(List.range B.rows).map fun i => bsum B.cols fun j => decide ((i, j) ∈ B.set) && u.getD j false, ?_, ?_, fun i hi => ?_⟩⟩
  · rw [makeG, encoderArgs_eq hK (by omega), bind_ok, checkG_eq hG hB]
  · have e1 : u.map (b2v w) = frame w B.cols fun i => u.getD i false := by
      refine eq_mapRange (by simp [hu]) fun i hi => ?_
      rw [List.getElem?_map, List.getElem?_eq_getElem (by omega)]
      beta_reduce
      rw [List.getD_eq_getElem?_getD, List.getElem?_eq_getElem (by omega)]
      rfl
    rw [e1, encG_eq (turn_vertical hG hB) _ hX, frame, List.map_map]
    rfl
  · simp
  · rw [getD_range, show decide (i < B.rows) = true by simpa using hi, Bool.true_and, bsum_odd, decide_eq_true_iff, Nat.odd_iff]
    simp only [Bool.and_eq_true, decide_eq_true_iff]

/-- C24: `is_codeword` accepts exactly the codewords of the matrix `H`, if it has at least one connection; without `H` it
throws. -/
theorem C24_is_codeword {H : Mat} {A : Conns} (h : Represents H A) (c : List Bool) (hc : c.length = A.rows) :
    (A.set.Nonempty → ∃ b, isCodeword (c.map fun b => if b then 1 else 0) H = ok b ∧ (b = true ↔ Codeword A c)) ∧
    (¬ A.set.Nonempty → isCodeword (c.map fun b => if b then 1 else 0) H = exc .unimplemented) := by
  unfold isCodeword
  rw [h.count]
  refine ⟨fun hne => ?_, fun hne => ?_⟩
  · rw [if_neg (by have := Finset.card_pos.2 hne; omega)]
    obtain ⟨b, e, hb⟩ := checkLoop_eq (fun b : Int => decide (b ≠ 0)) h (X := c.map fun b => if b then (1 : Int) else 0) (by simp [hc])
    refine ⟨b, e, hb.trans ?_⟩
    rw [Codeword, and_iff_right hc]
    refine satisfied_congr (funext fun v => ?_)
    rw [List.getD_eq_getElem?_getD, List.getElem?_map]
    cases c[v]? with
    | none => rfl
    | some b => cases b <;> rfl
  · rw [Finset.not_nonempty_iff_eq_empty.1 hne]
    rfl

/-! ## Matrices with a double diagonal -/

/-- C24: the IRA encoder. -/
theorem C24_IRA {w K : Nat} {H : Mat} {A : Conns} (h : Holds H A) (hK : 0 < K) (hM : 0 < A.cols) (hrows : A.rows = K + A.cols)
    (hd : DoubleDiagonal A K) :
    ∃ H', makeIRA K A.rows H = ok H' ∧ Represents H' A ∧ IsEncoder w A K (List.range K) (encIRA H' K A.rows) := by
  have hlt : A.cols < A.rows := by omega
  refine ⟨turn H .vertical, ?_, turn_vertical h hlt, isEncoder_of (by simp) fun u X hX =>
    ⟨accWord K u fun t => bsum K fun v => decide ((v, t) ∈ A.set) && u v, ?_, fun k hk => ?_, fun i hi => ?_⟩⟩
  · rw [makeIRA, encoderArgs_eq hK (by omega), bind_ok, checkHP_eq h hlt hrows]
  · rw [hrows]
    exact encIRA_eq (turn_vertical h hlt) hrows rfl hM u (by omega)
  · exact acc_satisfied hrows hk (fun j hj => hd j hj k hk) rfl
  · have hi' : i < K := by simpa using hi
    rw [List.getElem_range, accWord, if_pos hi']
    exact ⟨by omega, rfl⟩

example : DoubleDiagonal ⟨3, 2, {(0, 0), (0, 1), (1, 0), (1, 1), (2, 1)}⟩ 1 := by unfold DoubleDiagonal; decide
example : ∃ H', makeIRA 1 3 ⟨3, 2, 2, 3, 5, [[0, 1], [0, 1], [1]], [[0, 1], [0, 1, 2]]⟩ = ok H' ∧
    encIRA H' 1 3 [1#8] [7#8, 7#8, 7#8] = ok [1#8, 1#8, 0#8] := ⟨_, rfl, rfl⟩

/-- Defect next to C24: the structure of the matrix is not checked; a matrix of the right size without the double diagonal is
accepted and the encoder returns words that are not codewords. -/
theorem C24_IRA_unchecked : ∃ H A H', Represents H A ∧ makeIRA 1 2 H = ok H' ∧ encIRA H' 1 2 [1#8] [0#8, 0#8] = ok [1#8, 1#8] ∧
    ¬ Codeword A [true, true] := by
  refine ⟨⟨2, 1, 1, 1, 1, [[0], []], [[0]]⟩, ⟨2, 1, {(0, 0)}⟩, ⟨2, 1, 1, 1, 1, [[0], []], [[0]]⟩, ?_, rfl, rfl, ?_⟩
  · refine ⟨rfl, rfl, rfl, rfl, ?_, ?_, ?_, rfl, ?_, ?_⟩
    · intro i hi
      match i, hi with
      | 0, _ => simp
      | 1, _ => simp
    · intro j hj
      match j, hj with
      | 0, _ => simp
    · decide
    · decide
    · decide
  · rintro ⟨_, h⟩
    have := h 0 (by decide)
    revert this
    simp only [Satisfied]
    decide

/-! ## Quasi-cyclic matrices -/

/-- C24: the QC encoder, for any parity check matrix of the right size: if the message determines the codeword the
constructor succeeds and the encoder returns this codeword, otherwise the constructor throws. -/
theorem C24_QC {w K : Nat} (hw : 0 < w) {H : Mat} {A : Conns} (h : Holds H A) (hK : 0 < K) (hM : 0 < A.cols)
    (hrows : A.rows = K + A.cols) :
    (Determined A K → ∃ H' inv, makeQC K A.rows H = ok (H', inv) ∧ Represents H' A ∧
      IsEncoder w A K (List.range K) (encQC H' inv.v K A.rows)) ∧
    (¬ Determined A K → makeQC K A.rows H = exc .runtimeError) := by
  have hlt : A.cols < A.rows := by omega
  have ho := luSparse_out h hrows rfl hM hK
  have hm : makeQC K A.rows H = luSparse H >>= fun inv => ok (turn H .vertical, inv) := by
    rw [makeQC, encoderArgs_eq hK (by omega), bind_ok, checkHP_eq h hlt hrows]
    rfl
  rw [hm]
  cases e : luSparse H with
  | ub => rw [e] at ho; exact ho.elim
  | exc x =>
    rw [e] at ho
    obtain ⟨rfl, hs⟩ := ho
    refine ⟨fun hd => absurd hd (singular_not_determined hrows rfl hs), fun _ => rfl⟩
  | ok inv =>
    rw [e] at ho
    obtain ⟨R, hR, hI⟩ := ho
    refine ⟨fun _ => ⟨_, inv, rfl, turn_vertical h hlt, isEncoder_of (by simp) fun u X hX =>
      ⟨sysWord A K A.cols R u, ?_, fun k hk => sysWord_satisfied hrows hI u hk, fun i hi => ?_⟩⟩,
      fun hn => absurd (inverts_determined hrows rfl hI) hn⟩
    · rw [hR.v, hrows]
      exact encQC_eq hw (turn_vertical h hlt) hrows rfl R u (by omega)
    · have hi' : i < K := by simpa using hi
      rw [List.getElem_range, sysWord, if_pos hi']
      exact ⟨by omega, rfl⟩

example : ∃ H' inv, makeQC 1 3 ⟨3, 2, 2, 2, 5, [[0, 1], [0, 1], [0]], [[0, 1, 2], [0, 1]]⟩ = ok (H', inv) ∧
    encQC H' inv.v 1 3 [1#8] [7#8, 7#8, 7#8] = ok [1#8, 1#8, 0#8] := ⟨_, _, rfl, rfl⟩
example : makeQC 1 3 ⟨3, 2, 2, 2, 4, [[0, 1], [0, 1], []], [[0, 1], [0, 1]]⟩ = exc .runtimeError := rfl

/-! ## Generator matrix computed from a parity check matrix -/

/-- C24: the encoder that computes a generator matrix with the method `LU_DEC`: if the message determines the codeword the
constructor succeeds and the encoder returns this codeword, otherwise the constructor throws. -/
theorem C24_LU {w K : Nat} {H : Mat} {A : Conns} (h : Holds H A) (hK : 0 < K) (hM : 0 < A.cols)
    (hrows : A.rows = K + A.cols) :
    (Determined A K → ∃ o, makeFromH K A.rows H .luDec = ok o ∧ Represents o.H A ∧ o.infoPos = List.range K ∧
      IsEncoder w A K o.infoPos (encG o.G A.rows)) ∧
    (¬ Determined A K → makeFromH K A.rows H .luDec = exc .runtimeError) := by
  have hlt : A.cols < A.rows := by omega
  have ht := turn_horizontal h hlt
  have ho : Out (hToGLUSparse (turn H .horizontal))
      (fun x => (∃ R, Represents x.1 ⟨K, A.rows, (Finset.range K ×ˢ Finset.range A.rows).filter fun p => genF A K A.cols R p.1 p.2 = true⟩ ∧
        Inverts A K A.cols R) ∧ x.2 = List.range K)
      (fun e => e = .runtimeError ∧ Singular A.cols fun i j => decide ((K + j, i) ∈ A.set)) := by
    unfold hToGLUSparse horizontalOrThrow
    rw [ht.nRows, ht.nCols, if_pos (by simp only [Conns.transpose]; omega)]
    refine Out.bind (sparseToFull_sat ht).out fun Hf hf => ?_
    have hf' : FRep Hf A.cols (K + A.cols) fun i j => decide ((i, j) ∈ A.transpose.set) := by
      rw [← hrows]
      exact hf
    refine Out.bind (hToGLU_out hf' hM (A := A) fun i j _ _ => decide_eq_decide.2 mem_transpose) ?_
    rintro x ⟨⟨R, hR, hI⟩, hx⟩
    rw [← hrows] at hR
    exact Out.bind (fullToSparse_sat hR).out fun t h' => ⟨⟨R, h', hI⟩, hx⟩
  have hm : makeFromH K A.rows H .luDec = hToGLUSparse (turn H .horizontal) >>= fun x => checkG K A.rows x.1 >>= fun G =>
      ok ⟨G, turn (turn H .horizontal) .vertical, x.2⟩ := by
    rw [makeFromH, encoderArgs_eq hK (by omega), bind_ok, checkH_eq (A := A) (Or.inr ht) hlt]
    rfl
  rw [hm]
  cases e : hToGLUSparse (turn H .horizontal) with
  | ub => rw [e] at ho; exact ho.elim
  | exc x =>
    rw [e] at ho
    obtain ⟨rfl, hs⟩ := ho
    exact ⟨fun hd => absurd hd (singular_not_determined hrows rfl hs), fun _ => rfl⟩
  | ok x =>
    rw [e] at ho
    obtain ⟨⟨R, hR, hI⟩, hx⟩ := ho
    rw [bind_ok]
    set S : Conns := ⟨K, A.rows, (Finset.range K ×ˢ Finset.range A.rows).filter fun p => genF A K A.cols R p.1 p.2 = true⟩ with hS
    have hh : Holds x.1 S.transpose := Or.inr (by rw [transpose_transpose]; exact hR)
    have hv := turn_vertical hh (show K < A.rows by omega)
    have hg : checkG K A.rows x.1 = ok (turn x.1 .vertical) := checkG_eq hh (show K < A.rows by omega)
    refine ⟨fun _ => ⟨_, by rw [hg, bind_ok], turn_vertical (Or.inr ht) hlt, hx, ?_⟩, fun hn => absurd (inverts_determined hrows rfl hI) hn⟩
    simp only []
    rw [hx]
    refine isEncoder_of (by simp) fun u X hX => ⟨sysWord A K A.cols R u, ?_, fun k hk => sysWord_satisfied hrows hI u hk, fun i hi => ?_⟩
    · have := encG_eq (w := w) hv u (X := X) hX
      refine this.trans ?_
      congr 1
      refine frame_congr fun i hi => ?_
      rw [← gen_word]
      have hi' : i < A.rows := hi
      refine bsum_congr fun j hj => ?_
      have hj' : j < K := hj
      congr 1
      rw [show genF A K A.cols R j i = decide (genF A K A.cols R j i = true) by simp, decide_eq_decide, mem_transpose]
      simp [hS, hi', hj']
    · have hi' : i < K := by simpa using hi
      rw [List.getElem_range, sysWord, if_pos hi']
      exact ⟨by omega, rfl⟩

example : ∃ o, makeFromH 1 3 ⟨3, 2, 2, 2, 5, [[0, 1], [0, 1], [0]], [[0, 1, 2], [0, 1]]⟩ .luDec = ok o ∧
    encG o.G 3 [1#8] [7#8, 7#8, 7#8] = ok [1#8, 1#8, 0#8] := ⟨_, rfl, rfl⟩

/-- The null word is a codeword and a code where every check has its own parity bit is determined by the message. -/
example : Determined ⟨3, 2, {(0, 0), (0, 1), (1, 0), (2, 1)}⟩ 1 := by
  rintro c ⟨hl, hc⟩ hz v
  have h0 := hc 0 (by decide)
  have h1 := hc 1 (by decide)
  have hz := hz 0 (by decide)
  match c, hl with
  | [a, b, d], hl =>
    clear hl hc
    revert h0 h1 hz
    simp only [satisfied_bsum]
    match v with
    | 0 => revert a b d; decide
    | 1 => revert a b d; decide
    | 2 => revert a b d; decide
    | v + 3 => intros; rfl

/-- Defect next to C24: the method `IDENTITY`, the default one, is undefined for every parity check matrix: the function that
resizes the matrix erases the left columns also from the rows it has just added, and the identity is then written past the
end of these rows. -/
theorem C24_identity_ub {K : Nat} {H : Mat} {A : Conns} (h : Holds H A) (hK : 0 < K) (hM : 0 < A.cols) (hrows : A.rows = K + A.cols) :
    makeFromH K A.rows H .identity = ub := by
  have ht := turn_horizontal h (show A.cols < A.rows by omega)
  rw [makeFromH, encoderArgs_eq hK (by omega), bind_ok]
  have : hToGIdentitySparse (turn H .horizontal) = ub := by
    unfold hToGIdentitySparse horizontalOrThrow
    rw [ht.nRows, ht.nCols, if_pos (by simp only [Conns.transpose]; omega)]
    obtain ⟨Hf, e, hf⟩ := sparseToFull_sat ht
    rw [e, bind_ok]
    have : hToGIdentityV Hf = ub := identity_ub (K := K) (M := A.cols) ⟨by rw [hf.nRows]; exact Nat.le_refl _, by rw [hf.nCols]; exact hrows, by
      have := dim_mk A.transpose.rows A.transpose.cols fun i j => decide ((i, j) ∈ A.transpose.set)
      rw [← hf.v, ← hf.nRows] at this
      rwa [show A.transpose.cols = K + A.cols from hrows] at this⟩ hf.nRows hM hK
    rw [hToGIdentity, this]
    rfl
  simp only [hToG, this]
  rfl

/-- A method that is neither `IDENTITY` nor `LU_DEC` is refused. -/
theorem C24_method {K N : Nat} (hK : 0 < K) (hN : K ≤ N) (H : Mat) : makeFromH K N H .unknown = exc .invalidArgument := by
  rw [makeFromH, encoderArgs_eq hK hN]
  rfl

/-! ## DVB-S2 -/

theorem build_mem {K N : Nat} {d : DVBS2} (h : buildDVBS2 K N = ok d) : d.K = K ∧ d.N = N ∧ goodTable d = true := by
  unfold buildDVBS2 at h
  cases e : selectDVBS2 K N with
  | none => rw [e] at h; cases h
  | some d' =>
    rw [e] at h
    simp only [] at h
    split at h
    · cases h
    · split at h
      · cases h
      · split at h
        · cases h
        · split at h
          · cases h
          · rename_i h1 h2 _ _
            injection h with h
            subst h
            refine ⟨by omega, by omega, ?_⟩
            unfold selectDVBS2 at e
            rw [Option.map_eq_some_iff] at e
            obtain ⟨c, hc, rfl⟩ := e
            exact List.all_eq_true.1 all_good c (List.mem_of_find?_eq_some hc)

theorem build_ok : (dvbs2Lengths.all fun p => match buildDVBS2 p.1 p.2 with | ok _ => true | _ => false) = true := by decide +kernel

theorem cases_lengths : (dvbs2Cases.all fun c => c.2.1 ≤ c.1 && dvbs2Lengths.contains (c.1 - c.2.1, c.1)) = true := by decide +kernel

/-- C24: for every pair `(K, N)` of the DVB-S2 standard accepted by the library, `build_H` gives the matrix described by the
table and the encoder is an encoder of this matrix. -/
theorem C24_DVBS2 {w K N : Nat} (hw : 0 < w) {d : DVBS2} (h : buildDVBS2 K N = ok d) :
    d.K = K ∧ d.N = N ∧ ∃ H A L, Lines d L ∧ buildH d = ok H ∧ Represents H A ∧ IsDVBS2 A d L ∧
      IsEncoder w A K (List.range K) fun U _ => encDVBS2 d U := by
  obtain ⟨hK, hN, hg⟩ := build_mem h
  obtain ⟨L, hL⟩ := table_of_good hg
  obtain ⟨H, e, hH⟩ := buildH_sat hL
  have hsum := hL.N
  have hpos := hL.pos
  subst hK
  subst hN
  refine ⟨rfl, rfl, H, _, L, ⟨hL.len, hL.enc⟩, e, hH, ⟨rfl, ?_, ?_, ?_⟩, ?_⟩
  · show d.NmK = d.N - d.K
    omega
  · intro j hj c hc
    have hj : j < d.NmK := hj
    have hc : c < d.NmK := hc
    rw [Finset.mem_filter, Finset.mem_product, Finset.mem_range, Finset.mem_range]
    simp only [dvbSet]
    rw [if_neg (by omega)]
    omega
  · intro v hv c
    rw [Finset.mem_filter, Finset.mem_product, Finset.mem_range, Finset.mem_range]
    simp only [dvbSet]
    rw [if_pos hv, dvbPos, List.mem_map, show d.N - d.K = d.NmK by omega]
    constructor
    · rintro ⟨_, e, he, rfl⟩
      exact ⟨e, he, rfl⟩
    · rintro ⟨e, he, rfl⟩
      exact ⟨⟨by omega, Nat.mod_lt _ hpos⟩, e, he, rfl⟩
  · refine isEncoder_of (by simp) fun u X hX =>
      ⟨accWord d.K u fun t => bsum d.K fun v => dvbConn d L v t && u v, encDVBS2_eq hw hL u, fun k hk => dvb_satisfied hL u hk, fun i hi => ?_⟩
    have hi' : i < d.K := by simpa using hi
    rw [List.getElem_range, accWord, if_pos hi']
    exact ⟨show i < d.N by omega, rfl⟩

/-- C24: the lengths accepted by `build_dvbs2` are those of the list; the others are refused. -/
theorem C24_DVBS2_lengths (K N : Nat) :
    ((K, N) ∈ dvbs2Lengths → ∃ d, buildDVBS2 K N = ok d) ∧ ((K, N) ∉ dvbs2Lengths → buildDVBS2 K N = exc .invalidArgument) := by
  constructor
  · intro h
    have := List.all_eq_true.1 build_ok _ h
    simp only [] at this
    split at this
    · rename_i d e
      exact ⟨d, e⟩
    · cases this
  · intro h
    have : selectDVBS2 K N = none := by
      unfold selectDVBS2
      rw [Option.map_eq_none_iff, List.find?_eq_none]
      intro c hc he
      have h1 := List.all_eq_true.1 cases_lengths _ hc
      simp only [Bool.and_eq_true, decide_eq_true_iff, List.contains_iff_mem] at h1 he
      apply h
      rw [show (K, N) = (c.1 - c.2.1, c.1) by rw [Prod.mk.injEq]; omega]
      exact h1.2
    unfold buildDVBS2
    rw [this]

example : (32400, 64800) ∈ dvbs2Lengths ∧ (32400, 64801) ∉ dvbs2Lengths := by decide

end Verif.Sparse
