import Verif.Proof.LDPCPP
import Verif.Props.LDPCBP

/-!
# C115, C116: LDPC bit flipping decoders
-/

namespace Verif.LDPCBF
open Exec Verif.Sparse Verif.Float Verif.LDPCBP

variable {R : Type} {o : Arith R} {A : Conns} {H : Mat} {f : R} {n : Int} {info : List Nat}

/-! ## Weighted bit flipping -/

/-- C115: after any history, the weighted bit flipping decoder does not fail on a frame of the size of the code, and its outputs are
those of the specification: the signs of the LLRs, then `n_ite` times the flip of the first variable of greatest energy unless
all the checks are satisfied. -/
theorem C115_omwbf (hA : Represents H A) (hs : SmallDegrees A) (hg : Signs o) (hinfo : ∀ p ∈ info, p < A.rows) {d : Soft R}
    (hr : Soft.Reach o A H f n info d) (y : Nat → R) :
    (∀ V : List Bool, V.length = d.K → ∃ d', d.siho o (frameOf A.rows y) V =
      ok (d', resOf (announced o H A f y n.toNat) (info.map (decisions o H A f y n.toNat)))) ∧
    (∀ V : List Bool, V.length = d.N → ∃ d', d.sihoCw o (frameOf A.rows y) V =
      ok (d', resOf (announced o H A f y n.toNat) (frameOf A.rows (decisions o H A f y n.toNat)))) ∧
    (∀ V : List R, V.length = d.N → ∃ d', d.siso o (frameOf A.rows y) V =
      ok (d', resOf (announced o H A f y n.toNat)
        (frameOf A.rows fun v => o.sub (if decisions o H A f y n.toNat v then o.mone else o.one) (y v)))) := by
  have w := reach_wf hA hs hg hinfo hr
  refine ⟨fun V hV => ?_, fun V hV => ?_, fun V hV => ?_⟩
  · obtain ⟨a, e, -, h⟩ := siho_eq hA hs hg hinfo w y hV
    exact ⟨a.1, by rw [e, ← h]⟩
  · obtain ⟨a, e, -, h⟩ := sihoCw_eq hA hs hg w y hV
    exact ⟨a.1, by rw [e, ← h]⟩
  · obtain ⟨a, e, -, h⟩ := siso_eq hA hs w y hV
    exact ⟨a.1, by rw [e, ← h]⟩

/-- C115: with at least one iteration, the words that the decoder announces as codewords are codewords. -/
theorem C115_omwbf_announced (hA : Represents H A) (hs : SmallDegrees A) (hg : Signs o) (hinfo : ∀ p ∈ info, p < A.rows) (hn : 0 < n)
    {d d' : Soft R} (hr : Soft.Reach o A H f n info d) {Y : List R} {V : List Bool} {r : Res Bool} (hY : Y.length = A.rows) (hV : V.length = d.N)
    (e : d.sihoCw o Y V = ok (d', r)) (hc : r.cwd = 1) : Codeword A fun v => r.out.getD v false := by
  haveI : Inhabited R := ⟨o.zero⟩
  obtain ⟨y, rfl⟩ := frame_of_list hY
  obtain ⟨d'', e'⟩ := (C115_omwbf hA hs hg hinfo hr y).2.1 V hV
  rw [e] at e'
  cases e'
  obtain ⟨k, hk⟩ : ∃ k, n.toNat = k + 1 := ⟨n.toNat - 1, by omega⟩
  rw [hk] at hc ⊢
  have hcw : Codeword A (decisions o H A f y k) := by
    by_contra hcw
    simp [resOf, announced, hcw] at hc
  refine (codeword_cong fun v hv => ?_).2 hcw
  simp only [resOf]
  rw [decisions_stable hcw (m := k + 1) (by omega), getD_lt _ (by rw [frameOf_length]; exact hv)]
  simp [frameOf]

/-- C115: when the signs of the LLRs are a codeword, they are the decision and a codeword is announced. -/
theorem C115_omwbf_codeword (hA : Represents H A) (hs : SmallDegrees A) (hg : Signs o) (hinfo : ∀ p ∈ info, p < A.rows) {d : Soft R}
    (hr : Soft.Reach o A H f n info d) (y : Nat → R) (hy : Codeword A fun v => o.isNeg (y v)) :
    (∀ V : List Bool, V.length = d.K → ∃ d', d.siho o (frameOf A.rows y) V = ok (d', ⟨1, 0, info.map fun v => o.isNeg (y v)⟩)) ∧
    (∀ V : List Bool, V.length = d.N → ∃ d', d.sihoCw o (frameOf A.rows y) V = ok (d', ⟨1, 0, frameOf A.rows fun v => o.isNeg (y v)⟩)) := by
  obtain ⟨h1, h2, -⟩ := C115_omwbf hA hs hg hinfo hr y
  have hst : ∀ m, decisions o H A f y m = fun v => o.isNeg (y v) := fun m => decisions_stable (k := 0) hy (Nat.zero_le m)
  have han : announced o H A f y n.toNat = true := by
    cases n.toNat with
    | zero => rfl
    | succ m => rw [announced, hst]; simpa using hy
  rw [han, hst] at h1 h2
  exact ⟨h1, h2⟩

/-- C115: the decoder is symmetric: changing the signs of the LLRs where a codeword has ones adds the codeword to the decision and
changes nothing to what is announced. -/
theorem C115_omwbf_symmetric (hA : Represents H A) (hs : SmallDegrees A) (hg : Signs o) (hinfo : ∀ p ∈ info, p < A.rows) {d : Soft R}
    (hr : Soft.Reach o A H f n info d) {y y' : Nat → R} {z : Nat → Bool} (hz : Codeword A z) (hy : SignChanged o A z y y') {V : List Bool}
    (hV : V.length = d.N) : ∃ (d1 d2 : Soft R) (b : Bool) (x : Nat → Bool), d.sihoCw o (frameOf A.rows y) V = ok (d1, resOf b (frameOf A.rows x)) ∧
      d.sihoCw o (frameOf A.rows y') V = ok (d2, resOf b (frameOf A.rows fun v => x v ^^ z v)) := by
  obtain ⟨d1, e1⟩ := (C115_omwbf hA hs hg hinfo hr y).2.1 V hV
  obtain ⟨d2, e2⟩ := (C115_omwbf hA hs hg hinfo hr y').2.1 V hV
  obtain ⟨h1, h2⟩ := decisions_sym (f := f) hA (reach_wf hA hs hg hinfo hr).pos hz hy n.toNat
  refine ⟨d1, d2, _, _, e1, ?_⟩
  rw [e2, h2, range_ok h1]

/-- C115: the decision differs from the signs of the LLRs in at most `n_ite` positions. -/
theorem C115_omwbf_distance (hA : Represents H A) (hs : SmallDegrees A) (hg : Signs o) (hinfo : ∀ p ∈ info, p < A.rows) {d : Soft R}
    (hr : Soft.Reach o A H f n info d) (y : Nat → R) {V : List Bool} (hV : V.length = d.N) :
    ∃ (d' : Soft R) (b : Bool) (x : Nat → Bool), d.sihoCw o (frameOf A.rows y) V = ok (d', resOf b (frameOf A.rows x)) ∧
      ((Finset.range A.rows).filter fun v => x v ≠ o.isNeg (y v)).card ≤ n.toNat := by
  obtain ⟨d1, e1⟩ := (C115_omwbf hA hs hg hinfo hr y).2.1 V hV
  exact ⟨d1, _, _, e1, decisions_dist y n.toNat⟩

/-- C115: in fixed point, the variable that is flipped is the first one whose energy is the greatest. -/
theorem C115_omwbf_worst (b : Nat) (e : Nat → Int) (m : Nat) : worst (arithInt b) e m ≤ m ∧
    (∀ v, v ≤ m → e v ≤ e (worst (arithInt b) e m)) ∧ ∀ v, v < worst (arithInt b) e m → e v < e (worst (arithInt b) e m) := by
  induction m with
  | zero => exact ⟨le_refl _, fun v hv => by have : v = 0 := by omega
                                             subst this; exact le_refl _, fun v hv => absurd hv (Nat.not_lt_zero _)⟩
  | succ m ih =>
    obtain ⟨h1, h2, h3⟩ := ih
    have hlt : ∀ x z : Int, (arithInt b).lt x z = decide (x < z) := fun _ _ => rfl
    rw [worst, hlt]
    by_cases hc : e (worst (arithInt b) e m) < e (m + 1)
    · rw [if_pos (by simpa using hc)]
      refine ⟨le_refl _, fun v hv => ?_, fun v hv => ?_⟩
      · by_cases hv' : v = m + 1
        · rw [hv']
        · have := h2 v (by omega); omega
      · have := h2 v (by omega); omega
    · rw [if_neg (by simpa using hc)]
      refine ⟨by omega, fun v hv => ?_, h3⟩
      by_cases hv' : v = m + 1
      · rw [hv']; omega
      · exact h2 v (by omega)

/-- The arithmetics of the library distinguish `1` and `-1`. -/
theorem signs_int (b : Nat) : Signs (arithInt b) := by refine ⟨?_, ?_, ?_, ?_⟩ <;> rfl

theorem signs_float (F : Fmt) : Signs (arithFz F) := by
  refine ⟨?_, ?_, ?_, ?_⟩ <;> simp [arithFz, opsFz, Fz.val, Fl.lt, Fl.neg, nonnegFl]

/-- Changing the sign of a non-null LLR is a change of sign in fixed point, if it is not the least value. -/
example : SignChanged (arithInt 16) (conns 5 3 exL) (fun v => decide (v = 0 ∨ v = 1 ∨ v = 3)) (fun v => if v = 0 then -5 else 7)
    (fun v => if v = 0 then 5 else if v = 1 ∨ v = 3 then -7 else 7) := by
  unfold SignChanged
  decide +kernel

/-- The code of the example of C89. -/
abbrev exA : Conns := conns 5 3 exL

theorem exA_small : SmallDegrees exA := by
  unfold SmallDegrees
  decide +kernel

/-- The hypotheses are met by a decoder of 16-bit LLRs, which corrects an error. -/
example : ∃ d, Soft.mk? (arithInt 16) false 2 5 4 exH [0, 1] 1 true 1 = ok d ∧ Soft.Reach (arithInt 16) exA exH 1 4 [0, 1] d :=
  ⟨_, rfl, Soft.Reach.make (char8 := false) (enable := true) (K := 2) (N := 5) (depth := 1) rfl⟩

example : (do
    let d ← Soft.mk? (arithInt 16) false 2 5 4 exH [0, 1] 1 true 1
    let r ← d.sihoCw (arithInt 16) [-1, 3, 3, 3, 3] (List.replicate 5 true)
    let r ← r.1.sihoCw (arithInt 16) [5, -7, 7, -7, 7] (List.replicate 5 true)
    ok r.2) = ok ⟨1, 0, [true, true, false, true, false]⟩ := by decide +kernel

example : Codeword exA fun v => decide (v = 0 ∨ v = 1 ∨ v = 3) := by decide +kernel

/-! ## Probabilistic parallel bit flipping -/

variable {S : Source} {w : Nat}

/-- After any history, the sizes of a decoder are those of its constructor. -/
theorem hreach_wf (hw : 2 ≤ w) (hA : Represents H A) (hinfo : ∀ p ∈ info, p < A.rows) {d : Hard S w} (hr : Hard.Reach A H info d) :
    d.WF A H info := by
  induction hr with
  | make e => exact Hard.wf_mk hA e
  | hiho _ hV e ih =>
    obtain ⟨a, ea, h1, -⟩ := hiho_eq hw hA hinfo ih _ hV
    rw [e] at ea
    cases ea
    exact h1
  | hihoCw _ hV e ih =>
    obtain ⟨a, ea, h1, -⟩ := hihoCw_eq hw hA ih _ hV
    rw [e] at ea
    cases ea
    exact h1

/-- C115: after any history, on a frame of bits, the probabilistic decoder does not fail, and its outputs are those of the
specification: in each iteration the variables are flipped or not according to the draws of their energies, and the iterations
stop when the decisions have been a codeword `syndrome_depth` times in a row. -/
theorem C115_ppbf (hw : 2 ≤ w) (hA : Represents H A) (hinfo : ∀ p ∈ info, p < A.rows) {d : Hard S w} (hr : Hard.Reach A H info d) (y : Nat → Bool) :
    ∃ (x : Nat → Bool) (s : S.σ) (b : Bool), ppRun A d.enable d.depth y (d.nIte - 1) 0 (y, d.rng) = ((x, s), b) ∧
    (∀ V : List (BitVec w), V.length = d.K → ∃ d', d.hiho (bits w A.rows y) V =
      ok (d', resOf b (info.map fun p => if x p then 1#w else 0#w)) ∧ d'.rng = s) ∧
    (∀ V : List (BitVec w), V.length = d.N → ∃ d', d.hihoCw (bits w A.rows y) V = ok (d', resOf b (bits w A.rows x)) ∧ d'.rng = s) := by
  have wf := hreach_wf hw hA hinfo hr
  refine ⟨_, _, _, rfl, fun V hV => ?_, fun V hV => ?_⟩
  · obtain ⟨a, e, -, h1, h2⟩ := hiho_eq hw hA hinfo wf y hV
    exact ⟨a.1, by rw [e, ← h2], h1⟩
  · obtain ⟨a, e, -, h1, h2⟩ := hihoCw_eq hw hA wf y hV
    exact ⟨a.1, by rw [e, ← h2], h1⟩

/-- C115: when the stop criterion is enabled with a depth of one, the words that the probabilistic decoder announces as codewords are
codewords, whatever is drawn. -/
theorem C115_ppbf_announced (hw : 2 ≤ w) (hA : Represents H A) (hinfo : ∀ p ∈ info, p < A.rows) {d d' : Hard S w} (hr : Hard.Reach A H info d)
    (he : d.enable = true) (hd : d.depth = 1) {y : Nat → Bool} {V : List (BitVec w)} {r : Res (BitVec w)} (hV : V.length = d.N)
    (e : d.hihoCw (bits w A.rows y) V = ok (d', r)) (hc : r.cwd = 1) : Codeword A fun v => r.out.getD v 0#w != 0#w := by
  obtain ⟨x, s, b, hp, -, h2⟩ := C115_ppbf hw hA hinfo hr y
  obtain ⟨d'', e', -⟩ := h2 V hV
  rw [e] at e'
  cases e'
  have hb : b = true := by
    cases b
    · simp [resOf] at hc
    · rfl
  rw [he, hd] at hp
  have := ppRun_sound (S := S) (A := A) (y := y) (d.nIte - 1) 0 (y, d.rng) (by rw [hp]; exact hb)
  rw [hp] at this
  refine (codeword_cong fun v hv => ?_).2 this
  simp only [resOf]
  rw [getD_lt _ (by simpa [bits] using hv)]
  simp only [bits, List.getElem_map, List.getElem_range]
  exact bv_ne hw (x v)

/-- C115: a codeword that is received is the decision, and is announced, when the stop criterion is enabled with a depth of one, or when
the distribution of energy zero never flips. -/
theorem C115_ppbf_codeword (hw : 2 ≤ w) (hA : Represents H A) (hinfo : ∀ p ∈ info, p < A.rows) {d : Hard S w} (hr : Hard.Reach A H info d)
    (hq : (d.enable = true ∧ d.depth = 1) ∨ ∀ s, (S.draw s 0).1 = false) {y : Nat → Bool} (hy : Codeword A y) :
    (∀ V : List (BitVec w), V.length = d.K → ∃ d', d.hiho (bits w A.rows y) V = ok (d', ⟨1, 0, info.map fun p => if y p then 1#w else 0#w⟩)) ∧
    (∀ V : List (BitVec w), V.length = d.N → ∃ d', d.hihoCw (bits w A.rows y) V = ok (d', ⟨1, 0, bits w A.rows y⟩)) := by
  obtain ⟨x, s, b, hp, h1, h2⟩ := C115_ppbf hw hA hinfo hr y
  have hxb : x = y ∧ b = true := by
    rcases hq with ⟨he, hd⟩ | hq
    · rw [he, hd, ppRun_first hy] at hp
      cases hp
      exact ⟨rfl, rfl⟩
    · have := ppRun_quiet hq (enable := d.enable) (depth := d.depth) hy hA (d.nIte - 1) 0 d.rng
      rw [hp] at this
      exact this
  rw [hxb.1, hxb.2] at h1 h2
  exact ⟨fun V hV => (h1 V hV).imp fun _ h => h.1, fun V hV => (h2 V hV).imp fun _ h => h.1⟩

/-- C115: the probabilistic decoder is symmetric, in all settings: with the same draws, adding a codeword to the received bits adds it to the
decision, and changes neither what is announced nor the next draws. -/
theorem C115_ppbf_symmetric (hw : 2 ≤ w) (hA : Represents H A) (hinfo : ∀ p ∈ info, p < A.rows) {d : Hard S w} (hr : Hard.Reach A H info d)
    {y z : Nat → Bool} (hz : Codeword A z) {V : List (BitVec w)} (hV : V.length = d.N) :
    ∃ (d1 d2 : Hard S w) (b : Bool) (x : Nat → Bool), d.hihoCw (bits w A.rows y) V = ok (d1, resOf b (bits w A.rows x)) ∧
      d.hihoCw (bits w A.rows fun v => y v ^^ z v) V = ok (d2, resOf b (bits w A.rows fun v => x v ^^ z v)) ∧ d1.rng = d2.rng := by
  obtain ⟨x, s, b, hp, -, h2⟩ := C115_ppbf hw hA hinfo hr y
  obtain ⟨x', s', b', hp', -, h2'⟩ := C115_ppbf hw hA hinfo hr fun v => y v ^^ z v
  obtain ⟨d1, e1, g1⟩ := h2 V hV
  obtain ⟨d2, e2, g2⟩ := h2' V hV
  obtain ⟨k1, k2, k3⟩ := ppRun_sym (S := S) (enable := d.enable) (depth := d.depth) hA hz (y := y) (y' := fun v => y v ^^ z v) (fun v _ => rfl)
    (d.nIte - 1) 0 y (fun v => y v ^^ z v) d.rng fun v _ => rfl
  rw [hp, hp'] at k1 k2 k3
  dsimp only at k1 k2 k3
  refine ⟨d1, d2, b, x, e1, ?_, by rw [g1, g2, k2]⟩
  rw [e2, k3]
  congr 3
  unfold bits
  apply List.map_congr_left
  intro v hv
  have := k1 v (List.mem_range.1 hv)
  exact congrArg (bv w) this

/-- A source that flips the variables of energy at least two. -/
def above : Source := ⟨Unit, fun _ e => (decide (2 ≤ e), ())⟩

/-- A source that always flips. -/
def always : Source := ⟨Unit, fun _ _ => (true, ())⟩

/-- The hypotheses are met by a decoder, which corrects an error. -/
example : ∃ d : Hard above 32, Hard.mk? above 32 false 2 5 4 exH [0, 1] 4 true 1 () = ok d ∧ Hard.Reach exA exH [0, 1] d ∧ d.enable = true ∧ d.depth = 1 ∧
    ∀ s, (above.draw s 0).1 = false :=
  ⟨_, rfl, Hard.Reach.make (char8 := false) (K := 2) (N := 5) (nIte := 4) (depth := 1) (nProba := 4) (enable := true) (s := ()) rfl, rfl, rfl, fun _ => rfl⟩

example : (do
    let d ← Hard.mk? above 32 false 2 5 4 exH [0, 1] 4 true 1 ()
    let r ← d.hihoCw [1#32, 0#32, 0#32, 0#32, 0#32] (List.replicate 5 0#32)
    ok r.2) = ok ⟨1, 0, List.replicate 5 0#32⟩ := by decide +kernel

/-! ## What is wrong -/

/-- C116, false part 1: the weighted decoder accepts a number of iterations that is not positive, and then announces every word
as a codeword. -/
theorem C116_no_iteration (hA : Represents H A) (hs : SmallDegrees A) (hg : Signs o) (hinfo : ∀ p ∈ info, p < A.rows) (hn : n ≤ 0) {d : Soft R}
    (hr : Soft.Reach o A H f n info d) (y : Nat → R) {V : List Bool} (hV : V.length = d.N) :
    ∃ d', d.sihoCw o (frameOf A.rows y) V = ok (d', ⟨1, 0, frameOf A.rows fun v => o.isNeg (y v)⟩) := by
  obtain ⟨d', e⟩ := (C115_omwbf hA hs hg hinfo hr y).2.1 V hV
  have h0 : n.toNat = 0 := by omega
  rw [h0] at e
  exact ⟨d', e⟩

example : (do
    let d ← Soft.mk? (arithInt 16) false 2 5 0 exH [0, 1] 1 true 1
    let r ← d.sihoCw (arithInt 16) [-1, 3, 3, 3, 3] (List.replicate 5 false)
    ok r.2) = ok ⟨1, 0, [true, false, false, false, false]⟩ ∧ ¬ Codeword exA fun v => [true, false, false, false, false].getD v false := by
  decide +kernel

/-- C116, false part 2: the weighted decoder does not check the word again after the flip of the last iteration: the error is corrected, the output is
a codeword, and it is not announced. -/
theorem C116_last_flip : (do
    let d ← Soft.mk? (arithInt 16) false 2 5 1 exH [0, 1] 1 true 1
    let r ← d.sihoCw (arithInt 16) [-1, 3, 3, 3, 3] (List.replicate 5 false)
    ok r.2) = ok ⟨0, 1, [false, false, false, false, false]⟩ ∧ Codeword exA fun v => [false, false, false, false, false].getD v false := by
  decide +kernel

/-- The matrix of a single check of 256 variables. -/
def wideH : Mat := ((mat 256 1 ((List.range 256).map fun v => (v, 0))).toOption).getD (new 0 0)

/-- C116, false part 3: a check of 256 variables is counted as a check of none: words that fail it are announced as codewords. -/
theorem C116_wide_check : (do
    let d ← Soft.mk? (arithInt 16) false 1 256 10 wideH [0] 1 true 1
    let r ← d.sihoCw (arithInt 16) ((-1) :: List.replicate 255 1) (List.replicate 256 false)
    ok r.2) = ok ⟨1, 0, true :: List.replicate 255 false⟩ ∧ parity (fun v => (true :: List.replicate 255 false).getD v false) (vars wideH 0) = true := by
  decide +kernel

/-- C116, false part 4: with a depth of two, the probabilistic decoder updates the variables after a check that succeeds, and announces as a codeword a word
that is not: `true` is announced for the word before the last update. -/
theorem C116_depth : (do
    let d ← Hard.mk? always 32 false 2 5 1 exH [0, 1] 4 true 2 ()
    let r ← d.hihoCw (List.replicate 5 0#32) (List.replicate 5 0#32)
    ok r.2) = ok ⟨1, 0, List.replicate 5 1#32⟩ ∧ ¬ Codeword exA fun v => (List.replicate 5 1#32).getD v 0#32 != 0#32 := by
  decide +kernel

/-- C116, false part 5: the same without stop criterion. -/
theorem C116_no_syndrome : (do
    let d ← Hard.mk? always 32 false 2 5 1 exH [0, 1] 4 false 1 ()
    let r ← d.hihoCw (List.replicate 5 0#32) (List.replicate 5 0#32)
    ok r.2) = ok ⟨1, 0, List.replicate 5 1#32⟩ ∧ ¬ Codeword exA fun v => (List.replicate 5 1#32).getD v 0#32 != 0#32 := by
  decide +kernel

/-- C116, false part 6: a codeword reached by the last update is not announced. -/
theorem C116_last_update : (do
    let d ← Hard.mk? above 32 false 2 5 1 exH [0, 1] 4 true 1 ()
    let r ← d.hihoCw [1#32, 0#32, 0#32, 0#32, 0#32] (List.replicate 5 0#32)
    ok r.2) = ok ⟨0, 1, List.replicate 5 0#32⟩ ∧ Codeword exA fun v => (List.replicate 5 0#32).getD v 0#32 != 0#32 := by
  decide +kernel

/-- C116, false part 7: a received value that is neither 0 nor 1 gives an energy that is not the number of a distribution: it is undefined
behaviour. -/
theorem C116_not_bits : (do
    let d ← Hard.mk? above 32 false 2 5 1 exH [0, 1] 4 true 1 ()
    let r ← d.hihoCw [4#32, 0#32, 0#32, 0#32, 0#32] (List.replicate 5 0#32)
    ok r.2) = ub := by
  decide +kernel

end Verif.LDPCBF
