import Verif.Props.LDPCBP

/-!
# C90: what the update rules compute, words without errors, symmetry; C91: defects of the belief propagation decoders
-/

namespace Verif.LDPCBP
open Exec Verif.Sparse Verif.Float

variable {F : Fmt}

theorem dec_not (c : Bool) : (if (!c) = true then 0 else 1) = c.toNat := by cases c <;> rfl

theorem dec_yes (c : Bool) : (if c = true then 1 else 0) = c.toNat := by cases c <;> rfl

/-! ## The rules -/

/-- C90: on floating-point numbers (infinities included), the min-sum rules send to every variable the product of the signs of the
other messages, with the least of their magnitudes, less the offset or times the factor, at least 0 (the greatest finite number if
there is no other message).  With the exact minimum, `AMS` sends what `MS` sends. -/
theorem C90_min_sum_float (F : Fmt) {xs : List Fz} (hx : ∀ x ∈ xs, IsNum x) {i : Nat} (hi : i < xs.length) :
    (ms (opsFz F)).eval xs i xs[i] = ⟨signOther (opsFz F) xs i, (minOther (opsFz F) xs i).mag⟩ ∧
    (ams (opsFz F) (opsFz F).min).eval xs i xs[i] = ⟨signOther (opsFz F) xs i, (minOther (opsFz F) xs i).mag⟩ ∧
    (∀ offset, (oms (opsFz F) offset).eval xs i xs[i] =
      ⟨signOther (opsFz F) xs i, ((opsFz F).max (opsFz F).zero (Fz.sub F (minOther (opsFz F) xs i) offset)).mag⟩) ∧
    (∀ factor, (nms (opsFz F) (normFz F factor)).eval xs i xs[i] =
      ⟨signOther (opsFz F) xs i, ((opsFz F).max (opsFz F).zero (Fz.mul F (minOther (opsFz F) xs i) factor)).mag⟩) := by
  refine ⟨?_, ?_, fun offset => ?_, fun factor => ?_⟩
  · rw [ms_eval (lawful_fz F) hx hi]; rfl
  · rw [ams_eval (lawful_fz F) hx hi]; rfl
  · rw [oms_eq, msWith_eval (lawful_fz F) _ hx hi]; rfl
  · rw [nms_eq, msWith_eval (lawful_fz F) _ hx hi]; rfl

/-- The hypotheses of C90_min_sum_float: the messages 1, -2, -inf. -/
example : ∀ x ∈ ([⟨false, .fin 1⟩, ⟨true, .fin 2⟩, ⟨true, .inf false⟩] : List Fz), IsNum x := by
  simp only [List.mem_cons, List.not_mem_nil, or_false, forall_eq_or_imp, forall_eq, IsNum]
  norm_num

/-- C90: the same on signed integers of `b` bits, for messages other than the least value of the type. -/
theorem C90_min_sum_int {b : Nat} (hb : 0 < b) {xs : List Int} (hx : ∀ x ∈ xs, |x| < 2 ^ (b - 1)) {i : Nat} (hi : i < xs.length) :
    (ms (opsInt b)).eval xs i xs[i] = (opsInt b).csign (minOther (opsInt b) xs i) (signOther (opsInt b) xs i) ∧
    (ams (opsInt b) (opsInt b).min).eval xs i xs[i] = (opsInt b).csign (minOther (opsInt b) xs i) (signOther (opsInt b) xs i) ∧
    (∀ offset, (oms (opsInt b) offset).eval xs i xs[i] =
      (opsInt b).csign ((opsInt b).max 0 ((opsInt b).sub (minOther (opsInt b) xs i) offset)) (signOther (opsInt b) xs i)) ∧
    (∀ k, (nms (opsInt b) (normInt b k)).eval xs i xs[i] =
      (opsInt b).csign ((opsInt b).max 0 (normInt b k (minOther (opsInt b) xs i))) (signOther (opsInt b) xs i)) := by
  refine ⟨?_, ?_, fun offset => ?_, fun factor => ?_⟩
  · rw [ms_eval (lawful_int hb) hx hi]
  · rw [ams_eval (lawful_int hb) hx hi]
  · rw [oms_eq, msWith_eval (lawful_int hb) _ hx hi]; rfl
  · rw [nms_eq, msWith_eval (lawful_int hb) _ hx hi]; rfl

example : (ms (opsInt 8)).eval [5, -3, -7, 4] 1 (-3) = -4 ∧ (oms (opsInt 8) 1).eval [5, -3, -7, 4] 0 5 = 2 ∧
    (nms (opsInt 8) (normInt 8 6)).eval [5, -3, -7, 4] 3 4 = 1 := by decide +kernel

/-- **C90**: the normalization of NMS on integers multiplies by the factor of `k` eighths, up to three roundings down. -/
theorem C90_normalize {b : Nat} (hb : b = 8 ∨ b = 16 ∨ b = 32 ∨ b = 64) {k : Nat} (hk : 1 ≤ k ∧ k ≤ 8) {x : Int} (h0 : 0 ≤ x)
    (h1 : x < 2 ^ (b - 1)) : 8 * normInt b k x ≤ k * x ∧ k * x < 8 * normInt b k x + 24 := by
  have hw : ∀ y : Int, 0 ≤ y → y ≤ x → wrap b y = y := by
    intro y hy hyx
    unfold wrap
    rw [Int.bmod_def]
    rcases hb with rfl | rfl | rfl | rfl <;> norm_num at h1 ⊢ <;> (split <;> omega)
  obtain ⟨hk1, hk2⟩ := hk
  unfold normInt
  have e3 := hw (x / 4 + x / 8) (by omega) (by omega)
  have e5 := hw (x / 2 + x / 8) (by omega) (by omega)
  have e6 := hw (x / 2 + x / 4) (by omega) (by omega)
  have e7 := hw (x / 2 + x / 4 + x / 8) (by omega) (by omega)
  rw [e3, e5, e6, e7]
  have hk : k = 1 ∨ k = 2 ∨ k = 3 ∨ k = 4 ∨ k = 5 ∨ k = 6 ∨ k = 7 ∨ k = 8 := by omega
  rcases hk with rfl | rfl | rfl | rfl | rfl | rfl | rfl | rfl <;> norm_num <;> omega

example : normInt 8 6 100 = 75 := by decide +kernel

/-- C90: whatever the functions used for `tanh`, `atanh`, `log` and `exp`, the sum-product rules send the product of the signs of the
other messages. -/
theorem C90_sum_product_sign (F : Fmt) (th ath ln ex : Fz → Fz) {xs : List Fz} {i : Nat} (hi : i < xs.length) :
    ((spa F th ath).eval xs i xs[i]).neg = signOther (opsFz F) xs i ∧
    ((lspa F th ath ln ex).eval xs i xs[i]).neg = signOther (opsFz F) xs i :=
  ⟨spa_sign F th ath hi, lspa_sign F th ath ln ex hi⟩

/-! ## Words without errors -/

/-- C90: flooding with a min-sum rule on floating-point numbers, any matrix whose variables have at most 256 checks, any history of
calls, any codeword `b`.  If the LLRs have the signs of the bits of the codeword, the decoder gives this codeword, whatever the number
of iterations; it announces it when the criterion is disabled, when there is one iteration or more iterations than the depth. -/
theorem C90_recovery_flooding {r : Rule Fz} (hr : MinSum F r) {p0 : Fz} {A : Conns} {H : Mat} (hA : Represents H A)
    (hdeg : ∀ v, v < A.rows → A.rowDeg v ≤ 256) {K N nIte depth : Int} {info : List Nat} {syn : Bool} (hi : ∀ p ∈ info, p < A.rows)
    {d0 d : Flood Fz} (h0 : Flood.mk? (opsFz F) p0 K N nIte H info syn depth = ok d0) (h : Flood.Hist (opsFz F) r d0 true d) {Y : List Fz}
    (hY : (Y.length : Int) = N) {b : Nat → Bool} (hb : Codeword A b) (hn : NoError F A.rows b (llr (opsFz F) Y)) :
    ∃ cwd : Nat, (syn = false ∨ nIte = 1 ∨ depth < nIte → cwd = 1) ∧
      (∀ V : List Nat, (V.length : Int) = K → ∃ d', d.siho (opsFz F) r Y V =
        ok (d', ⟨cwd, 1 - cwd, info.map fun i => (b i).toNat⟩)) ∧
      (∀ (lanes : Nat) (V : List Nat), (V.length : Int) = N → ∃ d', d.sihoCw (opsFz F) r lanes Y V =
        ok (d', ⟨cwd, 1 - cwd, (List.range N.toNat).map fun v => (b v).toNat⟩)) := by
  obtain ⟨f, hf, rfl⟩ := minSum_corr hr
  obtain ⟨k, n, cwd, a1, -, a3, a4, -, a6, a7, -⟩ := C89_flooding hA hdeg hi h0 h hY
  have hNr := (flood_mk hA hdeg hi h0).2.2.2.2.2
  have hcl : ∀ j, Clear F b A.rows (floodPost (opsFz F) (msWith (opsFz F) f) H (llr (opsFz F) Y) j) := by
    intro j
    have := floodPost_clear (good hA) hf (codeword_parity hA hb) (y := llr (opsFz F) Y) (by rw [hA.nRows]; exact noError_clear hn) j
    rw [hA.nRows] at this
    exact this
  have hval : ∀ j, Valid (opsFz F) A (floodPost (opsFz F) (msWith (opsFz F) f) H (llr (opsFz F) Y) j) := by
    intro j
    refine (codeword_congr fun v hv => ?_).2 hb
    obtain ⟨g1, g2, g3⟩ := clear_neg (hcl j) hv
    rw [(tests g1 g2).1, g3]
  refine ⟨cwd, ?_, ?_, ?_⟩
  · rintro (hs | hs | hs)
    · rw [a4, if_pos (Or.inl hs)]
    · rw [a4, if_pos (Or.inr (Or.inr hs))]
    · rw [a4]
      by_cases he : syn = false
      · rw [if_pos (Or.inl he)]
      · rw [if_pos]
        refine Or.inr (Or.inl ?_)
        by_contra hc
        refine a3.before (by simpa using he) depth.toNat (by omega) (by omega) ⟨by omega, fun j _ _ _ => hval j⟩
  · intro V hV
    obtain ⟨d', e⟩ := a6 V hV
    refine ⟨d', ?_⟩
    rw [e]
    congr 3
    refine List.map_congr_left fun i hi' => ?_
    obtain ⟨g1, g2, g3⟩ := clear_neg (hcl n) (hi i hi')
    rw [(tests g1 g2).2.2, g3]
    cases b i <;> simp
  · intro lanes V hV
    obtain ⟨d', e⟩ := a7 lanes V hV
    refine ⟨d', ?_⟩
    rw [e]
    congr 3
    refine List.map_congr_left fun i hi' => ?_
    obtain ⟨g1, g2, g3⟩ := clear_neg (hcl n) (show i < A.rows by have := List.mem_range.1 hi'; omega)
    rw [(tests g1 g2).1, (tests g1 g2).2.1, g3, ite_self]
    cases b i <;> simp

/-- C90: the same for the two layered decoders when they stop after their first iteration: the criterion has depth 1, or there is only
one iteration. -/
theorem C90_recovery_layered {r : Rule Fz} (hr : MinSum F r) {sc : Sched} {A : Conns} {H : Mat} (hA : Represents H A)
    {K N nIte depth : Int} {info : List Nat} {syn : Bool} (hi : ∀ p ∈ info, p < A.rows)
    {d0 d : Layer Fz} (h0 : Layer.mk? (opsFz F) sc K N nIte H info syn depth = ok d0) (h : Layer.Hist (opsFz F) r d0 true d) {Y : List Fz}
    (hY : (Y.length : Int) = N) {b : Nat → Bool} (hb : Codeword A b) (hn : NoError F A.rows b (llr (opsFz F) Y))
    (hs : (syn = true ∧ depth = 1) ∨ nIte = 1) :
    ∃ cwd : Nat, (syn = false ∨ depth = 1 → cwd = 1) ∧
      (∀ V : List Nat, (V.length : Int) = K → ∃ d', d.siho (opsFz F) r Y V =
        ok (d', ⟨cwd, 1 - cwd, info.map fun i => (b i).toNat⟩)) ∧
      (∀ (lanes : Nat) (V : List Nat), (V.length : Int) = N → ∃ d', d.sihoCw (opsFz F) r lanes Y V =
        ok (d', ⟨cwd, 1 - cwd, (List.range N.toNat).map fun v => (b v).toNat⟩)) := by
  obtain ⟨f, hf, rfl⟩ := minSum_corr hr
  obtain ⟨k, n, cwd, a1, -, a3, -, a5, -, a6, a7, -⟩ := C89_layered hA hi h0 h hY
  have hNr := (lay_mk hA hi h0).2.2.2.2.2.2
  have hcl : Clear F b A.rows (layPost (opsFz F) (msWith (opsFz F) f) H sc (llr (opsFz F) Y) 1) := by
    have hc : Clear F b H.nRows (llr (opsFz F) Y) := by rw [hA.nRows]; exact noError_clear hn
    rw [← hA.nRows]
    cases sc with
    | horizontal => exact hor_first (good hA) hf (codeword_parity hA hb) hc
    | vertical => exact ver_first (good hA) hf (codeword_parity hA hb) hc
  have hval : Valid (opsFz F) A (layPost (opsFz F) (msWith (opsFz F) f) H sc (llr (opsFz F) Y) 1) := by
    refine (codeword_congr fun v hv => ?_).2 hb
    obtain ⟨g1, g2, g3⟩ := clear_neg hcl hv
    rw [(tests g1 g2).1, g3]
  have hrun : depth = 1 → Run (fun j => Valid (opsFz F) A (layPost (opsFz F) (msWith (opsFz F) f) H sc (llr (opsFz F) Y) j)) depth.toNat k 1 := by
    intro hd
    refine ⟨by omega, fun j h1 h2 _ => ?_⟩
    have : j = 1 := by omega
    subst this
    exact hval
  have hn1 : n = 1 := by
    have hp := a3.pos
    have hl := a3.le
    rcases hs with ⟨h1, h2⟩ | h1
    · by_contra hc
      exact a3.before h1 1 (le_refl _) (by omega) (hrun h2)
    · omega
  subst hn1
  refine ⟨cwd, ?_, ?_, ?_⟩
  · rintro (hs | hs)
    · exact a5.2 (Or.inr (Or.inl hs))
    · exact a5.2 (Or.inr (Or.inr (hrun hs)))
  · intro V hV
    obtain ⟨d', e⟩ := a6 V hV
    refine ⟨d', ?_⟩
    rw [e]
    congr 3
    refine List.map_congr_left fun i hi' => ?_
    obtain ⟨g1, g2, g3⟩ := clear_neg hcl (hi i hi')
    rw [(tests g1 g2).2.2, g3]
    cases b i <;> simp
  · intro lanes V hV
    obtain ⟨d', e⟩ := a7 lanes V hV
    refine ⟨d', ?_⟩
    rw [e]
    congr 3
    refine List.map_congr_left fun i hi' => ?_
    obtain ⟨g1, g2, g3⟩ := clear_neg hcl (show i < A.rows by have := List.mem_range.1 hi'; omega)
    rw [(tests g1 g2).1, (tests g1 g2).2.1, g3, ite_self]
    cases b i <;> simp

/-! ## Symmetry -/

theorem flipped_sy {n : Nat} {b : Nat → Bool} {y y' : Nat → Fz} (h : Flipped F n b y y') {v : Nat} (hv : v < n) :
    Sy F (b v) (y v) (y' v) ∧ IsFin (y v).val := by
  obtain ⟨h1, h2, ⟨q, h3⟩, h4⟩ := h v hv
  have hn : ∀ {x : Fz}, IsFin x.val → x.mag ≠ .nan := by
    intro x hx e
    have : x.val = .nan := by unfold Fz.val; rw [e]; cases x.neg <;> rfl
    rw [this] at hx
    exact hx
  have hf : IsFin (y v).val := by rw [h3]; trivial
  have hf' : IsFin (y' v).val := by rw [h4]; exact flip_fin.2 hf
  exact ⟨⟨isFz_nn h1 (hn hf), isFz_nn h2 (hn hf'), h4⟩, hf⟩

/-- C90: flooding treats all the codewords alike.  Take finite LLRs `Y` whose a posteriori values are never null and the LLRs `Y'` whose
signs are flipped according to a codeword `b`: the decisions are those for `Y`, flipped according to `b`, with the same announcement. -/
theorem C90_symmetry_flooding {r : Rule Fz} (hr : MinSum F r) {p0 : Fz} {A : Conns} {H : Mat} (hA : Represents H A)
    (hdeg : ∀ v, v < A.rows → A.rowDeg v ≤ 256) {K N nIte depth : Int} {info : List Nat} {syn : Bool} (hi : ∀ p ∈ info, p < A.rows)
    {d0 d : Flood Fz} (h0 : Flood.mk? (opsFz F) p0 K N nIte H info syn depth = ok d0) (h : Flood.Hist (opsFz F) r d0 true d) {Y Y' : List Fz}
    (hY : (Y.length : Int) = N) (hY' : (Y'.length : Int) = N) (hs : syn = false ∨ depth = 1) {b : Nat → Bool} (hb : Codeword A b)
    (hf : Flipped F A.rows b (llr (opsFz F) Y) (llr (opsFz F) Y'))
    (hz : ∀ n : Nat, 1 ≤ n → (n : Int) ≤ nIte → ∀ v, v < A.rows → (floodPost (opsFz F) r H (llr (opsFz F) Y) n v).val ≠ .fin 0) :
    ∃ (cwd : Nat) (x : Nat → Bool),
      (∀ V : List Nat, (V.length : Int) = K →
        (∃ d', d.siho (opsFz F) r Y V = ok (d', ⟨cwd, 1 - cwd, info.map fun i => (x i).toNat⟩)) ∧
        ∃ d', d.siho (opsFz F) r Y' V = ok (d', ⟨cwd, 1 - cwd, info.map fun i => (x i ^^ b i).toNat⟩)) ∧
      (∀ (lanes : Nat) (V : List Nat), (V.length : Int) = N →
        (∃ d', d.sihoCw (opsFz F) r lanes Y V = ok (d', ⟨cwd, 1 - cwd, (List.range N.toNat).map fun v => (x v).toNat⟩)) ∧
        ∃ d', d.sihoCw (opsFz F) r lanes Y' V = ok (d', ⟨cwd, 1 - cwd, (List.range N.toNat).map fun v => (x v ^^ b v).toNat⟩)) := by
  obtain ⟨f, hc, rfl⟩ := minSum_corr hr
  obtain ⟨k, n, cwd, a1, -, a3, a4, -, a6, a7, -⟩ := C89_flooding hA hdeg hi h0 h hY
  obtain ⟨k', n', cwd', b1, -, b3, b4, -, b6, b7, -⟩ := C89_flooding hA hdeg hi h0 h hY'
  have hNr := (flood_mk hA hdeg hi h0).2.2.2.2.2
  have hsy : ∀ (j v : Nat), v < A.rows → Sy F (b v) (floodPost (opsFz F) (msWith (opsFz F) f) H (llr (opsFz F) Y) j v)
      (floodPost (opsFz F) (msWith (opsFz F) f) H (llr (opsFz F) Y') j v) := by
    intro j v hv
    rw [← hA.nRows] at hv
    exact floodPost_sy (good hA) hc (codeword_parity hA hb) (fun v hv => flipped_sy hf (by rw [← hA.nRows]; exact hv)) j hv
  have hval : ∀ j : Nat, 1 ≤ j → j ≤ nIte.toNat → (Valid (opsFz F) A (floodPost (opsFz F) (msWith (opsFz F) f) H (llr (opsFz F) Y') j) ↔
      Valid (opsFz F) A (floodPost (opsFz F) (msWith (opsFz F) f) H (llr (opsFz F) Y) j)) := fun j h1 h2 =>
    valid_congr hA hb fun v hv => (sy_tests (hsy j v hv) (hz j h1 (by omega) v hv)).1
  have hnn : n = n' := by
    rcases hs with hs | hs
    · refine stopsAt_unique (stopsAt_congr (fun he => ?_) a3) b3
      rw [hs] at he; cases he
    · have e1 : k = 0 := by omega
      have e2 : k' = 0 := by omega
      subst e1 e2
      exact stopsAt_unique a3 (stopsAt_congr (fun _ i _ h2 => run_congr h2 hval) b3)
  subst hnn
  rw [← a4] at b4
  subst b4
  have ht : ∀ v, v < A.rows → _ := fun v hv => sy_tests (hsy n v hv) (hz n a3.pos (by have := a3.le; have := a3.pos; omega) v hv)
  refine ⟨cwd', fun v => (opsFz F).isNeg (floodPost (opsFz F) (msWith (opsFz F) f) H (llr (opsFz F) Y) n v), fun V hV => ⟨?_, ?_⟩,
    fun lanes V hV => ⟨?_, ?_⟩⟩
  · obtain ⟨d', e⟩ := a6 V hV
    refine ⟨d', ?_⟩
    rw [e]
    congr 3
    refine List.map_congr_left fun i hi' => ?_
    obtain ⟨t1, t2, t3, t4, t5⟩ := ht i (hi i hi')
    rw [t5]
    exact dec_not _
  · obtain ⟨d', e⟩ := b6 V hV
    refine ⟨d', ?_⟩
    rw [e]
    congr 3
    refine List.map_congr_left fun i hi' => ?_
    obtain ⟨t1, t2, t3, t4, t5⟩ := ht i (hi i hi')
    rw [t3]
    exact dec_not _
  · obtain ⟨d', e⟩ := a7 lanes V hV
    refine ⟨d', ?_⟩
    rw [e]
    congr 3
    refine List.map_congr_left fun i hi' => ?_
    obtain ⟨t1, t2, t3, t4, t5⟩ := ht i (show i < A.rows by have := List.mem_range.1 hi'; omega)
    rw [t4, ite_self]
    exact dec_yes _
  · obtain ⟨d', e⟩ := b7 lanes V hV
    refine ⟨d', ?_⟩
    rw [e]
    congr 3
    refine List.map_congr_left fun i hi' => ?_
    obtain ⟨t1, t2, t3, t4, t5⟩ := ht i (show i < A.rows by have := List.mem_range.1 hi'; omega)
    rw [t1, t2, ite_self]
    exact dec_yes _

/-- C90: the same for the horizontal scheduling. -/
theorem C90_symmetry_horizontal {r : Rule Fz} (hr : MinSum F r) {A : Conns} {H : Mat} (hA : Represents H A)
    {K N nIte depth : Int} {info : List Nat} {syn : Bool} (hi : ∀ p ∈ info, p < A.rows)
    {d0 d : Layer Fz} (h0 : Layer.mk? (opsFz F) .horizontal K N nIte H info syn depth = ok d0) (h : Layer.Hist (opsFz F) r d0 true d)
    {Y Y' : List Fz} (hY : (Y.length : Int) = N) (hY' : (Y'.length : Int) = N) (hs : syn = false ∨ depth = 1) {b : Nat → Bool}
    (hb : Codeword A b) (hf : Flipped F A.rows b (llr (opsFz F) Y) (llr (opsFz F) Y'))
    (hz : ∀ n : Nat, 1 ≤ n → (n : Int) ≤ nIte → ∀ v, v < A.rows → (layPost (opsFz F) r H .horizontal (llr (opsFz F) Y) n v).val ≠ .fin 0) :
    ∃ (cwd : Nat) (x : Nat → Bool),
      (∀ V : List Nat, (V.length : Int) = K →
        (∃ d', d.siho (opsFz F) r Y V = ok (d', ⟨cwd, 1 - cwd, info.map fun i => (x i).toNat⟩)) ∧
        ∃ d', d.siho (opsFz F) r Y' V = ok (d', ⟨cwd, 1 - cwd, info.map fun i => (x i ^^ b i).toNat⟩)) ∧
      (∀ (lanes : Nat) (V : List Nat), (V.length : Int) = N →
        (∃ d', d.sihoCw (opsFz F) r lanes Y V = ok (d', ⟨cwd, 1 - cwd, (List.range N.toNat).map fun v => (x v).toNat⟩)) ∧
        ∃ d', d.sihoCw (opsFz F) r lanes Y' V = ok (d', ⟨cwd, 1 - cwd, (List.range N.toNat).map fun v => (x v ^^ b v).toNat⟩)) := by
  obtain ⟨f, hc, rfl⟩ := minSum_corr hr
  obtain ⟨k, n, cwd, a1, -, a3, a4, a5, -, a6, a7, -⟩ := C89_layered hA hi h0 h hY
  obtain ⟨k', n', cwd', b1, -, b3, b4, b5, -, b6, b7, -⟩ := C89_layered hA hi h0 h hY'
  have hNr := (lay_mk hA hi h0).2.2.2.2.2.2
  have hsy : ∀ (j v : Nat), v < A.rows → Sy F (b v) (layPost (opsFz F) (msWith (opsFz F) f) H .horizontal (llr (opsFz F) Y) j v)
      (layPost (opsFz F) (msWith (opsFz F) f) H .horizontal (llr (opsFz F) Y') j v) := by
    intro j v hv
    rw [← hA.nRows] at hv
    exact (hor_sy (good hA) hc (codeword_parity hA hb) (fun v hv => (flipped_sy hf (by rw [← hA.nRows]; exact hv)).1) j).L v hv
  have hval : ∀ j : Nat, 1 ≤ j → j ≤ nIte.toNat →
      (Valid (opsFz F) A (layPost (opsFz F) (msWith (opsFz F) f) H .horizontal (llr (opsFz F) Y') j) ↔
      Valid (opsFz F) A (layPost (opsFz F) (msWith (opsFz F) f) H .horizontal (llr (opsFz F) Y) j)) := fun j h1 h2 =>
    valid_congr hA hb fun v hv => (sy_tests (hsy j v hv) (hz j h1 (by omega) v hv)).1
  have hnn : n = n' ∧ (cwd = 1 ↔ cwd' = 1) := by
    rcases hs with hs | hs
    · refine ⟨stopsAt_unique (stopsAt_congr (fun he => ?_) a3) b3, ?_⟩
      · rw [hs] at he; cases he
      · rw [a5, b5]; simp [hs]
    · have e1 : k = 0 := by omega
      have e2 : k' = 0 := by omega
      subst e1 e2
      have := stopsAt_unique a3 (stopsAt_congr (fun _ i _ h2 => run_congr h2 hval) b3)
      subst this
      exact ⟨rfl, by rw [a5, b5, run_congr a3.le hval]⟩
  obtain ⟨hnn, hcw⟩ := hnn
  subst hnn
  have : cwd = cwd' := by omega
  subst this
  have ht : ∀ v, v < A.rows → _ := fun v hv => sy_tests (hsy n v hv) (hz n a3.pos (by have := a3.le; have := a3.pos; omega) v hv)
  refine ⟨cwd, fun v => (opsFz F).isNeg (layPost (opsFz F) (msWith (opsFz F) f) H .horizontal (llr (opsFz F) Y) n v), fun V hV => ⟨?_, ?_⟩,
    fun lanes V hV => ⟨?_, ?_⟩⟩
  · obtain ⟨d', e⟩ := a6 V hV
    refine ⟨d', ?_⟩
    rw [e]
    congr 3
    refine List.map_congr_left fun i hi' => ?_
    obtain ⟨t1, t2, t3, t4, t5⟩ := ht i (hi i hi')
    rw [t5]
    exact dec_not _
  · obtain ⟨d', e⟩ := b6 V hV
    refine ⟨d', ?_⟩
    rw [e]
    congr 3
    refine List.map_congr_left fun i hi' => ?_
    obtain ⟨t1, t2, t3, t4, t5⟩ := ht i (hi i hi')
    rw [t3]
    exact dec_not _
  · obtain ⟨d', e⟩ := a7 lanes V hV
    refine ⟨d', ?_⟩
    rw [e]
    congr 3
    refine List.map_congr_left fun i hi' => ?_
    obtain ⟨t1, t2, t3, t4, t5⟩ := ht i (show i < A.rows by have := List.mem_range.1 hi'; omega)
    rw [t4, ite_self]
    exact dec_yes _
  · obtain ⟨d', e⟩ := b7 lanes V hV
    refine ⟨d', ?_⟩
    rw [e]
    congr 3
    refine List.map_congr_left fun i hi' => ?_
    obtain ⟨t1, t2, t3, t4, t5⟩ := ht i (show i < A.rows by have := List.mem_range.1 hi'; omega)
    rw [t1, t2, ite_self]
    exact dec_yes _

/-! ## Concrete cases -/

instance (A : Conns) (x : Nat → Bool) : Decidable (Codeword A x) := by unfold Codeword Satisfied; infer_instance

/-- A codeword of the code of length 5. -/
def exB (v : Nat) : Bool := v = 0 || v = 1 || v = 3

theorem exB_cw : Codeword (conns 5 3 exL) exB := by decide +kernel

/-- A value of type `float`. -/
def fz (z : Int) : Fz := ⟨decide (z < 0), .fin |(z : ℚ)|⟩

theorem fz_val (z : Int) : (fz z).val = .fin z := by
  unfold fz Fz.val
  by_cases h : z < 0
  · have : ((z : ℚ)) < 0 := by exact_mod_cast h
    simp [h, Fl.neg, abs_of_neg this]
  · have : (0 : ℚ) ≤ z := by exact_mod_cast not_lt.1 h
    simp [h, abs_of_nonneg this]

theorem fz_isFz {z : Int} (h : |z| < 2 ^ 24) : IsFz b32 (fz z) := by
  refine ⟨abs_nonneg _, ?_⟩
  have := rep_int b32 |z| (by rw [abs_abs]; exact h) (by decide) (by decide)
  rw [← Int.cast_abs]
  exact this

/-- The LLRs of this codeword without errors. -/
def exY : List Fz := [fz (-1), fz (-2), fz 3, fz (-4), fz 5]

theorem exY_noError : NoError b32 5 exB (llr (opsFz b32) exY) := by
  intro v hv
  have : v = 0 ∨ v = 1 ∨ v = 2 ∨ v = 3 ∨ v = 4 := by omega
  rcases this with rfl | rfl | rfl | rfl | rfl <;>
    refine ⟨fz_isFz (by decide), ?_, by show (fz _).val ≠ _; rw [fz_val]; intro h; injection h with h; norm_num at h⟩ <;>
    (show Agrees _ (fz _); unfold Agrees; rw [fz_val]; simp [exB])

/-- The hypotheses of the recovery theorems, met by a decoder with the rule `NMS` of factor 3/4: it gives the codeword. -/
example : ∃ d0 d', Flood.mk? (opsFz b32) ⟨true, .fin 1⟩ 2 5 10 exH [0, 1] true 1 = ok d0 ∧
    d0.sihoCw (opsFz b32) (nms (opsFz b32) (normFz b32 ⟨false, .fin (3 / 4)⟩)) 8 exY [9, 9, 9, 9, 9] = ok (d', ⟨1, 0, [1, 1, 0, 1, 0]⟩) := by
  obtain ⟨d0, h0⟩ := (C89_flooding_constructor (o := opsFz b32) (p0 := ⟨true, .fin 1⟩) exH_rep 2 5 10 1 [0, 1] true).1
    (by refine ⟨?_, ?_, rfl, ?_, ?_, rfl, ?_⟩ <;> decide)
  obtain ⟨cwd, h1, -, h2⟩ := C90_recovery_flooding (F := b32) (MinSum.nms (factor := ⟨false, .fin (3 / 4)⟩) (t := 3 / 4) rfl (by norm_num)
    (by norm_num)) exH_rep exH_deg (by decide) h0 .init (Y := exY) rfl exB_cw exY_noError
  have := h1 (Or.inr (Or.inr (by decide)))
  subst this
  obtain ⟨d', e⟩ := h2 8 [9, 9, 9, 9, 9] rfl
  exact ⟨d0, d', h0, e⟩

/-- The same for the layered decoders, with the rule `OMS` of offset 1/2. -/
example (sc : Sched) : ∃ d0 d', Layer.mk? (opsFz b32) sc 2 5 10 exH [0, 1] true 1 = ok d0 ∧
    d0.sihoCw (opsFz b32) (oms (opsFz b32) ⟨false, .fin (1 / 2)⟩) 8 exY [9, 9, 9, 9, 9] = ok (d', ⟨1, 0, [1, 1, 0, 1, 0]⟩) := by
  obtain ⟨d0, h0⟩ := (C89_layered_constructor (o := opsFz b32) sc exH_rep 2 5 10 1 [0, 1] true).1
    (by refine ⟨?_, ?_, rfl, ?_, ?_, rfl, ?_⟩ <;> decide)
  obtain ⟨cwd, h1, -, h2⟩ := C90_recovery_layered (F := b32) (MinSum.oms (offset := ⟨false, .fin (1 / 2)⟩) (t := 1 / 2) rfl (by norm_num))
    exH_rep (by decide) h0 .init (Y := exY) rfl exB_cw exY_noError (Or.inl ⟨rfl, rfl⟩)
  have := h1 (Or.inr rfl)
  subst this
  obtain ⟨d', e⟩ := h2 8 [9, 9, 9, 9, 9] rfl
  exact ⟨d0, d', h0, e⟩

/-- The hypotheses of the symmetry theorems: LLRs with an error, their a posteriori values after one iteration, and the flipped LLRs. -/
example : Flipped b32 5 exB (llr (opsFz b32) [fz (-1), fz 5, fz 5, fz 5, fz 5]) (llr (opsFz b32) [fz 1, fz (-5), fz 5, fz (-5), fz 5]) ∧
    ∀ v, v < 5 → (floodPost (opsFz b32) (ms (opsFz b32)) exH (llr (opsFz b32) [fz (-1), fz 5, fz 5, fz 5, fz 5]) 1 v).val ≠ .fin 0 := by
  constructor
  · intro v hv
    have : v = 0 ∨ v = 1 ∨ v = 2 ∨ v = 3 ∨ v = 4 := by omega
    rcases this with rfl | rfl | rfl | rfl | rfl <;>
      exact ⟨fz_isFz (by decide), fz_isFz (by decide), ⟨_, fz_val _⟩, by
        show (fz _).val = flip _ (fz _).val; simp only [fz_val]; simp [exB, flip, Fl.neg]⟩
  · decide +kernel

/-! ## C91: defects -/

/-- A decoder by flooding built on `mat n m l` and a call on a new decoder. -/
def runFlood {R : Type} (o : Ops R) (r : Rule R) (p0 : R) (n m : Nat) (l : List (Nat × Nat)) (K nIte : Int) (info : List Nat) (syn : Bool)
    (depth : Int) (lanes : Nat) (Y : List R) (V : List Nat) : Exec (Res Nat) :=
  mat n m l >>= fun H => Flood.mk? o p0 K n nIte H info syn depth >>= fun d => d.sihoCw o r lanes Y V >>= fun q => ok q.2

/-- The same for the layered decoders. -/
def runLayer {R : Type} (o : Ops R) (r : Rule R) (sc : Sched) (n m : Nat) (l : List (Nat × Nat)) (K nIte : Int) (info : List Nat) (syn : Bool)
    (depth : Int) (lanes : Nat) (Y : List R) (V : List Nat) : Exec (Res Nat) :=
  mat n m l >>= fun H => Layer.mk? o sc K n nIte H info syn depth >>= fun d => d.sihoCw o r lanes Y V >>= fun q => ok q.2

/-- C91 (defect): the checks of a variable are counted on 8 bits.  On any matrix with a variable of more than 256 checks the constructor of
flooding succeeds, and in the decoder two distinct edges of the graph share one message: every iteration, the message of the one
overwrites that of the other. -/
theorem C91_degree {R : Type} {o : Ops R} {p0 : R} {A : Conns} {H : Mat} (hA : Represents H A) {K N nIte depth : Int} {info : List Nat}
    {syn : Bool} (hp : Params A K N nIte depth info) {v : Nat} (hv : v < A.rows) (h : 256 < A.rowDeg v) :
    ∃ d, Flood.mk? o p0 K N nIte H info syn depth = ok d ∧
      ∃ i j s, i ≠ j ∧ i < A.set.card ∧ j < A.set.card ∧ d.tr[i]? = some s ∧ d.tr[j]? = some s := by
  have hg := good hA
  obtain ⟨tr, ht, hs⟩ := buildTr_any hg
  obtain ⟨h1, h2, h3, h4, h5, h6, h7⟩ := hp
  have hr := hA.nRows
  have hlen : 256 < (chks H v).length := by
    rw [chks_length hg, ← card_row (nodup_rowOf hA v) (fun c => mem_rowOf hA v c)]
    exact h
  have hm : ∀ k (hk : k < (chks H v).length), v ∈ vars H (chks H v)[k] := fun k hk => (mem_chks hg).1 (List.getElem_mem hk)
  have hat : ∀ k (hk : k < (chks H v).length), tr[coff H (chks H v)[k] + (vars H (chks H v)[k]).idxOf v]? = some (off H v + k % 256) := by
    intro k hk
    have hi := List.idxOf_lt_length_of_mem (hm k hk)
    rw [hs _ _ hi, List.getElem_idxOf]
    unfold slot8
    rw [(chks_nodup H v).idxOf_getElem k hk]
  have hlt : ∀ k (hk : k < (chks H v).length), coff H (chks H v)[k] + (vars H (chks H v)[k]).idxOf v < A.set.card := by
    intro k hk
    rw [← hA.count]
    exact coff_lt hg (hg.lt _ _ (hm k hk)).2 (List.idxOf_lt_length_of_mem (hm k hk))
  refine ⟨_, by unfold Flood.mk?; rw [cfg_iff.2 ⟨⟨h1, h2, h4, h5, by omega, by omega, h7⟩, rfl⟩, bind_ok, ht, bind_ok], ?_⟩
  refine ⟨_, _, _, ?_, hlt 0 (by omega), hlt 256 (by omega), hat 0 (by omega), hat 256 (by omega)⟩
  intro e
  have := (psum_inj (f := fun c => (vars H c).length) (List.idxOf_lt_length_of_mem (hm 0 (by omega)))
    (List.idxOf_lt_length_of_mem (hm 256 (by omega))) e).1
  have := (List.Nodup.getElem_inj_iff (chks_nodup H v)).1 this
  omega

/-- Such a matrix: one variable in 257 checks. -/
example : ∃ H A, Represents H A ∧ Params A 1 1 1 1 [0] ∧ 0 < A.rows ∧ 256 < A.rowDeg 0 := by
  obtain ⟨H, -, hH⟩ := mat_sat 1 257 ((List.range 257).map fun i => (0, i)) ((List.nodup_map_iff fun i j h => by simpa using h).2 List.nodup_range)
    (by simp)
  refine ⟨H, _, hH, ⟨by decide, by decide, rfl, by decide, by decide, rfl, by decide⟩, by decide, ?_⟩
  have : (conns 1 257 ((List.range 257).map fun i => (0, i))).rowDeg 0 = 257 := by
    unfold Conns.rowDeg conns
    rw [Finset.filter_true_of_mem (by simp), List.toFinset_card_of_nodup
      ((List.nodup_map_iff fun i j h => by simpa using h).2 List.nodup_range)]
    simp
  omega

/-- C91 (defect): the sums of integer messages wrap around.  On 8-bit LLRs which are all 31 (the all-zero codeword without any error) and a
variable of degree 4, flooding and the horizontal scheduling give the all-one word and announce a codeword. -/
theorem C91_wrap :
    runFlood (opsInt 8) (ms (opsInt 8)) (-1) 5 4 [(0, 0), (1, 0), (0, 1), (2, 1), (0, 2), (3, 2), (0, 3), (4, 3)] 1 10 [0] true 1 16
      [31, 31, 31, 31, 31] [9, 9, 9, 9, 9] = ok ⟨1, 0, [1, 1, 1, 1, 1]⟩ ∧
    runLayer (opsInt 8) (ms (opsInt 8)) .horizontal 5 4 [(0, 0), (1, 0), (0, 1), (2, 1), (0, 2), (3, 2), (0, 3), (4, 3)] 1 10 [0] true 1 16
      [31, 31, 31, 31, 31] [9, 9, 9, 9, 9] = ok ⟨1, 0, [1, 1, 1, 1, 1]⟩ := by
  constructor <;> decide +kernel

/-- C91 (defect): a check with one variable sends the greatest value of the type, so that an integer a posteriori value always wraps around:
a positive LLR of a bit which the check forces to 0 is decided 1. -/
theorem C91_degree_one (y : Int) (h0 : 0 < y) (h1 : y < 128) :
    runFlood (opsInt 8) (ms (opsInt 8)) (-1) 2 1 [(0, 0)] 1 1 [1] true 1 16 [y, 5] [9, 9] = ok ⟨1, 0, [1, 0]⟩ := by
  have h : ∀ y : Fin 128, y.val ≠ 0 →
      runFlood (opsInt 8) (ms (opsInt 8)) (-1) 2 1 [(0, 0)] 1 1 [1] true 1 16 [(y.val : Int), 5] [9, 9] = ok ⟨1, 0, [1, 0]⟩ := by
    decide +kernel
  have := h ⟨y.toNat, by omega⟩ (by show y.toNat ≠ 0; omega)
  rwa [show ((⟨y.toNat, by omega⟩ : Fin 128).val : Int) = y from by show (y.toNat : Int) = y; omega] at this

/-- C91 (defect): with a depth greater than 1 the number of valid iterations of a codeword counts for the next one, resets or not.  The
same LLRs decoded twice by the same decoder: a codeword is announced the second time only (the decisions are a codeword both times). -/
theorem C91_depth_history :
    (mat 2 1 [(0, 0), (1, 0)] >>= fun H => Flood.mk? (opsInt 8) (-1) 1 2 2 H [1] true 2 >>= fun d =>
      d.sihoCw (opsInt 8) (ms (opsInt 8)) 16 [5, 5] [9, 9] >>= fun q =>
      (q.1.reset (opsInt 8)).sihoCw (opsInt 8) (ms (opsInt 8)) 16 [5, 5] [9, 9] >>= fun q' => ok (q.2, q'.2)) =
    ok (⟨0, 1, [0, 0]⟩, ⟨1, 0, [0, 0]⟩) := by
  decide +kernel

/-- C91 (defect): a codeword may be announced although the decisions are not one, even with the criterion enabled: by flooding when there
is one iteration, by the vertical scheduling always. -/
theorem C91_announced :
    runFlood (opsInt 8) (ms (opsInt 8)) (-1) 5 3 exL 2 1 [0, 1] true 1 16 [-1, 5, 5, 5, -9] [9, 9, 9, 9, 9] = ok ⟨1, 0, [1, 0, 0, 0, 1]⟩ ∧
    runLayer (opsInt 8) (ms (opsInt 8)) .vertical 5 3 exL 2 1 [0, 1] true 1 16 [-1, 5, 5, 5, -9] [9, 9, 9, 9, 9] =
      ok ⟨1, 0, [1, 0, 1, 0, 1]⟩ ∧
    ¬ Codeword (conns 5 3 exL) (fun v => [1, 0, 0, 0, 1].getD v 0 = 1) ∧ ¬ Codeword (conns 5 3 exL) (fun v => [1, 0, 1, 0, 1].getD v 0 = 1) := by
  refine ⟨?_, ?_, ?_, ?_⟩ <;> decide +kernel

/-- C91 (defect): flooding never checks the decisions of its last iteration.  A codeword that two iterations find is not announced. -/
theorem C91_missed :
    runFlood (opsInt 8) (ms (opsInt 8)) (-1) 2 1 [(0, 0), (1, 0)] 1 1 [1] true 2 16 [5, 5] [9, 9] = ok ⟨1, 0, [0, 0]⟩ ∧
    runFlood (opsInt 8) (ms (opsInt 8)) (-1) 2 1 [(0, 0), (1, 0)] 1 2 [1] true 2 16 [5, 5] [9, 9] = ok ⟨0, 1, [0, 0]⟩ := by
  constructor <;> decide +kernel

/-! ### Null LLRs in the sum-product rules -/

theorem fold_values (l : List Fz) (f : PSt → Nat → Fz → PSt) (g : Fz → Fz) (s0 : PSt)
    (hf : ∀ s i x, (f s i x).values = fun j => if j = i then g x else s.values j) {i : Nat} (hi : i < l.length) :
    (l.zipIdx.foldl (fun s p => f s p.2 p.1) s0).values i = g l[i] := by
  induction l using List.reverseRecOn with
  | nil => simp at hi
  | append_singleton l a ih =>
    rw [List.zipIdx_append, List.foldl_append]
    simp only [List.zipIdx_cons, List.zipIdx_nil, List.foldl_cons, List.foldl_nil]
    rw [hf]
    by_cases e : i = l.length
    · subst e
      simp
    · have hi' : i < l.length := by simp at hi; omega
      dsimp only
      rw [if_neg (by omega), ih hi', List.getElem_append_left hi']

/-- C91 (defect): `SPA` and a null LLR.  The message to a variable whose LLR is null is computed as 0 / 0; as it is not less than 1 it is
replaced by the greatest one, `2 atanh(1 - epsilon)`: whatever the other LLRs, even very small or null ones, the variable is told its
value with the greatest confidence.  `th` and `ath` are any functions such that `th 0 = 0` and `0 <= th x <= 1`. -/
theorem C91_null_spa (F : Fmt) (h1 : F.Rep 1) (th ath : Fz → Fz) (hth : ∀ m, ∃ q, (th ⟨false, m⟩).val = .fin q ∧ 0 ≤ q ∧ q ≤ 1)
    (h0 : (th ⟨false, .fin 0⟩).val = .fin 0) {xs : List Fz} {i : Nat} (hi : i < xs.length) (hx : xs[i].mag = .fin 0) :
    (spa F th ath).eval xs i xs[i] = ⟨signOther (opsFz F) xs i, (ath (oneMinus F)).mag⟩ := by
  have hs := spa_sign F th ath hi
  have key : ∀ l : List Fz, ∃ q, (l.zipIdx.foldl (fun s p => (spa F th ath).inp s p.2 p.1) (spa F th ath).start).acc.val = .fin q ∧ 0 ≤ q ∧
      q ≤ 1 ∧ ((∃ x ∈ l, x.mag = .fin 0) → q = 0) := by
    intro l
    induction l using List.reverseRecOn with
    | nil => exact ⟨1, rfl, by norm_num, le_refl _, by simp⟩
    | append_singleton l a ih =>
      obtain ⟨q, e1, e2, e3, e4⟩ := ih
      rw [List.zipIdx_append, List.foldl_append]
      simp only [List.zipIdx_cons, List.zipIdx_nil, List.foldl_cons, List.foldl_nil]
      generalize (l.zipIdx.foldl (fun s p => (spa F th ath).inp s p.2 p.1) (spa F th ath).start) = s at e1 ⊢
      obtain ⟨t, t1, t2, t3⟩ := hth a.mag
      have hacc : ((spa F th ath).inp s (0 + l.length) a).acc.val = F.of (q * t) := by
        show (Fz.mul F s.acc (th ⟨false, a.mag⟩)).val = _
        unfold Fz.mul
        rw [val_of, e1, t1]; rfl
      have hle : F.rnd (q * t) ≤ 1 := by
        have := rnd_mono F (show q * t ≤ 1 by nlinarith)
        rwa [rnd_rep F h1] at this
      have hge : 0 ≤ F.rnd (q * t) := by
        have := rnd_mono F (show 0 ≤ q * t from mul_nonneg e2 t2)
        rwa [Modem.rnd_zero] at this
      have hof : F.of (q * t) = .fin (F.rnd (q * t)) := by
        unfold Fmt.of
        rw [if_neg]
        obtain ⟨_, _, _, _, _, hb⟩ := h1
        rw [abs_one] at hb
        rw [abs_of_nonneg hge, not_le]
        linarith
      refine ⟨F.rnd (q * t), by rw [hacc, hof], hge, hle, ?_⟩
      rintro ⟨x, hxm, hx0⟩
      have : q * t = 0 := by
        rcases List.mem_append.1 hxm with hm | hm
        · rw [e4 ⟨x, hm, hx0⟩, zero_mul]
        · rw [List.mem_singleton.1 hm] at hx0
          rw [hx0, h0] at t1
          injection t1 with t1
          rw [← t1, mul_zero]
      rw [this, Modem.rnd_zero]
  obtain ⟨q, e1, -, -, e4⟩ := key xs
  have e4 := e4 ⟨xs[i], List.getElem_mem hi, hx⟩
  subst e4
  have hv := fold_values xs (spa F th ath).inp (fun x => th ⟨false, x.mag⟩) (spa F th ath).start (fun _ _ _ => rfl) hi
  have : (spa F th ath).eval xs i xs[i] = ⟨((spa F th ath).eval xs i xs[i]).neg, ((spa F th ath).eval xs i xs[i]).mag⟩ := rfl
  rw [this, hs]
  congr 1
  have fin : ∀ st : PSt, st.acc.val = .fin 0 → (st.values i).val = .fin 0 →
      (ath (if Fl.lt (Fz.div F st.acc (st.values i)).val one.val then Fz.div F st.acc (st.values i) else oneMinus F)).mag =
        (ath (oneMinus F)).mag := by
    intro st a1 a2
    rw [if_neg]
    unfold Fz.div
    rw [val_of, a1, a2]
    have : F.div (.fin 0) (.fin 0) = .nan := rfl
    rw [this]
    simp [Fl.lt]
  exact fin _ e1 (by rw [← h0, ← hx]; exact congrArg Fz.val hv)

/-- C91 (defect): `LSPA` and a null LLR.  The logarithm of 0 is replaced by the smallest positive number, as if the bit were known.  On a
check of two variables, the one with a null LLR and the other with any LLR `x` such that `log(tanh |x / 2|)` absorbs this number: the
message to the other variable should be null, it is the greatest one, and tells this variable that it is 0 (1 if the null is
negative). -/
theorem C91_null_lspa (F : Fmt) (th ath ln ex : Fz → Fz) (h0 : (th ⟨false, .fin 0⟩).val = .fin 0) {x : Fz} {q : ℚ} (s : Bool)
    (h1 : (th ⟨false, x.mag⟩).val ≠ .fin 0) (h2 : (ln (th ⟨false, x.mag⟩)).val = .fin q) (h3 : F.of (0 + 2 ^ (F.emin + F.p - 1)) = .fin (2 ^ (F.emin + F.p - 1)))
    (h4 : F.of (2 ^ (F.emin + F.p - 1) + q) = .fin q) :
    (lspa F th ath ln ex).eval [⟨s, .fin 0⟩, x] 1 x = ⟨s, (ath (oneMinus F)).mag⟩ := by
  have hn : (minNormal F).val = .fin (2 ^ (F.emin + F.p - 1)) := rfl
  have a1 : (Fz.add F ⟨false, .fin 0⟩ (minNormal F)).val = .fin (2 ^ (F.emin + F.p - 1)) := by
    unfold Fz.add
    rw [val_of, hn]
    exact h3
  have a2 : (Fz.add F (Fz.add F ⟨false, .fin 0⟩ (minNormal F)) (ln (th ⟨false, x.mag⟩))).val = .fin q := by
    rw [show ∀ a b : Fz, (Fz.add F a b).val = F.add a.val b.val from fun a b => val_of _ _, a1, h2]
    exact h4
  have a3 : (Fz.sub F (Fz.add F (Fz.add F ⟨false, .fin 0⟩ (minNormal F)) (ln (th ⟨false, x.mag⟩))) (ln (th ⟨false, x.mag⟩))).val = .fin 0 := by
    rw [show ∀ a b : Fz, (Fz.sub F a b).val = F.add a.val b.val.neg from fun a b => val_sub (F := F) a b, a2, h2]
    show F.of (q + -q) = _
    rw [add_neg_cancel]
    unfold Fmt.of
    rw [Modem.rnd_zero, if_neg]
    rw [abs_zero, not_le]
    exact two_zpow_pos _
  have hev : (lspa F th ath ln ex).eval [⟨s, .fin 0⟩, x] 1 x = ⟨((false ^^ s) ^^ x.neg) ^^ x.neg,
      (ath (if (Fz.sub F (Fz.add F (Fz.add F ⟨false, .fin 0⟩ (if (th ⟨false, .fin 0⟩).val ≠ .fin 0 then ln (th ⟨false, .fin 0⟩) else minNormal F))
        (if (th ⟨false, x.mag⟩).val ≠ .fin 0 then ln (th ⟨false, x.mag⟩) else minNormal F))
        (if (th ⟨false, x.mag⟩).val ≠ .fin 0 then ln (th ⟨false, x.mag⟩) else minNormal F)).val ≠ .fin 0 then
        ex (Fz.sub F (Fz.add F (Fz.add F ⟨false, .fin 0⟩ (if (th ⟨false, .fin 0⟩).val ≠ .fin 0 then ln (th ⟨false, .fin 0⟩) else minNormal F))
        (if (th ⟨false, x.mag⟩).val ≠ .fin 0 then ln (th ⟨false, x.mag⟩) else minNormal F))
        (if (th ⟨false, x.mag⟩).val ≠ .fin 0 then ln (th ⟨false, x.mag⟩) else minNormal F)) else oneMinus F)).mag⟩ := rfl
  rw [hev, if_neg (not_not.2 h0), if_pos h1, if_neg (not_not.2 a3)]
  cases s <;> cases x.neg <;> rfl

/-- The hypotheses on the numbers: `float` and `log(tanh |x / 2|) = -1`. -/
example : b32.Rep 1 ∧ b32.of (0 + 2 ^ (b32.emin + b32.p - 1)) = .fin (2 ^ (b32.emin + b32.p - 1)) ∧
    b32.of (2 ^ (b32.emin + b32.p - 1) + (-1)) = .fin (-1) := by
  refine ⟨?_, by decide +kernel, by decide +kernel⟩
  have := rep_int b32 1 (by decide) (by decide) (by decide)
  simpa using this

end Verif.LDPCBP
