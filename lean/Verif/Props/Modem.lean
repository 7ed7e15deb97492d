import Verif.Proof.ModemReal

/-! # Properties of the modem -/

namespace Verif.Modem
open Verif.Float Verif.Cstl Verif.ML Verif.Chase Exec

/-- A BPSK as a constellation. -/
def exBpsk : Cstl := ⟨1, 2, [⟨.fin 1, .fin 0⟩, ⟨.fin (-1), .fin 0⟩], false⟩
/-- Four points on a line, with a Gray labelling. -/
def exPam : Cstl := ⟨2, 4, [⟨.fin 1, .fin 0⟩, ⟨.fin 3, .fin 0⟩, ⟨.fin (-1), .fin 0⟩, ⟨.fin (-3), .fin 0⟩], false⟩
/-- Four points on a circle. -/
def exQpsk : Cstl := ⟨2, 4, [⟨.fin 1, .fin 1⟩, ⟨.fin (-1), .fin 1⟩, ⟨.fin 1, .fin (-1)⟩, ⟨.fin (-1), .fin (-1)⟩], true⟩

theorem exPam_whole : Whole exPam := by unfold Whole exPam; decide
theorem exQpsk_whole : Whole exQpsk := by unfold Whole exQpsk; decide

/-- A modem on the line with three bits per frame. -/
def exG : Cfg := ⟨b32, true, 3, 2, exPam, false⟩
theorem exG_good : exG.Good := ⟨exPam_whole, rfl, rfl⟩
/-- A modem on the circle with three bits per frame. -/
def exQ : Cfg := ⟨b64, true, 3, 4, exQpsk, false⟩
theorem exQ_good : exQ.Good := ⟨exQpsk_whole, rfl, rfl⟩

/-! ## Sizes -/

/-- **C83 (size).**  A frame of `0 < N < 2 ^ 24` bits has one symbol per group of bits, the last one possibly incomplete, and two values per symbol for a complex
constellation. -/
theorem C83_size (F : Fmt) (same : Bool) {N : Nat} (c : Cstl) (hc : Whole c) (noSig2 : Bool) (h0 : 0 < N) (h24 : N < 2 ^ 24) :
    ∃ g, make F same N c noSig2 = ok g ∧ g.F = F ∧ g.same = same ∧ g.N = N ∧ g.c = c ∧ g.noSig2 = noSig2 ∧
      g.nMod = (if c.cplx then 2 else 1) * symbols c.nBps N := by
  obtain ⟨h1, h30, -, -⟩ := hc
  have of_int' : ∀ z : ℤ, |z| < 2 ^ 24 → b32.of z = .fin z := fun z hz => of_rep b32 (rep_int b32 z hz (by decide) (by decide))
  have rnd_int' : ∀ z : ℤ, |z| < 2 ^ 24 → b32.rnd z = z := fun z hz => rnd_rep b32 (rep_int b32 z hz (by decide) (by decide))
  have eN : b32.of ((N : Int) : ℚ) = .fin N := by rw [of_int' N (by rw [abs_of_nonneg (by omega)]; exact_mod_cast h24)]; norm_cast
  have eB : b32.of (c.nBps : ℚ) = .fin c.nBps := by
    have := of_int' c.nBps (by rw [abs_of_nonneg (by omega)]; omega)
    exact_mod_cast this
  have hb0 : (0 : ℚ) < c.nBps := by exact_mod_cast h1
  have hb1 : (1 : ℚ) ≤ c.nBps := by exact_mod_cast h1
  have hb30 : (c.nBps : ℚ) ≤ 30 := by exact_mod_cast h30
  -- the exact quotient
  generalize hz : symbols c.nBps N = z
  have hz1 : N ≤ z * c.nBps := by
    rw [← hz]; unfold symbols
    have h := Nat.div_add_mod (N + c.nBps - 1) c.nBps
    have hm := Nat.mod_lt (N + c.nBps - 1) (show 0 < c.nBps by omega)
    rw [Nat.mul_comm]; omega
  have hz2 : z * c.nBps < N + c.nBps := by
    rw [← hz]; unfold symbols
    have := Nat.div_mul_le_self (N + c.nBps - 1) c.nBps
    omega
  have hzN : z ≤ N := by
    by_contra hc
    have : (N + 1) * c.nBps ≤ z * c.nBps := Nat.mul_le_mul_right _ (by omega)
    rw [Nat.add_mul] at this
    have : N * 1 ≤ N * c.nBps := Nat.mul_le_mul_left _ h1
    omega
  have hz0 : 1 ≤ z := by
    by_contra hc
    have : z = 0 := by omega
    rw [this] at hz1; omega
  have q1 : (N : ℚ) / c.nBps ≤ z := by rw [div_le_iff₀ hb0]; exact_mod_cast hz1
  have q2 : ((z - 1 : ℤ) : ℚ) + 1 / c.nBps ≤ (N : ℚ) / c.nBps := by
    rw [le_div_iff₀ hb0, add_mul, div_mul_cancel₀ _ hb0.ne']
    have h : (z : ℤ) * c.nBps + 1 ≤ N + c.nBps := by exact_mod_cast hz2
    have h' : (z : ℚ) * c.nBps + 1 ≤ N + c.nBps := by exact_mod_cast h
    push_cast; linarith
  have r1 : b32.rnd ((N : ℚ) / c.nBps) ≤ z := by
    have := rnd_mono b32 (y := ((z : ℤ) : ℚ)) (by exact_mod_cast q1)
    rw [rnd_int' z (by rw [abs_of_nonneg (by omega)]; omega)] at this
    exact_mod_cast this
  have r2 : ((z - 1 : ℤ) : ℚ) < b32.rnd ((N : ℚ) / c.nBps) := by
    have herr := rnd_err b32 ((N : ℚ) / c.nBps)
    have hp : b32.p = 24 := rfl
    have hm : (2 : ℚ) ^ b32.emin ≤ 1 / 2 ^ 100 := pow_emin (.inl rfl)
    rw [hp, abs_of_nonneg (div_nonneg (by positivity) hb0.le)] at herr
    have hN : (N : ℚ) ≤ 2 ^ 24 - 1 := by
      have : N + 1 ≤ 2 ^ 24 := h24
      have : (N : ℚ) + 1 ≤ 2 ^ 24 := by exact_mod_cast this
      linarith
    have hlow := (abs_le.1 herr).1
    have hi : 1 / 30 ≤ 1 / (c.nBps : ℚ) := one_div_le_one_div_of_le hb0 hb30
    have e : (N : ℚ) / c.nBps / 2 ^ 24 = N / 2 ^ 24 * (1 / c.nBps) := by ring
    have hfrac : (N : ℚ) / 2 ^ 24 * (1 / c.nBps) ≤ (1 - 1 / 2 ^ 24) * (1 / c.nBps) := by
      apply mul_le_mul_of_nonneg_right _ (by positivity)
      rw [div_le_iff₀ (by norm_num)]; norm_num at hN ⊢; linarith
    rw [e] at hlow
    norm_num at hm hi hfrac hlow q2 ⊢
    linarith
  have r3 : ⌈b32.rnd ((N : ℚ) / c.nBps)⌉ = z := by
    rw [Int.ceil_eq_iff]
    push_cast at r2 ⊢
    exact ⟨r2, r1⟩
  have habs : |b32.rnd ((N : ℚ) / c.nBps)| < 2 ^ b32.emax := by
    have hnn : 0 ≤ b32.rnd ((N : ℚ) / c.nBps) := rnd_nn (by positivity)
    rw [abs_of_nonneg hnn]
    have : (z : ℚ) < 2 ^ (24 : ℤ) := by exact_mod_cast lt_of_le_of_lt hzN h24
    have h2 : (2 : ℚ) ^ (24 : ℤ) ≤ 2 ^ b32.emax := zpow_le_zpow_right₀ (by norm_num) (by decide)
    linarith
  have eC : ceil (b32.div (b32.of ((N : Int) : ℚ)) (b32.of c.nBps)) = .fin z := by
    rw [eN, eB, div_eq b32 hb0.ne', of_fin habs]
    show Fl.fin _ = _
    rw [r3]; norm_cast
  have eM : ∀ w : Nat, w = 1 ∨ w = 2 → b32.mul (.fin z) (.fin w) = .fin ((w * z : Nat) : ℚ) := by
    rintro w (rfl | rfl)
    · show b32.of _ = _
      have := of_int' z (by rw [abs_of_nonneg (by omega)]; omega)
      rw [Nat.cast_one, mul_one, Nat.one_mul]; exact_mod_cast this
    · show b32.of _ = _
      rw [of_rep]
      · push_cast; rw [mul_comm]
      · refine ⟨z, 1, ?_, by decide, by norm_num, ?_⟩
        · rw [abs_of_nonneg (by omega)]; show (z : ℤ) < 2 ^ 24; omega
        · have : (z : ℚ) < 2 ^ 24 := by exact_mod_cast lt_of_le_of_lt hzN h24
          have h2 : (2 : ℚ) ^ (25 : ℤ) ≤ 2 ^ b32.emax := zpow_le_zpow_right₀ (by norm_num) (by decide)
          have h3 : (2 : ℚ) ^ (25 : ℤ) = 2 * 2 ^ 24 := by norm_num
          push_cast
          rw [abs_of_nonneg (by positivity)]
          linarith
  have eT : ∀ w : Nat, w = 1 ∨ w = 2 → toInt (.fin ((w * z : Nat) : ℚ)) = ok ((w * z : Nat) : Int) := by
    intro w hw
    unfold toInt
    dsimp only
    have : ¬ ((w * z : Nat) : ℚ) < 0 := not_lt.2 (by positivity)
    rw [if_neg this, Int.floor_natCast, if_pos]
    have : w * z ≤ 2 * z := Nat.mul_le_mul_right _ (by rcases hw with rfl | rfl <;> omega)
    omega
  unfold make
  rw [eC]
  have ew : (if c.cplx = true then (2 : ℚ) else 1) = ((if c.cplx then 2 else 1 : Nat) : ℚ) := by split <;> norm_num
  have hw : (if c.cplx then 2 else 1 : Nat) = 1 ∨ (if c.cplx then 2 else 1 : Nat) = 2 := by split <;> simp
  rw [ew, eM _ hw, eT _ hw, bind_ok, if_neg (by omega), if_neg]
  · exact ⟨_, rfl, rfl, rfl, by simp, rfl, rfl, Int.toNat_natCast _⟩
  · have : 1 * 1 ≤ (if c.cplx then 2 else 1 : Nat) * z := Nat.mul_le_mul (by rcases hw with h | h <;> omega) hz0
    omega

example : ∃ g, make b32 true (1000003 : Nat) exPam false = ok g ∧ g.nMod = 500002 := by
  obtain ⟨g, h, -, -, -, -, -, e⟩ := C83_size b32 true (N := 1000003) exPam exPam_whole false (by decide) (by decide)
  exact ⟨g, h, e⟩

/-! ## Modulation -/

/-- **C83 (modulation).**  A frame of bits is mapped symbol by symbol to the points of the constellation. -/
theorem C83_modulate {g : Cfg} (hg : g.Good) {MAX : Fl → Fl → Fl} (st : St) {x : List Int} (hx : IsBits x) (hl : x.length = g.N) {out : List Fl} (ho : out.length = g.nMod) :
    ∃ o, step g MAX st (.modulate x) out = ok (st, o) ∧ o.length = g.nMod ∧
      ∀ k, k < symbols g.c.nBps g.N → label g.c.nBps g.N x k < 2 ^ g.c.nBps ∧
        point g.c.cplx o k = shown g.c.cplx (g.c.pts.getD (label g.c.nBps g.N x k) ⟨.nan, .nan⟩) := by
  obtain ⟨o, e, h1, h2⟩ := modulate_sat hg hx hl ho
  refine ⟨o, ?_, h1, fun k hk => ⟨label_lt hx _ _ _, h2 k hk⟩⟩
  show (modulate g x out >>= fun o => ok (st, o)) = _
  rw [e]; rfl

example : label 2 3 [1, 0, 1] 0 = 1 ∧ label 2 3 [1, 0, 1] 1 = 1 ∧ label 2 4 [1, 0, 1, 1] 1 = 3 := by decide

/-- **C83 (filter).**  The filter of this modem copies the frame. -/
theorem C83_filter {g : Cfg} {MAX : Fl → Fl → Fl} (st : St) (cp : Fl) {y out : List Fl} (hy : y.length = g.nMod) (ho : out.length = g.nMod) :
    ∃ st', step g MAX st (.filter cp y) out = ok (st', y) := by
  obtain ⟨o, e, h1, h2⟩ := copyTo_sat (src := y) (so := 0) (n := g.nMod) (dst := out) (d := 0) (by omega) (by omega)
  refine ⟨{ st with last := cp }, ?_⟩
  show (copyTo y 0 g.nMod out 0 >>= fun o => ok _) = _
  rw [e, bind_ok]
  congr 2
  apply ext_of_getElem?
  intro i
  rw [h2 i]
  split
  · simp
  · rename_i h
    rw [List.getElem?_eq_none (by omega), List.getElem?_eq_none (by omega)]

/-! ## Demodulation -/

/-- **C83 (history).**  What a modem demodulates does not depend on the calls before it (but those of `filter`): the LLRs are scaled by the given parameter. -/
theorem C83_history {g : Cfg} {MAX : Fl → Fl → Fl} {st : St} (hr : Reach g MAX st) {cp : Fl} (hc : cp ≠ fltMax) (h : Option (List Fl)) (y y2 out : List Fl) :
    (step g MAX st (.demodulate cp h y) out >>= fun r => ok r.2) = demodulate g MAX (scale g cp) h y out ∧
    (step g MAX st (.tdemodulate cp h y y2) out >>= fun r => ok r.2) = tdemodulate g MAX (scale g cp) h y y2 out := by
  constructor
  · show ((demodulate g MAX (refresh g st cp).inv h y out >>= fun o => ok _) >>= _) = _
    rw [hr.scale hc, bind_assoc']
    cases demodulate g MAX (scale g cp) h y out <;> rfl
  · show ((tdemodulate g MAX (refresh g st cp).inv h y y2 out >>= fun o => ok _) >>= _) = _
    rw [hr.scale hc, bind_assoc']
    cases tdemodulate g MAX (scale g cp) h y y2 out <;> rfl

theorem step_dem {g : Cfg} {MAX : Fl → Fl → Fl} {st : St} (hr : Reach g MAX st) {cp : Fl} (hc : cp ≠ fltMax) {h : Option (List Fl)} {y out o : List Fl}
    (e : demodulate g MAX (scale g cp) h y out = ok o) : step g MAX st (.demodulate cp h y) out = ok ({ refresh g st cp with last := cp }, o) := by
  show (demodulate g MAX (refresh g st cp).inv h y out >>= fun o => ok _) = _
  rw [hr.scale hc, e]; rfl

theorem step_tdem {g : Cfg} {MAX : Fl → Fl → Fl} {st : St} (hr : Reach g MAX st) {cp : Fl} (hc : cp ≠ fltMax) {h : Option (List Fl)} {y y2 out o : List Fl}
    (e : tdemodulate g MAX (scale g cp) h y y2 out = ok o) : step g MAX st (.tdemodulate cp h y y2) out = ok ({ refresh g st cp with last := cp }, o) := by
  show (tdemodulate g MAX (refresh g st cp).inv h y y2 out >>= fun o => ok _) = _
  rw [hr.scale hc, e]; rfl

example : ∃ st, Reach exG fmax st ∧ st ≠ init := by
  have e := step_dem (MAX := fmax) (g := exG) .init (cp := .fin 2) (by decide +kernel) (demodulate_eq exG_good (h := none) (y := [.fin 1, .fin 2]) (out := [.nan, .nan, .nan]) (by intro l h; cases h) rfl rfl)
  exact ⟨_, .demodulate .init e, by intro h; exact absurd (congrArg St.last h) (by decide +kernel)⟩

/-- **C83 (LLRs).**  The LLR of a bit is the greatest of the metrics of the labels where this bit is 0 minus the greatest of those where it is 1. -/
theorem C83_llr {g : Cfg} (hg : g.Good) {st : St} (hr : Reach g fmax st) {cp : Fl} (hc : cp ≠ fltMax) {h : Option (List Fl)} (hh : GainOk g h)
    {y out : List Fl} (hy : y.length = g.nMod) (ho : out.length = g.N)
    (hn : ∀ k j, k < symbols g.c.nBps g.N → j < 2 ^ g.c.nBps → met g (scale g cp) h y k j ≠ .nan) :
    ∃ st' o, step g fmax st (.demodulate cp h y) out = ok (st', o) ∧ Reach g fmax st' ∧ o.length = g.N ∧
      ∀ n, n < g.N → ∃ L0 L1, o[n]? = some (sub g.F L0 L1) ∧
        Best (fun j => j < 2 ^ g.c.nBps ∧ bit j (n % g.c.nBps) = 0) (met g (scale g cp) h y (n / g.c.nBps)) L0 ∧
        Best (fun j => j < 2 ^ g.c.nBps ∧ bit j (n % g.c.nBps) = 1) (met g (scale g cp) h y (n / g.c.nBps)) L1 := by
  have e' := step_dem hr hc (demodulate_eq (inv := scale g cp) (MAX := fmax) hg hh hy ho)
  refine ⟨_, _, e', .demodulate hr e', by simp, fun n hn' => ?_⟩
  have h1 := hg.whole.1
  obtain ⟨b1, b2⟩ := scan_best (n := g.c.nBps) (b := n % g.c.nBps) (Nat.mod_lt _ h1)
    (m := met g (scale g cp) h y (n / g.c.nBps)) fun j hj => hn _ j (div_lt_symbols h1 hn') hj
  exact ⟨_, _, (getElem?_mapRange _ _ _).trans (if_pos hn'), b1, b2⟩

theorem sub_int {F : Fmt} (hF : F = b32 ∨ F = b64) {a b : ℤ} (h : |a - b| < 2 ^ 24) : sub F (.fin a) (.fin b) = .fin ((a - b : ℤ) : ℚ) := by
  rw [← of_int hF h]
  show F.of _ = _
  congr 1; push_cast; ring

theorem add_int {F : Fmt} (hF : F = b32 ∨ F = b64) {a b : ℤ} (h : |a + b| < 2 ^ 24) : F.add (.fin a) (.fin b) = .fin ((a + b : ℤ) : ℚ) := by
  rw [← of_int hF h]
  show F.of _ = _
  congr 1; push_cast; ring

theorem mul_int {F : Fmt} (hF : F = b32 ∨ F = b64) {a b : ℤ} (h : |a * b| < 2 ^ 24) : F.mul (.fin a) (.fin b) = .fin ((a * b : ℤ) : ℚ) := by
  rw [← of_int hF h]
  show F.of _ = _
  congr 1; push_cast; ring

theorem mul_bound {a b : ℤ} {m n : ℕ} (ha : |a| ≤ m) (hb : |b| ≤ n) : |a * b| ≤ m * n := by
  rw [abs_mul]; exact mul_le_mul ha hb (abs_nonneg _) (by omega)

/-- **C83 (metric).**  On small integers, where nothing is rounded, the metric of a point is minus the squared distance between the value received and the point multiplied by the
gain of the channel. -/
theorem C83_metric {F : Fmt} (hF : F = b32 ∨ F = b64) {yr yi hr hi cr ci : ℤ} (h1 : |yr| ≤ 16) (h2 : |yi| ≤ 16) (h3 : |hr| ≤ 16) (h4 : |hi| ≤ 16) (h5 : |cr| ≤ 16) (h6 : |ci| ≤ 16)
    (z z' z'' : Fl) :
    metric F true (.fin 1) ⟨.fin yr, .fin yi⟩ (through F true (some ⟨.fin hr, .fin hi⟩) ⟨.fin cr, .fin ci⟩) =
      .fin (-((yr - (hr * cr - hi * ci)) ^ 2 + (yi - (hr * ci + hi * cr)) ^ 2)) ∧
    metric F true (.fin 1) ⟨.fin yr, .fin yi⟩ (through F true none ⟨.fin cr, .fin ci⟩) = .fin (-((yr - cr) ^ 2 + (yi - ci) ^ 2)) ∧
    metric F false (.fin 1) ⟨.fin yr, z⟩ (through F false (some ⟨.fin hr, z'⟩) ⟨.fin cr, z''⟩) = .fin (-(yr - hr * cr) ^ 2) ∧
    metric F false (.fin 1) ⟨.fin yr, z⟩ (through F false none ⟨.fin cr, z''⟩) = .fin (-(yr - cr) ^ 2) := by
  have one : (Fl.fin 1) = .fin ((1 : ℤ) : ℚ) := by norm_num
  have m1 := mul_bound (m := 16) (n := 16) h3 h5
  have m2 := mul_bound (m := 16) (n := 16) h4 h6
  have m3 := mul_bound (m := 16) (n := 16) h3 h6
  have m4 := mul_bound (m := 16) (n := 16) h4 h5
  have cplx : ∀ a b c d : ℤ, |a - c| ≤ 1000 → |b - d| ≤ 1000 → metric F true (.fin 1) ⟨.fin a, .fin b⟩ ⟨.fin c, .fin d⟩ = .fin (-((a - c) ^ 2 + (b - d) ^ 2)) := by
    intro a b c d h1 h2
    have q1 := mul_bound (m := 1000) (n := 1000) h1 h1
    have q2 := mul_bound (m := 1000) (n := 1000) h2 h2
    rw [metric_eq]
    unfold cost norm2
    rw [if_pos rfl, one]
    dsimp only
    rw [sub_int hF (by omega), sub_int hF (by omega), mul_int hF (by omega), mul_int hF (by omega), add_int hF (by rw [abs_lt]; rw [abs_le] at q1 q2; omega),
      mul_int hF (by rw [mul_one, abs_lt]; rw [abs_le] at q1 q2; omega)]
    show Fl.fin _ = Fl.fin _
    congr 1; push_cast; ring
  have real : ∀ a c : ℤ, |a - c| ≤ 1000 → ∀ z z', metric F false (.fin 1) ⟨.fin a, z⟩ ⟨.fin c, z'⟩ = .fin (-(a - c) ^ 2) := by
    intro a c h1 z z'
    have q1 := mul_bound (m := 1000) (n := 1000) h1 h1
    rw [metric_eq]
    unfold cost
    rw [if_neg (by decide), one]
    dsimp only
    rw [sub_int hF (by omega), mul_int hF (by omega), mul_int hF (by rw [mul_one]; omega)]
    show Fl.fin _ = Fl.fin _
    congr 1; push_cast; ring
  refine ⟨?_, ?_, ?_, ?_⟩
  · have e : through F true (some ⟨.fin hr, .fin hi⟩) ⟨.fin cr, .fin ci⟩ = ⟨.fin ((hr * cr - hi * ci : ℤ) : ℚ), .fin ((hr * ci + hi * cr : ℤ) : ℚ)⟩ := by
      show Pt.mk _ _ = _
      rw [mul_int hF (by omega), mul_int hF (by omega), mul_int hF (by omega), mul_int hF (by omega),
        sub_int hF (by rw [abs_lt]; rw [abs_le] at m1 m2; omega), add_int hF (by rw [abs_lt]; rw [abs_le] at m3 m4; omega)]
    rw [e, cplx _ _ _ _ (by rw [abs_le] at *; omega) (by rw [abs_le] at *; omega)]
    congr 1; push_cast; ring
  · exact cplx _ _ _ _ (by rw [abs_le] at *; omega) (by rw [abs_le] at *; omega)
  · have e : through F false (some ⟨.fin hr, z'⟩) ⟨.fin cr, z''⟩ = ⟨.fin ((hr * cr : ℤ) : ℚ), .fin 0⟩ := by
      show Pt.mk _ _ = _
      rw [mul_int hF (by omega)]
    rw [e, real _ _ (by rw [abs_le] at *; omega)]
    congr 1; push_cast; ring
  · exact real _ _ (by rw [abs_le] at *; omega) _ _

/-- The metrics of a real constellation are numbers. -/
theorem C83_numbers {g : Cfg} (hg : g.Good) (hr : g.c.cplx = false) (hp : ∀ p ∈ g.c.pts, ∃ q, p.re = .fin q) {y : List Fl} (hy : y.length = g.nMod)
    (hf : ∀ v ∈ y, ∃ q, v = .fin q) {inv : Fl} (hi : ∃ v, 0 < v ∧ inv = .fin v) :
    ∀ k j, k < symbols g.c.nBps g.N → j < 2 ^ g.c.nBps → met g inv none y k j ≠ .nan := by
  intro k j hk hj
  obtain ⟨v, hv, rfl⟩ := hi
  have hs := hg.size
  rw [hr, if_neg (by decide), Nat.one_mul] at hs
  obtain ⟨q, hq⟩ := hf (y.getD k .nan) (by rw [getD_lt _ (by omega : k < y.length)]; exact List.getElem_mem _)
  have hj' : j < g.c.pts.length := by rw [hg.whole.2.2.2]; exact hj
  obtain ⟨c, hc⟩ := hp (g.c.pts.getD j ⟨.nan, .nan⟩) (by rw [getD_lt _ hj']; exact List.getElem_mem _)
  unfold met
  rw [metric_eq, hr]
  apply neg_ne
  apply nn_ne
  have e1 : point false y k = ⟨.fin q, .fin 0⟩ := by unfold point; rw [if_neg (by decide), hq]
  rw [e1]
  show NN (cost g.F false (.fin v) _ (g.c.pts.getD j ⟨.nan, .nan⟩))
  have e2 : g.c.pts.getD j ⟨.nan, .nan⟩ = ⟨.fin c, (g.c.pts.getD j ⟨.nan, .nan⟩).im⟩ := by rw [← hc]
  rw [e2]
  exact cost_nn hv _ _

example : ∀ p ∈ exPam.pts, ∃ q, p.re = .fin q := by
  intro p hp
  simp only [exPam, List.mem_cons, List.not_mem_nil, or_false] at hp
  rcases hp with rfl | rfl | rfl | rfl <;> exact ⟨_, rfl⟩

/-- **C83 (decision).**  If one label has a better metric than all those with the other value of a bit, the LLR of this bit has the sign of its value. -/
theorem C83_sign {g : Cfg} (hg : g.Good) {st : St} (hr : Reach g fmax st) {cp : Fl} (hc : cp ≠ fltMax) {h : Option (List Fl)} (hh : GainOk g h)
    {y out : List Fl} (hy : y.length = g.nMod) (ho : out.length = g.N)
    (hn : ∀ k j, k < symbols g.c.nBps g.N → j < 2 ^ g.c.nBps → met g (scale g cp) h y k j ≠ .nan) :
    ∃ st' o, step g fmax st (.demodulate cp h y) out = ok (st', o) ∧ o.length = g.N ∧
      ∀ n s, n < g.N → s < 2 ^ g.c.nBps →
        (∀ j, j < 2 ^ g.c.nBps → bit j (n % g.c.nBps) ≠ bit s (n % g.c.nBps) →
          Fl.lt (met g (scale g cp) h y (n / g.c.nBps) j) (met g (scale g cp) h y (n / g.c.nBps) s) = true) →
        decide1 (o.getD n .nan) = bit s (n % g.c.nBps) := by
  obtain ⟨st', o, e, -, hl, hL⟩ := C83_llr hg hr hc hh hy ho hn
  refine ⟨st', o, e, hl, fun n s hn' hs hb => ?_⟩
  obtain ⟨L0, L1, eo, ⟨⟨j0, ⟨a1, a2⟩, a3⟩, a4⟩, ⟨⟨j1, ⟨b1, b2⟩, b3⟩, b4⟩⟩ := hL n hn'
  have hk := div_lt_symbols hg.whole.1 hn'
  have g0 : Grid g.F L0 := by rw [← a3]; exact metric_grid _ _ _ _ _
  have g1 : Grid g.F L1 := by rw [← b3]; exact metric_grid _ _ _ _ _
  rw [List.getD_eq_getElem?_getD, eo, Option.getD_some]
  unfold decide1
  rcases (show bit s (n % g.c.nBps) = 0 ∨ bit s (n % g.c.nBps) = 1 by unfold bit; omega) with h0 | h1
  · have hlt := hb j1 b1 (by omega)
    have := lt_cot L0 (by rw [← a3]; exact hn _ _ hk a1) _ _ hlt (a4 s ⟨hs, h0⟩)
    rw [b3] at this
    have := sub_gt g0 g1 this
    rw [h0, if_neg]; rfl
    intro hc
    have := lt_trans' _ _ _ this hc
    rw [lt_irr] at this
    exact Bool.noConfusion this
  · have hlt := hb j0 a1 (by omega)
    have := lt_cot L1 (by rw [← b3]; exact hn _ _ hk b1) _ _ hlt (b4 s ⟨hs, h1⟩)
    rw [a3] at this
    have := sub_lt g0 g1 this
    rw [h1, if_pos this]; rfl

/-- **C83 (nearest point).**  On a real constellation no LLR contradicts the point which is nearest, in exact arithmetic, to what is received. -/
theorem C83_nearest {g : Cfg} (hg : g.Good) (hre : g.c.cplx = false) {c : Nat → ℚ} (hp : ∀ j, j < 2 ^ g.c.nBps → (g.c.pts.getD j ⟨.nan, .nan⟩).re = .fin (c j))
    {st : St} (hr : Reach g fmax st) {cp : Fl} (hc : cp ≠ fltMax) (hi : ∃ v, 0 < v ∧ scale g cp = .fin v) {y : Nat → ℚ} {out : List Fl} (ho : out.length = g.N) :
    ∃ st' o, step g fmax st (.demodulate cp none ((List.range g.nMod).map fun k => .fin (y k))) out = ok (st', o) ∧ o.length = g.N ∧
      ∀ n s, n < g.N → s < 2 ^ g.c.nBps → (∀ j, j < 2 ^ g.c.nBps → |y (n / g.c.nBps) - c s| ≤ |y (n / g.c.nBps) - c j|) →
        (bit s (n % g.c.nBps) = 0 → Fl.lt (o.getD n .nan) (.fin 0) = false) ∧ (bit s (n % g.c.nBps) = 1 → Fl.lt (.fin 0) (o.getD n .nan) = false) := by
  have hy : ((List.range g.nMod).map fun k => Fl.fin (y k)).length = g.nMod := by simp
  have hp' : ∀ p ∈ g.c.pts, ∃ q, p.re = .fin q := by
    intro p hp'
    obtain ⟨j, hj, rfl⟩ := List.getElem_of_mem hp'
    refine ⟨c j, ?_⟩
    rw [← hp j (by rw [← hg.whole.2.2.2]; exact hj), getD_lt _ hj]
  have hn := C83_numbers hg hre hp' hy (by intro v hv; rw [List.mem_map] at hv; obtain ⟨k, -, rfl⟩ := hv; exact ⟨_, rfl⟩) hi
  obtain ⟨st', o, e, -, hl, hL⟩ := C83_llr hg hr hc (h := none) (by intro l h; cases h) hy ho hn
  refine ⟨st', o, e, hl, fun n s hn' hs hb => ?_⟩
  obtain ⟨L0, L1, eo, ⟨⟨j0, ⟨a1, a2⟩, a3⟩, a4⟩, ⟨⟨j1, ⟨b1, b2⟩, b3⟩, b4⟩⟩ := hL n hn'
  have hk := div_lt_symbols hg.whole.1 hn'
  have hs' := hg.size
  rw [hre, if_neg (by decide), Nat.one_mul] at hs'
  obtain ⟨v, hv, ev⟩ := hi
  have key : ∀ j, j < 2 ^ g.c.nBps → Fl.lt (met g (scale g cp) none ((List.range g.nMod).map fun k => Fl.fin (y k)) (n / g.c.nBps) s)
      (met g (scale g cp) none ((List.range g.nMod).map fun k => Fl.fin (y k)) (n / g.c.nBps) j) = false := by
    intro j hj
    unfold met
    rw [metric_eq, metric_eq, neg_lt, hre, ev]
    have e1 : point false ((List.range g.nMod).map fun k => Fl.fin (y k)) (n / g.c.nBps) = ⟨.fin (y (n / g.c.nBps)), .fin 0⟩ := by
      unfold point
      rw [if_neg (by decide), List.getD_eq_getElem?_getD, getElem?_mapRange, if_pos (by omega)]; rfl
    rw [e1]
    show Fl.lt (cost g.F false (.fin v) _ (g.c.pts.getD j ⟨.nan, .nan⟩)) (cost g.F false (.fin v) _ (g.c.pts.getD s ⟨.nan, .nan⟩)) = false
    have e2 : g.c.pts.getD j ⟨.nan, .nan⟩ = ⟨.fin (c j), (g.c.pts.getD j ⟨.nan, .nan⟩).im⟩ := by rw [← hp j hj]
    have e3 : g.c.pts.getD s ⟨.nan, .nan⟩ = ⟨.fin (c s), (g.c.pts.getD s ⟨.nan, .nan⟩).im⟩ := by rw [← hp s hs]
    rw [e2, e3]
    exact cost_mono hv (hb j hj) _ _ _
  rw [List.getD_eq_getElem?_getD, eo, Option.getD_some]
  have ns := hn (n / g.c.nBps) s hk hs
  constructor
  · intro h0
    apply sub_not_lt
    rw [← b3]
    exact lt_le ns (a4 s ⟨hs, h0⟩) (key j1 b1)
  · intro h1
    apply sub_not_gt
    rw [← a3]
    exact lt_le ns (b4 s ⟨hs, h1⟩) (key j0 a1)

example : ∃ v : ℚ, 0 < v ∧ scale exG (.fin 2) = .fin v := ⟨1 / 8, by norm_num, by decide +kernel⟩

/-- **C83 (recovery).**  When the points are told apart at this scale, demodulating a modulated frame and deciding gives its bits, whatever the previous calls. -/
theorem C83_recover {g : Cfg} (hg : g.Good) {st : St} (hr : Reach g fmax st) {cp : Fl} (hc : cp ≠ fltMax) (ha : Apart g (scale g cp))
    {x : List Int} (hx : IsBits x) (hl : x.length = g.N) {out out' : List Fl} (ho : out.length = g.nMod) (ho' : out'.length = g.N) :
    ∃ o st' l, step g fmax st (.modulate x) out = ok (st, o) ∧ step g fmax st (.demodulate cp none o) out' = ok (st', l) ∧ l.map decide1 = x := by
  obtain ⟨o, e, h1, h2⟩ := C83_modulate (MAX := fmax) hg st hx hl ho
  have hm : ∀ k j, k < symbols g.c.nBps g.N → met g (scale g cp) none o k j =
      metric g.F g.c.cplx (scale g cp) (shown g.c.cplx (g.c.pts.getD (label g.c.nBps g.N x k) ⟨.nan, .nan⟩)) (g.c.pts.getD j ⟨.nan, .nan⟩) := by
    intro k j hk
    unfold met
    rw [(h2 k hk).2]; rfl
  have lt_ne : ∀ a b : Fl, Fl.lt a b = true → a ≠ .nan ∧ b ≠ .nan := by
    intro a b h
    constructor
    · rintro rfl; cases b <;> exact Bool.noConfusion h
    · rintro rfl; cases a <;> exact Bool.noConfusion h
  have h2p : 2 ≤ 2 ^ g.c.nBps := by
    have := Nat.pow_le_pow_right (show 0 < 2 by decide) hg.whole.1
    simpa using this
  have hn : ∀ k j, k < symbols g.c.nBps g.N → j < 2 ^ g.c.nBps → met g (scale g cp) none o k j ≠ .nan := by
    intro k j hk hj
    rw [hm k j hk]
    have hs := (h2 k hk).1
    by_cases hjs : j = label g.c.nBps g.N x k
    · subst hjs
      obtain ⟨i, hi, hne⟩ : ∃ i, i < 2 ^ g.c.nBps ∧ label g.c.nBps g.N x k ≠ i := by
        by_cases h0 : label g.c.nBps g.N x k = 0
        · exact ⟨1, by omega, by omega⟩
        · exact ⟨0, by omega, h0⟩
      exact (lt_ne _ _ (ha _ i hs hi hne)).2
    · exact (lt_ne _ _ (ha _ j hs hj (fun h => hjs h.symm))).1
  obtain ⟨st', l, e2, hll, hL⟩ := C83_sign hg hr hc (h := none) (by intro l h; cases h) h1 ho' hn
  refine ⟨o, st', l, e, e2, ?_⟩
  apply ext_of_getElem?
  intro n
  rcases lt_or_ge n g.N with hn' | hn'
  · have hk := div_lt_symbols hg.whole.1 hn'
    have hs := (h2 _ hk).1
    have hd := hL n _ hn' hs (by
      intro j hj hb
      rw [hm _ _ hk, hm _ _ hk]
      exact ha _ j hs hj (fun h => hb (by rw [h])))
    have hdm := Nat.div_add_mod n g.c.nBps
    rw [Nat.mul_comm] at hdm
    rw [label_bit hx (Nat.mod_lt _ hg.whole.1) (by omega), hdm, getD_lt _ (by omega : n < l.length), getD_lt _ (by omega : n < x.length)] at hd
    rw [List.getElem?_map, List.getElem?_eq_getElem (by omega : n < l.length), List.getElem?_eq_getElem (by omega : n < x.length), ← hd]
    rfl
  · rw [List.getElem?_eq_none (by rw [List.length_map]; omega), List.getElem?_eq_none (by omega)]

instance (g : Cfg) (inv : Fl) : Decidable (Apart g inv) :=
  decidable_of_iff (∀ i, i < 2 ^ g.c.nBps → ∀ j, j < 2 ^ g.c.nBps → i ≠ j →
    Fl.lt (metric g.F g.c.cplx inv (shown g.c.cplx (g.c.pts.getD i ⟨.nan, .nan⟩)) (g.c.pts.getD j ⟨.nan, .nan⟩))
      (metric g.F g.c.cplx inv (shown g.c.cplx (g.c.pts.getD i ⟨.nan, .nan⟩)) (g.c.pts.getD i ⟨.nan, .nan⟩)) = true)
    ⟨fun h i j hi hj hne => h i hi j hj hne, fun h i hi j hj hne => h i j hi hj hne⟩

example : Apart exG (scale exG (.fin 2)) ∧ Apart exQ (scale exQ (.fin (1 / 2))) := by decide +kernel

/-- **C83 (PAM).**  A frame modulated by a PAM of 1 to 15 bits per symbol is recovered at any scale from `2 ^ -60` on. -/
theorem C83_pam {L : Lib} (hL : L.SqrtOk) {g : Cfg} (hF : g.F = b32 ∨ g.F = b64) (hs : g.same = true) {n : Nat} (h1 : 1 ≤ n) (h15 : n ≤ 15) (hc : pam L g.F n = ok g.c)
    (hN : g.nMod = symbols n g.N) {st : St} (hr : Reach g fmax st) {cp : Fl} (hcp : cp ≠ fltMax) (hi : ∃ v : ℚ, 1 / 2 ^ 60 ≤ v ∧ scale g cp = .fin v)
    {x : List Int} (hx : IsBits x) (hl : x.length = g.N) {out out' : List Fl} (ho : out.length = g.nMod) (ho' : out'.length = g.N) :
    ∃ o st' l, step g fmax st (.modulate x) out = ok (st, o) ∧ step g fmax st (.demodulate cp none o) out' = ok (st', l) ∧ l.map decide1 = x := by
  obtain ⟨k, rfl⟩ : ∃ k, n = k + 1 := ⟨n - 1, by omega⟩
  obtain ⟨m, h3, h4⟩ := mean_energy k
  have hb : (4 : ℤ) ^ (k + 1) ≤ 4 ^ 15 := pow_le_pow_right₀ (by norm_num) h15
  have hb' : (4 : ℤ) ^ 1 ≤ 4 ^ (k + 1) := pow_le_pow_right₀ (by norm_num) h1
  obtain ⟨s, e, hs1, hs2⟩ := cvt_sqrt hL hF (m := m) (by omega) (by norm_num at hb ⊢; omega)
  have hlab : ∀ j, |lab (k + 1) j| ≤ 2 ^ 15 := by
    intro j
    have := lab_abs (k + 1) j
    have hp : (2 : ℤ) ^ (k + 1) ≤ 2 ^ 15 := pow_le_pow_right₀ (by norm_num) h15
    omega
  rw [pam_eq hF h1 h15 h3] at hc
  have hc' := (Exec.ok.inj hc).symm
  have hG : g.Good := by
    refine ⟨?_, ?_, hs⟩
    · rw [hc']; exact ⟨h1, by show k + 1 ≤ 30; omega, rfl, by simp⟩
    · rw [hc']; show g.nMod = 1 * symbols (k + 1) g.N; rw [Nat.one_mul]; exact hN
  have hpt : ∀ j, j < 2 ^ (k + 1) → g.c.pts.getD j ⟨.nan, .nan⟩ = ⟨.fin (g.F.rnd (lab (k + 1) j / s)), .fin 0⟩ := by
    intro j hj
    rw [hc']
    show List.getD ((List.range (2 ^ (k + 1))).map _) j _ = _
    rw [List.getD_eq_getElem?_getD, getElem?_mapRange, if_pos hj, Option.getD_some, e, (div_fin hF hs1 hs2 (hlab j)).1]
  have hnb : g.c.nBps = k + 1 := by rw [hc']
  have hcx : g.c.cplx = false := by rw [hc']
  refine C83_recover hG hr hcp ?_ hx hl ho ho'
  obtain ⟨v, hv, ev⟩ := hi
  intro i j hi hj hne
  rw [hnb] at hi hj
  rw [hpt i hi, hpt j hj, hcx, ev, metric_eq, metric_eq, neg_lt]
  unfold shown
  dsimp only
  rw [cost_self]
  have hd : lab (k + 1) i ≠ lab (k + 1) j := fun h => hne ((lab_gray k).1.inj i j hi hj h)
  have hoi := (lab_gray k).1.odd i hi
  have hoj := (lab_gray k).1.odd j hj
  have hsep : 1 / s ≤ |g.F.rnd (lab (k + 1) i / s) - g.F.rnd (lab (k + 1) j / s)| := by
    rcases lt_or_gt_of_ne hd with h | h
    · have := quot_sep hF hs1 hs2 (hlab i) (hlab j) (by omega)
      rw [abs_sub_comm]; refine le_trans ?_ (le_abs_self _); linarith
    · have := quot_sep hF hs1 hs2 (hlab j) (hlab i) (by omega)
      refine le_trans ?_ (le_abs_self _); linarith
  refine cost_pos hF hv (le_trans ?_ hsep) ?_ _ _
  · exact one_div_le_one_div_of_le (by linarith) hs2
  · have a := (div_fin hF hs1 hs2 (hlab i)).2
    have b := (div_fin hF hs1 hs2 (hlab j)).2
    refine le_trans (abs_sub _ _) ?_
    norm_num at a b ⊢; linarith

/-! ## Prior information -/

/-- **C83 (turbo).**  With prior information, the LLR of a bit is the greatest metric of the labels where it is 0 minus the greatest of those where it is 1, a metric being the
opposite of the cost of the label to which the prior LLRs of its other bits at 1 are added (plus infinity for those past the end of the frame). -/
theorem C83_turbo {g : Cfg} (hg : g.Good) {st : St} (hr : Reach g fmax st) {cp : Fl} (hc : cp ≠ fltMax) {h : Option (List Fl)} (hh : GainOk g h)
    {y y2 out : List Fl} (hy : y.length = g.nMod) (h2 : y2.length = g.N) (ho : out.length = g.N) :
    ∃ st' o, step g fmax st (.tdemodulate cp h y y2) out = ok (st', o) ∧ Reach g fmax st' ∧ o.length = g.N ∧
      ∀ n, n < g.N → ∃ L0 L1, o[n]? = some (sub g.F L0 L1) ∧
        Best (fun j => j < 2 ^ g.c.nBps ∧ bit j (n % g.c.nBps) = 0) (tmet g (scale g cp) h y y2 (n / g.c.nBps) (n % g.c.nBps)) L0 ∧
        Best (fun j => j < 2 ^ g.c.nBps ∧ bit j (n % g.c.nBps) = 1) (tmet g (scale g cp) h y y2 (n / g.c.nBps) (n % g.c.nBps)) L1 := by
  have e' := step_tdem hr hc (tdemodulate_eq (inv := scale g cp) (MAX := fmax) hg hh hy h2 ho)
  refine ⟨_, _, e', .tdemodulate hr e', by simp, fun n hn' => ?_⟩
  have h1 := hg.whole.1
  obtain ⟨b1, b2⟩ := scan_best (n := g.c.nBps) (b := n % g.c.nBps) (Nat.mod_lt _ h1)
    (m := tmet g (scale g cp) h y y2 (n / g.c.nBps) (n % g.c.nBps)) fun j _ => by
      unfold tmet clean
      apply neg_ne
      split
      · exact Fl.noConfusion
      · assumption
  exact ⟨_, _, (getElem?_mapRange _ _ _).trans (if_pos hn'), b1, b2⟩

/-- **C83 (extrinsic).**  The LLR of a bit given by the turbo demodulators does not depend on the prior information on this bit. -/
theorem C83_extrinsic {g : Cfg} (hg : g.Good) {MAX : Fl → Fl → Fl} {inv : Fl} {h : Option (List Fl)} (hh : GainOk g h) {y y2 y2' out : List Fl}
    (hy : y.length = g.nMod) (h2 : y2.length = g.N) (h2' : y2'.length = g.N) (ho : out.length = g.N) {n : Nat} (hn : n < g.N)
    (hd : ∀ i, i ≠ n → i / g.c.nBps = n / g.c.nBps → y2[i]? = y2'[i]?) :
    ∃ o o', tdemodulate g MAX inv h y y2 out = ok o ∧ tdemodulate g MAX inv h y y2' out = ok o' ∧ o[n]? = o'[n]? := by
  refine ⟨_, _, tdemodulate_eq hg hh hy h2 ho, tdemodulate_eq hg hh hy h2' ho, ?_⟩
  rw [getElem?_mapRange, getElem?_mapRange, if_pos hn, if_pos hn]
  have key : tmet g inv h y y2 (n / g.c.nBps) (n % g.c.nBps) = tmet g inv h y y2' (n / g.c.nBps) (n % g.c.nBps) := by
    funext j
    unfold tmet withPriors
    congr 2
    apply List.foldl_ext
    intro t l hl
    rw [List.mem_range] at hl
    by_cases hb : l ≠ n % g.c.nBps ∧ bit j l = 1
    · rw [if_pos hb, if_pos hb]
      congr 1
      split
      · rw [List.getD_eq_getElem?_getD, List.getD_eq_getElem?_getD, hd]
        · have hdm := Nat.div_add_mod n g.c.nBps
          rw [Nat.mul_comm] at hdm
          intro h
          apply hb.1
          omega
        · rw [Nat.mul_comm, Nat.mul_add_div (by omega), Nat.div_eq_of_lt hl, Nat.add_zero]
      · rfl
    · rw [if_neg hb, if_neg hb]
  rw [key]

/-- **C83 (null priors).**  With null prior information the turbo demodulators give the same LLRs as the demodulators, for the bits of the symbols which are complete. -/
theorem C83_prior0 {g : Cfg} (hg : g.Good) {MAX : Fl → Fl → Fl} {inv : Fl} {h : Option (List Fl)} (hh : GainOk g h) {y y2 out : List Fl}
    (hy : y.length = g.nMod) (h2 : y2 = List.replicate g.N (.fin 0)) (ho : out.length = g.N)
    (hn : ∀ k j, k < symbols g.c.nBps g.N → j < 2 ^ g.c.nBps → met g inv h y k j ≠ .nan) :
    ∃ o o', demodulate g MAX inv h y out = ok o ∧ tdemodulate g MAX inv h y y2 out = ok o' ∧
      ∀ n, (n / g.c.nBps + 1) * g.c.nBps ≤ g.N → o[n]? = o'[n]? := by
  refine ⟨_, _, demodulate_eq hg hh hy ho, tdemodulate_eq hg hh hy (by rw [h2]; simp) ho, fun n hk => ?_⟩
  have h1 := hg.whole.1
  have hlt : n < g.N := lt_of_lt_of_le (by
    have := Nat.div_add_mod n g.c.nBps
    have hm := Nat.mod_lt n h1
    rw [Nat.mul_comm] at this
    rw [Nat.add_mul]; omega) hk
  rw [getElem?_mapRange, getElem?_mapRange, if_pos hlt, if_pos hlt]
  have key : ∀ j, j < 2 ^ g.c.nBps → met g inv h y (n / g.c.nBps) j = tmet g inv h y y2 (n / g.c.nBps) (n % g.c.nBps) j := by
    intro j hj
    unfold tmet
    rw [priors_zero (by
      intro i hi
      rw [h2, List.getD_eq_getElem?_getD, List.getElem?_replicate, if_pos hi]; rfl) hk]
    · have hne := hn (n / g.c.nBps) j (div_lt_symbols h1 hlt) hj
      have e : met g inv h y (n / g.c.nBps) j = (cst g inv h y (n / g.c.nBps) j).neg := metric_eq _ _ _ _ _
      rw [e] at hne ⊢
      unfold clean
      rw [if_neg]
      intro hc
      rw [hc] at hne
      exact hne rfl
    · exact cost_inF _ _ _ _ _
  have hs : ∀ b, scan MAX (2 ^ g.c.nBps) b (met g inv h y (n / g.c.nBps)) = scan MAX (2 ^ g.c.nBps) b (tmet g inv h y y2 (n / g.c.nBps) (n % g.c.nBps)) := by
    intro b
    have gen : ∀ m, m ≤ 2 ^ g.c.nBps → scan MAX m b (met g inv h y (n / g.c.nBps)) = scan MAX m b (tmet g inv h y y2 (n / g.c.nBps) (n % g.c.nBps)) := by
      intro m
      induction m with
      | zero => intro _; rfl
      | succ m ih =>
        intro hm
        have ih' := ih (by omega)
        unfold scan at ih' ⊢
        rw [loopN_succ, loopN_succ, ih', key m (by omega)]
    exact gen _ (le_refl _)
  rw [hs]

/-! ## Defects -/

/-- **C84 (filter).**  A call of `filter` records its parameter without computing the scale: a demodulation with the same parameter is then scaled by the previous one,
or by one if there is none. -/
theorem C84_filter {g : Cfg} (hs : g.noSig2 = false) {MAX : Fl → Fl → Fl} {st : St} {cp : Fl} (hc : cp ≠ .nan) {y out o : List Fl} {st' : St}
    (e : step g MAX st (.filter cp y) out = ok (st', o)) (h : Option (List Fl)) (z out' : List Fl) :
    (step g MAX st' (.demodulate cp h z) out' >>= fun r => ok r.2) = demodulate g MAX st.inv h z out' := by
  obtain ⟨o', -, h2⟩ := bind_ok_inv e
  cases h2
  have hr : refresh g { st with last := cp } cp = { st with last := cp } := by
    unfold refresh
    rw [if_neg]
    rintro ⟨h | h, -⟩
    · exact h rfl
    · exact hc h
  show ((demodulate g MAX (refresh g { st with last := cp } cp).inv h z out' >>= fun o => ok _) >>= _) = _
  rw [hr, bind_assoc']
  show (demodulate g MAX st.inv h z out' >>= _) = _
  cases demodulate g MAX st.inv h z out' <;> rfl

/-- With the first call of `filter` the LLR of `1` on a BPSK is 4 whatever the standard deviation, instead of 8 for a standard deviation of 1/2. -/
example : let g : Cfg := ⟨b32, true, 1, 1, exBpsk, false⟩
    Exec.toOption (step g fmax init (.filter (.fin (1 / 2)) [.fin 1]) [.nan] >>= fun r => step g fmax r.1 (.demodulate (.fin (1 / 2)) none [.fin 1]) [.nan] >>= fun r => ok r.2) = some [.fin 4] ∧
    Exec.toOption (step g fmax init (.demodulate (.fin (1 / 2)) none [.fin 1]) [.nan] >>= fun r => ok r.2) = some [.fin 8] := by decide +kernel

/-- **C84 (first parameter).**  The greatest `float` as first channel parameter is taken for one which is already known: the scale is one. -/
theorem C84_first (g : Cfg) (MAX : Fl → Fl → Fl) (h : Option (List Fl)) (z out : List Fl) :
    (step g MAX init (.demodulate fltMax h z) out >>= fun r => ok r.2) = demodulate g MAX (.fin 1) h z out := by
  have hr : refresh g init fltMax = init := by
    unfold refresh
    rw [if_neg]
    rintro ⟨h | h, -⟩
    · exact h rfl
    · cases h
  show ((demodulate g MAX (refresh g init fltMax).inv h z out >>= fun o => ok _) >>= _) = _
  rw [hr, bind_assoc']
  show (demodulate g MAX (.fin 1) h z out >>= _) = _
  cases demodulate g MAX (.fin 1) h z out <;> rfl

/-- **C84 (large frames).**  The number of symbols is computed in `float`: for `2 ^ 24 + 1` symbols of one bit it is one too small, and modulating any frame writes out of the output. -/
theorem C84_size (F : Fmt) (same noSig2 : Bool) : ∃ g, make F same (2 ^ 24 + 1) exBpsk noSig2 = ok g ∧ g.N = 2 ^ 24 + 1 ∧ g.nMod = 2 ^ 24 ∧
    ∀ (x : List Int) (out : List Fl), IsBits x → x.length = g.N → out.length = g.nMod → modulate g x out = ub := by
  have e : toInt (b32.mul (ceil (b32.div (b32.of ((2 ^ 24 + 1 : Int) : ℚ)) (b32.of ((exBpsk.nBps : Nat) : ℚ)))) (.fin (if exBpsk.cplx = true then 2 else 1))) = ok (2 ^ 24) := by
    decide +kernel
  refine ⟨⟨F, same, 2 ^ 24 + 1, 2 ^ 24, exBpsk, noSig2⟩, ?_, rfl, rfl, ?_⟩
  · unfold make
    rw [e]; rfl
  · intro x out hx hl ho
    have hl' : x.length = 2 ^ 24 + 1 := hl
    have ho' : out.length = 2 ^ 24 := ho
    unfold modulate
    dsimp only
    have hb : exBpsk.nBps = 1 := rfl
    have hcx : exBpsk.cplx = false := rfl
    have hw : Cfg.w ⟨F, same, 2 ^ 24 + 1, 2 ^ 24, exBpsk, noSig2⟩ = 1 := rfl
    rw [hb, hcx, hw, Nat.div_one]
    have h := forN_ub (n := 2 ^ 24 + 1) (k0 := 2 ^ 24) (s := out) (f := fun i o => do
      let idx ← index x (i * 1) 1
      let p ← rd exBpsk.pts idx
      put false o (1 * i) p) (fun o => o.length = 2 ^ 24) ho' (by decide) ?_ ?_
    · rw [h]; rfl
    · intro k o hk ho
      rw [index_eq hx (by decide) (by omega), bind_ok]
      have hlt := sum_lt (a := fun j => (x.getD (k * 1 + j) 0).toNat) (fun j => toNat_bit hx _) 1
      rw [rd_lt (by exact hlt), bind_ok]
      rcases lt_or_ge (1 * k) o.length with h | h
      · exact .inr ⟨_, wr_lt h, by rw [List.length_set, ho]⟩
      · exact .inl (wr_ge h)
    · intro o ho
      rw [index_eq hx (by decide) (by omega), bind_ok]
      have hlt := sum_lt (a := fun j => (x.getD (2 ^ 24 * 1 + j) 0).toNat) (fun j => toNat_bit hx _) 1
      rw [rd_lt (by exact hlt), bind_ok]
      show wr o (1 * 2 ^ 24) _ = _
      exact wr_ge (by omega)

/-- **C84 (last symbol).**  For an incomplete last symbol the demodulator counts points which cannot have been sent, and may decide for the wrong bit: a frame of one bit on four points
is sent as 1 (for 0) or 3 (for 1); when -5/2 is received the bit is decided 1, because of the point -3, whereas the turbo demodulator, which knows the missing bit, decides 0. -/
theorem C84_last : let g : Cfg := ⟨b32, true, 1, 1, exPam, false⟩
    g.Good ∧ Exec.toOption (demodulate g fmax (.fin 1) none [.fin (-5 / 2)] [.nan]) = some [.fin (-2)] ∧
    Exec.toOption (tdemodulate g fmax (.fin 1) none [.fin (-5 / 2)] [.fin 0] [.nan]) = some [.fin 18] := by
  refine ⟨⟨exPam_whole, rfl, rfl⟩, by decide +kernel, by decide +kernel⟩

/-- **C84 (infinite priors).**  A bit which is known to be 1, that is whose prior LLR is minus infinity, makes the LLRs of the other bits of its symbol not numbers; a bit which is
known to be 0 does not. -/
theorem C84_nan : let g : Cfg := ⟨b32, true, 2, 1, exPam, false⟩
    g.Good ∧ Exec.toOption (tdemodulate g fmax (.fin 1) none [.fin (-1)] [.fin 0, .inf true] [.nan, .nan]) = some [.nan, .fin (-4)] ∧
    Exec.toOption (tdemodulate g fmax (.fin 1) none [.fin (-1)] [.fin 0, .inf false] [.nan, .nan]) = some [.fin 12, .fin (-4)] := by
  refine ⟨⟨exPam_whole, rfl, rfl⟩, by decide +kernel, by decide +kernel⟩

end Verif.Modem
