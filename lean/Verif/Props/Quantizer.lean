import Verif.Proof.Quantizer
import Mathlib.Data.List.Sort

/-! # C37, C62: quantizers -/

namespace Verif.Quantizer
open Exec Float

/-- C37: the constructor with a fixed point position `f` and a number of bits `s` (for which the shifts are defined) accepts
exactly the configurations where `0 < f ≤ s ≤ bits`, `2 ≤ s` and `f < bits`. -/
theorem C37_constructor (bits : Nat) (hb : bits = 8 ∨ bits = 16) (f s : Int) (hf : 0 ≤ f ∧ f ≤ 30) (hs : 2 ≤ s ∧ s ≤ 32) :
    (0 < f ∧ f ≤ s ∧ f < bits ∧ s ≤ bits → Pow2.make3 bits f s = ok ⟨2 ^ (s - 1).toNat - 1, 2 ^ f.toNat⟩) ∧
    (¬ (0 < f ∧ f ≤ s ∧ f < bits ∧ s ≤ bits) → Pow2.make3 bits f s = exc .invalidArgument) := by
  have hu : toUnsigned f = f := by unfold toUnsigned; omega
  unfold Pow2.make3
  rw [valMax_ok hs.1 hs.2, bind_ok, shl1_ok hf.1 hf.2, bind_ok, hu, valMax_ok (s := (bits : Int)) (by omega) (by omega), bind_ok]
  have hmono : s ≤ bits ↔ (2 : Int) ^ (s - 1).toNat ≤ 2 ^ ((bits : Int) - 1).toNat := by
    rw [pow_le_pow_iff_right₀ (by norm_num)]
    omega
  constructor
  · rintro ⟨h1, h2, h3, h4⟩
    have := hmono.1 h4
    rw [if_neg (by omega), if_neg (by omega), if_neg (by omega), if_neg (by omega), if_neg (by omega), if_neg (by omega)]
  · intro h
    by_cases h1 : f ≤ 0
    · rw [if_pos h1]
    rw [if_neg h1]
    by_cases h2 : s < 2
    · rw [if_pos h2]
    rw [if_neg h2]
    by_cases h3 : s < f
    · rw [if_pos h3]
    rw [if_neg h3]
    by_cases h4 : (bits : Int) ≤ f
    · rw [if_pos h4]
    rw [if_neg h4]
    have h5 : ¬ s ≤ bits := by omega
    rw [hmono] at h5
    rw [if_pos (by omega)]

/-- C37: every number of the format (even when the product overflows) is quantized to `2^f y` rounded to the nearest integer,
halves away from zero, saturated to `[-(2^(s-1)-1), 2^(s-1)-1]`. -/
theorem C37_pow2 {F : Fmt} (hF : Std F) (bits f s : Nat) (hb : bits ≤ 16) (h2 : 2 ≤ s) (hs : s ≤ bits) (hf : f < bits)
    (y : ℚ) (hy : F.Rep y) :
    ∃ z, NearestAway (2 ^ f * y) z ∧
      (⟨2 ^ (s - 1) - 1, 2 ^ f⟩ : Pow2).quant F bits (.fin y) = ok (min (max z (-(2 ^ (s - 1) - 1))) (2 ^ (s - 1) - 1)) := by
  have h15 : (2 : ℤ) ^ (s - 1) ≤ 2 ^ (bits - 1) := pow_le_pow_right₀ (by norm_num) (by omega)
  have h16 : (2 : ℤ) ^ (bits - 1) ≤ 2 ^ 15 := pow_le_pow_right₀ (by norm_num) (by omega)
  have hfs : (2 : ℤ) ^ f ≤ 2 ^ 15 := pow_le_pow_right₀ (by norm_num) (by omega)
  have h1 : (1 : ℤ) ≤ 2 ^ (s - 1) := one_le_pow₀ (by norm_num)
  have hf1 : (1 : ℤ) ≤ 2 ^ f := one_le_pow₀ (by norm_num)
  refine ⟨roundAway (2 ^ f * y), roundAway_spec _, ?_⟩
  unfold Pow2.quant
  simp only []
  have hc : F.of ((2 ^ f : ℤ) : ℚ) = .fin ((2 ^ f : ℤ) : ℚ) := of_int hF _ (by rw [abs_of_pos (by omega)]; omega)
  rw [hc]
  have hmul : F.mul (.fin ((2 ^ f : ℤ) : ℚ)) (.fin y) = F.of ((2 ^ f : ℤ) * y) := rfl
  rw [hmul]
  have hq := quant_settle hF bits (2 ^ (s - 1) - 1) (by omega) (by omega) hb _ _
    (settle_of hF (2 ^ (s - 1) - 1) (by omega) (by omega) ((2 ^ f : ℤ) * y))
  rw [rnd_shift F hy] at hq
  push_cast at hq ⊢
  exact hq

/-- C37: infinite values saturate. -/
theorem C37_infinite {F : Fmt} (hF : Std F) (bits f s : Nat) (hb : bits ≤ 16) (h2 : 2 ≤ s) (hs : s ≤ bits) (hf : f < bits) (neg : Bool) :
    (⟨2 ^ (s - 1) - 1, 2 ^ f⟩ : Pow2).quant F bits (.inf neg) = ok (if neg then -(2 ^ (s - 1) - 1) else 2 ^ (s - 1) - 1) := by
  have h15 : (2 : ℤ) ^ (s - 1) ≤ 2 ^ (bits - 1) := pow_le_pow_right₀ (by norm_num) (by omega)
  have h1 : (1 : ℤ) ≤ 2 ^ (s - 1) := one_le_pow₀ (by norm_num)
  have hfs : (2 : ℤ) ^ f ≤ 2 ^ 15 := pow_le_pow_right₀ (by norm_num) (by omega)
  have hf1 : (1 : ℤ) ≤ 2 ^ f := one_le_pow₀ (by norm_num)
  unfold Pow2.quant
  simp only []
  have hc : F.of ((2 ^ f : ℤ) : ℚ) = .fin ((2 ^ f : ℤ) : ℚ) := of_int hF _ (by rw [abs_of_pos (by omega)]; omega)
  rw [hc]
  have hpos : (0 : ℚ) < ((2 ^ f : ℤ) : ℚ) := by push_cast; positivity
  have hmul : F.mul (.fin ((2 ^ f : ℤ) : ℚ)) (.inf neg) = .inf neg := by
    show (if _ then _ else _) = _
    rw [if_neg hpos.ne', decide_eq_false (not_lt.2 hpos.le)]
    cases neg <;> rfl
  rw [hmul]
  have hq := quant_settle hF bits (2 ^ (s - 1) - 1) (by omega) (by omega) hb (.inf neg) _ rfl
  push_cast at hq ⊢
  exact hq

/-- C37: the consequences: the values are in the symmetric range, the quantization is nondecreasing and odd. -/
theorem C37_shape {F : Fmt} (hF : Std F) (bits f s : Nat) (hb : bits ≤ 16) (h2 : 2 ≤ s) (hs : s ≤ bits) (hf : f < bits)
    (x y : ℚ) (hx : F.Rep x) (hy : F.Rep y) :
    ∃ a b : ℤ, (⟨2 ^ (s - 1) - 1, 2 ^ f⟩ : Pow2).quant F bits (.fin x) = ok a ∧
      (⟨2 ^ (s - 1) - 1, 2 ^ f⟩ : Pow2).quant F bits (.fin y) = ok b ∧
      |a| ≤ 2 ^ (s - 1) - 1 ∧ (x ≤ y → a ≤ b) ∧ (y = -x → b = -a) := by
  have h1 : (1 : ℤ) ≤ 2 ^ (s - 1) := one_le_pow₀ (by norm_num)
  obtain ⟨zx, ex, qx⟩ := C37_pow2 hF bits f s hb h2 hs hf x hx
  obtain ⟨zy, ey, qy⟩ := C37_pow2 hF bits f s hb h2 hs hf y hy
  have ex := nearestAway_unique ex (roundAway_spec _)
  have ey := nearestAway_unique ey (roundAway_spec _)
  refine ⟨_, _, qx, qy, ?_, fun h => ?_, fun h => ?_⟩
  · rw [abs_le]; constructor <;> omega
  · have : zx ≤ zy := by
      rw [ex, ey]
      refine roundAway_mono ?_
      have : (0 : ℚ) ≤ 2 ^ f := by positivity
      gcongr
    omega
  · have : zy = -zx := by
      rw [ex, ey, h, mul_neg, roundAway_neg]
    omega

/-- C37: a frame is quantized value by value, the rest of the output buffer is not touched. -/
theorem C37_frame (N : Nat) (quant : Fl → Exec Int) (q : Fl → Int) (y : List Fl) (out : List Int) (hy : N ≤ y.length) (ho : N ≤ out.length)
    (h : ∀ v ∈ y, quant v = ok (q v)) : process N quant y out = ok ((y.take N).map q ++ out.drop N) := by
  unfold process
  induction N with
  | zero => rfl
  | succ k ih =>
    rw [forN_succ, ih (by omega) (by omega), bind_ok, rd_lt (by omega : k < y.length), bind_ok, h _ (List.getElem_mem _), bind_ok]
    have hl : ((y.take k).map q).length = k := by rw [List.length_map, List.length_take]; omega
    rw [wr_lt (by rw [List.length_append, hl, List.length_drop]; omega)]
    refine congrArg ok ?_
    rw [List.set_append_right _ _ (by omega), hl, Nat.sub_self, List.drop_eq_getElem_cons (by omega : k < out.length), List.set_cons_zero,
      List.take_succ_eq_append_getElem (by omega : k < y.length), List.map_append, List.append_assoc]
    rfl

/-- C37, custom range: with a finite scale factor the quantization of the finite values is `y * delta` rounded to the format
then to the nearest integer, and saturated; so it is in the range, nondecreasing and odd. -/
theorem C37_custom {F : Fmt} (hF : Std F) (bits s : Nat) (hb : bits ≤ 16) (h2 : 2 ≤ s) (hs : s ≤ bits) (d : ℚ) (hd : 0 ≤ d) (x y : ℚ) :
    ∃ a b z : ℤ, (⟨2 ^ (s - 1) - 1, .fin d⟩ : Cust).quant F bits (.fin x) = ok a ∧
      (⟨2 ^ (s - 1) - 1, .fin d⟩ : Cust).quant F bits (.fin y) = ok b ∧
      NearestAway (F.rnd (x * d)) z ∧ a = min (max z (-(2 ^ (s - 1) - 1))) (2 ^ (s - 1) - 1) ∧
      |a| ≤ 2 ^ (s - 1) - 1 ∧ (x ≤ y → a ≤ b) ∧ (y = -x → b = -a) ∧
      |F.rnd (x * d) - x * d| ≤ 2 ^ F.emin / 2 + |x * d| / 2 ^ F.p := by
  have h15 : (2 : ℤ) ^ (s - 1) ≤ 2 ^ (bits - 1) := pow_le_pow_right₀ (by norm_num) (by omega)
  have h16 : (2 : ℤ) ^ (bits - 1) ≤ 2 ^ 15 := pow_le_pow_right₀ (by norm_num) (by omega)
  have h1 : (1 : ℤ) ≤ 2 ^ (s - 1) := one_le_pow₀ (by norm_num)
  have key : ∀ v : ℚ, (⟨2 ^ (s - 1) - 1, .fin d⟩ : Cust).quant F bits (.fin v) =
      ok (clampI (-(2 ^ (s - 1) - 1)) (2 ^ (s - 1) - 1) (roundAway (F.rnd (v * d)))) := by
    intro v
    unfold Cust.quant
    simp only []
    have hmul : F.mul (.fin v) (.fin d) = F.of (v * d) := rfl
    rw [hmul]
    have hq := quant_settle hF bits (2 ^ (s - 1) - 1) (by omega) (by omega) hb _ _
      (settle_of hF (2 ^ (s - 1) - 1) (by omega) (by omega) (v * d))
    push_cast at hq ⊢
    exact hq
  refine ⟨_, _, _, key x, key y, roundAway_spec _, rfl, ?_, fun h => ?_, fun h => ?_, rnd_err F _⟩
  · unfold clampI
    rw [abs_le]; constructor <;> omega
  · have : roundAway (F.rnd (x * d)) ≤ roundAway (F.rnd (y * d)) := roundAway_mono (rnd_mono F (by gcongr))
    unfold clampI
    omega
  · have : roundAway (F.rnd (y * d)) = -roundAway (F.rnd (x * d)) := by
      rw [h, neg_mul, rnd_neg, roundAway_neg]
    unfold clampI
    omega

/-- C37: the range computed from the first frame is the absolute value of rank `8 * (N / 10)`: more than this number of values
are at most it, and at least the others are at least it.  The next frames do not change it. -/
theorem C37_calibrate (F : Fmt) (N : Nat) (hN : 0 < N) (m : Int) (y : List Fl) (hy : N ≤ y.length) :
    ∃ x, Cust.calibrate F N ⟨m, .fin 0⟩ y = ok ⟨m, deltaOf F m (.fin x)⟩ ∧
      N / 10 * 8 + 1 ≤ ((y.take N).map absFin).countP (fun v => decide (v ≤ x)) ∧
      N - N / 10 * 8 ≤ ((y.take N).map absFin).countP (fun v => decide (x ≤ v)) ∧
      ∀ d, d ≠ .fin 0 → ∀ y', Cust.calibrate F N ⟨m, d⟩ y' = ok ⟨m, d⟩ := by
  have hl : ((y.take N).map absFin).length = N := by rw [List.length_map, List.length_take]; omega
  generalize hly : (y.take N).map absFin = l at *
  have hk : N / 10 * 8 < l.mergeSort.length := by rw [List.length_mergeSort]; omega
  have hsort : l.mergeSort.Pairwise (fun a b => decide (a ≤ b) = true) :=
    List.pairwise_mergeSort (le := fun a b : ℚ => decide (a ≤ b)) (fun a b c h1 h2 => by simp at *; linarith)
      (fun a b => by simp; exact le_total a b) l
  have hperm := List.mergeSort_perm l (fun a b : ℚ => decide (a ≤ b))
  refine ⟨l.mergeSort[N / 10 * 8], ?_, ?_, ?_, ?_⟩
  · have he : Cust.calibrate F N ⟨m, .fin 0⟩ y = rd (((y.take N).map absFin).mergeSort) (N / 10 * 8) >>= fun x => ok ⟨m, deltaOf F m (.fin x)⟩ := if_pos rfl
    rw [he, hly, rd_lt hk, bind_ok]
  · rw [← hperm.countP_eq]
    exact (count_sorted _ hsort _ hk).1
  · have h := (count_sorted _ hsort _ hk).2
    rw [hperm.countP_eq, List.length_mergeSort, hl] at h
    exact h
  · intro d hd y'
    unfold Cust.calibrate
    rw [if_neg hd]

/-! ## The vectorised version -/

/-- C37: a lane of the vectorised version gives the same value as the other one for the numbers whose product fits in an `int`
and is not half-way between two integers. -/
theorem C37_fast {F : Fmt} (hF : Std F) (bits f s : Nat) (hb : bits = 8 ∨ bits = 16) (h2 : 2 ≤ s) (hs : s ≤ bits) (hf : f < bits)
    (y : ℚ) (hy : F.Rep y) (hlt : |2 ^ f * y| < 2 ^ 31 - 1) (htie : ∀ k : ℤ, 2 ^ f * y ≠ k + 1 / 2) :
    (⟨2 ^ (s - 1) - 1, 2 ^ f⟩ : Pow2).quant F bits (.fin y) = ok ((⟨2 ^ (s - 1) - 1, 2 ^ f⟩ : Pow2).lane F bits (.fin y)) := by
  have h15 : (2 : ℤ) ^ (s - 1) ≤ 2 ^ (bits - 1) := pow_le_pow_right₀ (by norm_num) (by omega)
  have h16 : (2 : ℤ) ^ (bits - 1) ≤ 2 ^ 15 := pow_le_pow_right₀ (by norm_num) (by omega)
  have hfs : (2 : ℤ) ^ f ≤ 2 ^ 15 := pow_le_pow_right₀ (by norm_num) (by omega)
  have h1 : (1 : ℤ) ≤ 2 ^ (s - 1) := one_le_pow₀ (by norm_num)
  have hf1 : (1 : ℤ) ≤ 2 ^ f := one_le_pow₀ (by norm_num)
  obtain ⟨z, hz, e⟩ := C37_pow2 hF bits f s (by omega) h2 hs hf y hy
  rw [e]
  refine congrArg ok ?_
  unfold Pow2.lane
  simp only []
  have hc : F.of ((2 ^ f : ℤ) : ℚ) = .fin ((2 ^ f : ℤ) : ℚ) := of_int hF _ (by rw [abs_of_pos (by omega)]; omega)
  have hmul : F.mul (.fin ((2 ^ f : ℤ) : ℚ)) (.fin y) = F.of ((2 ^ f : ℤ) * y) := rfl
  have hcast : ((2 ^ f : ℤ) : ℚ) * y = 2 ^ f * y := by push_cast; rfl
  have hrep : F.of ((2 ^ f : ℤ) * y) = .fin (2 ^ f * y) ∨ ∃ b, F.of ((2 ^ f : ℤ) * y) = .inf b := by
    cases h : F.of ((2 ^ f : ℤ) * y) with
    | fin q => left; rw [of_fin h, rnd_shift F hy, hcast]
    | inf b => right; exact ⟨b, rfl⟩
    | nan => exact absurd h (of_not_nan F _)
  rw [hc, hmul]
  have hr : rne (2 ^ f * y) = z := by
    have h3 := rne_err (2 ^ f * y)
    refine nearestAway_unique (q := 2 ^ f * y) ⟨h3, fun h => ?_⟩ hz
    exfalso
    rcases abs_eq (by norm_num : (0 : ℚ) ≤ 1 / 2) |>.1 h with h | h
    · exact htie (rne (2 ^ f * y) - 1) (by push_cast; linarith)
    · exact htie (rne (2 ^ f * y)) (by linarith)
  rcases hrep with h | ⟨b, h⟩
  · rw [h]
    have hz1 := abs_le.1 hz.1
    have hl := abs_lt.1 hlt
    have b1 : z < 2 ^ 31 := by
      have : (z : ℚ) < ((2 ^ 31 : ℤ) : ℚ) := by push_cast; linarith
      exact_mod_cast this
    have b2 : -2 ^ 31 ≤ z := by
      have : ((-2 ^ 31 : ℤ) : ℚ) ≤ (z : ℚ) := by push_cast; linarith
      exact_mod_cast this
    show _ = clampI _ _ (clampI _ _ (clampI _ _ (if -2 ^ 31 ≤ rne (2 ^ f * y) ∧ rne (2 ^ f * y) < 2 ^ 31 then rne (2 ^ f * y) else -2 ^ 31)))
    rw [hr, if_pos ⟨b2, b1⟩]
    unfold clampI
    rcases hb with rfl | rfl <;> omega
  · exfalso
    obtain ⟨-, ho⟩ := of_inf h
    rw [rnd_shift F hy, hcast] at ho
    have hb : (2 : ℚ) ^ (31 : ℤ) ≤ 2 ^ F.emax := zpow_le_zpow_right₀ (by norm_num) hF.big
    have h31 : (2 : ℚ) ^ (31 : ℤ) = 2 ^ 31 := by norm_num
    linarith

/-- C37: so, for frames of such numbers, the vectorised version computes what the other one does, whatever the size of the
registers. -/
theorem C37_fast_frame {F : Fmt} (hF : Std F) (bits f s : Nat) (hb : bits = 8 ∨ bits = 16) (h2 : 2 ≤ s) (hs : s ≤ bits) (hf : f < bits)
    (N w : Nat) (y : List Fl) (out : List Int)
    (h : ∀ v ∈ y, ∃ q, v = .fin q ∧ F.Rep q ∧ |2 ^ f * q| < 2 ^ 31 - 1 ∧ ∀ k : ℤ, 2 ^ f * q ≠ k + 1 / 2) :
    (⟨2 ^ (s - 1) - 1, 2 ^ f⟩ : Pow2).processFast F bits N w y out =
      process N ((⟨2 ^ (s - 1) - 1, 2 ^ f⟩ : Pow2).quant F bits) y out := by
  unfold Pow2.processFast process
  refine forN_congr fun i _ o => ?_
  rcases Nat.lt_or_ge i y.length with hi | hi
  · rw [rd_lt hi, bind_ok, bind_ok]
    obtain ⟨q, e, h1, h3, h4⟩ := h _ (List.getElem_mem hi)
    rw [e, C37_fast hF bits f s hb h2 hs hf q h1 h3 h4, ite_self]
  · rw [rd_ge hi]; rfl

example : Pow2.make3 8 2 6 = ok ⟨31, 4⟩ ∧ b32.Rep (-3 / 8) :=
  ⟨by decide, ⟨-3, -3, by decide, by decide, by norm_num, by norm_num [b32]⟩⟩

/-! ## C62: corner cases -/

/-- C62, defect: quantizing a NaN converts a NaN to an integer, undefined behaviour. -/
theorem C62_nan (F : Fmt) (bits : Nat) (c : Pow2) (hm : Std F) (h0 : 0 < c.factor) (h : c.factor < 2 ^ 24) : c.quant F bits .nan = ub := by
  unfold Pow2.quant
  rw [of_int hm c.factor (by rw [abs_of_pos h0]; exact h)]
  exact nan_ub F bits c.max

/-- C62, defect: with a null range, the scale factor is infinite, and quantizing 0 is undefined (NaN). -/
theorem C62_null_range {F : Fmt} (hF : Std F) (bits s : Nat) (h2 : 2 ≤ s) (hs : s ≤ 16) (hb : s ≤ bits) :
    ∃ c, Cust.make F bits (.fin 0) s = ok c ∧ c.quant F bits (.fin 0) = ub := by
  have h1 : (1 : ℤ) < 2 ^ (s - 1) := one_lt_pow₀ (by norm_num) (by omega)
  have h15 : (2 : ℤ) ^ (s - 1) ≤ 2 ^ 15 := pow_le_pow_right₀ (by norm_num) (by omega)
  refine ⟨⟨2 ^ (s - 1) - 1, .inf false⟩, ?_, ?_⟩
  · unfold Cust.make
    have hu : toUnsigned (s : Int) = s := by unfold toUnsigned; omega
    have hn : ((s : Int) - 1).toNat = s - 1 := by omega
    rw [valMax_ok (by omega) (by omega), bind_ok, hu, if_neg (by omega), hn]
    refine congrArg ok ?_
    have : deltaOf F (2 ^ (s - 1) - 1) (.fin 0) = .inf false := by
      unfold deltaOf
      have e1 : F.of 1 = .fin 1 := by have := of_int hF 1 (by norm_num); simpa using this
      rw [of_int hF (2 ^ (s - 1) - 1) (by rw [abs_of_pos (by omega)]; omega), e1]
      have : F.div (Fl.fin 0).abs (.fin ((2 ^ (s - 1) - 1 : ℤ) : ℚ)) = .fin 0 := by
        have hne : ((2 ^ (s - 1) - 1 : ℤ) : ℚ) ≠ 0 := by exact_mod_cast (by omega : (2 : ℤ) ^ (s - 1) - 1 ≠ 0)
        show (if _ then _ else _) = _
        rw [if_neg hne, abs_zero, zero_div, of_zero_mul]
      rw [this]
      show (if (0 : ℚ) = 0 then if (1 : ℚ) = 0 then Fl.nan else Fl.inf (decide ((1 : ℚ) < 0)) else F.of (1 / 0)) = _
      rw [if_pos rfl, if_neg (by norm_num), decide_eq_false (by norm_num)]
    rw [this]
  · have : F.mul (.fin 0) (.inf false) = .nan := by simp [Fmt.mul]
    unfold Cust.quant
    simp only [this]
    exact nan_ub F bits _

/-- C62, defect: when the output type is the input type, the constants are null and every finite value is quantized to 0. -/
theorem C62_float (F : Fmt) (y : ℚ) : quantFloat F (.fin y) = .fin 0 := by
  unfold quantFloat
  rw [of_zero_mul]
  have : F.mul (.fin 0) (.fin y) = F.of (0 * y) := rfl
  rw [this, zero_mul, of_zero_mul]
  show saturate (.fin (roundAway 0)) _ _ = _
  rw [saturate_fin]
  have h : roundAway 0 = 0 := roundAway_int 0
  rw [h]
  simp

/-- C62, defect: the positions are used before they are checked: a negative fixed point position shifts by a negative number. -/
theorem C62_shift (bits : Nat) (f s : Int) (hf : f < 0) (hs : 2 ≤ s ∧ s ≤ 32) : Pow2.make3 bits f s = ub := by
  unfold Pow2.make3
  rw [valMax_ok hs.1 hs.2, bind_ok]
  unfold shl1
  rw [if_neg (by omega)]
  rfl

/-- C62, defect: the vectorised version gives the most negative value for large positive values (`2^f y ≥ 2^31`), and for
`+inf`. -/
theorem C62_fast_sign {F : Fmt} (hF : Std F) (bits f s : Nat) (hb : bits = 8 ∨ bits = 16) (h2 : 2 ≤ s) (hs : s ≤ bits) (hf : f < bits)
    (y : ℚ) (hy : F.Rep y) (hge : 2 ^ 31 ≤ 2 ^ f * y) :
    (⟨2 ^ (s - 1) - 1, 2 ^ f⟩ : Pow2).lane F bits (.fin y) = -(2 ^ (s - 1) - 1) ∧
    (⟨2 ^ (s - 1) - 1, 2 ^ f⟩ : Pow2).quant F bits (.fin y) = ok (2 ^ (s - 1) - 1) := by
  have h15 : (2 : ℤ) ^ (s - 1) ≤ 2 ^ (bits - 1) := pow_le_pow_right₀ (by norm_num) (by omega)
  have h16 : (2 : ℤ) ^ (bits - 1) ≤ 2 ^ 15 := pow_le_pow_right₀ (by norm_num) (by omega)
  have hfs : (2 : ℤ) ^ f ≤ 2 ^ 15 := pow_le_pow_right₀ (by norm_num) (by omega)
  have h1 : (1 : ℤ) ≤ 2 ^ (s - 1) := one_le_pow₀ (by norm_num)
  have hf1 : (1 : ℤ) ≤ 2 ^ f := one_le_pow₀ (by norm_num)
  have hc : F.of ((2 ^ f : ℤ) : ℚ) = .fin ((2 ^ f : ℤ) : ℚ) := of_int hF _ (by rw [abs_of_pos (by omega)]; omega)
  have hmul : F.mul (.fin ((2 ^ f : ℤ) : ℚ)) (.fin y) = F.of ((2 ^ f : ℤ) * y) := rfl
  have hcast : ((2 ^ f : ℤ) : ℚ) * y = 2 ^ f * y := by push_cast; rfl
  constructor
  · unfold Pow2.lane
    simp only []
    rw [hc, hmul]
    have : cvtInt (F.of ((2 ^ f : ℤ) * y)) = -2 ^ 31 := by
      cases h : F.of ((2 ^ f : ℤ) * y) with
      | fin q =>
        rw [of_fin h, rnd_shift F hy, hcast]
        have hr := rne_mono hge
        have h31 : rne (2 ^ 31) = 2 ^ 31 := by have := rne_int (2 ^ 31); push_cast at this; exact this
        show (if _ then _ else _) = _
        rw [if_neg (by omega)]
      | inf b => rfl
      | nan => rfl
    rw [this]
    unfold clampI
    rcases hb with rfl | rfl <;> omega
  · obtain ⟨z, hz, e⟩ := C37_pow2 hF bits f s (by omega) h2 hs hf y hy
    rw [e]
    refine congrArg ok ?_
    have ez := nearestAway_unique hz (roundAway_spec _)
    have hr := roundAway_mono hge
    have h31 : roundAway (2 ^ 31) = 2 ^ 31 := by have := roundAway_int (2 ^ 31); push_cast at this; exact this
    omega

/-- C62, defect: the vectorised version rounds halves to even: 0.5 is quantized to 0, or 1 at the end of the frame. -/
theorem C62_fast_ties : rne (1 / 2) = 0 ∧ roundAway (1 / 2) = 1 := by
  constructor
  · unfold rne; norm_num
  · unfold roundAway; norm_num

end Verif.Quantizer
