import Verif.Proof.Prng
import Mathlib.Tactic.FieldSimp
import Mathlib.Tactic.Ring
import Mathlib.Data.Rat.Cast.Order

/-! # Properties of the pseudo random generator (C40, C65, C66) -/

namespace Verif.Prng
open Exec Verif.Float

/-- C40: for every seed and every sequence of calls of the methods (reseeding included), every call returns normally, and the
result is that of MT19937: the number drawn is the term after the last one drawn since the last seeding. -/
theorem C40_calls (s : BitVec 32) (ops : List Op) :
    ∃ p, make s = ok p ∧ ∃ q, runAll p ops = ok (expectAll s 0 ops, q) := by
  obtain ⟨p, e, h⟩ := seed_spec (p := ⟨List.replicate SIZE 0#32, 0⟩) (by rw [List.length_replicate]; rfl) s
  obtain ⟨⟨r, q⟩, e2, h2⟩ := run_spec (ops := ops) h
  exact ⟨p, e, q, by rw [e2, ← h2]⟩

/-- C40: for every seed the `i`-th call of `rand_u32` returns the `i`-th number of MT19937. -/
theorem C40_sequence (s : BitVec 32) (n : Nat) :
    ∃ p, make s = ok p ∧ ∃ q, runAll p (List.replicate n .u32) = ok ((List.range n).map (fun i => Res.u32 (number s i)), q) := by
  have key : ∀ n i, expectAll s i (List.replicate n .u32) = (List.range n).map (fun j => Res.u32 (number s (i + j))) := by
    intro n
    induction n with
    | zero => intro i; rfl
    | succ n ih =>
      intro i
      rw [List.replicate_succ, expectAll, List.range_succ_eq_map, List.map_cons, List.map_map]
      congr 1
      show expectAll s (i + 1) (List.replicate n .u32) = _
      rw [ih]
      refine List.map_congr_left fun j _ => ?_
      simp only [Function.comp_apply]
      rw [show i + 1 + j = i + (j + 1) by omega]
  obtain ⟨p, e, q, hq⟩ := C40_calls s (List.replicate n .u32)
  refine ⟨p, e, q, ?_⟩
  rw [hq, key]
  simp

/-- The specification gives the first number of `std::mt19937` with its default seed. -/
example : number 5489 0 = 3499211612#32 := by
  unfold number
  rw [show 624 + 0 = 0 + 624 from rfl, term_add, term_lt (by decide), term_lt (by decide), term_lt (by decide)]
  decide +kernel

/-! ## Real numbers -/

theorem div_two (F : Fmt) (a : ℚ) : F.div (.fin a) (.fin (2 ^ 32)) = F.of (a / 2 ^ 32) := by
  unfold Fmt.div
  simp only []
  rw [if_neg (by norm_num)]

theorem u_lt (u : BitVec 32) : (u.toNat : ℚ) ≤ 2 ^ 32 - 1 := by
  have := u.isLt
  have h : (u.toNat : ℚ) + 1 ≤ (2 ^ 32 : ℕ) := by exact_mod_cast this
  push_cast at h
  linarith

theorem rep_nat64 {n : Nat} (h : n < 2 ^ 53) : b64.Rep (n : ℚ) := by
  have := rep_int b64 (n : ℤ) (by rw [abs_of_nonneg (by omega)]; exact_mod_cast h) (by decide) (by decide)
  exact_mod_cast this

/-- A ratio of integers of 53 bits and a power of two is exact in double precision. -/
theorem rep_ratio {n k : Nat} (h : n < 2 ^ 53) (hk : k ≤ 1000) : b64.Rep ((n : ℚ) / 2 ^ k) := by
  refine ⟨n, -k, ?_, ?_, ?_, ?_⟩
  · rw [abs_of_nonneg (by omega)]; exact_mod_cast h
  · show (-1074 : ℤ) ≤ -k; omega
  · rw [zpow_neg, zpow_natCast]; push_cast; rw [div_eq_mul_inv]
  · rw [abs_of_nonneg (by positivity)]
    have h1 : (n : ℚ) < 2 ^ 53 := by exact_mod_cast h
    have h2 : (1 : ℚ) ≤ 2 ^ k := one_le_pow₀ (by norm_num)
    have h3 : (n : ℚ) / 2 ^ k ≤ n := div_le_self (by positivity) h2
    have h4 : (2 : ℚ) ^ 53 ≤ 2 ^ (1024 : ℤ) := by
      rw [show (2 : ℚ) ^ 53 = 2 ^ (53 : ℤ) by norm_cast]
      exact zpow_le_zpow_right₀ (by norm_num) (by norm_num)
    exact lt_of_le_of_lt h3 (lt_of_lt_of_le h1 h4)

theorem max64 : b64.add (b64.of u32max) (.fin 1) = .fin (2 ^ 32) := by
  rw [of_rep _ (rep_nat64 (by decide))]
  show b64.of ((u32max : ℚ) + 1) = _
  have : (u32max : ℚ) + 1 = ((2 ^ 32 : Nat) : ℚ) := by unfold u32max; norm_num
  rw [this, of_rep _ (rep_nat64 (by norm_num))]
  norm_num

/-- C65: `randd_co` returns the number drawn divided by 2^32, without rounding: it is in [0, 1). -/
theorem C65_randd_co (u : BitVec 32) :
    co b64 u = .fin (u.toNat / 2 ^ 32) ∧ (0 : ℚ) ≤ u.toNat / 2 ^ 32 ∧ (u.toNat / 2 ^ 32 : ℚ) < 1 := by
  have := u_lt u
  refine ⟨?_, by positivity, by rw [div_lt_one (by positivity)]; linarith⟩
  unfold co
  rw [max64, of_rep _ (rep_nat64 (by have := u.isLt; omega))]
  rw [div_two, of_rep _ (rep_ratio (by have := u.isLt; omega) (by omega))]

/-- C65: `randd_oo` returns the middle of the interval of length 2^-32 which starts at the value of `randd_co`, without rounding:
it is in (0, 1). -/
theorem C65_randd_oo (u : BitVec 32) :
    oo b64 u = .fin ((u.toNat + 1 / 2) / 2 ^ 32) ∧ (0 : ℚ) < (u.toNat + 1 / 2) / 2 ^ 32 ∧ ((u.toNat + 1 / 2) / 2 ^ 32 : ℚ) < 1 := by
  have := u_lt u
  refine ⟨?_, by positivity, by rw [div_lt_one (by positivity)]; linarith⟩
  unfold oo
  rw [max64, of_rep _ (rep_nat64 (by have := u.isLt; omega))]
  have e : (u.toNat : ℚ) + 1 / 2 = ((2 * u.toNat + 1 : Nat) : ℚ) / 2 ^ 1 := by push_cast; ring
  have e2 : ((u.toNat : ℚ) + 1 / 2) / 2 ^ 32 = ((2 * u.toNat + 1 : Nat) : ℚ) / 2 ^ 33 := by push_cast; ring
  show b64.div (b64.of ((u.toNat : ℚ) + 1 / 2)) _ = _
  have hu := u.isLt
  rw [e, of_rep _ (rep_ratio (by omega) (by omega)), ← e]
  rw [div_two, e2, of_rep _ (rep_ratio (by omega) (by omega))]

theorem of_fin (F : Fmt) {x B : ℚ} (h0 : 0 ≤ x) (h : x ≤ B) (hB : F.Rep B) : F.of x = .fin (F.rnd x) ∧ 0 ≤ F.rnd x ∧ F.rnd x ≤ B := by
  have h1 : 0 ≤ F.rnd x := by
    have := rnd_mono F h0
    rwa [show F.rnd 0 = 0 by unfold Fmt.rnd; simp [mag_zero]] at this
  have h2 : F.rnd x ≤ B := by
    have := rnd_mono F h
    rwa [rnd_rep F hB] at this
  refine ⟨?_, h1, h2⟩
  unfold Fmt.of
  rw [if_neg]
  obtain ⟨_, _, _, _, _, h⟩ := hB
  rw [not_le, abs_of_nonneg h1]
  exact lt_of_le_of_lt h2 (lt_of_le_of_lt (le_abs_self B) h)

theorem rep_pow (F : Fmt) (k : ℕ) (h1 : F.emin ≤ 0) (hp : 2 ≤ F.p) (h : (k : ℤ) < F.emax) : F.Rep (2 ^ k) := by
  refine ⟨1, k, ?_, by omega, by rw [zpow_natCast]; simp, ?_⟩
  · have : (2 : ℤ) ^ 1 < 2 ^ F.p := pow_lt_pow_right₀ (by norm_num) (by omega)
    simp only [abs_one]; linarith
  · rw [abs_of_nonneg (by positivity), ← zpow_natCast]
    exact zpow_lt_zpow_right₀ (by norm_num) h

/-- C65: `randf_cc` and `randd_cc` are in [0, 1]; 0 and 1 are reached. -/
theorem C65_cc (F : Fmt) (hF : F = b32 ∨ F = b64) (u : BitVec 32) :
    (∃ q, cc F u = .fin q ∧ 0 ≤ q ∧ q ≤ 1) ∧ cc F 0#32 = .fin 0 ∧ cc F 0xFFFFFFFF#32 = .fin 1 := by
  have r0 : F.emin ≤ 0 ∧ 2 ≤ F.p ∧ (32 : ℤ) < F.emax := by rcases hF with rfl | rfl <;> decide
  have r1 : F.Rep (2 ^ 32) := rep_pow F 32 r0.1 r0.2.1 r0.2.2
  have r2 : F.Rep 1 := by have := rep_pow F 0 r0.1 r0.2.1 (by have := r0.2.2; push_cast; omega); simpa using this
  have hm : (u32max : ℚ) = 2 ^ 32 - 1 := by unfold u32max; norm_num
  obtain ⟨e1, -, -⟩ := of_fin F (x := (u32max : ℚ)) (by positivity) (by rw [hm]; linarith) r1
  have hpos : 1 ≤ F.rnd (u32max : ℚ) := by
    have := rnd_mono F (x := 1) (y := (u32max : ℚ)) (by rw [hm]; norm_num)
    rwa [rnd_rep F r2] at this
  have gen : ∀ v : BitVec 32, cc F v = F.of (F.rnd (v.toNat : ℚ) / F.rnd (u32max : ℚ)) ∧ 0 ≤ F.rnd (v.toNat : ℚ) ∧
      F.rnd (v.toNat : ℚ) ≤ F.rnd (u32max : ℚ) := by
    intro v
    have hv := u_lt v
    obtain ⟨e2, h2, -⟩ := of_fin F (x := (v.toNat : ℚ)) (by positivity) (by linarith : _ ≤ (2 : ℚ) ^ 32) r1
    refine ⟨?_, h2, rnd_mono F (by rw [hm]; exact hv)⟩
    unfold cc
    rw [e1, e2]
    show (if F.rnd (u32max : ℚ) = 0 then _ else _) = _
    rw [if_neg (by linarith)]
  refine ⟨?_, ?_, ?_⟩
  · obtain ⟨e, h0, h1⟩ := gen u
    obtain ⟨e3, h3, h4⟩ := of_fin F (x := F.rnd (u.toNat : ℚ) / F.rnd (u32max : ℚ)) (div_nonneg h0 (by linarith))
      ((div_le_one (by linarith)).2 h1) r2
    exact ⟨_, by rw [e, e3], h3, h4⟩
  · obtain ⟨e, -, -⟩ := gen 0#32
    have z : F.rnd (((0#32).toNat : ℕ) : ℚ) = 0 := by
      show F.rnd ((0 : ℕ) : ℚ) = 0
      unfold Fmt.rnd; simp [mag_zero]
    rw [e, z, zero_div]
    have : F.rnd 0 = 0 := by unfold Fmt.rnd; simp [mag_zero]
    unfold Fmt.of
    rw [this, if_neg (by rw [abs_zero, not_le]; exact two_zpow_pos _)]
  · obtain ⟨e, -, -⟩ := gen 0xFFFFFFFF#32
    rw [e, show ((0xFFFFFFFF#32).toNat : ℕ) = u32max from rfl, div_self (by linarith), of_rep F r2]

example : cc b32 0x80000000#32 ≠ .nan := by
  obtain ⟨⟨q, e, -⟩, -⟩ := C65_cc b32 (Or.inl rfl) 0x80000000#32
  rw [e]; simp

/-! ## Single precision -/

theorem mag32 {x : ℚ} {k : ℕ} (h1 : (2 : ℚ) ^ k ≤ x) (h2 : x < 2 ^ (k + 1)) (hk : 23 ≤ k) :
    b32.mag x = rne (x / 2 ^ (k - 23)) * 2 ^ (k - 23) := by
  have hx : 0 < x := lt_of_lt_of_le (by positivity) h1
  have hl : Int.log 2 x = k := by
    apply le_antisymm
    · by_contra hc
      have := (Int.zpow_le_iff_le_log (b := 2) (by norm_num) hx (x := ((k + 1 : ℕ) : ℤ))).2 (by push_cast; omega)
      rw [zpow_natCast] at this
      have := lt_of_le_of_lt this h2
      norm_num at this
    · refine (Int.zpow_le_iff_le_log (b := 2) (by norm_num) hx).1 ?_
      rw [zpow_natCast]; exact_mod_cast h1
  have hu : b32.ulp x = ((k - 23 : ℕ) : ℤ) := by
    unfold Fmt.ulp
    rw [hl]
    show max (-149) ((k : ℤ) - ((24 : ℕ) - 1)) = _
    omega
  unfold Fmt.mag
  rw [hu, zpow_natCast]

theorem rnd32 {x : ℚ} {k : ℕ} (h1 : (2 : ℚ) ^ k ≤ x) (h2 : x < 2 ^ (k + 1)) (hk : 23 ≤ k) :
    b32.rnd x = rne (x / 2 ^ (k - 23)) * 2 ^ (k - 23) := by
  have hx : 0 < x := lt_of_lt_of_le (by positivity) h1
  unfold Fmt.rnd
  rw [if_neg (by linarith), mag32 h1 h2 hk]

theorem rnd_a : b32.rnd (2 ^ 32 - 128) = 2 ^ 32 := by
  rw [rnd32 (k := 31) (by norm_num) (by norm_num) (by norm_num)]
  unfold rne; norm_num

theorem rnd_b : b32.rnd (2 ^ 32 + 1) = 2 ^ 32 := by
  rw [rnd32 (k := 32) (by norm_num) (by norm_num) (by norm_num)]
  unfold rne; norm_num

theorem rnd_c : b32.rnd (2 ^ 32 - 129) = 2 ^ 32 - 256 := by
  rw [rnd32 (k := 31) (by norm_num) (by norm_num) (by norm_num)]
  unfold rne; norm_num

theorem rnd_hi {x : ℚ} (h1 : 2 ^ 32 - 128 ≤ x) (h2 : x ≤ 2 ^ 32 + 1) : b32.rnd x = 2 ^ 32 := by
  have a := rnd_mono b32 h1
  have b := rnd_mono b32 h2
  rw [rnd_a] at a
  rw [rnd_b] at b
  linarith

theorem rnd_lo {x : ℚ} (h : x ≤ 2 ^ 32 - 129) : b32.rnd x ≤ 2 ^ 32 - 256 := by
  have a := rnd_mono b32 h
  rwa [rnd_c] at a

theorem rep32 : b32.Rep (2 ^ 32) := rep_pow b32 32 (by decide) (by decide) (by decide)

theorem of_hi {x : ℚ} (h1 : 2 ^ 32 - 128 ≤ x) (h2 : x ≤ 2 ^ 32 + 1) : b32.of x = .fin (2 ^ 32) := by
  unfold Fmt.of
  rw [rnd_hi h1 h2, if_neg]
  obtain ⟨_, _, _, _, _, h⟩ := rep32
  exact not_le.2 h

theorem max32 : b32.add (b32.of u32max) (.fin 1) = .fin (2 ^ 32) := by
  have hm : (u32max : ℚ) = 2 ^ 32 - 1 := by unfold u32max; norm_num
  rw [of_hi (by rw [hm]; norm_num) (by rw [hm]; norm_num)]
  exact of_hi (by norm_num) (by norm_num)

theorem div32 (a : ℚ) : b32.div (.fin a) (.fin (2 ^ 32)) = b32.of (a / 2 ^ 32) := by
  rw [div_two]

theorem rep_one : b32.Rep 1 := by have := rep_pow b32 0 (by decide) (by decide) (by decide); simpa using this

theorem rnd_below : b32.rnd ((2 ^ 32 - 256) / 2 ^ 32) < 1 := by
  have : b32.Rep ((2 ^ 32 - 256) / 2 ^ 32) := by
    refine ⟨2 ^ 24 - 1, -24, by decide, by decide, by norm_num, ?_⟩
    have h1 : (1 : ℚ) ≤ 2 ^ (128 : ℤ) := one_le_zpow₀ (by norm_num) (by norm_num)
    refine lt_of_lt_of_le ?_ h1
    norm_num
  rw [rnd_rep _ this]
  norm_num

/-- C66, defect: `randf_co`, documented as a number of [0, 1), returns 1 for the 128 greatest numbers drawn (and a number of [0, 1)
for all the others). -/
theorem C66_randf_co (u : BitVec 32) :
    ∃ q, co b32 u = .fin q ∧ 0 ≤ q ∧ q ≤ 1 ∧ (q = 1 ↔ 2 ^ 32 - 128 ≤ u.toNat) := by
  have hu := u_lt u
  unfold co
  rw [max32]
  by_cases h : 2 ^ 32 - 128 ≤ u.toNat
  · have h' : (2 : ℚ) ^ 32 - 128 ≤ u.toNat := by
      have : ((2 ^ 32 - 128 : ℕ) : ℚ) ≤ u.toNat := by exact_mod_cast h
      norm_num at this ⊢; exact this
    rw [of_hi h' (by linarith), div32, div_self (by norm_num), of_rep _ rep_one]
    exact ⟨1, rfl, by norm_num, le_refl _, fun _ => h, fun _ => rfl⟩
  · have h' : (u.toNat : ℚ) ≤ 2 ^ 32 - 129 := by
      have : (u.toNat : ℚ) ≤ ((2 ^ 32 - 129 : ℕ) : ℚ) := by exact_mod_cast (by omega : u.toNat ≤ 2 ^ 32 - 129)
      norm_num at this ⊢; exact this
    obtain ⟨e1, h1, -⟩ := of_fin b32 (x := (u.toNat : ℚ)) (by positivity) (by linarith : _ ≤ (2 : ℚ) ^ 32) rep32
    have h2 := rnd_lo h'
    have h3 : b32.rnd (u.toNat : ℚ) / 2 ^ 32 ≤ (2 ^ 32 - 256) / 2 ^ 32 := by gcongr
    obtain ⟨e2, h4, h5⟩ := of_fin b32 (x := b32.rnd (u.toNat : ℚ) / 2 ^ 32) (by positivity)
      (le_trans h3 (by norm_num) : _ ≤ (1 : ℚ)) rep_one
    refine ⟨_, by rw [e1, div32, e2], h4, h5, fun e => ?_, fun e => absurd e h⟩
    have := lt_of_le_of_lt (rnd_mono b32 h3) rnd_below
    linarith

/-- C66, defect: `randf_oo`, documented as a number of (0, 1), returns 1 for the 128 greatest numbers drawn (and a number of (0, 1)
for all the others). -/
theorem C66_randf_oo (u : BitVec 32) :
    ∃ q, oo b32 u = .fin q ∧ 0 < q ∧ q ≤ 1 ∧ (q = 1 ↔ 2 ^ 32 - 128 ≤ u.toNat) := by
  have hu := u_lt u
  unfold oo
  rw [max32]
  by_cases h : 2 ^ 32 - 128 ≤ u.toNat
  · have h' : (2 : ℚ) ^ 32 - 128 ≤ u.toNat := by
      have : ((2 ^ 32 - 128 : ℕ) : ℚ) ≤ u.toNat := by exact_mod_cast h
      norm_num at this ⊢; exact this
    rw [of_hi h' (by linarith)]
    have : b32.add (.fin (2 ^ 32)) (.fin (1 / 2)) = .fin (2 ^ 32) := of_hi (by norm_num) (by norm_num)
    rw [this, div32, div_self (by norm_num), of_rep _ rep_one]
    exact ⟨1, rfl, by norm_num, le_refl _, fun _ => h, fun _ => rfl⟩
  · have h' : (u.toNat : ℚ) ≤ 2 ^ 32 - 129 := by
      have : (u.toNat : ℚ) ≤ ((2 ^ 32 - 129 : ℕ) : ℚ) := by exact_mod_cast (by omega : u.toNat ≤ 2 ^ 32 - 129)
      norm_num at this ⊢; exact this
    obtain ⟨e1, h1, -⟩ := of_fin b32 (x := (u.toNat : ℚ)) (by positivity) (by linarith : _ ≤ (2 : ℚ) ^ 32) rep32
    have h2 := rnd_lo h'
    have h2' : b32.rnd (b32.rnd (u.toNat : ℚ) + 1 / 2) ≤ 2 ^ 32 - 256 := rnd_lo (by linarith)
    obtain ⟨e2, h3, -⟩ := of_fin b32 (x := b32.rnd (u.toNat : ℚ) + 1 / 2) (by positivity) (by linarith : _ ≤ (2 : ℚ) ^ 32) rep32
    have hhalf : b32.Rep (1 / 2) := ⟨1, -1, by decide, by decide, by norm_num, by
      refine lt_of_lt_of_le ?_ (one_le_zpow₀ (by norm_num) (by decide) : (1 : ℚ) ≤ 2 ^ b32.emax); norm_num⟩
    have h6 : 1 / 2 ≤ b32.rnd (b32.rnd (u.toNat : ℚ) + 1 / 2) := by
      have := rnd_mono b32 (x := 1 / 2) (y := b32.rnd (u.toNat : ℚ) + 1 / 2) (by linarith)
      rwa [rnd_rep _ hhalf] at this
    have h7 : b32.rnd (b32.rnd (u.toNat : ℚ) + 1 / 2) / 2 ^ 32 ≤ (2 ^ 32 - 256) / 2 ^ 32 := by gcongr
    obtain ⟨e3, h4, h5⟩ := of_fin b32 (x := b32.rnd (b32.rnd (u.toNat : ℚ) + 1 / 2) / 2 ^ 32) (by positivity)
      (le_trans h7 (by norm_num) : _ ≤ (1 : ℚ)) rep_one
    have hr : b32.Rep (1 / 2 / 2 ^ 32) := ⟨1, -33, by decide, by decide, by norm_num, by
      refine lt_of_lt_of_le ?_ (one_le_zpow₀ (by norm_num) (by decide) : (1 : ℚ) ≤ 2 ^ b32.emax); norm_num⟩
    have h8 : 0 < b32.rnd (b32.rnd (b32.rnd (u.toNat : ℚ) + 1 / 2) / 2 ^ 32) := by
      have := rnd_mono b32 (x := 1 / 2 / 2 ^ 32) (y := b32.rnd (b32.rnd (u.toNat : ℚ) + 1 / 2) / 2 ^ 32) (by gcongr)
      rw [rnd_rep _ hr] at this
      refine lt_of_lt_of_le ?_ this
      norm_num
    have e4 : b32.add (.fin (b32.rnd (u.toNat : ℚ))) (.fin (1 / 2)) = b32.of (b32.rnd (u.toNat : ℚ) + 1 / 2) := rfl
    refine ⟨_, by rw [e1, e4, e2, div32, e3], h8, h5, fun e => ?_, fun e => absurd e h⟩
    have := lt_of_le_of_lt (rnd_mono b32 h7) rnd_below
    linarith

/-- C66, defect: the 64-bit number depends on the order in which the compiler evaluates the two operands (with the seed 5489, for
instance). -/
theorem C66_order : ((Op.u64 true).expect 5489 0).1 ≠ ((Op.u64 false).expect 5489 0).1 := by
  have h1 : number 5489 0 = 3499211612#32 := by
    unfold number
    rw [show 624 + 0 = 0 + 624 from rfl, term_add, term_lt (by decide), term_lt (by decide), term_lt (by decide)]
    decide +kernel
  have h2 : number 5489 (0 + 1) = 581869302#32 := by
    unfold number
    rw [show 624 + (0 + 1) = 1 + 624 from rfl, term_add, term_lt (by decide), term_lt (by decide), term_lt (by decide)]
    decide +kernel
  unfold Op.expect
  rw [h1, h2]
  decide +kernel

end Verif.Prng
