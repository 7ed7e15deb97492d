import Verif.Proof.Constellation

/-! # The tables of the constellations -/

namespace Verif.Cstl
open Verif.Float Exec

theorem log2_pow (n : Nat) : Nat.log2 (2 ^ n) = n := Nat.log2_two_pow

theorem fromSymbols_pow {pts : List Pt} {n : Nat} (h : n ≤ 30) (hl : pts.length = 2 ^ n) : fromSymbols pts = ok ⟨n, 2 ^ n, pts, true⟩ := by
  have h0 : 0 < 2 ^ n := Nat.two_pow_pos n
  unfold fromSymbols
  rw [hl, log2_pow, if_neg (by omega), if_neg (by omega), if_neg (by simp)]

theorem ofBits_eq {n : Nat} (h : n ≤ 30) : ofBits n = ok ⟨n, 2 ^ n, List.replicate (2 ^ n) ⟨.fin 0, .fin 0⟩, true⟩ := by
  unfold ofBits
  rw [if_neg (by omega), fromSymbols_pow h (List.length_replicate ..)]

/-- `build` fills the table. -/
theorem build_eq {sym : List Nat → Exec Pt} {c : Cstl} {g : Nat → Pt} (hl : c.pts.length = c.nSymbs)
    (h : ∀ j, j < c.nSymbs → sym (bitsOf c.nBps j) = ok (g j)) :
    build sym c = ok { c with pts := (List.range c.nSymbs).map g, cplx := hasComplex ((List.range c.nSymbs).map g) } := by
  unfold build
  have e : forN c.nSymbs (fun j t => do
      let p ← sym (bitsOf c.nBps j)
      wr t j p) c.pts = forN c.nSymbs (fun j t => wr t (0 + j) (g j)) c.pts := by
    apply forN_congr
    intro i s hi
    rw [h i hi, bind_ok, Nat.zero_add]
  rw [e]
  obtain ⟨o, ho, h1, h2⟩ := forN_fill (n := c.nSymbs) (off := 0) (g := g) (out := c.pts) (by omega)
  rw [ho]
  have : o = (List.range c.nSymbs).map g := by
    refine eq_mapRange (by rw [h1, hl]) ?_
    intro i hi
    have := h2 i
    rwa [if_pos (by omega), Nat.sub_zero] at this
  rw [this]; rfl

theorem four_pow_sub (n : Nat) : ∃ m : Nat, (4 ^ n - 1 : ℤ) = 3 * m := by
  induction n with
  | zero => exact ⟨0, by norm_num⟩
  | succ n ih =>
    obtain ⟨m, h⟩ := ih
    exact ⟨4 * m + 1, by rw [pow_succ]; push_cast; linarith⟩

/-- The mean energy of a line of amplitudes. -/
theorem mean_energy (n : Nat) : ∃ m : Nat, (4 ^ (n + 1) - 1 : ℤ) = 3 * m ∧ (2 ^ (n + 1) : ℤ) * m = energy (n + 1) (lab (n + 1)) := by
  obtain ⟨m, h⟩ := four_pow_sub (n + 1)
  refine ⟨m, h, ?_⟩
  have := lab_energy n
  rw [h] at this
  linarith

theorem b64_int {z : ℤ} (hz : |z| < 2 ^ 53) : b64.of z = .fin z := of_rep b64 (rep_int b64 z hz (by decide) (by decide))

theorem cvt_fin (F : Fmt) (q : ℚ) : cvt F (.fin q) = F.of q := rfl

theorem div_eq (F : Fmt) {x y : ℚ} (h : y ≠ 0) : F.div (.fin x) (.fin y) = F.of (x / y) := if_neg h

theorem of_fin {F : Fmt} {q : ℚ} (h : |F.rnd q| < 2 ^ F.emax) : F.of q = .fin (F.rnd q) := if_neg (not_le.2 h)

theorem cvt_pow {F : Fmt} (hF : F = b32 ∨ F = b64) {k : Nat} (hk : k ≤ 100) : cvt F (.fin (2 ^ k : Nat)) = .fin (2 ^ k) := by
  rw [cvt_fin, of_rep]
  · push_cast; rfl
  · refine ⟨1, k, ?_, ?_, by push_cast; rw [zpow_natCast]; ring, ?_⟩
    · rcases hF with rfl | rfl <;> decide
    · rcases hF with rfl | rfl
      · show (-149 : ℤ) ≤ k; omega
      · show (-1074 : ℤ) ≤ k; omega
    · push_cast
      rw [abs_of_pos (by positivity), ← zpow_natCast]
      apply zpow_lt_zpow_right₀ (by norm_num)
      rcases hF with rfl | rfl
      · show (k : ℤ) < 128; omega
      · show (k : ℤ) < 1024; omega

theorem pamEnergy_eq {F : Fmt} (hF : F = b32 ∨ F = b64) {n m : Nat} (hn : n ≤ 15) (hm : (4 ^ n - 1 : ℤ) = 3 * m) :
    pamEnergy F (2 ^ n) = .fin m := by
  have h4 : (4 : ℤ) ^ n ≤ 4 ^ 15 := pow_le_pow_right₀ (by norm_num) hn
  have hpos : (0 : ℤ) < 4 ^ n := by positivity
  have h2 : 2 ^ n * 2 ^ n % 2 ^ 32 = 2 ^ (2 * n) := by
    rw [← Nat.pow_add, ← Nat.two_mul]
    exact Nat.mod_eq_of_lt (Nat.pow_lt_pow_right (by decide) (by omega))
  unfold pamEnergy
  rw [h2, cvt_pow hF (by omega)]
  have e1 : b64.add (.fin (2 ^ (2 * n))) (.fin (-1)) = .fin ((4 ^ n - 1 : ℤ) : ℚ) := by
    show b64.of _ = _
    rw [← b64_int (z := 4 ^ n - 1) (by rw [abs_lt]; constructor <;> norm_num at h4 ⊢ <;> omega)]
    congr 1; rw [pow_mul]; push_cast; ring
  rw [e1, hm]
  rw [div_eq _ (by norm_num)]
  have : (((3 * m : ℤ) : ℚ) / 3) = ((m : ℤ) : ℚ) := by push_cast; ring
  rw [this, b64_int (z := (m : ℤ)) (by rw [abs_lt]; constructor <;> norm_num at h4 ⊢ <;> omega)]
  norm_num

theorem hasComplex_real (n : Nat) (g : Nat → Fl) : hasComplex ((List.range n).map fun j => ⟨g j, .fin 0⟩) = false := by
  unfold hasComplex
  rw [List.any_eq_false]
  intro p hp
  rw [List.mem_map] at hp
  obtain ⟨j, -, rfl⟩ := hp
  simp

theorem pam_eq {L : Lib} {F : Fmt} (hF : F = b32 ∨ F = b64) {n m : Nat} (h1 : 1 ≤ n) (h15 : n ≤ 15) (hm : (4 ^ n - 1 : ℤ) = 3 * m) :
    pam L F n = ok ⟨n, 2 ^ n, (List.range (2 ^ n)).map fun j => ⟨F.div (.fin (lab n j)) (cvt F (L.sqrt (.fin m))), .fin 0⟩, false⟩ := by
  unfold pam
  rw [ofBits_eq (by omega), bind_ok]
  dsimp only
  rw [build_eq (g := fun j => ⟨F.div (.fin (lab n j)) (cvt F (L.sqrt (.fin m))), .fin 0⟩) (List.length_replicate ..) ?_]
  · rw [hasComplex_real]
  · intro j _
    dsimp only
    rw [amplitude_eq hF h1 (by omega) (by omega), bind_ok, pamEnergy_eq hF h15 hm]
    norm_num

theorem amp_succ {F : Fmt} (hF : F = b32 ∨ F = b64) {n j : Nat} (h : n ≤ 23) : F.add (.fin (lab n j : ℚ)) (.fin 1) = .fin ((lab n j + 1 : ℤ) : ℚ) := by
  have hl := lab_pos (m := n) (j := j)
  have hp : (2 : Int) ^ n ≤ 2 ^ 23 := pow_le_pow_right₀ (by norm_num) h
  show F.of _ = _
  rw [← of_int hF (z := lab n j + 1) (by rw [abs_lt]; constructor <;> norm_num at hp ⊢ <;> omega)]
  congr 1; push_cast; ring

theorem psk_eq {L : Lib} {F : Fmt} (hF : F = b32 ∨ F = b64) {n : Nat} (h1 : 1 ≤ n) (h23 : n ≤ 23) : ∃ cp,
    psk L F n = ok ⟨n, 2 ^ n, (List.range (2 ^ n)).map fun j =>
      ⟨L.cos (F.div (F.mul (.fin ((lab n j + 1 : ℤ) : ℚ)) (cvt F mPi)) (.fin (2 ^ n : Nat))),
       L.sin (F.div (F.mul (.fin ((lab n j + 1 : ℤ) : ℚ)) (cvt F mPi)) (.fin (2 ^ n : Nat)))⟩, cp⟩ := by
  unfold psk
  rw [ofBits_eq (by omega), bind_ok]
  dsimp only
  have := build_eq (sym := fun bits => do
      let s ← amplitude F n 0 bits
      ok ⟨L.cos (F.div (F.mul (F.add s (.fin 1)) (cvt F mPi)) (.fin (2 ^ n : Nat))), L.sin (F.div (F.mul (F.add s (.fin 1)) (cvt F mPi)) (.fin (2 ^ n : Nat)))⟩)
    (c := ⟨n, 2 ^ n, List.replicate (2 ^ n) ⟨.fin 0, .fin 0⟩, true⟩)
    (g := fun j => ⟨L.cos (F.div (F.mul (.fin ((lab n j + 1 : ℤ) : ℚ)) (cvt F mPi)) (.fin (2 ^ n : Nat))),
       L.sin (F.div (F.mul (.fin ((lab n j + 1 : ℤ) : ℚ)) (cvt F mPi)) (.fin (2 ^ n : Nat)))⟩) (List.length_replicate ..) (by
    intro j _
    dsimp only
    rw [amplitude_eq hF h1 (by omega) (by omega), bind_ok, Nat.pow_zero, Nat.div_one, amp_succ hF h23])
  exact ⟨_, this⟩

theorem qamEnergy_eq {F : Fmt} (hF : F = b32 ∨ F = b64) {n m : Nat} (hn : n ≤ 11) (hm : (4 ^ n - 1 : ℤ) = 3 * m) :
    qamEnergy F (2 ^ (2 * n)) = .fin ((2 * m : Nat) : ℚ) := by
  have h4 : (4 : ℤ) ^ n ≤ 4 ^ 11 := pow_le_pow_right₀ (by norm_num) hn
  have hpos : (0 : ℤ) < 4 ^ n := by positivity
  have e0 : ((2 ^ (2 * n) - 1 : Nat) : ℤ) = 4 ^ n - 1 := by
    rw [Nat.cast_sub (Nat.one_le_two_pow), pow_mul]; push_cast; norm_num
  unfold qamEnergy
  have e1 : cvt F (.fin ((2 ^ (2 * n) - 1 : Nat) : ℚ)) = .fin ((4 ^ n - 1 : ℤ) : ℚ) := by
    rw [cvt_fin, ← of_int hF (z := 4 ^ n - 1) (by rw [abs_lt]; constructor <;> norm_num at h4 ⊢ <;> omega)]
    rw [← e0]; push_cast; rfl
  rw [e1]
  have e2 : F.mul (.fin 2) (.fin ((4 ^ n - 1 : ℤ) : ℚ)) = .fin ((2 * (4 ^ n - 1) : ℤ) : ℚ) := by
    show F.of _ = _
    rw [← of_int hF (z := 2 * (4 ^ n - 1)) (by rw [abs_lt]; constructor <;> norm_num at h4 ⊢ <;> omega)]
    push_cast; rfl
  rw [e2, hm]
  rw [div_eq _ (by norm_num)]
  have : (((2 * (3 * m) : ℤ) : ℚ) / 3) = ((2 * m : ℤ) : ℚ) := by push_cast; ring
  rw [this, b64_int (z := (2 * m : ℤ)) (by rw [abs_lt]; constructor <;> norm_num at h4 ⊢ <;> omega)]
  norm_num

theorem lab_red (n j : Nat) : lab n (j % 2 ^ n) = lab n j := lab_mod n _ _ (Nat.mod_mod _ _)

theorem qam_even {L : Lib} {F : Fmt} (hF : F = b32 ∨ F = b64) {n m : Nat} (h1 : 1 ≤ n) (h11 : n ≤ 11) (hm : (4 ^ n - 1 : ℤ) = 3 * m) : ∃ cp,
    qam L F (2 * n) = ok ⟨2 * n, 2 ^ (2 * n), (List.range (2 ^ (2 * n))).map fun j =>
      L.cdiv ⟨.fin (lab n (j % 2 ^ n)), .fin (lab n (j / 2 ^ n))⟩ ⟨cvt F (L.sqrt (.fin (2 * m : Nat))), .fin 0⟩, cp⟩ := by
  unfold qam
  rw [ofBits_eq (by omega), bind_ok]
  dsimp only
  rw [Nat.mul_div_cancel_left n (by decide)]
  have := build_eq (sym := fun bits => do
      let i ← amplitude F n 0 bits
      let q ← amplitude F n n bits
      ok (L.cdiv ⟨i, q⟩ ⟨cvt F (L.sqrt (qamEnergy F (2 ^ (2 * n)))), .fin 0⟩))
    (c := ⟨2 * n, 2 ^ (2 * n), List.replicate (2 ^ (2 * n)) ⟨.fin 0, .fin 0⟩, true⟩)
    (g := fun j => L.cdiv ⟨.fin (lab n (j % 2 ^ n)), .fin (lab n (j / 2 ^ n))⟩ ⟨cvt F (L.sqrt (.fin (2 * m : Nat))), .fin 0⟩)
    (List.length_replicate ..) (by
    intro j _
    dsimp only
    rw [amplitude_eq hF h1 (by omega) (by omega), amplitude_eq hF h1 (by omega) (by omega)]
    simp only [bind_ok, Nat.pow_zero, Nat.div_one]
    rw [qamEnergy_eq hF h11 hm, lab_red])
  exact ⟨_, this⟩

/-! ## The points of a PAM are distinct -/

theorem cvt_sqrt {L : Lib} (hL : L.SqrtOk) {F : Fmt} (hF : F = b32 ∨ F = b64) {m : Nat} (h1 : 1 ≤ m) (h2 : m ≤ 2 ^ 30) :
    ∃ s : ℚ, cvt F (L.sqrt (.fin m)) = .fin s ∧ 1 ≤ s ∧ s ≤ 2 ^ 30 := by
  obtain ⟨s, e, hs1, hs2⟩ := hL m (by exact_mod_cast h1)
  have one : F.rnd 1 = 1 := by
    have := rnd_rep F (x := ((1 : ℤ) : ℚ)) (by
      obtain ⟨a, b, c⟩ := wide hF
      exact rep_int F 1 (by rw [abs_one]; exact one_lt_pow₀ (by norm_num) (by omega)) a b)
    simpa using this
  have big : F.rnd (2 ^ 30) = 2 ^ 30 := by
    have h := cvt_pow hF (k := 30) (by norm_num)
    unfold cvt Fmt.of at h
    push_cast at h
    split at h
    · cases h
    · injection h
  have a1 : 1 ≤ F.rnd s := by rw [← one]; exact rnd_mono F hs1
  have a2 : F.rnd s ≤ 2 ^ 30 := by
    rw [← big]
    refine rnd_mono F (le_trans hs2 ?_)
    exact_mod_cast h2
  refine ⟨F.rnd s, ?_, a1, a2⟩
  rw [e, cvt_fin, of_fin]
  rw [abs_of_nonneg (by linarith)]
  refine lt_of_le_of_lt a2 ?_
  rw [← zpow_natCast]
  apply zpow_lt_zpow_right₀ (by norm_num)
  rcases hF with rfl | rfl <;> decide

theorem pow_emin {F : Fmt} (hF : F = b32 ∨ F = b64) : (2 : ℚ) ^ F.emin ≤ 1 / 2 ^ 100 := by
  have : (2 : ℚ) ^ F.emin ≤ 2 ^ (-100 : ℤ) := zpow_le_zpow_right₀ (by norm_num) (by rcases hF with rfl | rfl <;> decide)
  refine le_trans this ?_
  rw [zpow_neg]; norm_num

theorem inv_p {F : Fmt} (hF : F = b32 ∨ F = b64) {x : ℚ} (h : 0 ≤ x) : x / 2 ^ F.p ≤ x / 2 ^ 24 := by
  apply div_le_div_of_nonneg_left h (by norm_num)
  exact pow_le_pow_right₀ (by norm_num) (wide hF).2.2

theorem quot_err {F : Fmt} (hF : F = b32 ∨ F = b64) {a s : ℚ} (hs : 1 ≤ s) (hs2 : s ≤ 2 ^ 30) (ha : |a| ≤ 2 ^ 15) :
    |F.rnd (a / s) - a / s| * s ≤ 1 / 128 := by
  have h := rnd_err F (a / s)
  have h1 := pow_emin hF
  have h2 := inv_p hF (abs_nonneg (a / s))
  have e : |a / s| * s = |a| := by rw [abs_div, abs_of_pos (by linarith : (0 : ℚ) < s)]; field_simp
  have : |F.rnd (a / s) - a / s| ≤ 1 / 2 ^ 101 + |a / s| / 2 ^ 24 := by
    refine le_trans h ?_
    have : (1 : ℚ) / 2 ^ 101 = 1 / 2 ^ 100 / 2 := by norm_num
    rw [this]; linarith
  calc _ ≤ (1 / 2 ^ 101 + |a / s| / 2 ^ 24) * s := by gcongr
    _ = s / 2 ^ 101 + |a / s| * s / 2 ^ 24 := by ring
    _ = s / 2 ^ 101 + |a| / 2 ^ 24 := by rw [e]
    _ ≤ 2 ^ 30 / 2 ^ 101 + 2 ^ 15 / 2 ^ 24 := by gcongr
    _ ≤ 1 / 128 := by norm_num

/-- The quotients of integers which differ by two are at least `1.9 / s` apart. -/
theorem quot_sep {F : Fmt} (hF : F = b32 ∨ F = b64) {a b : ℤ} {s : ℚ} (hs : 1 ≤ s) (hs2 : s ≤ 2 ^ 30) (ha : |a| ≤ 2 ^ 15) (hb : |b| ≤ 2 ^ 15)
    (h : a + 2 ≤ b) : F.rnd (a / s) + 1 / s ≤ F.rnd (b / s) := by
  have hs0 : 0 < s := by linarith
  have ea := quot_err hF (a := a) hs hs2 (by exact_mod_cast ha)
  have eb := quot_err hF (a := b) hs hs2 (by exact_mod_cast hb)
  have ha' := (abs_le.1 (le_refl |F.rnd ((a : ℚ) / s) - a / s|))
  have hb' := (abs_le.1 (le_refl |F.rnd ((b : ℚ) / s) - b / s|))
  have hab : (a : ℚ) + 2 ≤ b := by exact_mod_cast h
  have e1 : (a : ℚ) / s * s = a := by field_simp
  have e2 : (b : ℚ) / s * s = b := by field_simp
  have e3 : 1 / s * s = 1 := by field_simp
  have : (F.rnd (a / s) + 1 / s) * s ≤ F.rnd (b / s) * s := by
    have p1 := mul_le_mul_of_nonneg_right ha'.2 hs0.le
    have p2 := mul_le_mul_of_nonneg_right hb'.1 hs0.le
    rw [sub_mul, e1] at p1
    rw [sub_mul, e2] at p2
    rw [add_mul, e3]
    linarith
  exact le_of_mul_le_mul_right this hs0

theorem div_fin {F : Fmt} (hF : F = b32 ∨ F = b64) {a : ℤ} {s : ℚ} (hs : 1 ≤ s) (hs2 : s ≤ 2 ^ 30) (ha : |a| ≤ 2 ^ 15) :
    F.div (.fin a) (.fin s) = .fin (F.rnd (a / s)) ∧ |F.rnd (a / s)| ≤ 2 ^ 16 := by
  have hs0 : 0 < s := by linarith
  have ea := quot_err hF (a := a) hs hs2 (by exact_mod_cast ha)
  have ha' : |(a : ℚ)| ≤ 2 ^ 15 := by exact_mod_cast ha
  have h1 : |(a : ℚ) / s| ≤ 2 ^ 15 := by
    rw [abs_div, abs_of_pos hs0, div_le_iff₀ hs0]
    nlinarith
  have h2 : |F.rnd ((a : ℚ) / s) - a / s| ≤ 1 / 128 := by
    refine le_trans ?_ ea
    exact le_mul_of_one_le_right (abs_nonneg _) hs
  have h3 : |F.rnd ((a : ℚ) / s)| ≤ 2 ^ 16 := by
    rw [abs_le] at *
    constructor <;> linarith [h1.1, h1.2, h2.1, h2.2]
  refine ⟨?_, h3⟩
  rw [div_eq _ hs0.ne', of_fin]
  refine lt_of_le_of_lt h3 ?_
  rw [← zpow_natCast]
  apply zpow_lt_zpow_right₀ (by norm_num)
  rcases hF with rfl | rfl <;> decide

end Verif.Cstl
