import Verif.Proof.BinReal

/-! # The binary channels -/

namespace Verif.Bin
open Verif.Float Verif.Cstl Verif.Modem Exec

theorem of_le {F : Fmt} {a b x : ℚ} (ha : F.rnd a = a) (hb : F.rnd b = b) (h1 : a ≤ x) (h2 : x ≤ b) (hm : |a| < 2 ^ F.emax) (hm' : |b| < 2 ^ F.emax) :
    F.of x = .fin (F.rnd x) ∧ a ≤ F.rnd x ∧ F.rnd x ≤ b := by
  have r1 : a ≤ F.rnd x := by rw [← ha]; exact rnd_mono F h1
  have r2 : F.rnd x ≤ b := by rw [← hb]; exact rnd_mono F h2
  refine ⟨of_fin ?_, r1, r2⟩
  rw [abs_lt] at hm hm' ⊢
  constructor <;> linarith

theorem half_gap {p : ℚ} (hp : b32.Rep p) (h : p < 1 / 2) : p ≤ 1 / 2 - 1 / 2 ^ 25 := by
  obtain ⟨m, e, hm, he, rfl, -⟩ := hp
  have hm' : m < 2 ^ 24 := lt_of_le_of_lt (le_abs_self m) hm
  rcases le_or_gt e (-25) with h1 | h1
  · rcases le_total m 0 with h0 | h0
    · have : (m : ℚ) * 2 ^ e ≤ 0 := mul_nonpos_of_nonpos_of_nonneg (by exact_mod_cast h0) (two_zpow_pos e).le
      linarith [show (0 : ℚ) ≤ 1 / 2 - 1 / 2 ^ 25 by norm_num]
    · have h2 : (2 : ℚ) ^ e ≤ 2 ^ (-25 : ℤ) := zpow_le_zpow_right₀ (by norm_num) h1
      have h3 : (m : ℚ) ≤ 2 ^ 24 - 1 := by
        have : m ≤ 2 ^ 24 - 1 := by omega
        exact_mod_cast this
      calc (m : ℚ) * 2 ^ e ≤ (2 ^ 24 - 1) * 2 ^ (-25 : ℤ) := mul_le_mul h3 h2 (two_zpow_pos e).le (by norm_num)
        _ = _ := by rw [zpow_neg]; norm_num
  · obtain ⟨k, rfl⟩ : ∃ k : Nat, e = -24 + k := ⟨(e + 24).toNat, by omega⟩
    rw [zpow_add₀ (by norm_num), zpow_natCast] at h ⊢
    have e1 : (m : ℚ) * (2 ^ (-24 : ℤ) * 2 ^ k) = ((m * 2 ^ k : ℤ) : ℚ) / 2 ^ 24 := by rw [zpow_neg]; push_cast; ring
    rw [e1] at h ⊢
    have h2 : ((m * 2 ^ k : ℤ) : ℚ) < (2 ^ 23 : ℤ) := by
      rw [div_lt_iff₀ (by norm_num)] at h
      refine lt_of_lt_of_eq h ?_
      norm_num
    have h3 : m * 2 ^ k < 2 ^ 23 := by exact_mod_cast h2
    have h4 : ((m * 2 ^ k : ℤ) : ℚ) ≤ ((2 ^ 23 - 1 : ℤ) : ℚ) := by exact_mod_cast (by omega : m * 2 ^ k ≤ 2 ^ 23 - 1)
    rw [div_le_iff₀ (by norm_num)]
    refine le_trans h4 ?_
    norm_num

theorem rep_pos {p : ℚ} (hp : b32.Rep p) (h : 0 < p) : 1 / 2 ^ 149 ≤ p := by
  obtain ⟨m, e, hm, he, rfl, -⟩ := hp
  have h2 := two_zpow_pos e
  have hm0 : 0 < (m : ℚ) := by
    by_contra hc
    have := mul_nonpos_of_nonpos_of_nonneg (not_lt.1 hc) h2.le
    linarith
  have hm1 : (1 : ℚ) ≤ m := by
    have : 0 < m := by exact_mod_cast hm0
    exact_mod_cast (by omega : 1 ≤ m)
  have h3 : (2 : ℚ) ^ (-149 : ℤ) ≤ 2 ^ e := zpow_le_zpow_right₀ (by norm_num) he
  have h4 : (2 : ℚ) ^ (-149 : ℤ) = 1 / 2 ^ 149 := by rw [zpow_neg]; norm_num
  rw [h4] at h3
  calc (1 : ℚ) / 2 ^ 149 ≤ 2 ^ e := h3
    _ = 1 * 2 ^ e := (one_mul _).symm
    _ ≤ m * 2 ^ e := mul_le_mul_of_nonneg_right hm1 h2.le

theorem rnd_q {F : Fmt} (hF : F = b32 ∨ F = b64) {m e : ℤ} (hm : |m| < 2 ^ 24) (he : -149 ≤ e) {q : ℚ} (hq : q = m * 2 ^ e) : F.rnd q = q := by
  rw [hq]
  refine rnd_exact F m e (lt_of_lt_of_le hm ?_) (by have := emin_le hF; omega)
  exact pow_le_pow_right₀ (by norm_num) (wide hF).2.2

theorem small_emax {F : Fmt} (hF : F = b32 ∨ F = b64) {x : ℚ} (h : |x| ≤ 2 ^ 100) : |x| < 2 ^ F.emax := by
  refine lt_of_le_of_lt h ?_
  rw [← zpow_natCast]
  exact zpow_lt_zpow_right₀ (by norm_num) (by rcases hF with rfl | rfl <;> decide)

/-- The ratio of the probabilities of the two values. -/
theorem ratio {p : ℚ} (hp : b32.Rep p) (h0 : 0 < p) (h1 : p < 1 / 2) :
    ∃ q : ℚ, b32.div (.fin p) (sub b32 (.fin 1) (.fin p)) = .fin q ∧ 1 / 2 ^ 149 ≤ q ∧ q ≤ 1 - 1 / 2 ^ 24 := by
  have hg := half_gap hp h1
  have hpm := rep_pos hp h0
  have F0 : b32 = b32 ∨ b32 = b64 := .inl rfl
  obtain ⟨e1, d1, d2⟩ := of_le (F := b32) (a := 1 / 2) (b := 1) (x := 1 + -p) (rnd_q F0 (m := 1) (e := -1) (by decide) (by decide) (by rw [zpow_neg]; norm_num))
    (rnd_q F0 (m := 1) (e := 0) (by decide) (by decide) (by norm_num)) (by linarith) (by linarith) (small_emax F0 (by rw [abs_of_pos (by norm_num)]; norm_num))
    (small_emax F0 (by rw [abs_of_pos (by norm_num)]; norm_num))
  have es : sub b32 (.fin 1) (.fin p) = .fin (b32.rnd (1 + -p)) := e1
  generalize b32.rnd (1 + -p) = d at *
  have d0 : 0 < d := by linarith
  have rp : b32.rnd p = p := rnd_rep b32 hp
  obtain ⟨e2, q1, q2⟩ := of_le (F := b32) (a := p) (b := 1 - 1 / 2 ^ 24) (x := p / d) rp
    (rnd_q F0 (m := 2 ^ 24 - 1) (e := -24) (by decide) (by decide) (by rw [zpow_neg]; norm_num))
    (by rw [le_div_iff₀ d0]; nlinarith) (by
      rw [div_le_iff₀ d0]
      have : (1 - 1 / 2 ^ 24) * (1 / 2) ≤ (1 - 1 / 2 ^ 24 : ℚ) * d := mul_le_mul_of_nonneg_left d1 (by norm_num)
      have e : (1 - 1 / 2 ^ 24) * (1 / 2) = (1 / 2 - 1 / 2 ^ 25 : ℚ) := by norm_num
      linarith)
    (small_emax F0 (by rw [abs_of_pos h0]; linarith [show (1 : ℚ) / 2 ≤ 2 ^ 100 by norm_num])) (small_emax F0 (by rw [abs_of_pos (by norm_num)]; norm_num))
  refine ⟨_, ?_, le_trans hpm q1, q2⟩
  rw [es, div_eq _ d0.ne', e2]

/-- The probability used for a null one. -/
theorem tiny {F : Fmt} (hF : F = b32 ∨ F = b64) : ∃ p : ℚ, cvt b32 (F.of (1 / 10 ^ 10)) = .fin p ∧ b32.Rep p ∧ 0 < p ∧ p < 1 / 2 := by
  have F0 : b32 = b32 ∨ b32 = b64 := .inl rfl
  have a : ∀ {G : Fmt}, (G = b32 ∨ G = b64) → G.rnd (1 / 2 ^ 34) = 1 / 2 ^ 34 := fun hG => rnd_q hG (m := 1) (e := -34) (by decide) (by decide) (by rw [zpow_neg]; norm_num)
  have b : ∀ {G : Fmt}, (G = b32 ∨ G = b64) → G.rnd (1 / 2 ^ 33) = 1 / 2 ^ 33 := fun hG => rnd_q hG (m := 1) (e := -33) (by decide) (by decide) (by rw [zpow_neg]; norm_num)
  have c : ∀ {G : Fmt}, (G = b32 ∨ G = b64) → |(1 / 2 ^ 34 : ℚ)| < 2 ^ G.emax := fun hG => small_emax hG (by rw [abs_of_pos (by norm_num)]; norm_num)
  have d : ∀ {G : Fmt}, (G = b32 ∨ G = b64) → |(1 / 2 ^ 33 : ℚ)| < 2 ^ G.emax := fun hG => small_emax hG (by rw [abs_of_pos (by norm_num)]; norm_num)
  obtain ⟨e1, u1, u2⟩ := of_le (F := F) (x := 1 / 10 ^ 10) (a hF) (b hF) (by norm_num) (by norm_num) (c hF) (d hF)
  obtain ⟨e2, v1, v2⟩ := of_le (F := b32) (a F0) (b F0) u1 u2 (c F0) (d F0)
  refine ⟨_, by rw [e1, cvt_fin, e2], ?_, lt_of_lt_of_le (by norm_num) v1, lt_of_le_of_lt v2 (by norm_num)⟩
  obtain ⟨m, e, h1, h2, h3⟩ := rnd_shape b32 (F.rnd (1 / 10 ^ 10))
  refine ⟨m, e, h1, h2, h3, ?_⟩
  rw [abs_of_pos (lt_of_lt_of_le (by norm_num) v1)]
  refine lt_of_le_of_lt v2 ?_
  have := d F0
  rwa [abs_of_pos (by norm_num)] at this

/-- The factor of the symmetric channel: negative, and such that nothing is rounded afterwards. -/
theorem bsc_factor {L : Lib} (hL : L.LogOk) {g : Cfg} (hk : g.kind = .bsc) (hF : g.F = b32 ∨ g.F = b64) {p : ℚ} (hp : b32.Rep p) (h0 : 0 ≤ p) (h1 : p < 1 / 2) :
    ∃ l : ℚ, factor L g (.fin p) = .fin l ∧ l < 0 ∧ sub g.F (g.F.mul (g.F.mul (.fin 2) (.fin l)) (.fin 0)) (.fin l) = .fin (-l) ∧
      sub g.F (g.F.mul (g.F.mul (.fin 2) (.fin l)) (.fin 1)) (.fin l) = .fin l := by
  obtain ⟨p', e', hp', h0', h1'⟩ : ∃ p' : ℚ, (if Fl.fin p = .fin 0 then cvt b32 (g.F.of (1 / 10 ^ 10)) else Fl.fin p) = .fin p' ∧ b32.Rep p' ∧ 0 < p' ∧ p' < 1 / 2 := by
    rcases eq_or_lt_of_le h0 with h | h
    · rw [← h, if_pos rfl]; exact tiny hF
    · rw [if_neg (by intro hc; cases hc; exact lt_irrefl _ h)]; exact ⟨p, rfl, hp, h, h1⟩
  obtain ⟨q, eq, q0, q1⟩ := ratio hp' h0' h1'
  obtain ⟨l, el, l1, l2⟩ := hL q q0 (lt_of_le_of_lt q1 (by norm_num))
  have l1' : l ≤ -(1 / 2 ^ 25) := by
    refine le_trans l1 ?_
    have : (q - 1) / 2 ≤ (-(1 / 2 ^ 24)) / 2 := by
      apply div_le_div_of_nonneg_right _ (by norm_num)
      linarith
    refine le_trans this ?_
    norm_num
  have sm : ∀ {x : ℚ}, |x| ≤ 400 → |x| < 2 ^ g.F.emax := fun h => small_emax hF (le_trans h (by norm_num))
  obtain ⟨eo, o1, o2⟩ := of_le (F := g.F) (a := -200) (b := -(1 / 2 ^ 25)) (x := l) (rnd_q hF (m := -200) (e := 0) (by decide) (by decide) (by norm_num))
    (rnd_q hF (m := -1) (e := -25) (by decide) (by decide) (by rw [zpow_neg]; norm_num)) l2 l1' (sm (by rw [abs_of_neg (by norm_num)]; norm_num))
    (sm (by rw [abs_of_neg (by norm_num)]; norm_num))
  obtain ⟨m, e, s1, s2, s3⟩ := rnd_shape g.F l
  have ef : factor L g (.fin p) = .fin (g.F.rnd l) := by
    unfold factor
    rw [hk]
    dsimp only
    rw [e', eq, el, cvt_fin, eo]
  have hid := rnd_idem g.F l
  generalize hr : g.F.rnd l = r at *
  have r0 : r < 0 := lt_of_le_of_lt o2 (by norm_num)
  have ab : |r| ≤ 200 := by rw [abs_of_neg r0]; linarith
  have h2r : g.F.rnd (2 * r) = 2 * r := by
    have : 2 * r = m * 2 ^ (e + 1) := by rw [s3, zpow_add_one₀ (by norm_num)]; ring
    rw [this]
    exact rnd_exact g.F m (e + 1) s1 (by omega)
  have m2 : g.F.mul (.fin 2) (.fin r) = .fin (2 * r) := by
    rw [mul_fin, of_fin (by rw [h2r]; exact sm (by rw [abs_mul, abs_of_pos (by norm_num : (0 : ℚ) < 2)]; linarith)), h2r]
  refine ⟨r, ef, r0, ?_, ?_⟩
  · rw [m2, mul_fin, mul_zero, of_zero]
    show g.F.of (0 + -r) = _
    rw [zero_add, of_fin, rnd_neg, hid]
    rw [rnd_neg, hid, abs_neg]
    exact sm (by linarith)
  · rw [m2, mul_fin, mul_one, of_fin (by rw [h2r]; exact sm (by rw [abs_mul, abs_of_pos (by norm_num : (0 : ℚ) < 2)]; linarith)), h2r]
    show g.F.of (2 * r + -r) = _
    rw [show 2 * r + -r = r by ring, of_fin, hid]
    rw [hid]
    exact sm (by linarith)

/-- The LLR of an erasure. -/
theorem unknown_eq {F : Fmt} (hF : F = b32 ∨ F = b64) :
    ∃ u : ℚ, unknownLlr F = .fin u ∧ 0 < u ∧ u < 1 / 2 ^ 10 ∧ F.mul (.fin u) (.fin (-1)) = .fin (-u) ∧ F.mul (.fin (-u)) (.fin (-1)) = .fin u := by
  obtain ⟨e, h1, h2⟩ := of_le (F := F) (a := 1 / 2 ^ 17) (b := 1 / 2 ^ 16) (x := 1 / 10 ^ 5) (rnd_q hF (m := 1) (e := -17) (by decide) (by decide) (by rw [zpow_neg]; norm_num))
    (rnd_q hF (m := 1) (e := -16) (by decide) (by decide) (by rw [zpow_neg]; norm_num)) (by norm_num) (by norm_num)
    (small_emax hF (by rw [abs_of_pos (by norm_num)]; norm_num)) (small_emax hF (by rw [abs_of_pos (by norm_num)]; norm_num))
  have hid := rnd_idem F (1 / 10 ^ 5)
  have h0 : 0 < F.rnd (1 / 10 ^ 5) := lt_of_lt_of_le (by norm_num) h1
  have hm : |F.rnd (1 / 10 ^ 5)| < 2 ^ F.emax := small_emax hF (by rw [abs_of_pos h0]; exact le_trans h2 (by norm_num))
  refine ⟨_, e, h0, lt_of_le_of_lt h2 (by norm_num), ?_, ?_⟩
  · rw [mul_fin, mul_neg_one, of_fin, rnd_neg, hid]
    rw [rnd_neg, hid, abs_neg]; exact hm
  · rw [mul_fin, neg_mul_neg, mul_one, of_fin, hid]
    rw [hid]; exact hm

theorem before_succ {e : List Bool} {i : Nat} (h : i < e.length) : before e (i + 1) = before e i + if e[i] then 1 else 0 := by
  unfold before
  rw [List.take_add_one, List.count_append, List.getElem?_eq_getElem h]
  cases e[i] <;> rfl

/-- The loop of the demodulator of the erasure channel. -/
theorem bec_eq {F : Fmt} {u : ℚ} (hu : unknownLlr F = .fin u) (h1 : F.mul (.fin u) (.fin (-1)) = .fin (-u)) (h2 : F.mul (.fin (-u)) (.fin (-1)) = .fin u)
    {n : Nat} {y out : List Fl} {e : List Bool} (hy : y.length = n) (he : e.length = n) (ho : out.length = n) (hey : ∀ i (h : i < e.length), e[i] = true ↔ y[i]? = some (.inf false)) :
    ∃ o, becDemod F n y out = ok o ∧ o.length = n ∧ ∀ i a, y[i]? = some a →
      o[i]? = some (if a = .inf false then (if before e i % 2 = 0 then .fin u else .fin (-u)) else sub F (.fin 1) (F.mul (.fin 2) a)) := by
  obtain ⟨r, er, hs, hl, hv⟩ := forN_inv (n := n) (f := fun i (s : Fl × List Fl) => do
    let a ← rd y i
    if a = .inf false then do
      let o ← wr s.2 i s.1
      ok (F.mul s.1 (.fin (-1)), o)
    else do
      let o ← wr s.2 i (sub F (.fin 1) (F.mul (.fin 2) a))
      ok (s.1, o)) (s := (unknownLlr F, out)) (fun k (s : Fl × List Fl) => s.1 = (if before e k % 2 = 0 then .fin u else .fin (-u)) ∧ s.2.length = n ∧
        ∀ i a, i < k → y[i]? = some a → s.2[i]? = some (if a = .inf false then (if before e i % 2 = 0 then .fin u else .fin (-u)) else sub F (.fin 1) (F.mul (.fin 2) a)))
    ⟨by rw [hu]; rfl, ho, fun i a h => absurd h (by omega)⟩ (by
      rintro k s hk ⟨s1, s2, s3⟩
      have hke : k < e.length := by omega
      have hb := before_succ hke
      have hiff := hey k hke
      rw [rd_lt (by omega : k < y.length), bind_ok]
      rw [List.getElem?_eq_getElem (by omega : k < y.length), Option.some_inj] at hiff
      by_cases hi : y[k] = .inf false
      · rw [if_pos hi, wr_lt (by omega), bind_ok]
        refine sat_ok.2 ⟨?_, by simpa using s2, ?_⟩
        · rw [hb, if_pos (hiff.2 hi)]
          dsimp only
          rw [s1]
          by_cases hp : before e k % 2 = 0
          · rw [if_pos hp, if_neg (by omega), h1]
          · rw [if_neg hp, if_pos (by omega), h2]
        · intro i a hik ha
          dsimp only
          by_cases hik' : i = k
          · subst hik'
            rw [List.getElem?_eq_getElem (by omega), Option.some_inj] at ha
            rw [List.getElem?_set_self (by omega), ← ha, if_pos hi, s1]
          · rw [List.getElem?_set_ne (by omega)]
            exact s3 i a (by omega) ha
      · rw [if_neg hi, wr_lt (by omega), bind_ok]
        refine sat_ok.2 ⟨?_, by simpa using s2, ?_⟩
        · rw [hb, if_neg (fun h => hi (hiff.1 h))]
          exact s1
        · intro i a hik ha
          dsimp only
          by_cases hik' : i = k
          · subst hik'
            rw [List.getElem?_eq_getElem (by omega), Option.some_inj] at ha
            rw [List.getElem?_set_self (by omega), ← ha, if_neg hi]
          · rw [List.getElem?_set_ne (by omega)]
            exact s3 i a (by omega) ha)
  refine ⟨r.2, ?_, hl, fun i a ha => ?_⟩
  · unfold becDemod
    rw [er, bind_ok]
  · refine hv i a ?_ ha
    have := List.getElem?_eq_some_iff.1 ha
    obtain ⟨h, -⟩ := this
    omega

end Verif.Bin
