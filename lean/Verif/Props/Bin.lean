import Verif.Proof.BinUse
import Verif.Spec.ML

/-! # Properties of the modems with two points -/

namespace Verif.Bin
open Verif.Float Verif.Cstl Verif.Modem Exec
open Verif.ML (IsBits)

/-- A library whose logarithm is an affine approximation. -/
def exL : Lib := ⟨fun | .fin q => .fin (q - 1) | x => x⟩
theorem exL_ok : exL.LogOk := fun q h1 h2 => ⟨q - 1, rfl, by linarith, by linarith [show (0 : ℚ) ≤ 1 / 2 ^ 149 by positivity]⟩

/-! ## Modulation -/

theorem map_bits {F : Fmt} (hF : F = b32 ∨ F = b64) {x : Int} (hx : x = 0 ∨ x = 1) : bpskMap F x = (if x = 0 then .fin 1 else .fin (-1)) ∧ fastMap F x = bpskMap F x := by
  rcases hF with rfl | rfl <;> rcases hx with rfl | rfl <;> decide +kernel

theorem modulate_eq {g : Cfg} (hF : g.F = b32 ∨ g.F = b64) (ht : Typed g.kind) {x : List Int} (hx : IsBits x) (hl : x.length = g.N) {out : List Fl} (ho : out.length = g.N) :
    modulate g x out = ok (x.map (signal g.kind)) := by
  have hb : ∀ a ∈ x, bpskMap g.F a = if a = 0 then .fin 1 else .fin (-1) := fun a ha => (map_bits hF (hx a ha)).1
  have hook : ∀ a ∈ x, ookMap a = if a = 0 then .fin 0 else .fin 1 := by
    intro a ha; unfold ookMap; split <;> simp_all
  unfold modulate signal
  cases hk : g.kind with
  | bpsk n => dsimp only; rw [each_eq hl ho]; congr 1; exact List.map_congr_left hb
  | fast n t l =>
    rw [hk] at ht
    dsimp only
    rw [if_pos (show t = true from ht), vec_eq hl ho (fun a ha => (map_bits hF (hx a ha)).2)]; congr 1; exact List.map_congr_left hb
  | awgn n => dsimp only; rw [each_eq hl ho]; congr 1; exact List.map_congr_left hook
  | bec => dsimp only; rw [each_eq hl ho]; congr 1; exact List.map_congr_left hook
  | bsc => dsimp only; rw [each_eq hl ho]; congr 1; exact List.map_congr_left hook

/-- **C85 (modulation).**  A BPSK, fast or not, sends 1 for the bit 0 and -1 for the bit 1; an OOK sends 0 and 1. -/
theorem C85_modulate {L : Lib} {g : Cfg} (hF : g.F = b32 ∨ g.F = b64) (ht : Typed g.kind) (st : St) {x : List Int} (hx : IsBits x) (hl : x.length = g.N) {out : List Fl}
    (ho : out.length = g.N) : step L g st (.modulate x) out = ok (st, x.map (signal g.kind)) := by
  show (modulate g x out >>= fun o => ok _) = _
  rw [modulate_eq hF ht hx hl ho, bind_ok]

example : IsBits [0, 1, 1] ∧ Exec.toOption (modulate ⟨b32, true, 3, .fast false true 2⟩ [0, 1, 1] [.nan, .nan, .nan]) = some [.fin 1, .fin (-1), .fin (-1)] ∧
    Exec.toOption (modulate ⟨b32, true, 3, .bec⟩ [0, 1, 1] [.nan, .nan, .nan]) = some [.fin 0, .fin 1, .fin 1] :=
  ⟨by intro b hb; simp at hb; omega, by decide +kernel, by decide +kernel⟩

/-- **C85 (filter).**  The filter copies the frame. -/
theorem C85_filter {L : Lib} {g : Cfg} (st : St) (cp : Fl) {y out : List Fl} (hy : y.length = g.N) (ho : out.length = g.N) :
    ∃ st', step L g st (.filter cp y) out = ok (st', y) := by
  refine ⟨{ st with last := cp }, ?_⟩
  show (copyTo y 0 g.N out 0 >>= fun o => ok _) = _
  rw [copy_eq hy ho, bind_ok]

/-! ## Histories -/

/-- **C85 (history).**  What a modem demodulates does not depend on the calls before it (but those of `filter`). -/
theorem C85_history {L : Lib} {g : Cfg} {st : St} (hr : Reach L g st) {cp : Fl} (hc : cp ≠ fltMax) (h : Option (List Fl)) (y out : List Fl) :
    (step L g st (.demodulate cp h y) out >>= fun r => ok r.2) = (step L g (init g.kind) (.demodulate cp h y) out >>= fun r => ok r.2) ∧
    (step L g st (.demodulate cp h y) out >>= fun r => ok r.2) = demod g (factor L g cp) h y out := by
  have key : ∀ {st : St}, Reach L g st → (step L g st (.demodulate cp h y) out >>= fun r => ok r.2) = demod g (factor L g cp) h y out := by
    intro st hr
    have e' : demod g (refresh L g st cp).fac h y out = demod g (factor L g cp) h y out := by
      cases hu : uses g.kind
      · rw [demod_fac hu _ (factor L g cp)]
      · rcases refresh_fac hr.inv hu cp with h1 | h1
        · exact absurd h1 hc
        · rw [h1]
    show ((demod g (refresh L g st cp).fac h y out >>= fun o => ok _) >>= _) = _
    rw [e']
    cases demod g (factor L g cp) h y out <;> rfl
  exact ⟨(key hr).trans (key .init).symm, key hr⟩

example : ∃ st, Reach exL ⟨b32, true, 1, .bpsk false⟩ st ∧ st ≠ init (.bpsk false) := by
  refine ⟨⟨.fin 1, .fin 2⟩, .demodulate (cp := .fin 1) (h := none) (y := [.fin 1]) (out := [.nan]) (o := [.fin 2]) .init (by decide +kernel), by decide +kernel⟩

/-- **C85 (fast).**  The fast BPSK gives the same values as the other one, whatever the size of its registers. -/
theorem C85_fast {F : Fmt} (hF : F = b32 ∨ F = b64) (same n : Bool) {N : Nat} (l : Nat) {x : List Int} (hx : IsBits x) (hl : x.length = N) (fac : Fl) {y out : List Fl}
    (hy : y.length = N) (ho : out.length = N) :
    modulate ⟨F, same, N, .fast n true l⟩ x out = modulate ⟨F, same, N, .bpsk n⟩ x out ∧
    demod ⟨F, same, N, .fast n true l⟩ fac none y out = demod ⟨F, same, N, .bpsk n⟩ fac none y out := by
  constructor
  · rw [modulate_eq (g := ⟨F, same, N, .fast n true l⟩) hF rfl hx hl ho, modulate_eq (g := ⟨F, same, N, .bpsk n⟩) hF trivial hx hl ho]; rfl
  · show (if n then _ else if same = false then _ else vec l N _ _ y out) = (if n then _ else if same = false then _ else each N _ y out)
    rw [vec_eq hy ho (fun _ _ => rfl), each_eq hy ho]

example : Exec.toOption (demod ⟨b32, true, 3, .fast false true 2⟩ (.fin 2) none [.fin 1, .fin 2, .fin (-1)] [.nan, .nan, .nan]) = some [.fin 2, .fin 4, .fin (-2)] := by
  decide +kernel

/-! ## LLRs of the BPSK -/

theorem psk_demod {g : Cfg} (hp : Psk g.kind) (hs : g.same = true) (hn : ¬ NoSig g.kind) (fac : Fl) {y out : List Fl} (hy : y.length = g.N) (ho : out.length = g.N) :
    demod g fac none y out = ok (y.map fun a => g.F.mul a fac) := by
  unfold demod demodulate
  cases hk : g.kind with
  | bpsk n =>
    rw [hk] at hn
    dsimp only
    rw [if_neg (show ¬ n = true from hn), if_neg (by rw [hs]; decide), each_eq hy ho]
  | fast n t l =>
    rw [hk] at hn
    dsimp only
    rw [if_neg (show ¬ n = true from hn), if_neg (by rw [hs]; decide), vec_eq hy ho (fun _ _ => rfl)]
  | awgn n => rw [hk] at hp; exact hp.elim
  | bec => rw [hk] at hp; exact hp.elim
  | bsc => rw [hk] at hp; exact hp.elim

theorem psk_factor {L : Lib} {g : Cfg} (hp : Psk g.kind) (cp : Fl) : factor L g cp = g.F.div (.fin 2) (b32.mul cp cp) := by
  unfold factor
  cases hk : g.kind with
  | bpsk n => rfl
  | fast n t l => rfl
  | awgn n => rw [hk] at hp; exact hp.elim
  | bec => rw [hk] at hp; exact hp.elim
  | bsc => rw [hk] at hp; exact hp.elim

/-- The factor of a BPSK in the middle of the range. -/
theorem psk_value {F : Fmt} (hF : F = b32 ∨ F = b64) {s : ℚ} (h1 : 1 / 2 ^ 10 ≤ s) (h2 : s ≤ 2 ^ 10) :
    ∃ d1 d2 : ℚ, |d1| ≤ 1 / 2 ^ 23 ∧ |d2| ≤ 1 / 2 ^ 23 ∧ F.div (.fin 2) (b32.mul (.fin s) (.fin s)) = .fin (2 / (s ^ 2 * (1 + d1)) * (1 + d2)) := by
  have s0 : 0 < s := lt_of_lt_of_le (by norm_num) h1
  have a1 : 1 / 2 ^ 20 ≤ s * s := by
    calc (1 : ℚ) / 2 ^ 20 = 1 / 2 ^ 10 * (1 / 2 ^ 10) := by norm_num
      _ ≤ _ := mul_le_mul h1 h1 (by norm_num) s0.le
  have a2 : s * s ≤ 2 ^ 20 := by
    calc s * s ≤ 2 ^ 10 * 2 ^ 10 := mul_le_mul h2 h2 s0.le (by norm_num)
      _ = _ := by norm_num
  have p0 : 0 < s * s := mul_pos s0 s0
  obtain ⟨d1, hd1, e1⟩ := approx (F := b32) (.inl rfl) (x := s * s) (by rw [abs_of_pos p0]; exact le_trans (by norm_num) a1) (by rw [abs_of_pos p0]; exact le_trans a2 (by norm_num))
  obtain ⟨b1, b2⟩ := abs_le.1 hd1
  have c1 : (1 : ℚ) / 2 ≤ 1 + d1 := by
    have : (-(1 / 2) : ℚ) ≤ -(1 / 2 ^ 23) := by norm_num
    linarith
  have c2 : 1 + d1 ≤ 2 := by
    have : (1 / 2 ^ 23 : ℚ) ≤ 1 := by norm_num
    linarith
  have m0 : 0 < s * s * (1 + d1) := mul_pos p0 (by linarith)
  have m1 : 1 / 2 ^ 21 ≤ s * s * (1 + d1) := by
    calc (1 : ℚ) / 2 ^ 21 = 1 / 2 ^ 20 * (1 / 2) := by norm_num
      _ ≤ _ := mul_le_mul a1 c1 (by norm_num) p0.le
  have m2 : s * s * (1 + d1) ≤ 2 ^ 21 := by
    calc s * s * (1 + d1) ≤ 2 ^ 20 * 2 := mul_le_mul a2 c2 (by linarith) (by norm_num)
      _ = _ := by norm_num
  have q0 : 0 < 2 / (s * s * (1 + d1)) := div_pos (by norm_num) m0
  obtain ⟨d2, hd2, e2⟩ := approx hF (x := 2 / (s * s * (1 + d1))) (by
      rw [abs_of_pos q0, le_div_iff₀ m0]
      calc (1 : ℚ) / 2 ^ 100 * (s * s * (1 + d1)) ≤ 1 / 2 ^ 100 * 2 ^ 21 := mul_le_mul_of_nonneg_left m2 (by norm_num)
        _ ≤ _ := by norm_num)
    (by
      rw [abs_of_pos q0, div_le_iff₀ m0]
      calc (2 : ℚ) ≤ 2 ^ 100 * (1 / 2 ^ 21) := by norm_num
        _ ≤ _ := mul_le_mul_of_nonneg_left m1 (by norm_num))
  refine ⟨d1, d2, hd1, hd2, ?_⟩
  rw [mul_fin, e1, div_eq _ m0.ne', e2]
  congr 1
  rw [sq]

/-- The product of a value by the factor of a BPSK. -/
theorem psk_at {F : Fmt} (hF : F = b32 ∨ F = b64) {s : ℚ} (h1 : 1 / 2 ^ 10 ≤ s) (h2 : s ≤ 2 ^ 10) {a : ℚ} (ha1 : 1 / 2 ^ 30 ≤ |a|) (ha2 : |a| ≤ 2 ^ 30) :
    ∃ d : ℚ, |d| ≤ 1 / 2 ^ 20 ∧ F.mul (.fin a) (F.div (.fin 2) (b32.mul (.fin s) (.fin s))) = .fin (2 * a / s ^ 2 * (1 + d)) := by
  have s0 : 0 < s := lt_of_lt_of_le (by norm_num) h1
  obtain ⟨d1, d2, hd1, hd2, ev⟩ := psk_value hF h1 h2
  rw [ev]
  obtain ⟨b1, b1'⟩ := abs_le.1 hd1
  obtain ⟨b2, b2'⟩ := abs_le.1 hd2
  have k : (1 : ℚ) / 2 ^ 23 ≤ 1 / 2 := by norm_num
  have c1 : (1 : ℚ) / 2 ≤ 1 + d1 := by linarith
  have c0 : 0 < 1 + d1 := by linarith
  have p2 : 0 < s ^ 2 := by positivity
  have f0 : 0 < 2 / (s ^ 2 * (1 + d1)) * (1 + d2) := mul_pos (div_pos (by norm_num) (mul_pos p2 c0)) (by linarith)
  have fl : 1 / 2 ^ 23 ≤ 2 / (s ^ 2 * (1 + d1)) * (1 + d2) := by
    have : s ^ 2 * (1 + d1) ≤ 2 ^ 21 := by
      calc s ^ 2 * (1 + d1) ≤ (2 ^ 10) ^ 2 * 2 := mul_le_mul (pow_le_pow_left₀ s0.le h2 2) (by linarith) c0.le (by norm_num)
        _ = _ := by norm_num
    have h3 : (2 : ℚ) / 2 ^ 21 ≤ 2 / (s ^ 2 * (1 + d1)) := div_le_div_of_nonneg_left (by norm_num) (mul_pos p2 c0) this
    calc (1 : ℚ) / 2 ^ 23 ≤ 2 / 2 ^ 21 * (1 / 2) := by norm_num
      _ ≤ _ := mul_le_mul h3 (by linarith) (by norm_num) (div_pos (by norm_num) (mul_pos p2 c0)).le
  have fu : 2 / (s ^ 2 * (1 + d1)) * (1 + d2) ≤ 2 ^ 24 := by
    have : 1 / 2 ^ 21 ≤ s ^ 2 * (1 + d1) := by
      calc (1 : ℚ) / 2 ^ 21 = (1 / 2 ^ 10) ^ 2 * (1 / 2) := by norm_num
        _ ≤ _ := mul_le_mul (pow_le_pow_left₀ (by norm_num) h1 2) c1 (by norm_num) p2.le
    have h3 : (2 : ℚ) / (s ^ 2 * (1 + d1)) ≤ 2 / (1 / 2 ^ 21) := div_le_div_of_nonneg_left (by norm_num) (by norm_num) this
    calc 2 / (s ^ 2 * (1 + d1)) * (1 + d2) ≤ 2 / (1 / 2 ^ 21) * 2 := mul_le_mul h3 (by linarith) (by linarith) (by norm_num)
      _ ≤ _ := by norm_num
  obtain ⟨d3, hd3, e3⟩ := approx hF (x := a * (2 / (s ^ 2 * (1 + d1)) * (1 + d2))) (by
      rw [abs_mul, abs_of_pos f0]
      calc (1 : ℚ) / 2 ^ 100 ≤ 1 / 2 ^ 30 * (1 / 2 ^ 23) := by norm_num
        _ ≤ _ := mul_le_mul ha1 fl (by norm_num) (abs_nonneg _))
    (by
      rw [abs_mul, abs_of_pos f0]
      calc |a| * (2 / (s ^ 2 * (1 + d1)) * (1 + d2)) ≤ 2 ^ 30 * 2 ^ 24 := mul_le_mul ha2 fu f0.le (by norm_num)
        _ ≤ _ := by norm_num)
  obtain ⟨b3, b3'⟩ := abs_le.1 hd3
  refine ⟨((1 + d2) * (1 + d3) - (1 + d1)) / (1 + d1), ?_, ?_⟩
  · rw [abs_div, abs_of_pos c0, div_le_iff₀ c0]
    have e4 : (1 + d2) * (1 + d3) - (1 + d1) = d2 + d3 + d2 * d3 - d1 := by ring
    have h23 : |d2 * d3| ≤ 1 / 2 ^ 23 := by
      rw [abs_mul]
      calc |d2| * |d3| ≤ 1 / 2 ^ 23 * 1 := mul_le_mul hd2 (le_trans hd3 (by norm_num)) (abs_nonneg _) (by norm_num)
        _ = _ := by norm_num
    obtain ⟨b4, b4'⟩ := abs_le.1 h23
    rw [e4]
    have h5 : (1 : ℚ) / 2 ^ 20 * (1 / 2) ≤ 1 / 2 ^ 20 * (1 + d1) := mul_le_mul_of_nonneg_left c1 (by norm_num)
    have h6 : (1 : ℚ) / 2 ^ 20 * (1 / 2) = 4 * (1 / 2 ^ 23) := by norm_num
    rw [abs_le]
    constructor <;> linarith
  · rw [mul_fin, e3]
    congr 1
    field_simp
    ring

theorem cp_ne {s : ℚ} (h2 : s ≤ 2 ^ 10) : Fl.fin s ≠ fltMax := by
  intro h
  unfold fltMax at h
  rw [Fl.fin.injEq] at h
  rw [h] at h2
  norm_num at h2

/-- **C85 (LLRs of the BPSK).**  After any history, for a standard deviation between `2 ^ -10` and `2 ^ 10`, the demodulated value is the log-likelihood ratio of the bit up to a relative
error of `2 ^ -20`. -/
theorem C85_llr {L : Lib} {g : Cfg} (hF : g.F = b32 ∨ g.F = b64) (hp : Psk g.kind) (hs : g.same = true) (hn : ¬ NoSig g.kind) {st : St} (hr : Reach L g st)
    {s : ℚ} (h1 : 1 / 2 ^ 10 ≤ s) (h2 : s ≤ 2 ^ 10) {y : List ℚ} (hy : y.length = g.N) (hb : ∀ a ∈ y, a = 0 ∨ 1 / 2 ^ 30 ≤ |a| ∧ |a| ≤ 2 ^ 30) {out : List Fl}
    (ho : out.length = g.N) :
    ∃ st' o, step L g st (.demodulate (.fin s) none (y.map Fl.fin)) out = ok (st', o) ∧ Reach L g st' ∧ o.length = g.N ∧
      ∀ (i : Nat) (a : ℚ), y[i]? = some a → ∃ v : ℚ, o[i]? = some (.fin v) ∧ |v - gaussian 1 (-1) a s| ≤ |gaussian 1 (-1) a s| / 2 ^ 20 := by
  have s0 : 0 < s := lt_of_lt_of_le (by norm_num) h1
  have e := psk_demod (fac := factor L g (.fin s)) hp hs hn (y := y.map Fl.fin) (by simpa using hy) ho
  obtain ⟨st', e', hr'⟩ := demod_step hr (cp_ne h2) e
  refine ⟨st', _, e', hr', by simpa using hy, fun i a ha => ?_⟩
  rw [psk_factor hp]
  have hg : gaussian 1 (-1) a s = 2 * a / s ^ 2 := by
    unfold gaussian
    field_simp
    ring
  rw [List.getElem?_map, List.getElem?_map, ha, hg]
  simp only [Option.map_some]
  rcases hb a (List.mem_of_getElem? ha) with rfl | ⟨ha1, ha2⟩
  · obtain ⟨d1, d2, -, -, ev⟩ := psk_value hF h1 h2
    refine ⟨0, by rw [ev, mul_fin, zero_mul, of_zero], by simp⟩
  · obtain ⟨d, hd, ev⟩ := psk_at hF h1 h2 ha1 ha2
    refine ⟨_, by rw [ev], ?_⟩
    rw [mul_add, mul_one, add_sub_cancel_left, abs_mul, div_eq_mul_one_div _ ((2 : ℚ) ^ 20)]
    exact mul_le_mul_of_nonneg_left hd (abs_nonneg _)

example : (1 : ℚ) / 2 ^ 10 ≤ 1 / 2 ∧ gaussian 1 (-1) 3 (1 / 2) = 24 ∧
    Exec.toOption (step exL ⟨b32, true, 1, .bpsk false⟩ (init (.bpsk false)) (.demodulate (.fin (1 / 2)) none [.fin 3]) [.nan] >>= fun r => ok r.2) = some [.fin 24] := by
  refine ⟨by norm_num, by unfold gaussian; norm_num, by decide +kernel⟩

/-- **C85 (LLRs through a gain).**  When the values received went through the gains `h` of the channel, that is when the two points are `h` and `-h`, the demodulated value is the log-likelihood
ratio of the bit up to a relative error of `2 ^ -19`. -/
theorem C85_gain {L : Lib} {g : Cfg} (hF : g.F = b32 ∨ g.F = b64) (hk : g.kind = .bpsk false) (hs : g.same = true) {st : St} (hr : Reach L g st)
    {s : ℚ} (h1 : 1 / 2 ^ 10 ≤ s) (h2 : s ≤ 2 ^ 10) {y h : List ℚ} (hy : y.length = g.N) (hh : h.length = g.N) (hb : ∀ a ∈ y, 1 / 2 ^ 30 ≤ |a| ∧ |a| ≤ 2 ^ 30)
    (hb' : ∀ a ∈ h, 1 / 2 ^ 20 ≤ |a| ∧ |a| ≤ 2 ^ 20) {out : List Fl} (ho : out.length = g.N) :
    ∃ st' o, step L g st (.demodulate (.fin s) (some (h.map Fl.fin)) (y.map Fl.fin)) out = ok (st', o) ∧ o.length = g.N ∧
      ∀ (i : Nat) (a b : ℚ), y[i]? = some a → h[i]? = some b → ∃ v : ℚ, o[i]? = some (.fin v) ∧ |v - gaussian b (-b) a s| ≤ |gaussian b (-b) a s| / 2 ^ 19 := by
  have s0 : 0 < s := lt_of_lt_of_le (by norm_num) h1
  have e : demod g (factor L g (.fin s)) (some (h.map Fl.fin)) (y.map Fl.fin) out =
      ok (List.zipWith (fun a b => g.F.mul (g.F.mul a (g.F.div (.fin 2) (b32.mul (.fin s) (.fin s)))) b) (y.map Fl.fin) (h.map Fl.fin)) := by
    unfold demod demodulateWg factor
    rw [hk]
    dsimp only
    rw [if_neg (by rw [hs]; decide), if_neg (by decide), each2_eq (by simpa using hy) (by simpa using hh) ho]
  obtain ⟨st', e', -⟩ := demod_step hr (cp_ne h2) e
  refine ⟨st', _, e', by simp [hy, hh], fun i a b ha hb1 => ?_⟩
  obtain ⟨a1, a2⟩ := hb a (List.mem_of_getElem? ha)
  obtain ⟨c1, c2⟩ := hb' b (List.mem_of_getElem? hb1)
  have hg : gaussian b (-b) a s = 2 * a / s ^ 2 * b := by
    unfold gaussian
    field_simp
    ring
  obtain ⟨d, hd, ev⟩ := psk_at hF h1 h2 a1 a2
  rw [List.getElem?_zipWith, List.getElem?_map, List.getElem?_map, ha, hb1, hg]
  simp only [Option.map_some]
  obtain ⟨b1, b1'⟩ := abs_le.1 hd
  have k : (1 : ℚ) / 2 ^ 20 ≤ 1 / 2 := by norm_num
  have dp : 0 < 1 + d := by linarith
  have l2 : 1 / 2 ^ 20 ≤ s ^ 2 := by
    calc (1 : ℚ) / 2 ^ 20 = (1 / 2 ^ 10) ^ 2 := by norm_num
      _ ≤ _ := pow_le_pow_left₀ (by norm_num) h1 2
  have u2 : s ^ 2 ≤ 2 ^ 20 := by
    calc s ^ 2 ≤ (2 ^ 10) ^ 2 := pow_le_pow_left₀ s0.le h2 2
      _ = _ := by norm_num
  have p2 : 0 < s ^ 2 := by positivity
  have m1 : (1 : ℚ) / 2 ^ 50 ≤ |2 * a / s ^ 2| := by
    rw [abs_div, abs_of_pos p2, le_div_iff₀ p2, abs_mul, abs_of_pos (by norm_num : (0 : ℚ) < 2)]
    calc (1 : ℚ) / 2 ^ 50 * s ^ 2 ≤ 1 / 2 ^ 50 * 2 ^ 20 := mul_le_mul_of_nonneg_left u2 (by norm_num)
      _ = 1 / 2 ^ 30 := by norm_num
      _ ≤ _ := by linarith
  have m2 : |2 * a / s ^ 2| ≤ 2 ^ 51 := by
    rw [abs_div, abs_of_pos p2, div_le_iff₀ p2, abs_mul, abs_of_pos (by norm_num : (0 : ℚ) < 2)]
    calc 2 * |a| ≤ 2 * 2 ^ 30 := by linarith
      _ = 2 ^ 51 * (1 / 2 ^ 20) := by norm_num
      _ ≤ _ := mul_le_mul_of_nonneg_left l2 (by norm_num)
  obtain ⟨d4, hd4, e4⟩ := approx hF (x := 2 * a / s ^ 2 * (1 + d) * b) (by
      rw [abs_mul, abs_mul, abs_of_pos dp]
      calc (1 : ℚ) / 2 ^ 100 ≤ 1 / 2 ^ 50 * (1 / 2) * (1 / 2 ^ 20) := by norm_num
        _ ≤ _ := mul_le_mul (mul_le_mul m1 (by linarith) (by norm_num) (abs_nonneg _)) c1 (by norm_num) (mul_nonneg (abs_nonneg _) dp.le))
    (by
      rw [abs_mul, abs_mul, abs_of_pos dp]
      calc |2 * a / s ^ 2| * (1 + d) * |b| ≤ 2 ^ 51 * 2 * 2 ^ 20 :=
            mul_le_mul (mul_le_mul m2 (by linarith) dp.le (by norm_num)) c2 (abs_nonneg _) (by norm_num)
        _ ≤ _ := by norm_num)
  refine ⟨_, by rw [ev, mul_fin, e4], ?_⟩
  obtain ⟨b4, b4'⟩ := abs_le.1 hd4
  have es : 2 * a / s ^ 2 * (1 + d) * b * (1 + d4) - 2 * a / s ^ 2 * b = 2 * a / s ^ 2 * b * (d + d4 + d * d4) := by ring
  rw [es, abs_mul, div_eq_mul_one_div _ ((2 : ℚ) ^ 19)]
  refine mul_le_mul_of_nonneg_left ?_ (abs_nonneg _)
  have hdd : |d * d4| ≤ 1 / 2 ^ 23 := by
    rw [abs_mul]
    calc |d| * |d4| ≤ 1 * (1 / 2 ^ 23) := mul_le_mul (le_trans hd (by norm_num)) hd4 (abs_nonneg _) (by norm_num)
      _ = _ := by norm_num
  obtain ⟨b5, b5'⟩ := abs_le.1 hdd
  have h6 : (1 : ℚ) / 2 ^ 20 + 1 / 2 ^ 23 + 1 / 2 ^ 23 ≤ 1 / 2 ^ 19 := by norm_num
  rw [abs_le]
  constructor <;> linarith

example : gaussian 3 (-3) 5 (1 / 2) = 120 ∧
    Exec.toOption (step exL ⟨b32, true, 1, .bpsk false⟩ (init (.bpsk false)) (.demodulate (.fin (1 / 2)) (some [.fin 3]) [.fin 5]) [.nan] >>= fun r => ok r.2) = some [.fin 120] := by
  refine ⟨by unfold gaussian; norm_num, by decide +kernel⟩

/-! ## Recovery -/

theorem awgn_demod {g : Cfg} {n : Bool} (hk : g.kind = .awgn n) (hs : g.same = true) (fac : Fl) {y out : List Fl} (hy : y.length = g.N) (ho : out.length = g.N) :
    demod g fac none y out = ok (y.map fun a => if n then sub g.F (.fin (1 / 2)) a else awgnAt g.F fac a) := by
  unfold demod demodulate
  rw [hk]
  dsimp only
  cases n
  · rw [if_neg (by decide), if_neg (by rw [hs]; decide), each_eq hy ho]; rfl
  · rw [if_pos rfl, each_eq hy ho]; rfl

theorem awgn_at {F : Fmt} (hF : F = b32 ∨ F = b64) (fac : Fl) : awgnAt F fac (.fin 0) = F.mul (.fin 1) fac ∧ awgnAt F fac (.fin 1) = F.mul (.fin (-1)) fac ∧
    sub F (.fin (1 / 2)) (.fin 0) = .fin (1 / 2) ∧ sub F (.fin (1 / 2)) (.fin 1) = .fin (-1 / 2) := by
  have h1 : (sub F (F.mul (.fin 2) (.fin 0)) (.fin 1)).neg = .fin 1 := by rcases hF with rfl | rfl <;> decide +kernel
  have h2 : (sub F (F.mul (.fin 2) (.fin 1)) (.fin 1)).neg = .fin (-1) := by rcases hF with rfl | rfl <;> decide +kernel
  refine ⟨by unfold awgnAt; rw [h1], by unfold awgnAt; rw [h2], ?_, ?_⟩ <;> rcases hF with rfl | rfl <;> decide +kernel

theorem bec_at {F : Fmt} (hF : F = b32 ∨ F = b64) : sub F (.fin 1) (F.mul (.fin 2) (.fin 0)) = .fin 1 ∧ sub F (.fin 1) (F.mul (.fin 2) (.fin 1)) = .fin (-1) := by
  constructor <;> rcases hF with rfl | rfl <;> decide +kernel

theorem map_decide {x : List Int} (hx : IsBits x) {f : Int → Fl} (h0 : decide1 (f 0) = 0) (h1 : decide1 (f 1) = 1) : (x.map f).map decide1 = x := by
  rw [List.map_map]
  conv_rhs => rw [← List.map_id x]
  refine List.map_congr_left fun a ha => ?_
  rcases hx a ha with rfl | rfl
  · exact h0
  · exact h1

theorem map_decide2 {x : List Int} (hx : IsBits x) {s : Int → Fl} {f : Fl → Fl} (h0 : decide1 (f (s 0)) = 0) (h1 : decide1 (f (s 1)) = 1) :
    ((x.map s).map f).map decide1 = x := by
  rw [List.map_map (g := f)]
  exact map_decide hx h0 h1

/-- **C85 (recovery).**  With all these modems, demodulating a modulated frame and deciding gives its bits, whatever the previous calls. -/
theorem C85_recover {L : Lib} (hL : L.LogOk) {g : Cfg} (hF : g.F = b32 ∨ g.F = b64) (ht : Typed g.kind) (hs : g.same = true) {st : St} (hr : Reach L g st)
    {cp : Fl} (hc : cp ≠ fltMax) (hp : Plain g cp) {x : List Int} (hx : IsBits x) (hl : x.length = g.N) {out out' : List Fl} (ho : out.length = g.N) (ho' : out'.length = g.N) :
    ∃ o st' l, step L g st (.modulate x) out = ok (st, o) ∧ step L g st (.demodulate cp none o) out' = ok (st', l) ∧ l.map decide1 = x := by
  suffices h : ∃ l, demod g (factor L g cp) none (x.map (signal g.kind)) out' = ok l ∧ l.map decide1 = x by
    obtain ⟨l, e, h⟩ := h
    obtain ⟨st', e', -⟩ := demod_step hr hc e
    exact ⟨_, st', l, C85_modulate hF ht st hx hl ho, e', h⟩
  have hy : (x.map (signal g.kind)).length = g.N := by simpa using hl
  have hm := emin_le hF
  have psk : Psk g.kind → (NoSig g.kind ∨ ∃ s : ℚ, cp = .fin s ∧ |s| < 2 ^ 63) → (∀ z, signal g.kind z = if z = 0 then .fin 1 else .fin (-1)) →
      (NoSig g.kind → demod g (factor L g cp) none (x.map (signal g.kind)) out' = ok (x.map (signal g.kind))) →
      ∃ l, demod g (factor L g cp) none (x.map (signal g.kind)) out' = ok l ∧ l.map decide1 = x := by
    intro hk hq hz hcopy
    by_cases hn : NoSig g.kind
    · refine ⟨_, hcopy hn, map_decide hx ?_ ?_⟩
      · rw [hz]; decide +kernel
      · rw [hz]; decide +kernel
    · obtain ⟨s, rfl, h1⟩ := hq.resolve_left hn
      have hB := big_one (F := g.F) (by omega) (bpsk_factor hF h1)
      obtain ⟨b1, b2⟩ := big_decide hB
      refine ⟨_, psk_demod hk hs hn _ hy ho', ?_⟩
      rw [psk_factor hk]
      refine map_decide2 hx ?_ ?_
      · rw [hz, if_pos rfl]; exact b1
      · rw [hz, if_neg (by decide), big_neg_one]; exact b2
  unfold Plain at hp
  cases hk : g.kind with
  | bpsk n =>
    rw [hk] at hp
    rw [← hk]
    refine psk (by rw [hk]; trivial) (by rw [hk]; exact hp) (fun z => by rw [hk]; rfl) (fun h => ?_)
    rw [hk] at h
    rw [show demod g (factor L g cp) none (x.map (signal g.kind)) out' = copyTo (x.map (signal g.kind)) 0 g.N out' 0 by unfold demod demodulate; rw [hk]; exact if_pos h, copy_eq hy ho']
  | fast n t l =>
    rw [hk] at hp
    rw [← hk]
    refine psk (by rw [hk]; trivial) (by rw [hk]; exact hp) (fun z => by rw [hk]; rfl) (fun h => ?_)
    rw [hk] at h
    rw [show demod g (factor L g cp) none (x.map (signal g.kind)) out' = copyTo (x.map (signal g.kind)) 0 g.N out' 0 by unfold demod demodulate; rw [hk]; exact if_pos h, copy_eq hy ho']
  | awgn n =>
    rw [hk] at hp
    obtain ⟨a1, a2, a3, a4⟩ := awgn_at hF (factor L g cp)
    rw [← hk]
    refine ⟨_, awgn_demod hk hs _ hy ho', ?_⟩
    refine map_decide2 hx ?_ ?_
    · rw [hk]
      show decide1 (if n then _ else awgnAt g.F (factor L g cp) (.fin 0)) = 0
      cases n
      · rw [if_neg (by decide), a1]
        obtain ⟨s, rfl, h1⟩ := hp.resolve_left (by decide)
        have hf : factor L g (.fin s) = g.F.mul (g.F.mul (.fin 2) (.fin s)) (.fin s) := by unfold factor; rw [hk]
        rw [hf]
        exact (big_decide (big_one (F := g.F) (by omega) (awgn_factor hF h1))).1
      · rw [if_pos rfl]
        show decide1 (sub g.F (.fin (1 / 2)) (.fin 0)) = 0
        rw [a3]; decide +kernel
    · rw [hk]
      show decide1 (if n then _ else awgnAt g.F (factor L g cp) (.fin 1)) = 1
      cases n
      · rw [if_neg (by decide), a2, big_neg_one]
        obtain ⟨s, rfl, h1⟩ := hp.resolve_left (by decide)
        have hf : factor L g (.fin s) = g.F.mul (g.F.mul (.fin 2) (.fin s)) (.fin s) := by unfold factor; rw [hk]
        rw [hf]
        exact (big_decide (big_one (F := g.F) (by omega) (awgn_factor hF h1))).2
      · rw [if_pos rfl]
        show decide1 (sub g.F (.fin (1 / 2)) (.fin 1)) = 1
        rw [a4]; decide +kernel
  | bec =>
    obtain ⟨u, u1, u2, u3, u4, u5⟩ := unknown_eq hF
    have fin : ∀ (i : Nat) (a : Fl), (x.map (signal g.kind))[i]? = some a → ∃ z, x[i]? = some z ∧ a = if z = 0 then Fl.fin 0 else Fl.fin 1 := by
      intro i a ha
      rw [List.getElem?_map] at ha
      cases hxi : x[i]? with
      | none => rw [hxi] at ha; cases ha
      | some z => rw [hxi, hk] at ha; cases ha; exact ⟨z, rfl, rfl⟩
    obtain ⟨o, eo, ol, ov⟩ := bec_eq u1 u4 u5 (n := g.N) (y := x.map (signal g.kind)) (out := out') (e := List.replicate g.N false) hy (by simp) ho' (by
      intro i hi
      constructor
      · intro h; simp at h
      · intro h
        obtain ⟨z, -, h3⟩ := fin i _ h
        split at h3 <;> cases h3)
    rw [← hk]
    refine ⟨o, by show demodulate _ _ _ _ = _; unfold demodulate; rw [hk]; rw [hk] at eo; exact eo, ?_⟩
    apply List.ext_getElem?
    intro i
    rw [List.getElem?_map]
    by_cases hi : i < g.N
    · obtain ⟨a, ha⟩ : ∃ a, (x.map (signal g.kind))[i]? = some a := ⟨_, List.getElem?_eq_getElem (by omega)⟩
      obtain ⟨z, hz, rfl⟩ := fin i a ha
      rw [ov i _ ha, hz]
      obtain ⟨c1, c2⟩ := bec_at hF
      rcases hx z (List.mem_of_getElem? hz) with rfl | rfl
      · rw [if_pos rfl, if_neg (by decide), c1]; decide +kernel
      · rw [if_neg (by decide), if_neg (by decide), c2]; decide +kernel
    · rw [List.getElem?_eq_none (by omega), List.getElem?_eq_none (by omega)]; rfl
  | bsc =>
    rw [hk] at hp
    obtain ⟨p, rfl, p1, p2, p3⟩ := hp
    obtain ⟨l, e1, l0, e2, e3⟩ := bsc_factor hL hk hF p1 p2 p3
    rw [← hk]
    refine ⟨(x.map (signal g.kind)).map _, by show demodulate _ _ _ _ = _; unfold demodulate; rw [hk]; dsimp only; rw [hk] at hy; exact each_eq hy ho', ?_⟩
    rw [e1, hk]
    refine map_decide2 hx ?_ ?_
    · show decide1 (sub g.F (g.F.mul (g.F.mul (.fin 2) (.fin l)) (.fin 0)) (.fin l)) = 0
      rw [e2]
      exact if_neg (by show ¬ decide (-l < 0) = true; rw [decide_eq_true_iff]; linarith)
    · show decide1 (sub g.F (g.F.mul (g.F.mul (.fin 2) (.fin l)) (.fin 1)) (.fin l)) = 1
      rw [e3]
      exact if_pos (by show decide (l < 0) = true; rw [decide_eq_true_iff]; exact l0)

example : Plain ⟨b32, true, 2, .bpsk false⟩ (.fin 0) ∧ Plain ⟨b64, true, 2, .awgn false⟩ (.fin 2) ∧ Plain ⟨b32, true, 2, .bsc⟩ (.fin (1 / 4)) ∧ exL.LogOk := by
  refine ⟨.inr ⟨0, rfl, by norm_num⟩, .inr ⟨2, rfl, by norm_num⟩, ⟨1 / 4, rfl, ⟨1, -2, by decide, by decide, by rw [zpow_neg]; norm_num, ?_⟩, by norm_num, by norm_num⟩, exL_ok⟩
  exact small_emax (.inl rfl) (by rw [abs_of_pos (by norm_num)]; norm_num)

/-- **C85 (noise ignored).**  A BPSK which ignores the noise gives back what it receives, for all types and channel parameters. -/
theorem C85_copy {L : Lib} {g : Cfg} (hp : Psk g.kind) (hn : NoSig g.kind) (st : St) (cp : Fl) {y out : List Fl} (hy : y.length = g.N) (ho : out.length = g.N) :
    ∃ st', step L g st (.demodulate cp none y) out = ok (st', y) := by
  refine ⟨{ refresh L g st cp with last := cp }, ?_⟩
  show (demod g (refresh L g st cp).fac none y out >>= fun o => ok _) = _
  have : demod g (refresh L g st cp).fac none y out = ok y := by
    unfold demod demodulate
    cases hk : g.kind with
    | bpsk n => rw [hk] at hn; dsimp only; rw [if_pos (show n = true from hn), copy_eq hy ho]
    | fast n t l => rw [hk] at hn; dsimp only; rw [if_pos (show n = true from hn), copy_eq hy ho]
    | awgn n => rw [hk] at hp; exact hp.elim
    | bec => rw [hk] at hp; exact hp.elim
    | bsc => rw [hk] at hp; exact hp.elim
  rw [this, bind_ok]

example : Exec.toOption (step exL ⟨b32, false, 2, .bpsk true⟩ (init (.bpsk true)) (.demodulate (.fin 3) none [.fin 5, .fin 7]) [.nan, .nan] >>= fun r => ok r.2) = some [.fin 5, .fin 7] := by
  decide +kernel

/-! ## Channels -/

/-- **C85 (erasure channel).**  Through the erasure channel, whatever the draws, the LLR of a bit which is not erased is 1 for 0 and -1 for 1, and those of the erased bits are
alternately the unknown LLR and its opposite. -/
theorem C85_erasure {L : Lib} {g : Cfg} (hF : g.F = b32 ∨ g.F = b64) (hk : g.kind = .bec) (st : St) (cp : Fl) {x : List Int} (hx : IsBits x) (hl : x.length = g.N)
    {e : List Bool} (he : e.length = g.N) (w : Nat) {out out' out'' : List Fl} (ho : out.length = g.N) (ho' : out'.length = g.N) (ho'' : out''.length = g.N) :
    ∃ o y st' l, step L g st (.modulate x) out = ok (st, o) ∧ becNoise w g.N e o out' = ok y ∧ step L g st (.demodulate cp none y) out'' = ok (st', l) ∧ l.length = g.N ∧
      ∀ (i : Nat) (a : Int) (b : Bool), x[i]? = some a → e[i]? = some b →
        l[i]? = some (if b then if before e i % 2 = 0 then g.F.of (1 / 10 ^ 5) else (g.F.of (1 / 10 ^ 5)).neg else if a = 0 then .fin 1 else .fin (-1)) := by
  obtain ⟨u, u1, u2, u3, u4, u5⟩ := unknown_eq hF
  have eo := C85_modulate (L := L) hF (by rw [hk]; trivial) st hx hl ho
  have hz : ((x.map (signal g.kind)).zip e).length = g.N := by simp [hl, he]
  have ey : becNoise w g.N e (x.map (signal g.kind)) out' = ok (((x.map (signal g.kind)).zip e).map fun p : Fl × Bool => if p.2 then .inf false else p.1) :=
    vec_eq hz ho' (by rintro ⟨a, b⟩ -; cases b <;> rfl)
  have hv : ∀ (i : Nat) (a : Int) (b : Bool), x[i]? = some a → e[i]? = some b →
      (((x.map (signal g.kind)).zip e).map fun p : Fl × Bool => if p.2 then Fl.inf false else p.1)[i]? = some (if b then .inf false else if a = 0 then .fin 0 else .fin 1) := by
    intro i a b ha hb
    have hzi : ((x.map (signal g.kind)).zip e)[i]? = some (signal g.kind a, b) := List.getElem?_zip_eq_some.2 ⟨by rw [List.getElem?_map, ha]; rfl, hb⟩
    rw [List.getElem?_map, hzi, hk]
    rfl
  obtain ⟨o, e2, ol, ov⟩ := bec_eq u1 u4 u5 (n := g.N) (out := out'') (e := e) (y := ((x.map (signal g.kind)).zip e).map fun p : Fl × Bool => if p.2 then .inf false else p.1)
    (by simpa using hz) he ho'' (by
      intro i hi
      have hb : e[i]? = some e[i] := List.getElem?_eq_getElem hi
      rw [hv i _ _ (List.getElem?_eq_getElem (by omega : i < x.length)) hb, Option.some_inj]
      cases e[i]
      · constructor
        · intro h; cases h
        · intro h
          rw [if_neg (by decide)] at h
          split at h <;> cases h
      · simp)
  refine ⟨_, _, { refresh L g st cp with last := cp }, o, eo, ey, ?_, ol, ?_⟩
  · show (demodulate g (refresh L g st cp).fac _ out'' >>= fun o => ok _) = _
    unfold demodulate
    rw [hk]
    dsimp only
    rw [hk] at e2
    rw [e2, bind_ok]
  · intro i a b ha hb
    have hv' := hv i a b ha hb
    rw [ov i _ hv']
    obtain ⟨c1, c2⟩ := bec_at hF
    have hu : g.F.of (1 / 10 ^ 5) = .fin u := u1
    rw [hu]
    cases b
    · rcases hx a (List.mem_of_getElem? ha) with rfl | rfl
      · simp [c1]
      · simp [c2]
    · rw [if_pos rfl, if_pos rfl, if_pos rfl]
      rfl

/-- The LLR of an erasure is positive and small, and different from the others. -/
theorem C85_unknown {F : Fmt} (hF : F = b32 ∨ F = b64) : ∃ u : ℚ, F.of (1 / 10 ^ 5) = .fin u ∧ 0 < u ∧ u < 1 / 2 ^ 10 := by
  obtain ⟨u, u1, u2, u3, -⟩ := unknown_eq hF
  exact ⟨u, u1, u2, u3⟩

example : Exec.toOption (becNoise 2 3 [true, false, true] [.fin 0, .fin 1, .fin 1] [.nan, .nan, .nan]) = some [.inf false, .fin 1, .inf false] := by decide +kernel

/-- **C85 (symmetric channel).**  Through the symmetric channel, whatever the draws, for an error probability below one half, the LLRs have the same magnitude and their signs give the bits,
inverted where there is an error. -/
theorem C85_symmetric {L : Lib} (hL : L.LogOk) {g : Cfg} (hF : g.F = b32 ∨ g.F = b64) (hk : g.kind = .bsc) {st : St} (hr : Reach L g st) {p : ℚ} (hp : b32.Rep p) (h0 : 0 ≤ p) (h1 : p < 1 / 2)
    {x : List Int} (hx : IsBits x) (hl : x.length = g.N) {e : List Bool} (he : e.length = g.N) (w : Nat) {out out' out'' : List Fl} (ho : out.length = g.N) (ho' : out'.length = g.N)
    (ho'' : out''.length = g.N) :
    ∃ o y st' l v, step L g st (.modulate x) out = ok (st, o) ∧ bscNoise w g.N e o out' = ok y ∧ step L g st (.demodulate (.fin p) none y) out'' = ok (st', l) ∧ l.length = g.N ∧ 0 < v ∧
      ∀ (i : Nat) (a : Int) (b : Bool), x[i]? = some a → e[i]? = some b → l[i]? = some (if (a = 1) = (b = true) then .fin v else .fin (-v)) := by
  have eo := C85_modulate (L := L) hF (by rw [hk]; trivial) st hx hl ho
  have hz : ((x.map (signal g.kind)).zip e).length = g.N := by simp [hl, he]
  have hc : Fl.fin p ≠ fltMax := by
    intro h
    unfold fltMax at h
    rw [Fl.fin.injEq] at h
    rw [h] at h1
    norm_num at h1
  obtain ⟨l, e1, l0, e2, e3⟩ := bsc_factor hL hk hF hp h0 h1
  have ey : bscNoise w g.N e (x.map (signal g.kind)) out' = ok (((x.map (signal g.kind)).zip e).map fun p : Fl × Bool => if p.2 ≠ (p.1 = .fin 0 : Bool) then .fin 0 else .fin 1) :=
    vec_eq hz ho' (by
      rintro ⟨a, b⟩ -
      dsimp only
      cases b <;> by_cases h : a = .fin 0 <;> simp [h])
  have hy : (((x.map (signal g.kind)).zip e).map fun p : Fl × Bool => if p.2 ≠ (p.1 = .fin 0 : Bool) then Fl.fin 0 else .fin 1).length = g.N := by simpa using hz
  have ed : demod g (factor L g (.fin p)) none (((x.map (signal g.kind)).zip e).map fun p : Fl × Bool => if p.2 ≠ (p.1 = .fin 0 : Bool) then Fl.fin 0 else .fin 1) out'' =
      ok ((((x.map (signal g.kind)).zip e).map fun p : Fl × Bool => if p.2 ≠ (p.1 = .fin 0 : Bool) then Fl.fin 0 else .fin 1).map fun a =>
        sub g.F (g.F.mul (g.F.mul (.fin 2) (.fin l)) a) (.fin l)) := by
    rw [e1]
    show demodulate _ _ _ _ = _
    unfold demodulate
    rw [hk]
    dsimp only
    rw [hk] at hy
    exact each_eq hy ho''
  obtain ⟨st', e4, -⟩ := demod_step hr hc ed
  refine ⟨_, _, st', _, -l, eo, ey, e4, by simpa using hz, by linarith, fun i a b ha hb => ?_⟩
  have hzi : ((x.map (signal g.kind)).zip e)[i]? = some (signal g.kind a, b) := List.getElem?_zip_eq_some.2 ⟨by rw [List.getElem?_map, ha]; rfl, hb⟩
  rw [List.getElem?_map, List.getElem?_map, hzi, hk]
  rcases hx a (List.mem_of_getElem? ha) with rfl | rfl <;> cases b
  · show some (sub g.F (g.F.mul (g.F.mul (.fin 2) (.fin l)) (.fin 0)) (.fin l)) = _
    rw [e2]; simp
  · show some (sub g.F (g.F.mul (g.F.mul (.fin 2) (.fin l)) (.fin 1)) (.fin l)) = _
    rw [e3]; simp
  · show some (sub g.F (g.F.mul (g.F.mul (.fin 2) (.fin l)) (.fin 1)) (.fin l)) = _
    rw [e3]; simp
  · show some (sub g.F (g.F.mul (g.F.mul (.fin 2) (.fin l)) (.fin 0)) (.fin l)) = _
    rw [e2]; simp

example : Exec.toOption (bscNoise 2 3 [true, false, true] [.fin 0, .fin 1, .fin 1] [.nan, .nan, .nan]) = some [.fin 1, .fin 1, .fin 0] ∧
    Exec.toOption (step exL ⟨b32, true, 3, .bsc⟩ (init .bsc) (.demodulate (.fin (1 / 4)) none [.fin 1, .fin 1, .fin 0]) [.nan, .nan, .nan] >>= fun r => ok r.2) =
      some [.fin (-11184810 / 2 ^ 24), .fin (-11184810 / 2 ^ 24), .fin (11184810 / 2 ^ 24)] := by decide +kernel

/-! ## Defects -/

/-- **C86 (filter).**  A call of `filter` records its parameter without computing the factor: a demodulation with the same parameter then uses the previous factor, whatever it is. -/
theorem C86_filter {L : Lib} {g : Cfg} {st st' : St} {cp : Fl} (hc : cp ≠ .nan) {y out o : List Fl} (e : step L g st (.filter cp y) out = ok (st', o)) (h : Option (List Fl)) (z out' : List Fl) :
    (step L g st' (.demodulate cp h z) out' >>= fun r => ok r.2) = demod g st.fac h z out' := by
  obtain ⟨o', -, h2⟩ := bind_ok_inv e
  cases h2
  have hr : refresh L g { st with last := cp } cp = { st with last := cp } := by
    unfold refresh
    rw [if_neg]
    rintro ⟨h, -⟩
    rcases h with h | h
    · exact h rfl
    · exact hc h
  show ((demod g (refresh L g { st with last := cp } cp).fac h z out' >>= fun o => ok _) >>= _) = _
  rw [hr]
  show (demod g st.fac h z out' >>= _) >>= _ = _
  cases demod g st.fac h z out' <;> rfl

/-- **C86 (symmetric channel).**  On the symmetric channel, with `filter` first, all the LLRs are null: nothing is left of what is received. -/
theorem C86_null {L : Lib} {F : Fmt} (hF : F = b32 ∨ F = b64) (same : Bool) {N : Nat} {p : ℚ} {y out : List Fl} {st' : St} {o : List Fl}
    (e : step L ⟨F, same, N, .bsc⟩ (init .bsc) (.filter (.fin p) y) out = ok (st', o)) {z : List ℚ} (hz : z.length = N) {out' : List Fl} (ho : out'.length = N) :
    (step L ⟨F, same, N, .bsc⟩ st' (.demodulate (.fin p) none (z.map Fl.fin)) out' >>= fun r => ok r.2) = ok (List.replicate N (.fin 0)) := by
  rw [C86_filter (by intro h; cases h) e]
  show each N _ _ _ = _
  rw [each_eq (by simpa using hz) ho, List.map_map]
  congr 1
  rw [← hz, List.eq_replicate_iff]
  refine ⟨by simp, fun b hb => ?_⟩
  obtain ⟨a, -, rfl⟩ := List.mem_map.1 hb
  show sub F (F.mul (F.mul (.fin 2) (.fin 0)) (.fin a)) (.fin 0) = _
  rw [mul_fin, mul_zero, of_zero, mul_fin, zero_mul, of_zero]
  show F.of (0 + -0) = _
  rw [neg_zero, add_zero, of_zero]

example : ∃ st' o, step exL ⟨b32, true, 1, .bsc⟩ (init .bsc) (.filter (.fin (1 / 4)) [.fin 1]) [.nan] = ok (st', o) := ⟨⟨.fin (1 / 4), .fin 0⟩, [.fin 1], by decide +kernel⟩

/-- **C86 (first parameter).**  The greatest `float` as first channel parameter is taken for one which is already known. -/
theorem C86_first (L : Lib) (g : Cfg) (h : Option (List Fl)) (z out : List Fl) :
    (step L g (init g.kind) (.demodulate fltMax h z) out >>= fun r => ok r.2) = demod g (init g.kind).fac h z out := by
  have hl : (init g.kind).last = fltMax := by cases g.kind <;> rfl
  have hr : refresh L g (init g.kind) fltMax = init g.kind := by
    unfold refresh
    rw [if_neg]
    rintro ⟨h, -⟩
    rcases h with h | h
    · exact h hl.symm
    · cases h
  show ((demod g (refresh L g (init g.kind) fltMax).fac h z out >>= fun o => ok _) >>= _) = _
  rw [hr]
  cases demod g (init g.kind).fac h z out <;> rfl

theorem step_lib (L L' : Lib) {g : Cfg} (hk : g.kind ≠ .bsc) (st : St) (op : Op) (out : List Fl) : step L g st op out = step L' g st op out := by
  have hf : ∀ cp, factor L g cp = factor L' g cp := by
    intro cp
    unfold factor
    cases h : g.kind with
    | bsc => exact absurd h hk
    | _ => rfl
  have hr : ∀ cp, refresh L g st cp = refresh L' g st cp := by intro cp; unfold refresh; rw [hf]
  cases op with
  | modulate x => rfl
  | filter cp y => rfl
  | demodulate cp h y =>
    show (demod g (refresh L g st cp).fac h y out >>= fun o => ok ({ refresh L g st cp with last := cp }, o)) = (demod g (refresh L' g st cp).fac h y out >>= fun o => ok ({ refresh L' g st cp with last := cp }, o))
    rw [hr]

/-- **C86 (OOK).**  The OOK on a Gaussian channel multiplies by twice the variance instead of dividing by it: for a standard deviation of 2 the LLR of 0 is 8, instead of 1/8, and
the more noise there is the more certain the LLRs are. -/
theorem C86_ook (L : Lib) : gaussian 0 1 0 2 = 1 / 8 ∧
    Exec.toOption (step L ⟨b32, true, 1, .awgn false⟩ (init (.awgn false)) (.demodulate (.fin 2) none [.fin 0]) [.nan] >>= fun r => ok r.2) = some [.fin 8] ∧
    gaussian 0 1 0 4 = 1 / 32 ∧
    Exec.toOption (step L ⟨b32, true, 1, .awgn false⟩ (init (.awgn false)) (.demodulate (.fin 4) none [.fin 0]) [.nan] >>= fun r => ok r.2) = some [.fin 32] := by
  refine ⟨by unfold gaussian; norm_num, by rw [step_lib L exL (by decide)]; decide +kernel, by unfold gaussian; norm_num, by rw [step_lib L exL (by decide)]; decide +kernel⟩

/-- **C86 (OOK with gains).**  With a gain of the channel the OOK still compares with one half instead of half of the gain: for a gain of 4, a value of 1, nearer to 0 than to 4, is decided 1, the
noise being ignored or not. -/
theorem C86_gain (L : Lib) : gaussian 0 4 1 1 = 4 ∧
    Exec.toOption (step L ⟨b32, true, 1, .awgn false⟩ (init (.awgn false)) (.demodulate (.fin 1) (some [.fin 4]) [.fin 1]) [.nan] >>= fun r => ok r.2) = some [.fin (-8)] ∧
    Exec.toOption (step L ⟨b32, true, 1, .awgn true⟩ (init (.awgn true)) (.demodulate (.fin 1) (some [.fin 4]) [.fin 1]) [.nan] >>= fun r => ok r.2) = some [.fin (-2)] := by
  refine ⟨by unfold gaussian; norm_num, by rw [step_lib L exL (by decide)]; decide +kernel, by rw [step_lib L exL (by decide)]; decide +kernel⟩

/-- **C86 (no noise).**  When the square of the standard deviation of the BPSK is rounded to zero, the LLR of a null value is not a number. -/
theorem C86_nan (L : Lib) :
    Exec.toOption (step L ⟨b32, true, 1, .bpsk false⟩ (init (.bpsk false)) (.demodulate (.fin (1 / 2 ^ 80)) none [.fin 0]) [.nan] >>= fun r => ok r.2) = some [.nan] := by
  rw [step_lib L exL (by decide)]
  decide +kernel

/-- **C86 (certain errors).**  For an error probability of 1, which is a perfect channel that inverts all the bits, the LLRs are not numbers if the logarithm of the infinity is the infinity. -/
theorem C86_one {L : Lib} (hL : L.log (.inf false) = .inf false) {F : Fmt} (hF : F = b32 ∨ F = b64) :
    Exec.toOption (step L ⟨F, true, 2, .bsc⟩ (init .bsc) (.demodulate (.fin 1) none [.fin 0, .fin 1]) [.nan, .nan] >>= fun r => ok r.2) = some [.nan, .nan] := by
  have hq : b32.div (.fin 1) (sub b32 (.fin 1) (.fin 1)) = .inf false := by decide +kernel
  have hf : factor L ⟨F, true, 2, .bsc⟩ (.fin 1) = .inf false := by
    unfold factor
    dsimp only
    rw [if_neg (by decide +kernel), hq, hL]
    rfl
  have h := (C85_history (L := L) (g := ⟨F, true, 2, .bsc⟩) .init (cp := .fin 1) (by decide +kernel) none [.fin 0, .fin 1] [.nan, .nan]).2
  rw [hf] at h
  rw [h]
  rcases hF with rfl | rfl <;> decide +kernel

/-- **C86 (fast).**  The fast BPSK for types other than those it is specialized for is built, and throws at the first modulation. -/
theorem C86_fast (L : Lib) (F : Fmt) (same n : Bool) {N : Nat} (hN : 0 < N) (l : Nat) (st : St) (x : List Int) (out : List Fl) :
    ∃ g, make F same N (.fast n false l) = ok g ∧ step L g st (.modulate x) out = exc .runtimeError := by
  refine ⟨⟨F, same, N, .fast n false l⟩, ?_, rfl⟩
  unfold make
  rw [if_neg (by omega)]
  rfl

end Verif.Bin
