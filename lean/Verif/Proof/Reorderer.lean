import Verif.Spec.Reorderer
import Mathlib.Logic.Function.Iterate
import Mathlib.Tactic.Ring
import Mathlib.Tactic.ByContra
import Mathlib.Tactic.Linarith

/-! # Proofs about the reordering of frames -/

namespace Verif.Reorderer
open Exec
variable {α : Type}

/-! ## Rotations of words -/

/-- Rotation of a word of `N` bits to the right. -/
def rotr (N q : Nat) : Nat := q / 2 + q % 2 * 2 ^ (N - 1)

theorem two_pow_pred {N : Nat} (h : 1 ≤ N) : 2 ^ N = 2 * 2 ^ (N - 1) := by
  rw [← pow_succ']; congr 1; omega

theorem rotr_lt {N q : Nat} (hN : 1 ≤ N) (h : q < 2 ^ N) : rotr N q < 2 ^ N := by
  have e := two_pow_pred hN
  unfold rotr
  rcases Nat.mod_two_eq_zero_or_one q with h2 | h2 <;> rw [h2] <;> omega

theorem iter_lt {N : Nat} (hN : 1 ≤ N) (t : Nat) {q : Nat} (h : q < 2 ^ N) : (rotr N)^[t] q < 2 ^ N := by
  induction t with
  | zero => exact h
  | succ t ih => rw [Function.iterate_succ_apply']; exact rotr_lt hN ih

theorem rotr_iter {N : Nat} : ∀ (t : Nat), t ≤ N → ∀ q, (rotr N)^[t] q = q % 2 ^ t * 2 ^ (N - t) + q / 2 ^ t
  | 0, _, q => by simp [Nat.mod_one]
  | t + 1, ht, q => by
    rw [Function.iterate_succ_apply', rotr_iter t (by omega) q]
    unfold rotr
    have e1 : 2 ^ (N - t) = 2 * 2 ^ (N - (t + 1)) := by rw [← pow_succ']; congr 1; omega
    have e2 : q % 2 ^ (t + 1) = q % 2 ^ t + 2 ^ t * (q / 2 ^ t % 2) := by rw [pow_succ, Nat.mod_mul]
    have e3 : q / 2 ^ (t + 1) = q / 2 ^ t / 2 := by rw [pow_succ, Nat.div_div_eq_div_mul]
    have e4 : 2 ^ (N - 1) = 2 ^ t * 2 ^ (N - (t + 1)) := by rw [← pow_add]; congr 1; omega
    rw [e1, e2, e3, e4]
    have h1 : (q % 2 ^ t * (2 * 2 ^ (N - (t + 1))) + q / 2 ^ t) / 2 = q % 2 ^ t * 2 ^ (N - (t + 1)) + q / 2 ^ t / 2 := by
      rw [show q % 2 ^ t * (2 * 2 ^ (N - (t + 1))) = 2 * (q % 2 ^ t * 2 ^ (N - (t + 1))) by ring, Nat.mul_add_div (by omega)]
    have h2 : (q % 2 ^ t * (2 * 2 ^ (N - (t + 1))) + q / 2 ^ t) % 2 = q / 2 ^ t % 2 := by
      rw [show q % 2 ^ t * (2 * 2 ^ (N - (t + 1))) = 2 * (q % 2 ^ t * 2 ^ (N - (t + 1))) by ring, Nat.mul_add_mod]
    rw [h1, h2]
    ring

theorem rotr_full {N q : Nat} (h : q < 2 ^ N) : (rotr N)^[N] q = q := by
  rw [rotr_iter N (Nat.le_refl N), Nat.mod_eq_of_lt h, Nat.div_eq_of_lt h]; simp

/-- The highest bit moves alone. -/
theorem rotr_top {m : Nat} (hm : 1 ≤ m) {u : Nat} (hu : u < 2 ^ (m - 1)) (t : Nat) :
    (rotr m)^[t] u / 2 ^ (m - 1 - t % m) % 2 = 0 ∧
    ∀ b, b < 2 → (rotr m)^[t] (u + b * 2 ^ (m - 1)) = (rotr m)^[t] u + b * 2 ^ (m - 1 - t % m) := by
  induction t with
  | zero =>
    refine ⟨?_, fun b _ => ?_⟩
    · simp only [Function.iterate_zero, id, Nat.zero_mod, Nat.sub_zero]
      rw [Nat.div_eq_of_lt hu]
    · simp
  | succ t ih =>
    obtain ⟨h1, h2⟩ := ih
    have hlt : (rotr m)^[t] u < 2 ^ m := iter_lt hm t (Nat.lt_of_lt_of_le hu (Nat.pow_le_pow_right (by omega) (by omega)))
    have e := two_pow_pred hm
    simp only [Function.iterate_succ_apply']
    have hms := Nat.mod_lt t (show 0 < m by omega)
    generalize (rotr m)^[t] u = V at *
    by_cases hw : t % m = m - 1
    · have hs : (t + 1) % m = 0 := by
        rw [Nat.add_mod, hw]
        by_cases h : m = 1
        · subst h; rfl
        · rw [Nat.mod_eq_of_lt (show 1 < m by omega), show m - 1 + 1 = m by omega, Nat.mod_self]
      rw [hw] at h1 h2
      rw [hs]
      simp only [Nat.sub_self, pow_zero, Nat.div_one, Nat.mul_one, Nat.sub_zero] at h1 h2 ⊢
      refine ⟨?_, fun b hb => ?_⟩
      · unfold rotr
        rw [h1, Nat.zero_mul, Nat.add_zero, Nat.div_eq_of_lt (by omega)]
      · rw [h2 b hb]
        unfold rotr
        rw [h1, show (V + b) / 2 = V / 2 by omega, show (V + b) % 2 = b by omega]
        omega
    · have hs : (t + 1) % m = t % m + 1 := by
        rw [Nat.add_mod, Nat.mod_eq_of_lt (show 1 < m by omega), Nat.mod_eq_of_lt (by omega)]
      rw [hs]
      obtain ⟨s, hsm⟩ : ∃ s, m - 1 - t % m = s + 1 := ⟨m - 1 - t % m - 1, by omega⟩
      have hs' : m - 1 - (t % m + 1) = s := by omega
      rw [hsm] at h1 h2
      rw [hs']
      refine ⟨?_, fun b hb => ?_⟩
      · unfold rotr
        have : 2 ^ (m - 1) = 2 ^ s * (2 * 2 ^ (m - 1 - s - 1)) := by
          rw [← pow_succ', ← pow_add]; congr 1; omega
        rw [this, show V % 2 * (2 ^ s * (2 * 2 ^ (m - 1 - s - 1))) = 2 ^ s * (2 * (V % 2 * 2 ^ (m - 1 - s - 1))) by ring,
          Nat.add_mul_div_left _ _ (Nat.two_pow_pos s), Nat.add_mul_mod_self_left, Nat.div_div_eq_div_mul, ← pow_succ']
        exact h1
      · rw [h2 b hb]
        unfold rotr
        rw [show b * 2 ^ (s + 1) = 2 * (b * 2 ^ s) by rw [pow_succ]; ring, Nat.add_mul_div_left _ _ (by omega), Nat.add_mul_mod_self_left]
        ring

/-! ## Registers -/

/-- The elements of the `n` first registers. -/
def Regs (W n : Nat) (g : Nat → Nat → α) (regs : List (List α)) : Prop :=
  n ≤ regs.length ∧ ∀ r, r < n → ∃ l, regs[r]? = some l ∧ l.length = W ∧ ∀ x, x < W → l[x]? = some (g r x)

theorem mix_get : ∀ (a b : List α), a.length = b.length → ∀ y, (mix a b)[y]? = if y % 2 = 0 then a[y / 2]? else b[y / 2]?
  | [], [], _, y => by simp [mix]
  | [], _ :: _, h, _ => by simp at h
  | _ :: _, [], h, _ => by simp at h
  | x :: a, z :: b, h, y => by
    have hm : mix (x :: a) (z :: b) = x :: z :: mix a b := by simp [mix]
    rw [hm]
    match y with
    | 0 => simp
    | 1 => simp
    | y + 2 =>
      have := mix_get a b (by simpa using h) y
      rw [List.getElem?_cons_succ, List.getElem?_cons_succ, this]
      have h1 : (y + 2) % 2 = y % 2 := by omega
      have h2 : (y + 2) / 2 = y / 2 + 1 := by omega
      rw [h1, h2, List.getElem?_cons_succ, List.getElem?_cons_succ]

theorem mix_length : ∀ (a b : List α), a.length = b.length → (mix a b).length = 2 * a.length
  | [], [], _ => rfl
  | [], _ :: _, h => by simp at h
  | _ :: _, [], h => by simp at h
  | x :: a, z :: b, h => by
    have hm : mix (x :: a) (z :: b) = x :: z :: mix a b := by simp [mix]
    rw [hm, List.length_cons, List.length_cons, mix_length a b (by simpa using h), List.length_cons]
    omega

/-- What a stage does. -/
def stg (W L : Nat) (g : Nat → Nat → α) (r x : Nat) : α :=
  g (r - r / L % 2 * L + (r / L % 2 * W + x) % 2 * L) ((r / L % 2 * W + x) / 2)

theorem cross_spec {W n : Nat} {g : Nat → Nat → α} {regs : List (List α)} (h : Regs W n g regs) {i j : Nat} (hi : i < n) (hj : j < n) (hij : i ≠ j) :
    ∃ regs', cross i j regs = ok regs' ∧ regs'.length = regs.length ∧ Regs W n (fun r x =>
      if r = i then g (if x % 2 = 0 then i else j) (x / 2)
      else if r = j then g (if (W + x) % 2 = 0 then i else j) ((W + x) / 2) else g r x) regs' := by
  obtain ⟨hl, hr⟩ := h
  obtain ⟨a, ha, hal, hax⟩ := hr i hi
  obtain ⟨b, hb, hbl, hbx⟩ := hr j hj
  have hml := mix_length a b (by omega)
  refine ⟨_, by unfold cross; rw [(rd_ok_iff).2 ha, bind_ok, (rd_ok_iff).2 hb, bind_ok, wr_lt (by omega), bind_ok, wr_lt (by rw [List.length_set]; omega)],
    by rw [List.length_set, List.length_set], by rw [List.length_set, List.length_set]; exact hl, fun r hrn => ?_⟩
  have hmix : ∀ y, y < 2 * W → (mix a b)[y]? = some (g (if y % 2 = 0 then i else j) (y / 2)) := fun y hy => by
    rw [mix_get a b (by omega)]
    split
    · exact hax _ (by omega)
    · exact hbx _ (by omega)
  by_cases hri : r = i
  · subst hri
    refine ⟨(interleave a b).1, ?_, ?_, fun x hx => ?_⟩
    · rw [List.getElem?_set_ne (Ne.symm hij), List.getElem?_set_self (by omega)]
    · unfold interleave; simp only [List.length_take]; omega
    · unfold interleave
      simp only []
      rw [List.getElem?_take_of_lt (by omega), hmix x (by omega), if_pos trivial]
  · by_cases hrj : r = j
    · subst hrj
      refine ⟨(interleave a b).2, ?_, ?_, fun x hx => ?_⟩
      · rw [List.getElem?_set_self (by rw [List.length_set]; omega)]
      · unfold interleave; simp only [List.length_drop]; omega
      · unfold interleave
        simp only []
        rw [List.getElem?_drop, hal, hmix (W + x) (by omega), if_neg hri, if_pos trivial]
    · obtain ⟨l, h1, h2, h3⟩ := hr r hrn
      refine ⟨l, ?_, h2, fun x hx => ?_⟩
      · rw [List.getElem?_set_ne (Ne.symm hrj), List.getElem?_set_ne (Ne.symm hri)]; exact h1
      · simp only []
        rw [if_neg hri, if_neg hrj]; exact h3 x hx

theorem Regs.congr {W n : Nat} {g g' : Nat → Nat → α} {regs : List (List α)} (h : Regs W n g regs)
    (he : ∀ r x, r < n → x < W → g r x = g' r x) : Regs W n g' regs :=
  ⟨h.1, fun r hr => by
    obtain ⟨l, h1, h2, h3⟩ := h.2 r hr
    exact ⟨l, h1, h2, fun x hx => by rw [h3 x hx, he r x hr hx]⟩⟩

/-- Number of the pair of a register. -/
def pair (L r : Nat) : Nat := r / (2 * L) * L + r % L

theorem stage_spec {W K L : Nat} (hL : 1 ≤ L) (hW : W % 2 = 0) {g : Nat → Nat → α} {regs : List (List α)} (h : Regs W (2 * (K * L)) g regs) :
    ∃ regs', stage K L regs = ok regs' ∧ regs'.length = regs.length ∧ Regs W (2 * (K * L)) (stg W L g) regs' := by
  unfold stage
  rw [forN_nested]
  have hmain := forN_inv (n := K * L) (f := fun k => cross (k / L * L * 2 + k % L) (k / L * L * 2 + L + k % L)) (s := regs)
    (fun p (rs : List (List α)) => rs.length = regs.length ∧ Regs W (2 * (K * L)) (fun r x => if pair L r < p then stg W L g r x else g r x) rs)
    ⟨rfl, h.congr fun r x _ _ => by rw [if_neg (Nat.not_lt_zero _)]⟩ ?_
  · obtain ⟨rs, e, hl, hr⟩ := hmain
    refine ⟨rs, e, hl, hr.congr fun r x hr _ => ?_⟩
    rw [if_pos]
    have hq : r / (2 * L) < K := by
      rw [Nat.div_lt_iff_lt_mul (by omega), show K * (2 * L) = 2 * (K * L) by ring]; exact hr
    have h1 := Nat.mod_lt r (show 0 < L by omega)
    have h2 : r / (2 * L) * L + L ≤ K * L := by
      rw [← Nat.succ_mul]; exact Nat.mul_le_mul_right L hq
    unfold pair
    omega
  · rintro p rs hp ⟨hl, hr⟩
    have hq : p / L < K := by rw [Nat.div_lt_iff_lt_mul (by omega)]; exact hp
    have h1 := Nat.mod_lt p (show 0 < L by omega)
    have h2 : p / L * L + L ≤ K * L := by
      rw [← Nat.succ_mul]; exact Nat.mul_le_mul_right L hq
    have hdm : p / L * L + p % L = p := by rw [Nat.mul_comm]; exact Nat.div_add_mod p L
    generalize hc : p / L * L = c at *
    obtain ⟨rs', e, hl', hr'⟩ := cross_spec hr (i := c * 2 + p % L) (j := c * 2 + L + p % L) (by omega) (by omega) (by omega)
    refine ⟨rs', e, by omega, hr'.congr fun r x hrn hx => ?_⟩
    -- registers of the pair
    have hpi : ∀ b, b < 2 → pair L (c * 2 + b * L + p % L) = p ∧ (c * 2 + b * L + p % L) / L % 2 = b := by
      intro b hb
      have e1 : c * 2 + b * L + p % L = p % L + L * (p / L * 2 + b) := by rw [← hc]; ring
      have e2 : (c * 2 + b * L + p % L) / L = p / L * 2 + b := by
        rw [e1, Nat.add_mul_div_left _ _ (by omega), Nat.div_eq_of_lt h1, Nat.zero_add]
      have e3 : (c * 2 + b * L + p % L) % L = p % L := by
        rw [e1, Nat.add_mul_mod_self_left, Nat.mod_eq_of_lt h1]
      refine ⟨?_, by rw [e2]; omega⟩
      unfold pair
      rw [e3, Nat.mul_comm 2 L, ← Nat.div_div_eq_div_mul, e2, show (p / L * 2 + b) / 2 = p / L by omega, hc, hdm]
    have hpr : pair L r = p → r = c * 2 + r / L % 2 * L + p % L := by
      intro hpp
      unfold pair at hpp
      have h3 := Nat.mod_lt r (show 0 < L by omega)
      have e4 : (r / (2 * L) * L + r % L) % L = r % L := by rw [Nat.mul_comm, Nat.mul_add_mod, Nat.mod_mod]
      have e5 : r % L = p % L := by rw [← e4, hpp]
      have e6 : r / (2 * L) * L = c := by omega
      have e7 : r / (2 * L) = r / L / 2 := by rw [Nat.mul_comm 2 L, Nat.div_div_eq_div_mul]
      have e8 := Nat.div_add_mod r L
      have e9 := Nat.div_add_mod (r / L) 2
      have e10 : L * (r / L) = c * 2 + r / L % 2 * L := by
        conv_lhs => rw [← e9]
        rw [← e6, e7]; ring
      omega
    have hi := hpi 0 (by omega)
    have hj := hpi 1 (by omega)
    simp only [Nat.zero_mul, Nat.add_zero, Nat.one_mul] at hi hj
    have hg : ∀ y, (if pair L (if y % 2 = 0 then c * 2 + p % L else c * 2 + L + p % L) < p then
        stg W L g (if y % 2 = 0 then c * 2 + p % L else c * 2 + L + p % L) (y / 2)
        else g (if y % 2 = 0 then c * 2 + p % L else c * 2 + L + p % L) (y / 2)) = g (c * 2 + p % L + y % 2 * L) (y / 2) := by
      intro y
      rcases Nat.mod_two_eq_zero_or_one y with hy | hy
      · rw [hy]; simp only [if_true]; rw [if_neg (by omega)]; simp
      · rw [hy]; simp only [Nat.one_ne_zero, if_false]; rw [if_neg (by omega), Nat.one_mul]
        congr 1; omega
    by_cases hpp : pair L r = p
    · rw [if_pos (show pair L r < p + 1 by omega)]
      have hrr := hpr hpp
      unfold stg
      rcases Nat.mod_two_eq_zero_or_one (r / L) with hb | hb
      · have hri : r = c * 2 + p % L := by rw [hb] at hrr; omega
        rw [if_pos hri, hb]
        simp only [Nat.zero_mul, Nat.sub_zero, Nat.zero_add]
        have := hg x
        rw [hri]
        unfold stg at this
        exact this
      · have hrj : r = c * 2 + L + p % L := by rw [hb] at hrr; omega
        rw [if_neg (by omega), if_pos hrj, hb]
        have := hg (W + x)
        unfold stg at this
        rw [this, Nat.one_mul, Nat.one_mul, hrj]
        congr 2
        omega
    · have n1 : r ≠ c * 2 + p % L := fun h => hpp (by rw [h]; exact hi.1)
      have n2 : r ≠ c * 2 + L + p % L := fun h => hpp (by rw [h]; exact hj.1)
      rw [if_neg n1, if_neg n2]
      by_cases h3 : pair L r < p
      · rw [if_pos h3, if_pos (by omega)]
      · rw [if_neg h3, if_neg (by omega)]

/-! ## Stages rotate the addresses -/

/-- After `t` stages. -/
def gen (W m : Nat) (g : Nat → Nat → α) : Nat → Nat → Nat → α
  | 0 => g
  | t + 1 => stg W (2 ^ (m - 1 - t % m)) (gen W m g t)

theorem gen_spec {m w : Nat} (hm : 1 ≤ m) (hw : 1 ≤ w) (g : Nat → Nat → α) : ∀ t Q, Q < 2 ^ (m + w) →
    gen (2 ^ w) m g t ((rotr m)^[t] (Q / 2 ^ w)) (Q % 2 ^ w) = g ((rotr (m + w))^[t] Q / 2 ^ w) ((rotr (m + w))^[t] Q % 2 ^ w)
  | 0, Q, _ => rfl
  | t + 1, Q, hQ => by
    have hW := Nat.two_pow_pos w
    have eW := two_pow_pred hw
    have em := two_pow_pred hm
    have hx := Nat.mod_lt Q hW
    have hdm := Nat.div_add_mod Q (2 ^ w)
    have hh : Q / 2 ^ w < 2 ^ m := by rw [Nat.div_lt_iff_lt_mul hW, ← pow_add]; exact hQ
    generalize hhd : Q / 2 ^ w = h at *
    generalize hxd : Q % 2 ^ w = x at *
    have hu : h / 2 < 2 ^ (m - 1) := by omega
    obtain ⟨hv, hb⟩ := rotr_top hm hu t
    have hr : (rotr m)^[t + 1] h = (rotr m)^[t] (h / 2) + h % 2 * 2 ^ (m - 1 - t % m) := by
      rw [Function.iterate_succ_apply]; exact hb _ (Nat.mod_lt _ (by omega))
    have hbit : ((rotr m)^[t] (h / 2) + h % 2 * 2 ^ (m - 1 - t % m)) / 2 ^ (m - 1 - t % m) % 2 = h % 2 := by
      rw [Nat.add_mul_div_right _ _ (Nat.two_pow_pos _)]; omega
    have e1 : rotr (m + w) Q / 2 ^ w = h / 2 + x % 2 * 2 ^ (m - 1) ∧ rotr (m + w) Q % 2 ^ w = h % 2 * 2 ^ (w - 1) + x / 2 := by
      have hq2 : Q / 2 = 2 ^ w * (h / 2) + (h % 2 * 2 ^ (w - 1) + x / 2) := by
        rw [← hdm]
        have h2 : 2 ^ w * h = 2 * (2 ^ w * (h / 2) + h % 2 * 2 ^ (w - 1)) := by
          conv_lhs => rw [← Nat.div_add_mod h 2, Nat.mul_add]
          rw [Nat.mul_add, show 2 ^ w * (h % 2) = 2 * (h % 2 * 2 ^ (w - 1)) by rw [eW]; ring]
          ring
        omega
      have hqm : Q % 2 = x % 2 := by
        rw [← hdm, eW, Nat.mul_assoc, Nat.mul_add_mod]
      have ep : 2 ^ (m + w - 1) = 2 ^ w * 2 ^ (m - 1) := by rw [← pow_add]; congr 1; omega
      have hlow : h % 2 * 2 ^ (w - 1) + x / 2 < 2 ^ w := by
        rcases Nat.mod_two_eq_zero_or_one h with h2 | h2 <;> rw [h2] <;> omega
      have heq : rotr (m + w) Q = 2 ^ w * (h / 2 + x % 2 * 2 ^ (m - 1)) + (h % 2 * 2 ^ (w - 1) + x / 2) := by
        unfold rotr
        rw [hq2, hqm, ep]; ring
      rw [heq]
      exact ⟨by rw [Nat.mul_add_div hW, Nat.div_eq_of_lt hlow, Nat.add_zero], by rw [Nat.mul_add_mod, Nat.mod_eq_of_lt hlow]⟩
    have ih := gen_spec hm hw g t (rotr (m + w) Q) (rotr_lt (by omega) hQ)
    rw [e1.1, e1.2, ← Function.iterate_succ_apply (rotr (m + w)) t Q, hb _ (Nat.mod_lt _ (by omega))] at ih
    rw [hr, ← ih]
    show stg _ _ _ _ _ = _
    unfold stg
    rw [hbit, Nat.add_sub_cancel]
    have hy2 : (h % 2 * 2 ^ w + x) % 2 = x % 2 := by
      rw [eW, show h % 2 * (2 * 2 ^ (w - 1)) = 2 * (h % 2 * 2 ^ (w - 1)) by ring, Nat.mul_add_mod]
    have hyd : (h % 2 * 2 ^ w + x) / 2 = h % 2 * 2 ^ (w - 1) + x / 2 := by
      rw [eW, show h % 2 * (2 * 2 ^ (w - 1)) = 2 * (h % 2 * 2 ^ (w - 1)) by ring, Nat.mul_add_div (by omega)]
    rw [hy2, hyd]

/-! ## Loops over the stages -/

theorem pow_div {a b : Nat} (h : b ≤ a) : 2 ^ a / 2 ^ b = 2 ^ (a - b) := Nat.pow_div h (by omega)

theorem stages_spec {m w : Nat} (hm : 1 ≤ m) (hw : 1 ≤ w) {g : Nat → Nat → α} {regs : List (List α)} (h : Regs (2 ^ w) (2 ^ m) g regs) :
    ∃ k l regs', stages (2 ^ m) regs = ok (k, l, regs') ∧ Regs (2 ^ w) (2 ^ m) (gen (2 ^ w) m g m) regs' := by
  unfold stages
  rw [Nat.log2_two_pow]
  have em := two_pow_pred hm
  have hmain := forN_inv (n := m) (f := fun _ (s : Nat × Nat × List (List α)) => stage s.1 s.2.1 s.2.2 >>= fun r => ok (s.1 * 2, s.2.1 / 2, r))
    (s := (1, 2 ^ m / 2, regs))
    (fun t s => s.1 = 2 ^ t ∧ s.2.1 = 2 ^ (m - 1) / 2 ^ t ∧ Regs (2 ^ w) (2 ^ m) (gen (2 ^ w) m g t) s.2.2)
    ⟨rfl, by simp only [pow_zero, Nat.div_one]; omega, h⟩ (by
      rintro t ⟨k, l, rs⟩ ht ⟨h1, h2, h3⟩
      simp only [] at h1 h2 h3 ⊢
      subst h1 h2
      rw [pow_div (by omega)]
      have hkl : 2 ^ m = 2 * (2 ^ t * 2 ^ (m - 1 - t)) := by rw [em, ← pow_add]; congr 2; omega
      rw [hkl] at h3
      obtain ⟨rs', e, _, hr⟩ := stage_spec (Nat.two_pow_pos (m - 1 - t)) (by rw [two_pow_pred hw]; omega) h3
      rw [e, bind_ok, sat_ok]
      refine ⟨by rw [pow_succ], by rw [← pow_div (by omega), pow_succ, Nat.div_div_eq_div_mul], ?_⟩
      rw [hkl]
      show Regs _ _ (stg _ (2 ^ (m - 1 - t % m)) _) _
      rw [Nat.mod_eq_of_lt ht]
      exact hr)
  obtain ⟨⟨k, l, rs⟩, e, _, _, hr⟩ := hmain
  exact ⟨k, l, rs, e, hr⟩

theorem sizes_spec {m t : Nat} (hm : 1 ≤ m) (ht : 1 ≤ t) :
    sizes (2 ^ m) t (2 ^ ((t - 1) % m)) (2 ^ (m - 1 - (t - 1) % m)) = (2 ^ (t % m), 2 ^ (m - 1 - t % m)) := by
  have em := two_pow_pred hm
  have hlt := Nat.mod_lt (t - 1) (show 0 < m by omega)
  unfold sizes
  rw [if_pos ht]
  by_cases hw : (t - 1) % m = m - 1
  · have hs : t % m = 0 := by
      rw [show t = t - 1 + 1 by omega, Nat.add_mod, hw]
      by_cases h : m = 1
      · subst h; rfl
      · rw [Nat.mod_eq_of_lt (show 1 < m by omega), show m - 1 + 1 = m by omega, Nat.mod_self]
    rw [hw, hs, Nat.sub_self, if_pos (by decide)]
    simp only [pow_zero, Nat.sub_zero]
    rw [show 2 ^ m / 2 = 2 ^ (m - 1) by omega]
  · have hs : t % m = (t - 1) % m + 1 := by
      conv_lhs => rw [show t = t - 1 + 1 by omega]
      rw [Nat.add_mod, Nat.mod_eq_of_lt (show 1 < m by omega), Nat.mod_eq_of_lt (by omega)]
    have hd : 2 ^ (m - 1 - (t - 1) % m) / 2 = 2 ^ (m - 1 - t % m) := by
      rw [hs, show m - 1 - (t - 1) % m = m - 1 - ((t - 1) % m + 1) + 1 by omega, pow_succ]; simp
    rw [hd, if_neg (by have := Nat.two_pow_pos (m - 1 - t % m); omega), hs, pow_succ]

theorem stagesRev_spec {m w : Nat} (hm : 1 ≤ m) (hw : 1 ≤ w) {g : Nat → Nat → α} {regs : List (List α)} (h : Regs (2 ^ w) (2 ^ m) g regs) :
    ∃ regs', stagesRev (2 ^ w) (2 ^ m) regs = ok (2 ^ ((w - 1) % m), 2 ^ (m - 1 - (w - 1) % m), regs') ∧
      Regs (2 ^ w) (2 ^ m) (gen (2 ^ w) m g w) regs' := by
  unfold stagesRev
  rw [Nat.log2_two_pow]
  have em := two_pow_pred hm
  have hmain := forN_inv (n := w) (f := fun t (s : Nat × Nat × List (List α)) =>
      stage (sizes (2 ^ m) t s.1 s.2.1).1 (sizes (2 ^ m) t s.1 s.2.1).2 s.2.2 >>= fun r =>
        ok ((sizes (2 ^ m) t s.1 s.2.1).1, (sizes (2 ^ m) t s.1 s.2.1).2, r))
    (s := (1, 2 ^ m / 2, regs))
    (fun t s => (s.1, s.2.1) = (2 ^ ((t - 1) % m), 2 ^ (m - 1 - (t - 1) % m)) ∧ Regs (2 ^ w) (2 ^ m) (gen (2 ^ w) m g t) s.2.2)
    ⟨by simp only [Nat.zero_sub, Nat.zero_mod, pow_zero, Nat.sub_zero]; rw [show 2 ^ m / 2 = 2 ^ (m - 1) by omega], h⟩ (by
      rintro t ⟨k, l, rs⟩ ht ⟨h1, h3⟩
      simp only [Prod.mk.injEq] at h1 h3 ⊢
      obtain ⟨h1, h2⟩ := h1
      subst h1 h2
      have hsz : sizes (2 ^ m) t (2 ^ ((t - 1) % m)) (2 ^ (m - 1 - (t - 1) % m)) = (2 ^ (t % m), 2 ^ (m - 1 - t % m)) := by
        rcases Nat.eq_zero_or_pos t with h0 | h0
        · subst h0; simp [sizes]
        · exact sizes_spec hm h0
      rw [hsz]
      simp only []
      have hlt := Nat.mod_lt t (show 0 < m by omega)
      have hkl : 2 ^ m = 2 * (2 ^ (t % m) * 2 ^ (m - 1 - t % m)) := by rw [em, ← pow_add]; congr 2; omega
      rw [hkl] at h3
      obtain ⟨rs', e, _, hr⟩ := stage_spec (Nat.two_pow_pos (m - 1 - t % m)) (by rw [two_pow_pred hw]; omega) h3
      rw [e, bind_ok, sat_ok]
      refine ⟨by rw [Nat.add_sub_cancel]; exact ⟨rfl, rfl⟩, ?_⟩
      rw [hkl]
      exact hr)
  obtain ⟨⟨k, l, rs⟩, e, h1, hr⟩ := hmain
  simp only [Prod.mk.injEq] at h1
  obtain ⟨h1, h2⟩ := h1
  simp only [] at hr
  subst h1 h2
  exact ⟨rs, e, hr⟩

/-! ## Loads and stores -/

theorem loadu_spec {W off : Nat} {src : List α} {f : Nat → α} (h : ∀ x, x < W → src[off + x]? = some (f x)) (hW : 1 ≤ W) :
    ∃ l, loadu W src off = ok l ∧ l.length = W ∧ ∀ x, x < W → l[x]? = some (f x) := by
  have hl : off + W ≤ src.length := by
    by_contra hc
    have := h (W - 1) (by omega)
    rw [List.getElem?_eq_none (by omega)] at this
    exact absurd this (by simp)
  refine ⟨_, by unfold loadu; rw [if_pos hl], by simp only [List.length_take, List.length_drop]; omega, fun x hx => ?_⟩
  rw [List.getElem?_take_of_lt hx, List.getElem?_drop, h x hx]

theorem storeu_spec {W off : Nat} {dst r : List α} (hr : r.length = W) (h : off + W ≤ dst.length) :
    ∃ d, storeu dst off r = ok d ∧ d.length = dst.length ∧ ∀ e, d[e]? = if off ≤ e ∧ e < off + W then r[e - off]? else dst[e]? := by
  refine ⟨_, by unfold storeu; rw [if_pos (by omega)], ?_, fun e => ?_⟩
  · simp only [List.length_append, List.length_take, List.length_drop]; omega
  · by_cases h1 : e < off
    · rw [if_neg (by omega), List.append_assoc, List.getElem?_append_left (by rw [List.length_take]; omega), List.getElem?_take_of_lt h1]
    · by_cases h2 : e < off + W
      · rw [if_pos (by omega), List.append_assoc, List.getElem?_append_right (by rw [List.length_take]; omega), List.length_take,
          Nat.min_eq_left (by omega), List.getElem?_append_left (by omega)]
      · rw [if_neg (by omega), List.getElem?_append_right (by rw [List.length_append, List.length_take]; omega), List.getElem?_drop]
        congr 1
        rw [List.length_append, List.length_take, Nat.min_eq_left (by omega)]
        omega

theorem loads_inv {W n : Nat} (hn : n ≤ W) {g : Nat → Nat → α} {ld : Nat → Exec (List α)}
    (h : ∀ f, f < n → ∃ l, ld f = ok l ∧ l.length = W ∧ ∀ x, x < W → l[x]? = some (g f x)) :
    ∃ regs, forN n (fun f regs => ld f >>= fun r => wr regs f r) (List.replicate W []) = ok regs ∧ Regs W n g regs := by
  obtain ⟨regs, e, hl, hr⟩ := forN_inv (n := n) (f := fun f regs => ld f >>= fun r => wr regs f r) (s := List.replicate W [])
    (fun k (rs : List (List α)) => rs.length = W ∧ ∀ r, r < k → ∃ l, rs[r]? = some l ∧ l.length = W ∧ ∀ x, x < W → l[x]? = some (g r x))
    ⟨List.length_replicate, fun r hr => absurd hr (Nat.not_lt_zero r)⟩ (by
      rintro k rs hk ⟨h1, h2⟩
      obtain ⟨l, e, hl, hx⟩ := h k hk
      rw [e, bind_ok, wr_lt (by omega), sat_ok]
      refine ⟨by rw [List.length_set]; exact h1, fun r hr => ?_⟩
      by_cases hrk : r = k
      · subst hrk
        exact ⟨l, by rw [List.getElem?_set_self (by omega)], hl, hx⟩
      · rw [List.getElem?_set_ne (Ne.symm hrk)]
        exact h2 r (by omega))
  exact ⟨regs, e, by omega, hr⟩

theorem stores_spec {W n i : Nat} {g : Nat → Nat → α} {regs : List (List α)} (h : Regs W n g regs) {out : List α}
    (ho : (i + 1) * (n * W) ≤ out.length) (hW : 1 ≤ W) :
    ∃ out', stores W n i regs out = ok out' ∧ out'.length = out.length ∧ ∀ e, out'[e]? =
      if i * (n * W) ≤ e ∧ e < i * (n * W) + n * W then some (g ((e - i * (n * W)) / W) ((e - i * (n * W)) % W)) else out[e]? := by
  unfold stores
  refine (forN_inv (n := n) (f := fun f out => rd regs f >>= fun r => storeu out ((i * n + f) * W) r) (s := out)
    (fun k (o : List α) => o.length = out.length ∧ ∀ e, o[e]? =
      if i * (n * W) ≤ e ∧ e < i * (n * W) + k * W then some (g ((e - i * (n * W)) / W) ((e - i * (n * W)) % W)) else out[e]?)
    ⟨rfl, fun e => by rw [if_neg (by omega)]⟩ ?_)
  rintro k o hk ⟨h1, h2⟩
  obtain ⟨l, e1, e2, e3⟩ := h.2 k hk
  have hoff : (i * n + k) * W = i * (n * W) + k * W := by ring
  have hk1 : k * W + W ≤ n * W := by rw [← Nat.succ_mul]; exact Nat.mul_le_mul_right W hk
  have hi1 : (i + 1) * (n * W) = i * (n * W) + n * W := Nat.succ_mul _ _
  rw [(rd_ok_iff).2 e1, bind_ok, hoff]
  obtain ⟨d, f1, f2, f3⟩ := storeu_spec (dst := o) (off := i * (n * W) + k * W) e2 (by omega)
  refine ⟨d, f1, by omega, fun e => ?_⟩
  rw [f3, Nat.succ_mul]
  by_cases hb : i * (n * W) + k * W ≤ e ∧ e < i * (n * W) + k * W + W
  · rw [if_pos hb, if_pos (by omega), e3 _ (by omega)]
    have hq : e - i * (n * W) = (e - (i * (n * W) + k * W)) + W * k := by rw [Nat.mul_comm W k]; omega
    rw [hq, Nat.add_mul_div_left _ _ hW, Nat.add_mul_mod_self_left, Nat.div_eq_of_lt (by omega), Nat.mod_eq_of_lt (by omega), Nat.zero_add]
  · rw [if_neg hb, h2]
    by_cases hc : i * (n * W) ≤ e ∧ e < i * (n * W) + k * W
    · rw [if_pos hc, if_pos (by omega)]
    · rw [if_neg hc, if_neg (by omega)]

/-! ## `apply` -/

theorem isPow2_iff {x : Nat} : isPow2 x = true ↔ ∃ m, x = 2 ^ m := by
  unfold isPow2
  rw [Bool.and_eq_true, decide_eq_true_eq, decide_eq_true_eq]
  constructor
  · rintro ⟨h0, h⟩
    refine ⟨x.log2, ?_⟩
    have h1 := Nat.log2_self_le (show x ≠ 0 by omega)
    have h2 : x < 2 ^ (x.log2 + 1) := (Nat.log2_lt (show x ≠ 0 by omega)).1 (Nat.lt_succ_self _)
    by_contra hne
    have b1 : x.testBit x.log2 = true := Nat.testBit_of_two_pow_le_and_two_pow_add_one_gt h1 h2
    have b2 : (x - 1).testBit x.log2 = true := Nat.testBit_of_two_pow_le_and_two_pow_add_one_gt (by omega) (by omega)
    have : (x &&& (x - 1)).testBit x.log2 = true := by rw [Nat.testBit_and, b1, b2]; rfl
    rw [h, Nat.zero_testBit] at this
    exact absurd this (by simp)
  · rintro ⟨m, rfl⟩
    exact ⟨Nat.two_pow_pos m, by rw [Nat.and_two_pow_sub_one_eq_mod, Nat.mod_self]⟩

theorem vect_iff {W n : Nat} : vect W n = true ↔ ∃ m, 1 ≤ m ∧ n = 2 ^ m ∧ n ≤ W := by
  unfold vect
  rw [Bool.and_eq_true, Bool.and_eq_true, isPow2_iff, decide_eq_true_eq, decide_eq_true_eq]
  constructor
  · rintro ⟨⟨⟨m, rfl⟩, h2⟩, h3⟩
    refine ⟨m, ?_, rfl, h3⟩
    by_contra hc
    obtain rfl : m = 0 := by omega
    simp at h2
  · rintro ⟨m, hm, rfl, h3⟩
    refine ⟨⟨⟨m, rfl⟩, ?_⟩, h3⟩
    have := Nat.pow_le_pow_right (n := 2) (by omega) hm
    simpa using this

/-- The elements of the interleaved frames below `b`. -/
def Filled (n b : Nat) (F : Nat → Nat → α) (out o : List α) : Prop :=
  o.length = out.length ∧ ∀ e, o[e]? = if e < b then some (F (e % n) (e / n)) else out[e]?

theorem tail_spec {n len : Nat} {F : Nat → Nat → α} {inData : List (List α)} (h : Frames n len F inData) {start : Nat} (hs : start ≤ len)
    {out o : List α} (ho : Filled n (start * n) F out o) (hl : len * n ≤ out.length) :
    ∃ o', tail inData start len o = ok o' ∧ Filled n (len * n) F out o' := by
  obtain ⟨hn, hf⟩ := h
  unfold tail
  rw [hn]
  refine forRange_inv (fun i o => Filled n (i * n) F out o) hs ho ?_
  intro i o h1 h2 hi
  have hin : (i + 1) * n ≤ len * n := Nat.mul_le_mul_right n h2
  rw [Nat.succ_mul] at hin ⊢
  refine forN_inv (fun f o => Filled n (i * n + f) F out o) hi ?_
  rintro f o hfn ⟨l1, l2⟩
  obtain ⟨d, e1, e2⟩ := hf f hfn
  rw [(rd_ok_iff).2 e1, bind_ok, (rd_ok_iff).2 (e2 i h2), bind_ok, wr_lt (by omega), sat_ok]
  refine ⟨by rw [List.length_set]; exact l1, fun e => ?_⟩
  have hq : (i * n + f) % n = f ∧ (i * n + f) / n = i := by
    rw [Nat.mul_comm i n]
    exact ⟨by rw [Nat.mul_add_mod, Nat.mod_eq_of_lt hfn], by rw [Nat.mul_add_div (by omega), Nat.div_eq_of_lt hfn, Nat.add_zero]⟩
  by_cases he : i * n + f = e
  · subst he
    rw [List.getElem?_set_self (by omega), if_pos (by omega), hq.1, hq.2]
  · rw [List.getElem?_set_ne he, l2]
    by_cases hc : e < i * n + f
    · rw [if_pos hc, if_pos (by omega)]
    · rw [if_neg hc, if_neg (by omega)]

theorem gen_apply {m w : Nat} (hm : 1 ≤ m) (hw : m ≤ w) (g : Nat → Nat → α) {q : Nat} (hq : q < 2 ^ m * 2 ^ w) :
    gen (2 ^ w) m g m (q / 2 ^ w) (q % 2 ^ w) = g (q % 2 ^ m) (q / 2 ^ m) := by
  rw [← pow_add] at hq
  have h := gen_spec hm (by omega : 1 ≤ w) g m q hq
  have hd : q / 2 ^ w < 2 ^ m := by rw [Nat.div_lt_iff_lt_mul (Nat.two_pow_pos w), ← pow_add]; exact hq
  rw [rotr_full hd, rotr_iter m (by omega), Nat.add_sub_cancel_left] at h
  rw [h]
  have hlt : q / 2 ^ m < 2 ^ w := by rw [Nat.div_lt_iff_lt_mul (Nat.two_pow_pos m), ← pow_add, Nat.add_comm]; exact hq
  rw [Nat.mul_comm (q % 2 ^ m), Nat.mul_add_div (Nat.two_pow_pos w), Nat.mul_add_mod, Nat.div_eq_of_lt hlt, Nat.mod_eq_of_lt hlt, Nat.add_zero]

theorem block_spec {m w len : Nat} (hm : 1 ≤ m) (hw : m ≤ w) {F : Nat → Nat → α} {inData : List (List α)} (h : Frames (2 ^ m) len F inData)
    {i : Nat} (hi : i < len / 2 ^ w) {out o : List α} (ho : Filled (2 ^ m) (i * 2 ^ w * 2 ^ m) F out o) (hl : len * 2 ^ m ≤ out.length) :
    ∃ o', (loads (2 ^ w) inData i (List.replicate (2 ^ w) []) >>= fun regs => stages inData.length regs >>= fun s =>
        stores (2 ^ w) inData.length i s.2.2 o) = ok o' ∧ Filled (2 ^ m) ((i + 1) * 2 ^ w * 2 ^ m) F out o' := by
  obtain ⟨hn, hf⟩ := h
  have hW := Nat.two_pow_pos w
  have hile : (i + 1) * 2 ^ w ≤ len := by
    have := Nat.mul_le_mul_right (2 ^ w) (show i + 1 ≤ len / 2 ^ w by omega)
    exact Nat.le_trans this (Nat.div_mul_le_self _ _)
  obtain ⟨regs, e1, h1⟩ := loads_inv (W := 2 ^ w) (n := 2 ^ m) (Nat.pow_le_pow_right (by omega) hw) (g := fun f x => F f (i * 2 ^ w + x))
    (ld := fun f => rd inData f >>= fun d => loadu (2 ^ w) d (i * 2 ^ w)) (fun f hfn => by
      obtain ⟨d, d1, d2⟩ := hf f hfn
      rw [(rd_ok_iff).2 d1, bind_ok]
      exact loadu_spec (fun x hx => d2 _ (by rw [Nat.succ_mul] at hile; omega)) hW)
  have e1' : loads (2 ^ w) inData i (List.replicate (2 ^ w) []) = ok regs := by
    unfold loads
    rw [hn, ← e1]
    exact forN_congr fun f s _ => (bind_assoc' _ _ _).symm
  obtain ⟨k, l, rs, e2, h2⟩ := stages_spec hm (by omega) h1
  obtain ⟨l1, l2⟩ := ho
  have hio : (i + 1) * (2 ^ m * 2 ^ w) ≤ o.length := by
    have := Nat.mul_le_mul_right (2 ^ m) hile
    have e : (i + 1) * (2 ^ m * 2 ^ w) = (i + 1) * 2 ^ w * 2 ^ m := by ring
    omega
  obtain ⟨o', e3, h3, h4⟩ := stores_spec h2 hio hW
  refine ⟨o', ?_, by omega, fun e => ?_⟩
  · rw [e1', bind_ok, hn, e2, bind_ok]; exact e3
  · rw [h4, l2]
    have c1 : i * 2 ^ w * 2 ^ m = i * (2 ^ m * 2 ^ w) := by ring
    have c2 : (i + 1) * 2 ^ w * 2 ^ m = i * (2 ^ m * 2 ^ w) + 2 ^ m * 2 ^ w := by ring
    rw [c1, c2]
    by_cases hb : i * (2 ^ m * 2 ^ w) ≤ e ∧ e < i * (2 ^ m * 2 ^ w) + 2 ^ m * 2 ^ w
    · rw [if_pos hb, if_pos (by omega), gen_apply hm hw _ (by omega)]
      have he : e = (e - i * (2 ^ m * 2 ^ w)) + 2 ^ m * (i * 2 ^ w) := by
        rw [show 2 ^ m * (i * 2 ^ w) = i * (2 ^ m * 2 ^ w) by ring]; omega
      generalize e - i * (2 ^ m * 2 ^ w) = q at *
      rw [he, Nat.add_mul_mod_self_left, Nat.add_mul_div_left _ _ (Nat.two_pow_pos m), Nat.add_comm (q / 2 ^ m)]
    · rw [if_neg hb]
      by_cases hc : e < i * (2 ^ m * 2 ^ w)
      · rw [if_pos hc, if_pos (by omega)]
      · rw [if_neg hc, if_neg (by omega)]

theorem apply_spec {w len n : Nat} {F : Nat → Nat → α} {inData : List (List α)} (h : Frames n len F inData) {out : List α}
    (hl : len * n ≤ out.length) : ∃ out', apply (2 ^ w) inData out len = ok out' ∧ Filled n (len * n) F out out' := by
  have hn := h.1
  unfold apply
  rw [hn]
  split
  · rename_i hv
    obtain ⟨m, hm, rfl, hmw⟩ := vect_iff.1 hv
    have hmw' : m ≤ w := (Nat.pow_le_pow_iff_right (by omega)).1 hmw
    obtain ⟨o, e, ho⟩ := forN_inv (n := len / 2 ^ w) (f := fun i out =>
        loads (2 ^ w) inData i (List.replicate (2 ^ w) []) >>= fun regs => stages (2 ^ m) regs >>= fun s => stores (2 ^ w) (2 ^ m) i s.2.2 out)
      (s := out) (fun i o => Filled (2 ^ m) (i * 2 ^ w * 2 ^ m) F out o)
      ⟨rfl, fun e => by rw [if_neg (by omega)]⟩ (fun i o hi ho => by
        have := block_spec hm hmw' h hi ho hl
        rw [hn] at this
        exact this)
    rw [e, bind_ok]
    exact tail_spec h (Nat.div_mul_le_self _ _) ho hl
  · exact tail_spec h (Nat.zero_le _) ⟨rfl, fun e => by rw [if_neg (by omega)]⟩ hl

/-! ## `apply_rev` -/

/-- `n` buffers of at least `len` elements, which hold `G`. -/
def Outs (n len : Nat) (G : Nat → Nat → Option α) (l : List (List α)) : Prop :=
  l.length = n ∧ ∀ f, f < n → ∃ d, l[f]? = some d ∧ len ≤ d.length ∧ ∀ x, d[x]? = G f x

theorem Outs.congr {n len : Nat} {G G' : Nat → Nat → Option α} {l : List (List α)} (h : Outs n len G l)
    (he : ∀ f x, f < n → G f x = G' f x) : Outs n len G' l :=
  ⟨h.1, fun f hf => by
    obtain ⟨d, h1, h2, h3⟩ := h.2 f hf
    exact ⟨d, h1, h2, fun x => by rw [h3, he f x hf]⟩⟩

theorem Outs.write {n len : Nat} {G : Nat → Nat → Option α} {l : List (List α)} (h : Outs n len G l) {f : Nat} (hf : f < n) {d : List α}
    (hd : len ≤ d.length) {H : Nat → Option α} (hH : ∀ x, d[x]? = H x) :
    ∃ l', wr l f d = ok l' ∧ Outs n len (fun f' x => if f' = f then H x else G f' x) l' := by
  obtain ⟨h1, h2⟩ := h
  refine ⟨_, wr_lt (by omega), by rw [List.length_set]; exact h1, fun f' hf' => ?_⟩
  by_cases he : f' = f
  · subst he
    exact ⟨d, by rw [List.getElem?_set_self (by omega)], hd, fun x => by simp only [if_true]; exact hH x⟩
  · obtain ⟨d', e1, e2, e3⟩ := h2 f' hf'
    exact ⟨d', by rw [List.getElem?_set_ne (Ne.symm he)]; exact e1, e2, fun x => by simp only [if_neg he]; exact e3 x⟩

theorem storeFrame_spec {n len W i : Nat} {G : Nat → Nat → Option α} {l : List (List α)} (h : Outs n len G l) {f : Nat} (hf : f < n)
    (hi : i * W + W ≤ len) {r : List α} (hr : r.length = W) {g : Nat → α} (hg : ∀ x, x < W → r[x]? = some (g x)) :
    ∃ l', storeFrame W i r f l = ok l' ∧
      Outs n len (fun f' x => if f' = f ∧ i * W ≤ x ∧ x < i * W + W then some (g (x - i * W)) else G f' x) l' := by
  obtain ⟨d, e1, e2, e3⟩ := h.2 f hf
  obtain ⟨d', f1, f2, f3⟩ := storeu_spec (dst := d) (off := i * W) hr (by omega)
  obtain ⟨l', g1, g2⟩ := h.write hf (d := d') (by omega) f3
  refine ⟨l', by unfold storeFrame; rw [(rd_ok_iff).2 e1, bind_ok, f1, bind_ok, g1], g2.congr fun f' x _ => ?_⟩
  by_cases he : f' = f
  · subst he
    rw [if_pos rfl]
    by_cases hb : i * W ≤ x ∧ x < i * W + W
    · rw [if_pos hb, if_pos ⟨rfl, hb⟩, hg _ (by omega)]
    · rw [if_neg hb, if_neg (fun h => hb h.2), e3]
  · rw [if_neg he, if_neg (fun h => he h.1)]

/-- The register stored in a frame. -/
def regOf (L F : Nat) : Nat := F / 2 / L * L * 2 + F % 2 * L + F / 2 % L

theorem storesRev_spec {W K L i len : Nat} (hL : 1 ≤ L) {g : Nat → Nat → α} {regs : List (List α)} (hr : Regs W (2 * (K * L)) g regs)
    (hi : i * W + W ≤ len) {G : Nat → Nat → Option α} {outs : List (List α)} (h : Outs (2 * (K * L)) len G outs) :
    ∃ f outs', storesRev W i K L regs outs = ok (f, outs') ∧
      Outs (2 * (K * L)) len (fun f x => if i * W ≤ x ∧ x < i * W + W then some (g (regOf L f) (x - i * W)) else G f x) outs' := by
  unfold storesRev
  rw [forN_nested]
  obtain ⟨⟨f, o⟩, e, _, ho⟩ := forN_inv (n := K * L) (f := fun k (s : Nat × List (List α)) =>
      rd regs (k / L * L * 2 + k % L) >>= fun a => storeFrame W i a s.1 s.2 >>= fun o =>
      rd regs (k / L * L * 2 + L + k % L) >>= fun b => storeFrame W i b (s.1 + 1) o >>= fun o => ok (s.1 + 2, o)) (s := (0, outs))
    (fun p s => s.1 = 2 * p ∧ Outs (2 * (K * L)) len
      (fun f x => if f < 2 * p ∧ i * W ≤ x ∧ x < i * W + W then some (g (regOf L f) (x - i * W)) else G f x) s.2)
    ⟨rfl, h.congr fun f x _ => by rw [if_neg (by omega)]⟩ (by
      rintro p ⟨f, o⟩ hp ⟨h1, h2⟩
      simp only [] at h1 h2 ⊢
      subst h1
      have hq : p / L < K := by rw [Nat.div_lt_iff_lt_mul (by omega)]; exact hp
      have hm := Nat.mod_lt p (show 0 < L by omega)
      have h2' : p / L * L + L ≤ K * L := by rw [← Nat.succ_mul]; exact Nat.mul_le_mul_right L hq
      have r0 : regOf L (2 * p) = p / L * L * 2 + p % L := by
        unfold regOf
        rw [show 2 * p / 2 = p by omega, show 2 * p % 2 = 0 by omega]; omega
      have r1 : regOf L (2 * p + 1) = p / L * L * 2 + L + p % L := by
        unfold regOf
        rw [show (2 * p + 1) / 2 = p by omega, show (2 * p + 1) % 2 = 1 by omega, Nat.one_mul]
      obtain ⟨a, a1, a2, a3⟩ := hr.2 (p / L * L * 2 + p % L) (by omega)
      obtain ⟨b, b1, b2, b3⟩ := hr.2 (p / L * L * 2 + L + p % L) (by omega)
      obtain ⟨o1, c1, c2⟩ := storeFrame_spec h2 (f := 2 * p) (by omega) hi a2 a3
      obtain ⟨o2, d1, d2⟩ := storeFrame_spec c2 (f := 2 * p + 1) (by omega) hi b2 b3
      rw [(rd_ok_iff).2 a1, bind_ok, c1, bind_ok, (rd_ok_iff).2 b1, bind_ok, d1, bind_ok, sat_ok]
      refine ⟨rfl, d2.congr fun f x _ => ?_⟩
      by_cases hx : i * W ≤ x ∧ x < i * W + W
      · by_cases hf1 : f = 2 * p + 1
        · rw [if_pos ⟨hf1, hx⟩, if_pos ⟨by omega, hx⟩, hf1, r1]
        · rw [if_neg (fun h => hf1 h.1)]
          by_cases hf0 : f = 2 * p
          · rw [if_pos ⟨hf0, hx⟩, if_pos ⟨by omega, hx⟩, hf0, r0]
          · rw [if_neg (fun h => hf0 h.1)]
            by_cases hlt : f < 2 * p
            · rw [if_pos ⟨hlt, hx⟩, if_pos ⟨by omega, hx⟩]
            · rw [if_neg (fun h => hlt h.1), if_neg (by omega)]
      · rw [if_neg (fun h => hx h.2), if_neg (fun h => hx h.2), if_neg (fun h => hx h.2), if_neg (fun h => hx h.2)])
  refine ⟨f, o, e, ho.congr fun f x hf => ?_⟩
  by_cases hx : i * W ≤ x ∧ x < i * W + W
  · rw [if_pos ⟨hf, hx⟩, if_pos hx]
  · rw [if_neg (fun h => hx h.2), if_neg hx]

theorem rotr_last {m w : Nat} (hm : 1 ≤ m) (hw : 1 ≤ w) {f : Nat} (hf : f < 2 ^ m) :
    (rotr m)^[w] f = f % 2 ^ last w m * 2 ^ (m - last w m) + f / 2 ^ last w m := by
  have hlt := Nat.mod_lt (w - 1) (show 0 < m by omega)
  have hdm := Nat.div_add_mod (w - 1) m
  have e : w = last w m + m * ((w - 1) / m) := by unfold last; omega
  have hper : ∀ t, (rotr m)^[m * t] f = f := by
    intro t
    induction t with
    | zero => rfl
    | succ t ih => rw [Nat.mul_succ, Function.iterate_add_apply, rotr_full hf, ih]
  conv_lhs => rw [e]
  rw [Function.iterate_add_apply, hper, rotr_iter _ (by unfold last; omega)]

theorem gen_rev {m w : Nat} (hm : 1 ≤ m) (hw : 1 ≤ w) (g : Nat → Nat → α) {f x : Nat} (hf : f < 2 ^ m) (hx : x < 2 ^ w) :
    gen (2 ^ w) m g w (regOf (2 ^ (m - last w m)) f) x =
      g ((x * 2 ^ m + source w m f) / 2 ^ w) ((x * 2 ^ m + source w m f) % 2 ^ w) ∧ source w m f < 2 ^ m := by
  have hlt := Nat.mod_lt (w - 1) (show 0 < m by omega)
  have hlm : last w m ≤ m := by unfold last; omega
  have hl1 : 1 ≤ last w m := by unfold last; omega
  have hW := Nat.two_pow_pos w
  generalize hδ : last w m = δ at *
  have hL := Nat.two_pow_pos (m - δ)
  have eL : 2 ^ (m - δ) * 2 ^ (δ - 1) * 2 = 2 ^ m := by rw [← pow_add, ← pow_succ]; congr 1; omega
  have eδ : 2 ^ δ = 2 * 2 ^ (δ - 1) := two_pow_pred hl1
  have hk : f / 2 / 2 ^ (m - δ) < 2 ^ (δ - 1) := by
    rw [Nat.div_lt_iff_lt_mul hL, Nat.mul_comm]; omega
  have hl := Nat.mod_lt (f / 2) hL
  have hs : source w m f = f / 2 % 2 ^ (m - δ) * 2 ^ δ + (f / 2 / 2 ^ (m - δ) * 2 + f % 2) := by unfold source; rw [hδ, Nat.add_assoc]
  have hlow : f / 2 / 2 ^ (m - δ) * 2 + f % 2 < 2 ^ δ := by omega
  have hsl : source w m f < 2 ^ m := by
    rw [hs]
    have h1 : f / 2 % 2 ^ (m - δ) * 2 ^ δ + 2 ^ δ ≤ 2 ^ (m - δ) * 2 ^ δ := by
      rw [← Nat.succ_mul]; exact Nat.mul_le_mul_right _ hl
    have h2 : 2 ^ (m - δ) * 2 ^ δ = 2 ^ m := by rw [← pow_add]; congr 1; omega
    omega
  have hreg : regOf (2 ^ (m - δ)) f = (rotr m)^[w] (source w m f) := by
    rw [rotr_last hm hw hsl, hδ, hs, Nat.mul_comm _ (2 ^ δ), Nat.mul_add_mod, Nat.mul_add_div (Nat.two_pow_pos δ), Nat.mod_eq_of_lt hlow,
      Nat.div_eq_of_lt hlow, Nat.add_zero]
    unfold regOf
    ring
  refine ⟨?_, hsl⟩
  have hQ : source w m f * 2 ^ w + x < 2 ^ (m + w) := by
    have : source w m f * 2 ^ w + 2 ^ w ≤ 2 ^ m * 2 ^ w := by rw [← Nat.succ_mul]; exact Nat.mul_le_mul_right _ hsl
    rw [pow_add]; omega
  have h := gen_spec hm hw g w _ hQ
  have q1 : (source w m f * 2 ^ w + x) / 2 ^ w = source w m f := by
    rw [Nat.mul_comm, Nat.mul_add_div hW, Nat.div_eq_of_lt hx, Nat.add_zero]
  have q2 : (source w m f * 2 ^ w + x) % 2 ^ w = x := by
    rw [Nat.mul_comm, Nat.mul_add_mod, Nat.mod_eq_of_lt hx]
  rw [q1, q2, rotr_iter (N := m + w) w (by omega), q1, q2, Nat.add_sub_cancel] at h
  rw [hreg, h]

theorem blockRev_spec {m w len : Nat} (hm : 1 ≤ m) (hw : m ≤ w) {I : Nat → α} {inData : List α}
    (hI : ∀ e, e < len * 2 ^ m → inData[e]? = some (I e)) {i : Nat} (hi : i < len / 2 ^ w) {G : Nat → Nat → Option α} {outs : List (List α)}
    (h : Outs (2 ^ m) len (fun f x => if x < i * 2 ^ w then some (I (x * 2 ^ m + source w m f)) else G f x) outs) :
    ∃ o', (loadsRev (2 ^ w) (2 ^ m) inData i (List.replicate (2 ^ w) []) >>= fun regs => stagesRev (2 ^ w) (2 ^ m) regs >>= fun s =>
        storesRev (2 ^ w) i s.1 s.2.1 s.2.2 outs >>= fun x => ok x.2) = ok o' ∧
      Outs (2 ^ m) len (fun f x => if x < (i + 1) * 2 ^ w then some (I (x * 2 ^ m + source w m f)) else G f x) o' := by
  have hW := Nat.two_pow_pos w
  have hile : (i + 1) * 2 ^ w ≤ len := by
    have := Nat.mul_le_mul_right (2 ^ w) (show i + 1 ≤ len / 2 ^ w by omega)
    exact Nat.le_trans this (Nat.div_mul_le_self _ _)
  have hin : (i + 1) * (2 ^ m * 2 ^ w) ≤ len * 2 ^ m := by
    have := Nat.mul_le_mul_right (2 ^ m) hile
    have e : (i + 1) * (2 ^ m * 2 ^ w) = (i + 1) * 2 ^ w * 2 ^ m := by ring
    omega
  rw [Nat.succ_mul] at hin
  obtain ⟨regs, e1, h1⟩ := loads_inv (W := 2 ^ w) (n := 2 ^ m) (Nat.pow_le_pow_right (by omega) hw)
    (g := fun f x => I (i * (2 ^ m * 2 ^ w) + (f * 2 ^ w + x)))
    (ld := fun f => loadu (2 ^ w) inData ((i * 2 ^ m + f) * 2 ^ w)) (fun f hfn => by
      refine loadu_spec (fun x hx => ?_) hW
      have e : (i * 2 ^ m + f) * 2 ^ w = i * (2 ^ m * 2 ^ w) + f * 2 ^ w := by ring
      have h2 : f * 2 ^ w + 2 ^ w ≤ 2 ^ m * 2 ^ w := by rw [← Nat.succ_mul]; exact Nat.mul_le_mul_right _ hfn
      rw [e, Nat.add_assoc]
      exact hI _ (by omega))
  obtain ⟨rs, e2, h2⟩ := stagesRev_spec hm (by omega) h1
  have hlt := Nat.mod_lt (w - 1) (show 0 < m by omega)
  have hLe : m - 1 - (w - 1) % m = m - last w m := by unfold last; omega
  have hkl : 2 ^ m = 2 * (2 ^ ((w - 1) % m) * 2 ^ (m - 1 - (w - 1) % m)) := by rw [two_pow_pred hm, ← pow_add]; congr 2; omega
  have h2' := h2
  have h' := h
  rw [hkl] at h2'
  generalize hg : (fun f x => if x < i * 2 ^ w then some (I (x * 2 ^ m + source w m f)) else G f x) = G1 at h'
  rw [hkl] at h'
  rw [Nat.succ_mul] at hile
  obtain ⟨f, o', e3, h3⟩ := storesRev_spec (Nat.two_pow_pos _) h2' hile h'
  refine ⟨o', ?_, ?_⟩
  · have e1' : loadsRev (2 ^ w) (2 ^ m) inData i (List.replicate (2 ^ w) []) = ok regs := e1
    rw [e1', bind_ok, e2, bind_ok]
    simp only []
    rw [e3, bind_ok]
  · rw [← hkl] at h3
    refine h3.congr fun f x hf => ?_
    rw [Nat.succ_mul]
    by_cases hb : i * 2 ^ w ≤ x ∧ x < i * 2 ^ w + 2 ^ w
    · rw [if_pos hb, if_pos (by omega), hLe]
      obtain ⟨hr1, hr2⟩ := gen_rev hm (show 1 ≤ w by omega) (fun f x => I (i * (2 ^ m * 2 ^ w) + (f * 2 ^ w + x))) hf (show x - i * 2 ^ w < 2 ^ w by omega)
      rw [hr1]
      rw [Nat.div_add_mod' _ (2 ^ w)]
      congr 2
      have hx : x = (x - i * 2 ^ w) + i * 2 ^ w := by omega
      generalize x - i * 2 ^ w = y at *
      rw [hx]; ring
    · rw [if_neg hb, ← hg]
      simp only []
      by_cases hc : x < i * 2 ^ w
      · rw [if_pos hc, if_pos (by omega)]
      · rw [if_neg hc, if_neg (by omega)]

theorem tailRev_spec {n len : Nat} {I : Nat → α} {inData : List α} (hI : ∀ e, e < len * n → inData[e]? = some (I e)) {start : Nat}
    (hs : start ≤ len) {G : Nat → Nat → Option α} {outs : List (List α)} (h : Outs n len G outs) :
    ∃ o', tailRev inData start len outs = ok o' ∧
      Outs n len (fun f x => if start ≤ x ∧ x < len then some (I (x * n + f)) else G f x) o' := by
  unfold tailRev
  rw [h.1]
  refine forRange_inv (fun i o => Outs n len (fun f x => if start ≤ x ∧ x < i then some (I (x * n + f)) else G f x) o) hs
    (h.congr fun f x _ => by rw [if_neg (by omega)]) ?_
  intro i o h1 h2 hi
  have hin : (i + 1) * n ≤ len * n := Nat.mul_le_mul_right n h2
  rw [Nat.succ_mul] at hin
  obtain ⟨o', e, ho⟩ := forN_inv (n := n) (f := fun f o =>
      rd inData (i * n + f) >>= fun a => rd o f >>= fun d => wr d i a >>= fun d => wr o f d) (s := o)
    (fun k o => Outs n len (fun f x => if x = i ∧ f < k then some (I (x * n + f)) else if start ≤ x ∧ x < i then some (I (x * n + f)) else G f x) o)
    (hi.congr fun f x _ => by rw [if_neg (show ¬(x = i ∧ f < 0) by omega)]) (by
      intro k o hk ho
      obtain ⟨d, d1, d2, d3⟩ := ho.2 k hk
      obtain ⟨o', w1, w2⟩ := ho.write hk (d := d.set i (I (i * n + k))) (by rw [List.length_set]; exact d2) (fun x => rfl)
      refine ⟨o', ?_, w2.congr fun f x _ => ?_⟩
      · rw [(rd_ok_iff).2 (hI _ (by omega)), bind_ok, (rd_ok_iff).2 d1, bind_ok, wr_lt (by omega), bind_ok, w1]
      · by_cases hf : f = k
        · subst hf
          rw [if_pos rfl]
          by_cases hx : x = i
          · subst hx
            rw [List.getElem?_set_self (by omega), if_pos ⟨rfl, by omega⟩]
          · rw [List.getElem?_set_ne (Ne.symm hx), d3]
            simp only []
            rw [if_neg (show ¬(x = i ∧ f < f) by omega), if_neg (show ¬(x = i ∧ f < f + 1) by omega)]
        · rw [if_neg hf]
          by_cases hx : x = i ∧ f < k
          · rw [if_pos hx, if_pos (by omega)]
          · rw [if_neg hx, if_neg (show ¬(x = i ∧ f < k + 1) by omega)])
  refine ⟨o', e, ho.congr fun f x hf => ?_⟩
  by_cases hx : x = i
  · rw [if_pos ⟨hx, hf⟩, if_pos (by omega)]
  · rw [if_neg (fun h => hx h.1)]
    by_cases hc : start ≤ x ∧ x < i
    · rw [if_pos hc, if_pos (by omega)]
    · rw [if_neg hc, if_neg (by omega)]

theorem Room.outs {n len : Nat} {l : List (List α)} (h : Room n len l) : Outs n len (at' l) l :=
  ⟨h.1, fun f hf => by
    obtain ⟨d, h1, h2⟩ := h.2 f hf
    exact ⟨d, h1, h2, fun x => by unfold at'; rw [h1]; rfl⟩⟩

theorem Outs.at' {n len : Nat} {G : Nat → Nat → Option α} {l : List (List α)} (h : Outs n len G l) {f : Nat} (hf : f < n) (x : Nat) :
    at' l f x = G f x := by
  obtain ⟨d, h1, _, h3⟩ := h.2 f hf
  unfold Reorderer.at'
  rw [h1]
  exact h3 x

theorem Outs.room {n len : Nat} {G : Nat → Nat → Option α} {l : List (List α)} (h : Outs n len G l) : Room n len l :=
  ⟨h.1, fun f hf => by
    obtain ⟨d, h1, h2, _⟩ := h.2 f hf
    exact ⟨d, h1, h2⟩⟩

theorem applyRev_vect {m w len : Nat} (hm : 1 ≤ m) (hw : m ≤ w) {I : Nat → α} {inData : List α}
    (hI : ∀ e, e < len * 2 ^ m → inData[e]? = some (I e)) {outs : List (List α)} (h : Room (2 ^ m) len outs) :
    ∃ o', applyRev (2 ^ w) inData outs len = ok o' ∧ Room (2 ^ m) len o' ∧ ∀ f, f < 2 ^ m → ∀ x, at' o' f x =
      if x < len / 2 ^ w * 2 ^ w then some (I (x * 2 ^ m + source w m f)) else if x < len then some (I (x * 2 ^ m + f)) else at' outs f x := by
  have hn := h.1
  have hv : vect (2 ^ w) (2 ^ m) = true := vect_iff.2 ⟨m, hm, rfl, Nat.pow_le_pow_right (by omega) hw⟩
  unfold applyRev
  rw [hn, if_pos hv]
  obtain ⟨o, e, ho⟩ := forN_inv (n := len / 2 ^ w) (f := fun i o =>
      loadsRev (2 ^ w) (2 ^ m) inData i (List.replicate (2 ^ w) []) >>= fun regs => stagesRev (2 ^ w) (2 ^ m) regs >>= fun s =>
        storesRev (2 ^ w) i s.1 s.2.1 s.2.2 o >>= fun x => ok x.2) (s := outs)
    (fun i o => Outs (2 ^ m) len (fun f x => if x < i * 2 ^ w then some (I (x * 2 ^ m + source w m f)) else at' outs f x) o)
    (h.outs.congr fun f x _ => by rw [if_neg (by omega)]) (fun i o hi ho => blockRev_spec hm hw hI hi ho)
  obtain ⟨o', e', ho'⟩ := tailRev_spec hI (Nat.div_mul_le_self len (2 ^ w)) ho
  refine ⟨o', by rw [e, bind_ok, e'], ho'.room, fun f hf x => ?_⟩
  rw [ho'.at' hf]
  by_cases h1 : x < len / 2 ^ w * 2 ^ w
  · rw [if_pos h1, if_neg (by omega), if_pos h1]
  · by_cases h2 : x < len
    · rw [if_pos ⟨by omega, h2⟩, if_neg h1, if_pos h2]
    · rw [if_neg (fun h => h2 h.2), if_neg h1, if_neg h1, if_neg h2]

theorem applyRev_seq {n W len : Nat} (hv : vect W n = false) {I : Nat → α} {inData : List α}
    (hI : ∀ e, e < len * n → inData[e]? = some (I e)) {outs : List (List α)} (h : Room n len outs) :
    ∃ o', applyRev W inData outs len = ok o' ∧ Room n len o' ∧ ∀ f, f < n → ∀ x, at' o' f x =
      if x < len then some (I (x * n + f)) else at' outs f x := by
  have hn := h.1
  unfold applyRev
  rw [hn, if_neg (by rw [hv]; simp)]
  obtain ⟨o', e', ho'⟩ := tailRev_spec hI (Nat.zero_le len) h.outs
  refine ⟨o', e', ho'.room, fun f hf x => ?_⟩
  rw [ho'.at' hf]
  by_cases h2 : x < len
  · rw [if_pos ⟨by omega, h2⟩, if_pos h2]
  · rw [if_neg (fun h => h2 h.2), if_neg h2]

end Verif.Reorderer
