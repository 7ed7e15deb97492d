import Mathlib.Tactic.ByContra
import Verif.Prelude.Loops
import Verif.Spec.Module

/-! # Lemmas on frame bookkeeping -/

namespace Verif.Module

theorem rne_le {x y M : Nat} (hy : 0 < y) (h : x ≤ M * y) : rne x y ≤ M := by
  have hd := Nat.div_add_mod x y
  have hq : x / y ≤ M := by
    rw [Nat.div_le_iff_le_mul_add_pred hy]
    rw [Nat.mul_comm] at h; omega
  unfold rne
  split
  · exact hq
  · rename_i hc
    by_contra hlt
    have : x / y = M := by omega
    rw [this, Nat.mul_comm] at hd
    omega

theorem rne_ge {x y M : Nat} (hy : 0 < y) (h : (2 * M + 1) * y < 2 * x) : M + 1 ≤ rne x y := by
  have hd := Nat.div_add_mod x y
  have hm := Nat.mod_lt x hy
  have e : (2 * M + 1) * y = 2 * (M * y) + y := by rw [Nat.add_mul, Nat.mul_assoc]; omega
  rw [e] at h
  by_cases h1 : M + 1 ≤ x / y
  · unfold rne; split <;> omega
  · by_cases h2 : x / y = M
    · rw [h2, Nat.mul_comm] at hd
      unfold rne
      rw [if_neg (by omega)]; omega
    · exfalso
      have : x / y + 1 ≤ M := by omega
      have := Nat.mul_le_mul_right y this
      rw [Nat.add_mul, Nat.mul_comm] at this
      omega

theorem le_rne {x y : Nat} : x / y ≤ rne x y := by
  unfold rne; split <;> omega

theorem toF32_small {n : Nat} (h : n < 2 ^ 24) : toF32 n = n := if_pos h

theorem toF32_large {n : Nat} (h : 2 ^ 24 ≤ n) : 2 ^ 24 ≤ toF32 n := by
  unfold toF32
  rw [if_neg (by omega)]
  have hl : 24 ≤ n.log2 := (Nat.le_log2 (by omega)).2 h
  have h1 : 2 ^ n.log2 ≤ n := Nat.log2_self_le (by omega)
  obtain ⟨k, hk⟩ := Nat.exists_eq_add_of_le (show 23 ≤ n.log2 by omega)
  rw [hk, Nat.add_sub_cancel_left]
  rw [hk, Nat.pow_add] at h1
  have h2 : 2 ^ 23 ≤ n / 2 ^ k := (Nat.le_div_iff_mul_le (Nat.two_pow_pos k)).2 h1
  have h3 := Nat.mul_le_mul_right (2 ^ k) (Nat.le_trans h2 (le_rne (x := n) (y := 2 ^ k)))
  refine Nat.le_trans ?_ h3
  rw [← Nat.pow_add]
  exact Nat.pow_le_pow_right (by omega) (by omega)

theorem ceilDivF32_spec {a b : Nat} (ha : 0 < a) (ha' : a < 2 ^ 24) (hb : 0 < b) :
    (ceilDivF32 a b - 1) * b < a ∧ a ≤ ceilDivF32 a b * b := by
  obtain ⟨c, hc0, hc1, hc2⟩ : ∃ c, 0 < c ∧ (c - 1) * b < a ∧ a ≤ c * b := by
    refine ⟨(a - 1) / b + 1, Nat.succ_pos _, ?_, ?_⟩
    · rw [Nat.add_sub_cancel]
      have := Nat.div_mul_le_self (a - 1) b
      omega
    · have := Nat.div_add_mod (a - 1) b
      have h2 := Nat.mod_lt (a - 1) hb
      rw [Nat.add_mul, Nat.mul_comm ((a - 1) / b)]
      omega
  suffices h : ceilDivF32 a b = c by rw [h]; exact ⟨hc1, hc2⟩
  unfold ceilDivF32
  simp only []
  have lb1 : 2 ^ b.log2 ≤ b := Nat.log2_self_le (by omega)
  have lb2 : b < 2 ^ (b.log2 + 1) := Nat.lt_log2_self
  generalize hl : b.log2 = l at *
  generalize hs : 24 + l = s
  have hA23 : 2 ^ 23 ≤ a * 2 ^ s / b := by
    rw [Nat.le_div_iff_mul_le hb, ← hs]
    have h1 : 2 ^ 23 * b ≤ 2 ^ 23 * 2 ^ (l + 1) := Nat.mul_le_mul_left _ (by omega)
    have h2 : 2 ^ 23 * 2 ^ (l + 1) = 2 ^ (24 + l) := by rw [← Nat.pow_add]; congr 1; omega
    have h3 : 2 ^ (24 + l) ≤ a * 2 ^ (24 + l) := Nat.le_mul_of_pos_left _ ha
    omega
  have he23 : 23 ≤ (a * 2 ^ s / b).log2 := (Nat.le_log2 (by omega)).2 hA23
  have hself : 2 ^ (a * 2 ^ s / b).log2 ≤ a * 2 ^ s / b := Nat.log2_self_le (by omega)
  obtain ⟨e, he⟩ := Nat.exists_eq_add_of_le he23
  rw [he] at hself ⊢
  rw [Nat.add_sub_cancel_left]
  have hD : b * 2 ^ e < 2 ^ (s + 1) := by
    rw [Nat.le_div_iff_mul_le hb] at hself
    have h1 : a * 2 ^ s < 2 ^ 24 * 2 ^ s := Nat.mul_lt_mul_of_pos_right ha' (Nat.two_pow_pos s)
    have h2 : 2 ^ (23 + e) * b = 2 ^ 23 * (b * 2 ^ e) := by rw [Nat.pow_add, Nat.mul_assoc, Nat.mul_comm b]
    have h3 : 2 ^ 24 * 2 ^ s = 2 ^ 23 * 2 ^ (s + 1) := by rw [← Nat.pow_add, ← Nat.pow_add]; congr 1; omega
    rw [h2] at hself
    rw [h3] at h1
    exact Nat.lt_of_mul_lt_mul_left (Nat.lt_of_le_of_lt hself h1)
  have hes : e ≤ s := by
    have : 2 ^ e < 2 ^ (s + 1) := Nat.lt_of_le_of_lt (Nat.le_mul_of_pos_left _ hb) hD
    have := (Nat.pow_lt_pow_iff_right (by omega : 1 < 2)).1 this
    omega
  obtain ⟨d, rfl⟩ := Nat.exists_eq_add_of_le hes
  have hDpos : 0 < b * 2 ^ e := Nat.mul_pos hb (Nat.two_pow_pos e)
  have up : rne (a * 2 ^ (e + d)) (b * 2 ^ e) ≤ c * 2 ^ d := by
    apply rne_le hDpos
    have : c * 2 ^ d * (b * 2 ^ e) = (c * b) * 2 ^ (e + d) := by
      rw [Nat.pow_add, Nat.mul_comm (2 ^ e), Nat.mul_mul_mul_comm]
    rw [this]
    exact Nat.mul_le_mul_right _ hc2
  have lo : (c - 1) * 2 ^ d + 1 ≤ rne (a * 2 ^ (e + d)) (b * 2 ^ e) := by
    apply rne_ge hDpos
    have h1 : (c - 1) * 2 ^ d * (b * 2 ^ e) = ((c - 1) * b) * 2 ^ (e + d) := by
      rw [Nat.pow_add, Nat.mul_comm (2 ^ e), Nat.mul_mul_mul_comm]
    rw [Nat.add_mul, Nat.mul_assoc, h1]
    have h2 := Nat.mul_le_mul_right (2 ^ (e + d)) (show (c - 1) * b + 1 ≤ a by omega)
    rw [Nat.add_mul] at h2
    have h3 : 2 ^ (e + d + 1) = 2 * 2 ^ (e + d) := by rw [Nat.pow_succ, Nat.mul_comm]
    omega
  generalize rne (a * 2 ^ (e + d)) (b * 2 ^ e) = m at up lo
  have up' := Nat.mul_le_mul_right (2 ^ e) up
  have lo' := Nat.mul_le_mul_right (2 ^ e) lo
  have ec : c * 2 ^ d * 2 ^ e = c * 2 ^ (e + d) := by rw [Nat.mul_assoc, ← Nat.pow_add, Nat.add_comm d]
  have ec' : (c - 1) * 2 ^ d * 2 ^ e = (c - 1) * 2 ^ (e + d) := by rw [Nat.mul_assoc, ← Nat.pow_add, Nat.add_comm d]
  rw [ec] at up'
  rw [Nat.add_mul, ec'] at lo'
  have p1 := Nat.two_pow_pos e
  have p2 := Nat.two_pow_pos (e + d)
  have hcc : c * 2 ^ (e + d) = (c - 1) * 2 ^ (e + d) + 2 ^ (e + d) := by
    rw [← Nat.succ_mul]; congr 1; omega
  apply Nat.le_antisymm
  · rw [Nat.div_le_iff_le_mul_add_pred p2, Nat.mul_comm (2 ^ (e + d)) c]
    omega
  · rw [Nat.le_div_iff_mul_le p2]
    omega

/-- The number of waves computed in binary32 is exact up to `2^24` frames. -/
theorem waves_spec {n p : Nat} (hn : 0 < n) (hn' : n < 2 ^ 24) (hp : 0 < p) :
    (ceilDivF32 (toF32 n) (toF32 p) - 1) * p < n ∧ n ≤ ceilDivF32 (toF32 n) (toF32 p) * p := by
  rw [toF32_small hn']
  by_cases h : p < 2 ^ 24
  · rw [toF32_small h]; exact ceilDivF32_spec hn hn' hp
  · have hl := toF32_large (show 2 ^ 24 ≤ p by omega)
    have := ceilDivF32_spec (b := toF32 p) hn hn' (by omega)
    generalize ceilDivF32 n (toF32 p) = c at *
    have h1 : c - 1 < 1 := by
      by_contra hc
      have := Nat.mul_le_mul_right (toF32 p) (show 1 ≤ c - 1 by omega)
      omega
    have h0 : c ≠ 0 := by rintro rfl; omega
    have hc : c = 1 := by omega
    subst hc
    omega

/-- Invariant of a module none of whose sockets is bound. -/
structure ModInv (bytes : List Nat) (m : Mod) : Prop where
  good : m.conf.Good
  small : m.nFrames < 2 ^ 24
  single : m.single = true → m.npw = m.nFrames
  sizes : SizesOk bytes m

theorem updSocks_all {f : Sck → Option Sck} {g : Sck → Sck} : ∀ {l : List Sck}, (∀ s ∈ l, f s = some (g s)) →
    updSocks f l = (l.map g, false)
  | [], _ => rfl
  | s :: l, h => by
    unfold updSocks
    rw [h s (by simp), updSocks_all (fun t ht => h t (by simp [ht]))]
    rfl

theorem setBytes_unbound {s : Sck} (h : s.bound = false) (b : Nat) : s.setBytes b = some { s with bytes := b } := by
  unfold Sck.setBytes
  rw [h]
  by_cases e : b ≠ s.bytes
  · rw [if_pos e, if_neg (by simp)]
  · have e' : b = s.bytes := Classical.not_not.1 e
    subst e'
    rw [if_neg (by simp), ← h]

theorem setFrames_spec {bytes : List Nat} {m : Mod} {n : Nat} (hg : m.conf.Good) (hs : SizesOk bytes m) (hn : 0 < n)
    (hn' : n < 2 ^ 24) :
    ∃ m', m.setFrames n = ⟨m', none⟩ ∧ m'.conf.Good ∧ m'.nFrames = n ∧ m'.npw = m.npw ∧ m'.single = m.single ∧
      SizesOk bytes m' := by
  unfold Mod.setFrames
  rw [if_neg (by omega)]
  simp only []
  have hf : 0 < m.nFrames := hg.frames
  have hp : 0 < m.npw := hg.npw
  have hu : updSocks (updFrames (ceilDivF32 (toF32 n) (toF32 m.npw)) m.nFrames n) m.socks =
      (bytes.map (fun b => (⟨false, b * n, false⟩ : Sck)) ++ [⟨true, 4 * ceilDivF32 (toF32 n) (toF32 m.npw), false⟩], false) := by
    rw [updSocks_all (g := fun s => { s with bytes := if s.status then ceilDivF32 (toF32 n) (toF32 m.npw) * 4 else s.bytes / m.nFrames * n })]
    · rw [hs, List.map_append, List.map_map]
      congr 2
      · apply List.map_congr_left
        intro b _
        simp [Nat.mul_div_cancel _ hf]
      · simp [Nat.mul_comm]
    · intro s h
      have hb : s.bound = false := by
        rw [hs] at h
        rcases List.mem_append.1 h with h | h
        · obtain ⟨b, -, rfl⟩ := List.mem_map.1 h; rfl
        · rw [List.mem_singleton.1 h]
      unfold updFrames
      split <;> rw [setBytes_unbound hb]
  rw [hu]
  refine ⟨_, rfl, ⟨hn, hp, waves_spec hn hn' hp, rfl⟩, rfl, rfl, rfl, rfl⟩

theorem setWave_spec {bytes : List Nat} {m : Mod} {p : Nat} (hg : m.conf.Good) (hs : SizesOk bytes m) (hsm : m.nFrames < 2 ^ 24)
    (hp : 0 < p) :
    ∃ m', m.setWave p = ⟨m', none⟩ ∧ m'.conf.Good ∧ m'.nFrames = m.nFrames ∧ m'.npw = p ∧ m'.single = m.single ∧
      SizesOk bytes m' := by
  unfold Mod.setWave
  rw [if_neg (by omega)]
  simp only []
  have hf : 0 < m.nFrames := hg.frames
  have hu : updSocks (updWave (ceilDivF32 (toF32 m.nFrames) (toF32 p))) m.socks =
      (bytes.map (fun b => (⟨false, b * m.nFrames, false⟩ : Sck)) ++ [⟨true, 4 * ceilDivF32 (toF32 m.nFrames) (toF32 p), false⟩], false) := by
    rw [updSocks_all (g := fun s => { s with bytes := if s.status then ceilDivF32 (toF32 m.nFrames) (toF32 p) * 4 else s.bytes })]
    · rw [hs, List.map_append, List.map_map]
      congr 2
      simp [Nat.mul_comm]
    · intro s h
      have hb : s.bound = false := by
        rw [hs] at h
        rcases List.mem_append.1 h with h | h
        · obtain ⟨b, -, rfl⟩ := List.mem_map.1 h; rfl
        · rw [List.mem_singleton.1 h]
      unfold updWave
      split <;> rename_i h'
      · rw [setBytes_unbound hb]
      · rfl
  rw [hu]
  exact ⟨_, rfl, ⟨hf, hp, waves_spec hf hsm hp, rfl⟩, rfl, rfl, rfl, rfl⟩

theorem seq_none (m : Mod) (f : Mod → Res) : Res.seq ⟨m, none⟩ f = f m := if_pos rfl

theorem seq_some (m : Mod) (e : Exn) (f : Mod → Res) : Res.seq ⟨m, some e⟩ f = ⟨m, some e⟩ := if_neg (by simp)

theorem maybeFrames {bytes : List Nat} {m : Mod} {n : Nat} (hg : m.conf.Good) (hs : SizesOk bytes m) (hn : 0 < n)
    (hn' : n < 2 ^ 24) :
    ∃ m', (if m.nFrames ≠ n then m.setFrames n else ⟨m, none⟩) = ⟨m', none⟩ ∧ m'.conf.Good ∧ m'.nFrames = n ∧
      m'.npw = m.npw ∧ m'.single = m.single ∧ SizesOk bytes m' := by
  by_cases h : m.nFrames ≠ n
  · rw [if_pos h]; exact setFrames_spec hg hs hn hn'
  · rw [if_neg h]; exact ⟨m, rfl, hg, Classical.not_not.1 h, rfl, rfl, hs⟩

theorem maybeWave {bytes : List Nat} {m : Mod} {p : Nat} (hg : m.conf.Good) (hs : SizesOk bytes m) (hsm : m.nFrames < 2 ^ 24)
    (hp : 0 < p) :
    ∃ m', (if m.npw ≠ p then m.setWave p else ⟨m, none⟩) = ⟨m', none⟩ ∧ m'.conf.Good ∧ m'.nFrames = m.nFrames ∧
      m'.npw = p ∧ m'.single = m.single ∧ SizesOk bytes m' := by
  by_cases h : m.npw ≠ p
  · rw [if_pos h]; exact setWave_spec hg hs hsm hp
  · rw [if_neg h]; exact ⟨m, rfl, hg, rfl, Classical.not_not.1 h, rfl, hs⟩

theorem setNpw_spec {bytes : List Nat} {fuel : Nat} {m : Mod} {p : Nat} (hg : m.conf.Good) (hs : SizesOk bytes m)
    (hsm : m.nFrames < 2 ^ 24) (hp : 0 < p) (hp' : m.single = true → p < 2 ^ 24) (hfuel : 0 < fuel ∨ m.nFrames = p) :
    ∃ m', Mod.setNpw fuel m p = ⟨m', none⟩ ∧ m'.conf.Good ∧ m'.npw = p ∧ m'.single = m.single ∧ SizesOk bytes m' ∧
      m'.nFrames = if m.single = true then p else m.nFrames := by
  unfold Mod.setNpw
  obtain ⟨m1, e1, g1, n1, p1, s1, z1⟩ := maybeWave hg hs hsm hp
  rw [e1, seq_none]
  by_cases hc : m1.single = true ∧ m1.nFrames ≠ p
  · rw [if_pos hc]
    obtain ⟨f, rfl⟩ : ∃ f, fuel = f + 1 := ⟨fuel - 1, by omega⟩
    simp only []
    unfold Mod.setNFrames
    obtain ⟨m2, e2, g2, n2, p2, s2, z2⟩ := maybeFrames (n := p) g1 z1 hp (hp' (s1 ▸ hc.1))
    rw [e2, seq_none, if_neg (by rw [p2, p1]; simp)]
    refine ⟨m2, rfl, g2, p2.trans p1, s2.trans s1, z2, ?_⟩
    rw [n2, if_pos (s1 ▸ hc.1)]
  · rw [if_neg hc]
    refine ⟨m1, rfl, g1, p1, s1, z1, ?_⟩
    by_cases hss : m.single = true
    · rw [if_pos hss]
      by_contra h
      exact hc ⟨s1 ▸ hss, h⟩
    · rw [if_neg hss, n1]

theorem setNFrames_spec {bytes : List Nat} {fuel : Nat} {m : Mod} {n : Nat} (hg : m.conf.Good) (hs : SizesOk bytes m)
    (hn : 0 < n) (hn' : n < 2 ^ 24) (hfuel : 0 < fuel ∨ m.npw = n) :
    ∃ m', Mod.setNFrames fuel m n = ⟨m', none⟩ ∧ m'.conf.Good ∧ m'.nFrames = n ∧ m'.single = m.single ∧ SizesOk bytes m' ∧
      m'.npw = if m.single = true then n else m.npw := by
  unfold Mod.setNFrames
  obtain ⟨m1, e1, g1, n1, p1, s1, z1⟩ := maybeFrames (n := n) hg hs hn hn'
  rw [e1, seq_none]
  by_cases hc : m1.single = true ∧ m1.npw ≠ n
  · rw [if_pos hc]
    obtain ⟨f, rfl⟩ : ∃ f, fuel = f + 1 := ⟨fuel - 1, by omega⟩
    simp only []
    obtain ⟨m2, e2, g2, p2, s2, z2, n2⟩ := setNpw_spec (fuel := f) g1 z1 (by omega) hn (fun _ => hn') (Or.inr n1)
    refine ⟨m2, e2, g2, ?_, s2.trans s1, z2, ?_⟩
    · rw [n2, if_pos hc.1]
    · rw [p2, if_pos (s1 ▸ hc.1)]
  · rw [if_neg hc]
    refine ⟨m1, rfl, g1, n1, s1, z1, ?_⟩
    by_cases hss : m.single = true
    · rw [if_pos hss]
      by_contra h
      exact hc ⟨s1 ▸ hss, h⟩
    · rw [if_neg hss, p1]

end Verif.Module
