import Verif.Proof.PolarMKDet
import Verif.Proof.BCJRDec

/-! # The multi-kernel polar encoder -/

namespace Verif.PolarMK
open Exec Finset

variable {w : Nat}

theorem ofBit_lsb (hw : 0 < w) (b : Bool) : (ofBit b : BitVec w).getLsbD 0 = b := by
  cases b <;> simp [ofBit, hw]

theorem and_ofBit (hw : 0 < w) (a : BitVec w) (b : Bool) : (a &&& ofBit b).toNat = if (a.getLsbD 0 && b) then 1 else 0 := by
  cases b
  · simp [ofBit]
  · have h1 : (1#w).toNat = 1 := by
      rw [BitVec.toNat_ofNat, Nat.mod_eq_of_lt (Nat.one_lt_two_pow (by omega))]
    simp only [ofBit, if_true, BitVec.toNat_and, h1, Bool.and_true, Nat.and_one_is_mod, BitVec.getLsbD, Nat.testBit_zero]
    rcases Nat.mod_two_eq_zero_or_one a.toNat with h | h <;> simp [h]

theorem bit_some {x : List (BitVec w)} {i : Nat} {v : BitVec w} (h : x[i]? = some v) : bit x i = v.getLsbD 0 := by
  unfold bit
  rw [List.getD_eq_getElem?_getD, h]; rfl

/-- The flat table of a transposed kernel. -/
def Flat (K : Kernel) (t : List (BitVec w)) : Prop :=
  t.length = K.length * K.length ∧ ∀ i j, i < K.length → j < K.length → t[i * K.length + j]? = some (ofBit (entry K j i))

theorem flatKernel_sat {K : Kernel} (hs : Square K) : (flatKernel (w := w) K).Sat (Flat K) := by
  unfold flatKernel
  have hb : ∀ i j, i < K.length → j < K.length → i * K.length + j < K.length * K.length := by
    intro i j hi hj
    calc i * K.length + j < i * K.length + K.length := by omega
      _ = (i + 1) * K.length := by ring
      _ ≤ K.length * K.length := Nat.mul_le_mul_right _ hi
  refine (forN_inv (fun m (o : List (BitVec w)) => o.length = K.length * K.length ∧
    ∀ i j, i < m → j < K.length → o[i * K.length + j]? = some (ofBit (entry K j i)))
    ⟨by simp, by intro i j hi; omega⟩ ?_).mono ?_
  · rintro m o hm ⟨h1, h2⟩
    refine (forN_inv (fun n (o : List (BitVec w)) => o.length = K.length * K.length ∧
      (∀ i j, i < m → j < K.length → o[i * K.length + j]? = some (ofBit (entry K j i))) ∧
      ∀ j, j < n → o[m * K.length + j]? = some (ofBit (entry K j m))) ⟨h1, h2, by intro j hj; omega⟩ ?_).mono ?_
    · rintro n o hn ⟨g1, g2, g3⟩
      have := hb m n hm hn
      rw [rd2_sat ⟨rfl, hs⟩ hn hm, bind_ok, wr_lt (by omega), sat_ok]
      refine ⟨by simpa using g1, ?_, ?_⟩
      · intro i j hi hj
        rw [List.getElem?_set_ne]
        · exact g2 i j hi hj
        · have : (i + 1) * K.length ≤ m * K.length := Nat.mul_le_mul_right _ hi
          rw [Nat.add_mul] at this
          omega
      · intro j hj
        by_cases hjn : j = n
        · subst hjn; rw [List.getElem?_set_self (by omega)]
        · rw [List.getElem?_set_ne (by omega)]; exact g3 j (by omega)
    · rintro o ⟨g1, g2, g3⟩
      refine ⟨g1, ?_⟩
      intro i j hi hj
      by_cases him : i = m
      · subst him; exact g3 j hj
      · exact g2 i j (by omega) hj
  · rintro o ⟨h1, h2⟩
    exact ⟨h1, h2⟩

theorem flatKernels_sat {ks : List Kernel} (hs : ∀ K ∈ ks, Square K) :
    (flatKernels (w := w) ks).Sat fun t => t.length = ks.length ∧
      ∀ (s : Nat) (K : Kernel), ks[s]? = some K → ∃ f, t[s]? = some f ∧ Flat K f := by
  unfold flatKernels
  refine forEach_inv (fun (p : List Kernel) (t : List (List (BitVec w))) => t.length = p.length ∧
    ∀ (s : Nat) (K : Kernel), p[s]? = some K → ∃ f, t[s]? = some f ∧ Flat K f) ⟨rfl, by simp⟩ ?_
  rintro p K q t he ⟨h1, h2⟩
  refine Sat.bind (flatKernel_sat (hs K (by rw [he]; simp))) ?_
  intro f hf
  rw [sat_ok]
  refine ⟨by simp [h1], ?_⟩
  intro s K' hK'
  by_cases hlt : s < p.length
  · rw [List.getElem?_append_left hlt] at hK'
    rw [List.getElem?_append_left (by omega)]
    exact h2 s K' hK'
  · rw [List.getElem?_append_right (by omega)] at hK'
    have hs0 : s - p.length = 0 := by
      obtain ⟨hh, _⟩ := List.getElem?_eq_some_iff.mp hK'
      simp at hh; omega
    rw [hs0] at hK'
    simp only [List.getElem?_cons_zero, Option.some.injEq] at hK'
    subst hK'
    rw [List.getElem?_append_right (by omega), h1, hs0]
    exact ⟨f, rfl, hf⟩

theorem kernelSum_sat (hw : 0 < w) {K : Kernel} {ke u : List (BitVec w)} (hf : Flat K ke) (hu : K.length ≤ u.length)
    {i : Nat} (hi : i < K.length) :
    (kernelSum u ke K.length i).Sat fun s => (s : ZMod 2) = ∑ j ∈ range K.length, zb (bit u j) * zb (entry K j i) := by
  unfold kernelSum
  refine forN_inv (fun m (s : Nat) => (s : ZMod 2) = ∑ j ∈ range m, zb (bit u j) * zb (entry K j i)) (by simp) ?_
  intro m s hm hs
  have h1 := hf.2 i m hi hm
  rw [rd_lt (show m < u.length by omega), bind_ok, rd_eq h1, bind_ok, sat_ok, Nat.cast_add, hs, Finset.sum_range_succ,
    and_ofBit hw, ← zb_and]
  congr 1
  rw [bit_some (List.getElem?_eq_getElem (show m < u.length by omega))]
  cases (u[m].getLsbD 0 && entry K m i) <;> simp [zb]

theorem parity_bit (s : Nat) : (BitVec.ofNat w (s % 2) : BitVec w) = ofBit (decide (s % 2 = 1)) ∧
    zb (decide (s % 2 = 1)) = (s : ZMod 2) := by
  have h2 : (s : ZMod 2) = ((s % 2 : Nat) : ZMod 2) := (ZMod.natCast_mod s 2).symm
  rw [h2]
  rcases Nat.mod_two_eq_zero_or_one s with h | h <;> rw [h] <;> simp [zb, ofBit]

/-- Entry `j` of the input of kernel `(b, k)` of a stage, and the value of its output `i`. -/
def outVal (K : Kernel) (nk b k : Nat) (x : Nat → ZMod 2) (i : Nat) : ZMod 2 :=
  ∑ j ∈ range K.length, x (b * nk * K.length + nk * j + k) * zb (entry K j i)

theorem oneKernel_sat (hw : 0 < w) {K : Kernel} {ke : List (BitVec w)} (hf : Flat K ke) {nk b k : Nat} (hnk : 0 < nk)
    {s : Buf w} (hidx : K.length ≤ s.idx.length) (hu : K.length ≤ s.u.length)
    (hx : ∀ i, i < K.length → b * nk * K.length + nk * i + k < s.x.length) :
    (oneKernel ke K.length nk b k s).Sat fun s' => s'.x.length = s.x.length ∧ s'.idx.length = s.idx.length ∧
      s'.u.length = s.u.length ∧
      (∀ i, i < K.length → ∃ c, s'.x[b * nk * K.length + nk * i + k]? = some (ofBit c) ∧
        zb c = outVal K nk b k (fun p => zb (bit s.x p)) i) ∧
      ∀ p : Nat, (∀ i, i < K.length → p ≠ b * nk * K.length + nk * i + k) → s'.x[p]? = s.x[p]? := by
  unfold oneKernel
  refine Sat.bind (forN_inv (fun m (t : List Nat × List (BitVec w)) => t.1.length = s.idx.length ∧
    t.2.length = s.u.length ∧ (∀ i, i < m → t.1[i]? = some (b * nk * K.length + nk * i + k)) ∧
    ∀ i, i < m → t.2[i]? = s.x[b * nk * K.length + nk * i + k]?) ⟨rfl, rfl, by intro i hi; omega, by intro i hi; omega⟩ ?_) ?_
  · rintro m ⟨ix, u⟩ hm ⟨h1, h2, h3, h4⟩
    simp only at h1 h2 h3 h4
    have hlt := hx m hm
    rw [wr_lt (show m < ix.length by omega), bind_ok, rd_eq (List.getElem?_set_self (by omega)), bind_ok,
      rd_lt hlt, bind_ok, wr_lt (show m < u.length by omega), bind_ok, sat_ok]
    refine ⟨by simpa using h1, by simpa using h2, ?_, ?_⟩
    · intro i hi
      simp only
      by_cases him : i = m
      · subst him; rw [List.getElem?_set_self (by omega)]
      · rw [List.getElem?_set_ne (by omega)]; exact h3 i (by omega)
    · intro i hi
      simp only
      by_cases him : i = m
      · subst him; rw [List.getElem?_set_self (by omega), List.getElem?_eq_getElem hlt]
      · rw [List.getElem?_set_ne (by omega)]; exact h4 i (by omega)
  · rintro ⟨ix, u⟩ ⟨h1, h2, h3, h4⟩
    simp only at h1 h2 h3 h4
    have hsum : ∀ i, i < K.length → ∑ j ∈ range K.length, zb (bit u j) * zb (entry K j i) =
        outVal K nk b k (fun p => zb (bit s.x p)) i := by
      intro i _
      apply Finset.sum_congr rfl
      intro j hj
      have hj := Finset.mem_range.mp hj
      have := h4 j hj
      rw [List.getElem?_eq_getElem (hx j hj)] at this
      rw [bit_some this, ← bit_some (List.getElem?_eq_getElem (hx j hj))]
    unfold applyKernel
    refine Sat.bind (forN_inv (fun m (x : List (BitVec w)) => x.length = s.x.length ∧
      (∀ i, i < m → ∃ c, x[b * nk * K.length + nk * i + k]? = some (ofBit c) ∧
        zb c = outVal K nk b k (fun p => zb (bit s.x p)) i) ∧
      ∀ p : Nat, (∀ i, i < m → p ≠ b * nk * K.length + nk * i + k) → x[p]? = s.x[p]?)
      ⟨rfl, by intro i hi; omega, by intro p _; rfl⟩ ?_) ?_
    · rintro m x hm ⟨g1, g2, g3⟩
      refine Sat.bind (kernelSum_sat hw hf (u := u) (by omega) hm) ?_
      intro sum hs
      have hlt := hx m hm
      rw [rd_eq (h3 m hm), bind_ok, wr_lt (by omega), sat_ok]
      obtain ⟨p1, p2⟩ := parity_bit (w := w) sum
      refine ⟨by simpa using g1, ?_, ?_⟩
      · intro i hi
        by_cases him : i = m
        · subst him
          rw [List.getElem?_set_self (by omega), p1]
          exact ⟨_, rfl, by rw [p2, hs, hsum i hm]⟩
        · have : nk * i ≠ nk * m := fun h => him (Nat.eq_of_mul_eq_mul_left hnk h)
          rw [List.getElem?_set_ne (by omega)]
          exact g2 i (by omega)
      · intro p hp
        rw [List.getElem?_set_ne (fun h => hp m (by omega) h.symm)]
        exact g3 p fun i hi => hp i (by omega)
    · rintro x ⟨g1, g2, g3⟩
      rw [sat_ok]
      exact ⟨g1, h1, h2, g2, g3⟩

/-- All the kernels of a stage. -/
theorem stageLoop_sat (hw : 0 < w) {K : Kernel} {ke : List (BitVec w)} (hf : Flat K ke) (hK : 0 < K.length) {nk M N : Nat}
    (hnk : 0 < nk) {s : Buf w} (hidx : K.length ≤ s.idx.length) (hu : K.length ≤ s.u.length)
    (hN : N = M * (nk * K.length)) (hx : s.x.length = N) :
    (forN M (fun b => forN nk (fun k => oneKernel ke K.length nk b k)) s).Sat fun s' =>
      s'.x.length = N ∧ s'.idx.length = s.idx.length ∧ s'.u.length = s.u.length ∧
      ∀ p, p < N → ∃ c, s'.x[p]? = some (ofBit c) ∧
        zb c = st nk K.length (fun a b => zb (entry K a b)) (fun p => zb (bit s.x p)) p := by
  rw [forN_nested]
  have hm : 0 < nk * K.length := Nat.mul_pos hnk hK
  -- the turn that writes a position
  have hpos : ∀ p, p = p / (nk * K.length) * nk * K.length + nk * (p / nk % K.length) + p % nk := by
    intro p
    have h1 := Nat.div_add_mod p nk
    have h2 := Nat.div_add_mod (p / nk) K.length
    rw [Nat.div_div_eq_div_mul] at h2
    calc p = nk * (p / nk) + p % nk := h1.symm
      _ = nk * (K.length * (p / (nk * K.length)) + p / nk % K.length) + p % nk := by rw [h2]
      _ = _ := by ring
  have huniq : ∀ b i k, i < K.length → k < nk → (b * nk * K.length + nk * i + k) / (nk * K.length) = b ∧
      (b * nk * K.length + nk * i + k) / nk % K.length = i ∧ (b * nk * K.length + nk * i + k) % nk = k := by
    intro b i k hi hk
    have e1 : b * nk * K.length + nk * i + k = k + nk * (b * K.length + i) := by ring
    have e2 : (b * nk * K.length + nk * i + k) / nk = b * K.length + i := by
      rw [e1, Nat.add_mul_div_left _ _ hnk, Nat.div_eq_of_lt hk, Nat.zero_add]
    refine ⟨?_, ?_, ?_⟩
    · rw [← Nat.div_div_eq_div_mul, e2, Nat.mul_comm b, Nat.mul_add_div hK, Nat.div_eq_of_lt hi, Nat.add_zero]
    · rw [e2, Nat.mul_comm b, Nat.mul_add_mod, Nat.mod_eq_of_lt hi]
    · rw [e1, Nat.add_mul_mod_self_left, Nat.mod_eq_of_lt hk]
  have hdm : ∀ t, t / nk * nk + t % nk = t := fun t => by rw [Nat.mul_comm]; exact Nat.div_add_mod t nk
  refine (forN_inv (fun t (s' : Buf w) => s'.x.length = N ∧ s'.idx.length = s.idx.length ∧
    s'.u.length = s.u.length ∧ ∀ p, p < N →
      (p / (nk * K.length) * nk + p % nk < t → ∃ c, s'.x[p]? = some (ofBit c) ∧
        zb c = st nk K.length (fun a b => zb (entry K a b)) (fun p => zb (bit s.x p)) p) ∧
      (t ≤ p / (nk * K.length) * nk + p % nk → s'.x[p]? = s.x[p]?))
    ⟨hx, rfl, rfl, fun p _ => ⟨by intro h; omega, fun _ => rfl⟩⟩ ?_).mono ?_
  · rintro t s' ht ⟨h1, h2, h3, h4⟩
    have htM : t / nk < M := Nat.div_lt_of_lt_mul (by rw [Nat.mul_comm]; exact ht)
    have hk := Nat.mod_lt t hnk
    have hlt : ∀ i, i < K.length → t / nk * nk * K.length + nk * i + t % nk < N := by
      intro i hi
      rw [hN]
      have a1 : nk * (i + 1) ≤ nk * K.length := Nat.mul_le_mul_left _ hi
      have a2 : (t / nk + 1) * (nk * K.length) ≤ M * (nk * K.length) := Nat.mul_le_mul_right _ htM
      rw [Nat.mul_add] at a1
      rw [Nat.add_mul, Nat.one_mul, ← Nat.mul_assoc] at a2
      omega
    refine (oneKernel_sat hw hf hnk (b := t / nk) (k := t % nk) (s := s') (by omega) (by omega) (by
      intro i hi; rw [h1]; exact hlt i hi)).mono ?_
    rintro s2 ⟨g1, g2, g3, g4, g5⟩
    refine ⟨by omega, by omega, by omega, ?_⟩
    intro p hp
    by_cases hturn : p / (nk * K.length) * nk + p % nk = t
    · refine ⟨fun _ => ?_, by omega⟩
      have hb : p / (nk * K.length) = t / nk := by
        rw [← hturn, Nat.mul_comm _ nk, Nat.mul_add_div hnk, Nat.div_eq_of_lt (Nat.mod_lt _ hnk), Nat.add_zero]
      have hkk : p % nk = t % nk := by
        rw [← hturn, Nat.mul_comm _ nk, Nat.mul_add_mod, Nat.mod_mod]
      obtain ⟨c, c1, c2⟩ := g4 (p / nk % K.length) (Nat.mod_lt _ hK)
      rw [← hb, ← hkk, ← hpos p] at c1
      refine ⟨c, c1, ?_⟩
      rw [c2]
      unfold outVal st
      apply Finset.sum_congr rfl
      intro j hj
      have hj := Finset.mem_range.mp hj
      congr 1
      have hq := hlt j hj
      obtain ⟨q1, _, q3⟩ := huniq (t / nk) j (t % nk) hj hk
      have := (h4 _ hq).2 (by rw [q1, q3, hdm])
      have e : p / (nk * K.length) * (nk * K.length) + nk * j + p % nk = t / nk * nk * K.length + nk * j + t % nk := by
        rw [hb, hkk]; ring
      rw [e]
      show zb (bit s'.x _) = zb (bit s.x _)
      unfold bit
      rw [List.getD_eq_getElem?_getD, List.getD_eq_getElem?_getD, this]
    · have hne : ∀ i, i < K.length → p ≠ t / nk * nk * K.length + nk * i + t % nk := by
        intro i hi he
        apply hturn
        obtain ⟨q1, _, q3⟩ := huniq (t / nk) i (t % nk) hi hk
        rw [he, q1, q3, hdm]
      rw [g5 p hne]
      exact ⟨fun h => (h4 p hp).1 (by omega), fun h => (h4 p hp).2 (by omega)⟩
  · rintro s' ⟨h1, h2, h3, h4⟩
    refine ⟨h1, h2, h3, fun p hp => (h4 p hp).1 ?_⟩
    have hb : p / (nk * K.length) < M := Nat.div_lt_of_lt_mul (by rw [Nat.mul_comm, ← hN]; exact hp)
    have := Nat.mod_lt p hnk
    have a : (p / (nk * K.length) + 1) * nk ≤ M * nk := Nat.mul_le_mul_right _ hb
    rw [Nat.add_mul, Nat.one_mul] at a
    omega

/-- What the constructor of a code ensures. -/
structure CodeOk (c : Code) : Prop where
  ne : c.stages ≠ []
  kern : ∀ K ∈ c.kernels, Square K ∧ K ≠ []
  stg : ∀ s ∈ c.stages, s < c.kernels.length
  len : c.N = size c.stageKernels
  int : c.N < 2 ^ 31

/-- What the constructor of the encoder and its calls preserve. -/
structure EncOk (e : Enc w) : Prop where
  ke : ∀ (s : Nat) (K : Kernel), e.code.kernels[s]? = some K → ∃ f, e.ke[s]? = some f ∧ Flat K f
  idx : ∀ K ∈ e.code.kernels, K.length ≤ e.idx.length
  u : ∀ K ∈ e.code.kernels, K.length ≤ e.u.length

theorem size_append (a b : List Kernel) : size (a ++ b) = size a * size b := by simp [size]

theorem size_pos {Ks : List Kernel} (h : ∀ K ∈ Ks, K ≠ []) : 0 < size Ks := by
  unfold size
  apply List.prod_pos
  intro n hn
  obtain ⟨K', hK', rfl⟩ := List.mem_map.mp hn
  exact List.length_pos_iff.mpr (h K' hK')

theorem CodeOk.kernel {c : Code} (hc : CodeOk c) {s : Nat} (hs : s ∈ c.stages) :
    c.kernels[s]? = some (c.kernels.getD s []) ∧ c.kernels.getD s [] ∈ c.kernels := by
  have := hc.stg s hs
  rw [getD_lt [] this]
  exact ⟨List.getElem?_eq_getElem this, List.getElem_mem this⟩

theorem CodeOk.stage_kern {c : Code} (hc : CodeOk c) {K : Kernel} (h : K ∈ c.stageKernels) : Square K ∧ K ≠ [] := by
  obtain ⟨s, hs, rfl⟩ := List.mem_map.mp h
  exact hc.kern _ (hc.kernel hs).2

theorem zb_transform (Ks : List Kernel) (x : List (BitVec w)) (p : Nat) (hp : p < size Ks) :
    zb (decide (((List.range (size Ks)).filter fun a => bit x a && kron Ks a p).length % 2 = 1)) =
      T (fam Ks) (fun p => zb (bit x p)) p := by
  rw [zb_parity, T_lt _ _ _ (by rw [fsize_fam]; exact hp), fsize_fam]
  apply Finset.sum_congr rfl
  intro a _
  rw [zb_and, zb_kron]

/-- `light_encode` is the transform. -/
theorem lightEncode_sat (hw : 0 < w) {e : Enc w} (hc : CodeOk e.code) (he : EncOk e) (hN : e.core.N = e.code.N)
    {s : Buf w} (hidx : s.idx.length = e.idx.length) (hu : s.u.length = e.u.length) (hx : s.x.length = e.core.N) :
    (e.lightEncode s).Sat fun s' => s'.x = transform e.code.stageKernels s.x ∧ s'.idx.length = e.idx.length ∧
      s'.u.length = e.u.length := by
  unfold Enc.lightEncode
  let kp := fun p : List Nat => p.map fun s => e.code.kernels.getD s []
  refine Sat.bind (forEach_inv (fun (p : List Nat) (t : Nat × Buf w) => t.1 = size (kp p) ∧ t.2.x.length = e.core.N ∧
    t.2.idx.length = e.idx.length ∧ t.2.u.length = e.u.length ∧
    (∀ i, i < e.core.N → zb (bit t.2.x i) = T (fam (kp p)) (fun p => zb (bit s.x p)) i) ∧
    (p ≠ [] → ∀ i, i < e.core.N → ∃ c, t.2.x[i]? = some (ofBit c))) ⟨rfl, hx, hidx, hu, by
      intro i _; exact (T_nil (fun p => zb (bit s.x p)) i).symm, by intro h; exact absurd rfl h⟩ ?_) ?_
  · rintro p a q ⟨nk, b⟩ hl ⟨h1, h2, h3, h4, h5, _⟩
    simp only at h1 h2 h3 h4 h5
    have ha : a ∈ e.code.stages := by rw [hl]; simp
    obtain ⟨k1, k2⟩ := hc.kernel ha
    obtain ⟨k3, k4⟩ := hc.kern _ k2
    generalize hK : e.code.kernels.getD a [] = K at k1 k2 k3 k4
    have hKpos := List.length_pos_iff.mpr k4
    have hkp : kp (p ++ [a]) = kp p ++ [K] := by simp only [kp, List.map_append, List.map_cons, List.map_nil, hK]
    have hppos : 0 < size (kp p) := by
      apply size_pos
      intro K' hK'
      apply (hc.stage_kern (K := K') _).2
      unfold Code.stageKernels
      rw [hl, List.map_append]
      exact List.mem_append_left _ hK'
    have hq : 0 < size (kp q) := by
      apply size_pos
      intro K' hK'
      apply (hc.stage_kern (K := K') _).2
      unfold Code.stageKernels
      rw [hl, List.map_append, List.map_cons]
      exact List.mem_append_right _ (List.mem_cons_of_mem _ hK')
    have hNs : e.core.N = size (kp q) * (nk * K.length) := by
      rw [hN, hc.len]
      unfold Code.stageKernels
      rw [hl, List.map_append, List.map_cons, size_append, hK]
      have : size (K :: kp q) = K.length * size (kp q) := by simp [size]
      simp only [kp] at this ⊢
      rw [this, h1]
      simp only [kp]
      ring
    have hm : 0 < nk * K.length := by rw [h1]; exact Nat.mul_pos hppos hKpos
    have hmi : nk * K.length < 2 ^ 31 := by
      have hle : nk * K.length ≤ size (kp q) * (nk * K.length) := Nat.le_mul_of_pos_left _ hq
      have := hc.int
      omega
    obtain ⟨f, f1, f2⟩ := he.ke a K k1
    unfold stage
    rw [rd_eq k1, bind_ok]
    unfold mulI
    rw [if_pos hmi, bind_ok, if_neg (Nat.pos_iff_ne_zero.mp hm), rd_eq f1, bind_ok]
    have hdiv : e.core.N / (nk * K.length) = size (kp q) := by
      rw [hNs, Nat.mul_div_cancel _ hm]
    simp only
    rw [hdiv]
    have hnk : 0 < nk := by rw [h1]; exact hppos
    refine Sat.bind (stageLoop_sat hw f2 hKpos hnk (s := b) (by rw [h3]; exact he.idx K k2) (by
      rw [h4]; exact he.u K k2) hNs h2) ?_
    rintro b' ⟨g1, g2, g3, g4⟩
    rw [sat_ok]
    refine ⟨?_, g1, g2.trans h3, g3.trans h4, ?_, ?_⟩
    · rw [hkp, size_append, h1]; simp [size]
    · intro i hi
      obtain ⟨c, c1, c2⟩ := g4 i hi
      rw [bit_some c1, ofBit_lsb hw, c2, hkp]
      have hfam : fam (kp p ++ [K]) = fam (kp p) ++ [(K.length, fun a b => zb (entry K a b))] := by simp [fam]
      rw [hfam, T_snoc _ _ _ _ _ (by rw [fsize_fam]; exact hppos) hKpos, fsize_fam, ← h1]
      unfold st
      apply Finset.sum_congr rfl
      intro j hj
      have hj := Finset.mem_range.mp hj
      congr 1
      apply h5
      -- the position read is in the same block
      have b1 : i / (nk * K.length) < size (kp q) := Nat.div_lt_of_lt_mul (by rw [Nat.mul_comm, ← hNs]; exact hi)
      have b2 : (i / (nk * K.length) + 1) * (nk * K.length) ≤ size (kp q) * (nk * K.length) := Nat.mul_le_mul_right _ b1
      have b3 : nk * (j + 1) ≤ nk * K.length := Nat.mul_le_mul_left _ hj
      have b4 := Nat.mod_lt i hnk
      rw [Nat.mul_add] at b3
      rw [Nat.add_mul, Nat.one_mul] at b2
      omega
    · intro _ i hi
      obtain ⟨c, c1, _⟩ := g4 i hi
      exact ⟨c, c1⟩
  · rintro ⟨nk, b⟩ ⟨h1, h2, h3, h4, h5, h6⟩
    rw [sat_ok]
    refine ⟨?_, h3, h4⟩
    simp only at h2 h5 h6 ⊢
    have hsz : e.core.N = size e.code.stageKernels := by rw [hN, hc.len]
    apply eq_mapRange (by rw [h2, hsz])
    intro i hi
    rw [← hsz] at hi
    obtain ⟨c, hcc⟩ := h6 hc.ne i hi
    rw [hcc]
    congr 2
    apply zb_inj
    rw [zb_transform _ _ _ (by omega), ← ofBit_lsb hw c, ← bit_some hcc]
    exact h5 i hi

end Verif.PolarMK
