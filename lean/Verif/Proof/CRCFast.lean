import Verif.Proof.CRC
import Verif.Proof.BitPacker

/-! # The table driven CRC computes the same remainder -/

namespace Verif
theorem loopN_succ' {σ : Type _} (n : Nat) (f : Nat → σ → σ) (s : σ) :
    loopN (n + 1) f s = loopN n (fun i => f (i + 1)) (f 0 s) := by
  induction n with
  | zero => rfl
  | succ n ih => rw [loopN_succ, ih, loopN_succ]

theorem loopN_add {σ : Type _} (n m : Nat) (f : Nat → σ → σ) (s : σ) :
    loopN (n + m) f s = loopN m (fun i => f (n + i)) (loopN n f s) := by
  induction m with
  | zero => rfl
  | succ m ih => rw [← Nat.add_assoc, loopN_succ, ih, loopN_succ]

theorem loopN_congr {σ : Type _} {n : Nat} {f g : Nat → σ → σ} {s : σ} (h : ∀ i, i < n → f i = g i) :
    loopN n f s = loopN n g s := by
  induction n with
  | zero => rfl
  | succ n ih =>
    rw [loopN_succ, loopN_succ, ih fun i hi => h i (by omega), h n (by omega)]
end Verif

namespace Verif.CRC
open Exec Polynomial GF2

theorem testBit_crcStep (rev a i : Nat) :
    (crcStep rev a).testBit i = (a.testBit (i + 1) ^^ (a.testBit 0 && rev.testBit i)) := by
  unfold crcStep
  rw [Nat.testBit_xor, Nat.testBit_shiftRight, Nat.add_comm 1 i, Nat.testBit_zero]
  by_cases h : a % 2 = 1 <;> simp [h]

theorem crcStep_xor (rev a b : Nat) : crcStep rev (a ^^^ b) = crcStep rev a ^^^ crcStep rev b := by
  apply Nat.eq_of_testBit_eq
  intro i
  simp only [testBit_crcStep, Nat.testBit_xor]
  cases a.testBit (i + 1) <;> cases b.testBit (i + 1) <;> cases a.testBit 0 <;> cases b.testBit 0 <;>
    cases rev.testBit i <;> rfl

theorem testBit_toNat (b : Bool) (i : Nat) : b.toNat.testBit i = (decide (i = 0) && b) := by
  cases b
  · simp
  · rw [show true.toNat = 2 ^ 1 - 1 from rfl, Nat.testBit_two_pow_sub_one]
    simp

/-- One register step fed with one bit. -/
def feed1 (rev : Nat) (bits : Nat → Bool) (t c : Nat) : Nat := crcStep rev (c ^^^ (bits t).toNat)

theorem feed_word (rev m : Nat) : ∀ (c B : Nat), B < 2 ^ m →
    loopN m (fun _ c => crcStep rev c) (c ^^^ B) = loopN m (feed1 rev B.testBit) c := by
  induction m with
  | zero => intro c B hB; have : B = 0 := by simpa using hB
            subst this; simp
  | succ m ih =>
    intro c B hB
    rw [loopN_succ', loopN_succ']
    have e : crcStep rev (c ^^^ B) = feed1 rev B.testBit 0 c ^^^ (B / 2) := by
      apply Nat.eq_of_testBit_eq
      intro i
      simp only [feed1, testBit_crcStep, Nat.testBit_xor, testBit_toNat, Nat.testBit_div_two]
      cases c.testBit (i + 1) <;> cases B.testBit (i + 1) <;> cases c.testBit 0 <;> cases B.testBit 0 <;>
        cases rev.testBit i <;> simp
    rw [e, ih _ _ (by rw [Nat.pow_succ] at hB; omega)]
    apply loopN_congr
    intro i _
    funext c
    simp only [feed1, Nat.testBit_div_two]

theorem loop_xor (rev m a b : Nat) :
    loopN m (fun _ c => crcStep rev c) (a ^^^ b) =
      loopN m (fun _ c => crcStep rev c) a ^^^ loopN m (fun _ c => crcStep rev c) b := by
  induction m with
  | zero => rfl
  | succ m ih => rw [loopN_succ, loopN_succ, loopN_succ, ih, crcStep_xor]

theorem loop_shift (rev m x : Nat) : loopN m (fun _ c => crcStep rev c) (x <<< m) = x := by
  induction m generalizing x with
  | zero => rfl
  | succ m ih =>
    rw [loopN_succ']
    have : crcStep rev (x <<< (m + 1)) = x <<< m := by
      apply Nat.eq_of_testBit_eq
      intro i
      rw [testBit_crcStep]
      simp only [Nat.testBit_shiftLeft]
      by_cases h : i ≥ m
      · simp [h]
      · simp [h]
    rw [this]; exact ih x

theorem lut_eq (rev c b : Nat) :
    (c >>> 8) ^^^ lutEntry rev ((c &&& 0xFF) ^^^ b) = loopN 8 (fun _ c => crcStep rev c) (c ^^^ b) := by
  have e : c ^^^ b = ((c >>> 8) <<< 8) ^^^ ((c &&& 0xFF) ^^^ b) := by
    apply Nat.eq_of_testBit_eq
    intro i
    rw [show (0xFF : Nat) = 2 ^ 8 - 1 from rfl]
    simp only [Nat.testBit_xor, Nat.testBit_shiftLeft, Nat.testBit_shiftRight, Nat.testBit_and,
      Nat.testBit_two_pow_sub_one]
    by_cases h : i ≥ 8
    · simp [h, show 8 + (i - 8) = i by omega, show ¬ i < 8 by omega]
    · simp [h, show i < 8 by omega]
  conv => rhs; rw [e]
  rw [loop_xor, loop_shift]
  rfl

theorem xor_zero_iff {a b : Nat} : a ^^^ b = 0 ↔ a = b := by
  constructor
  · intro h
    apply Nat.eq_of_testBit_eq
    intro i
    have : (a ^^^ b).testBit i = false := by rw [h]; simp
    rw [Nat.testBit_xor] at this
    revert this
    cases a.testBit i <;> cases b.testBit i <;> simp
  · rintro rfl; exact Nat.xor_self a

/-- Bit `t` of a packed buffer, lsb first. -/
def dataBit (data : List (BitVec 8)) (t : Nat) : Bool := (data.getD (t / 8) 0#8).getLsbD (t % 8)

theorem testBit_dataBit {data : List (BitVec 8)} {q i : Nat} (hi : i < 8) :
    (data.getD q 0#8).toNat.testBit i = dataBit data (q * 8 + i) := by
  unfold dataBit
  rw [show (q * 8 + i) / 8 = q by omega, show (q * 8 + i) % 8 = i by omega]
  rfl

theorem mask_eq {b : BitVec 8} {r : Nat} (hr : r ≤ 8) :
    ((b <<< (8 - r)) >>> (8 - r)).toNat = b.toNat % 2 ^ r := by
  apply Nat.eq_of_testBit_eq
  intro i
  rw [Nat.testBit_mod_two_pow]
  show ((b <<< (8 - r)) >>> (8 - r)).getLsbD i = (decide (i < r) && b.getLsbD i)
  rw [BitVec.getLsbD_ushiftRight, BitVec.getLsbD_shiftLeft]
  by_cases h : i < r
  · simp [h, show 8 - r + i < 8 by omega, show ¬ (8 - r + i < 8 - r) by omega,
      show 8 - r + i - (8 - r) = i by omega]
  · simp [h, show ¬ 8 - r + i < 8 by omega]

theorem rest_eq {rev : Nat} {data : List (BitVec 8)} {q r c : Nat} (hr : r ≤ 8) :
    loopN r (fun _ c => crcStep rev c) (c ^^^ (((data.getD q 0#8) <<< (8 - r)) >>> (8 - r)).toNat) =
      loopN r (fun t => feed1 rev (dataBit data) (q * 8 + t)) c := by
  rw [mask_eq hr, feed_word _ _ _ _ (Nat.mod_lt _ (Nat.two_pow_pos r))]
  apply loopN_congr
  intro i hi
  funext c
  simp only [feed1, Nat.testBit_mod_two_pow, hi, decide_true, Bool.true_and]
  rw [testBit_dataBit (by omega)]

theorem byte_eq {rev : Nat} {data : List (BitVec 8)} {q c : Nat} :
    loopN 8 (fun _ c => crcStep rev c) (c ^^^ (data.getD q 0#8).toNat) =
      loopN 8 (fun t => feed1 rev (dataBit data) (q * 8 + t)) c := by
  have := rest_eq (rev := rev) (data := data) (q := q) (r := 8) (c := c) (Nat.le_refl _)
  rwa [mask_eq (Nat.le_refl _), Nat.mod_eq_of_lt (data.getD q 0#8).isLt] at this

theorem bytes_eq {rev : Nat} {data : List (BitVec 8)} {n : Nat} (h : n ≤ data.length)
    {f : Nat → Nat → Exec Nat}
    (hf : ∀ q c, q < data.length → f q c = ok (loopN 8 (fun _ c => crcStep rev c) (c ^^^ (data.getD q 0#8).toNat))) :
    forN n f 0 = ok (loopN (n * 8) (feed1 rev (dataBit data)) 0) := by
  induction n with
  | zero => simp
  | succ n ih =>
    rw [forN_succ, ih (by omega), bind_ok, hf n _ (by omega), byte_eq, Nat.succ_mul, loopN_add]

theorem crcV3_eq {c : Crc} {data : List (BitVec 8)} {n : Nat} (h : BitPacker.nSymbols n 8 ≤ data.length) :
    c.crcV3 data n = ok (loopN n (feed1 c.rev (dataBit data)) 0) := by
  have hns : n / 8 ≤ data.length ∧ (n % 8 ≠ 0 → n / 8 < data.length) := by
    unfold BitPacker.nSymbols at h; omega
  unfold Crc.crcV3
  simp only []
  rw [bytes_eq (rev := c.rev) (data := data) hns.1, bind_ok]
  · by_cases hr : n % 8 ≠ 0
    · rw [if_pos hr, rd_lt (hns.2 hr), bind_ok, ← getD_lt 0#8 (hns.2 hr), rest_eq (by omega), ← loopN_add]
      congr 2
      omega
    · rw [if_neg hr]
      congr 2
      omega
  · intro q x hq
    rw [rd_lt hq, bind_ok]
    have hlt : (x &&& 0xFF) ^^^ (data[q]).toNat < 256 := by
      apply Nat.xor_lt_two_pow (n := 8)
      · exact Nat.lt_of_le_of_lt Nat.and_le_right (by omega)
      · exact (data[q]).isLt
    rw [rd_eq (a := lutEntry c.rev ((x &&& 0xFF) ^^^ (data[q]).toNat)) (by rw [getElem?_mapRange, if_pos hlt]),
      bind_ok, lut_eq, getD_lt 0#8 hq]

theorem crcV1_eq {c : Crc} {data : List (BitVec 8)} {n : Nat} (h : BitPacker.nSymbols n 8 ≤ data.length) :
    c.crcV1 data n = ok (loopN n (feed1 c.rev (dataBit data)) 0) := by
  have hns : n / 8 ≤ data.length ∧ (n % 8 ≠ 0 → n / 8 < data.length) := by
    unfold BitPacker.nSymbols at h; omega
  unfold Crc.crcV1
  simp only []
  rw [bytes_eq (rev := c.rev) (data := data) hns.1, bind_ok]
  · by_cases hr : n % 8 ≠ 0
    · rw [if_pos hr, rd_lt (hns.2 hr), bind_ok, ← getD_lt 0#8 (hns.2 hr), rest_eq (by omega), ← loopN_add]
      congr 2
      omega
    · rw [if_neg hr]
      congr 2
      omega
  · intro q x hq
    rw [rd_lt hq, bind_ok, getD_lt 0#8 hq]

theorem testBit_rev32 (p j : Nat) (hj : j < 32) : (rev32 p).testBit j = p.testBit (31 - j) := by
  have key : ∀ m, m ≤ 32 → ∀ j, (loopN m (fun i r => (r <<< 1) % 2 ^ 32 ||| ((p >>> i) &&& 1)) 0).testBit j =
      (decide (j < m) && p.testBit (m - 1 - j)) := by
    intro m
    induction m with
    | zero => simp
    | succ m ih =>
      intro hm j
      rw [loopN_succ, Nat.testBit_or, Nat.testBit_mod_two_pow, Nat.testBit_shiftLeft, Nat.testBit_and,
        Nat.testBit_shiftRight, ih (by omega), show (1 : Nat) = 2 ^ 1 - 1 from rfl, Nat.testBit_two_pow_sub_one]
      cases j with
      | zero => simp
      | succ j =>
        have e : m + 1 - 1 - (j + 1) = m - 1 - j := by omega
        by_cases h : j < m
        · simp [h, show j + 1 < 32 by omega]
          rw [show m - 1 - j = m - (j + 1) by omega]
        · simp [h]
  unfold rev32
  rw [key 32 (Nat.le_refl _)]
  simp [hj]

theorem testBit_rev {c : Crc} (h : c.WF) (i : Nat) :
    c.rev.testBit i = (decide (i < c.size) && c.packed.testBit (c.size - 1 - i)) := by
  have := h.size_le
  have hp := h.size_pos
  unfold Crc.rev
  rw [Nat.testBit_shiftRight]
  by_cases hi : i < c.size
  · rw [testBit_rev32 _ _ (by omega)]
    simp only [hi, decide_true, Bool.true_and]
    congr 1
    omega
  · simp only [hi, decide_false, Bool.false_and]
    apply Nat.testBit_lt_two_pow
    have hr : rev32 c.packed < 2 ^ 32 := by
      unfold rev32
      refine loopN_inv (fun _ r => r < 2 ^ 32) (by decide) ?_
      intro i s _ _
      apply Nat.or_lt_two_pow
      · exact Nat.mod_lt _ (by decide)
      · exact Nat.lt_of_le_of_lt Nat.and_le_right (by decide)
    exact Nat.lt_of_lt_of_le hr (Nat.pow_le_pow_right (by decide) (by omega))

/-- A Boolean as a field element. -/
def bz (b : Bool) : ZMod 2 := if b then 1 else 0

theorem bz_xor (a b : Bool) : bz (a ^^ b) = bz a + bz b := by
  cases a <;> cases b <;> decide

theorem bz_and (a b : Bool) : bz (a && b) = bz a * bz b := by
  cases a <;> cases b <;> decide

/-- The register holds the remainder of the bits fed so far. -/
theorem reg_inv {c : Crc} (h : c.WF) (d : Nat → Bool) (n : Nat) :
    (∀ i, c.size ≤ i → (loopN n (feed1 c.rev d) 0).testBit i = false) ∧
    genPoly c.packed c.size ∣ P n (fun k => bz (d k)) * X ^ c.size +
      P c.size (fun i => bz ((loopN n (feed1 c.rev d) 0).testBit i)) := by
  have hsz := h.size_pos
  refine loopN_inv (fun n (r : Nat) => (∀ i, c.size ≤ i → r.testBit i = false) ∧
    genPoly c.packed c.size ∣ P n (fun k => bz (d k)) * X ^ c.size + P c.size (fun i => bz (r.testBit i))) ?_ ?_
  · refine ⟨by simp, ?_⟩
    have : P c.size (fun i => bz ((0 : Nat).testBit i)) = 0 := by
      rw [← P_zero c.size]; apply P_congr; intro k _; simp [bz]
    rw [this]; simp [P]
  · rintro t r _ ⟨hr, hd⟩
    have tb : ∀ i, (feed1 c.rev d t r).testBit i =
        (r.testBit (i + 1) ^^ ((r.testBit 0 ^^ d t) && (decide (i < c.size) && c.packed.testBit (c.size - 1 - i)))) := by
      intro i
      rw [feed1, testBit_crcStep, testBit_rev h, Nat.testBit_xor, Nat.testBit_xor, testBit_toNat, testBit_toNat]
      simp
    refine ⟨?_, ?_⟩
    · intro i hi
      rw [tb, hr (i + 1) (by omega)]
      simp [show ¬ i < c.size by omega]
    · -- new = X * old + feedback * generator
      have key : P c.size (fun i => bz ((feed1 c.rev d t r).testBit i)) =
          X * P c.size (fun i => bz (r.testBit i)) + C (bz (d t)) * X ^ c.size +
            C (bz (r.testBit 0) + bz (d t)) * genPoly c.packed c.size := by
        rw [genPoly_eq]
        ext j
        rw [coeff_add, coeff_add, coeff_C_mul, coeff_C_mul, coeff_P, coeff_P, coeff_X_pow]
        by_cases hj : j < c.size
        · rw [if_pos hj, if_pos (show j < c.size + 1 by omega), if_neg (show ¬ j = c.size by omega), tb, bz_xor, bz_and,
            bz_xor]
          have e1 : bz (decide (c.size - 1 - j < c.size) && c.packed.testBit (c.size - 1 - (c.size - 1 - j))) =
              gbit c (c.size + 1 - 1 - j) := by
            unfold gbit
            rw [if_neg (by omega), show c.size - 1 - (c.size - 1 - j) = j by omega,
              show c.size - (c.size + 1 - 1 - j) = j by omega]
            simp [bz, show c.size - 1 - j < c.size by omega]
          have e2 : (X * P c.size fun i => bz (r.testBit i)).coeff j = bz (r.testBit (c.size - 1 - j + 1)) := by
            cases j with
            | zero => rw [coeff_X_mul_zero, hr _ (by omega)]; rfl
            | succ j =>
              rw [coeff_X_mul, coeff_P, if_pos (by omega)]
              congr 2
              omega
          rw [e1, e2]
          ring
        · rw [if_neg hj]
          by_cases hj2 : j = c.size
          · subst hj2
            have e2 : (X * P c.size fun i => bz (r.testBit i)).coeff c.size = bz (r.testBit 0) := by
              obtain ⟨s, hs⟩ : ∃ s, c.size = s + 1 := ⟨c.size - 1, by omega⟩
              rw [hs, coeff_X_mul, coeff_P, if_pos (by omega)]
              congr 2
              omega
            rw [e2, if_pos (by omega), show c.size + 1 - 1 - c.size = 0 by omega]
            simp only [gbit, if_true, Nat.lt_succ_self, mul_one]
            exact (CharTwo.add_self_eq_zero (bz (r.testBit 0) + bz (d t))).symm
          · have e2 : (X * P c.size fun i => bz (r.testBit i)).coeff j = 0 := by
              obtain ⟨s, hs⟩ : ∃ s, j = s + 1 := ⟨j - 1, by omega⟩
              rw [hs, coeff_X_mul, coeff_P, if_neg (by omega)]
            rw [e2, if_neg hj2, if_neg (by omega)]
            simp
      rw [key, P_succ]
      have e : (X * (P t fun k => bz (d k)) + C (bz (d t))) * X ^ c.size +
          (X * (P c.size fun i => bz (r.testBit i)) + C (bz (d t)) * X ^ c.size +
            C (bz (r.testBit 0) + bz (d t)) * genPoly c.packed c.size) =
          X * (P t (fun k => bz (d k)) * X ^ c.size + P c.size (fun i => bz (r.testBit i))) +
            C (bz (r.testBit 0) + bz (d t)) * genPoly c.packed c.size := by
        linear_combination add_self (C (bz (d t)) * X ^ c.size)
      rw [e]
      exact dvd_add (Dvd.dvd.mul_left hd _) (Dvd.intro_left _ rfl)

/-- Uniqueness of the remainder. -/
theorem rem_unique {c : Crc} {A : (ZMod 2)[X]} {f g : Nat → ZMod 2}
    (hf : genPoly c.packed c.size ∣ A + P c.size f) (hg : genPoly c.packed c.size ∣ A + P c.size g) :
    ∀ k, k < c.size → f k = g k := by
  obtain ⟨hm, hdeg⟩ := genPoly_monic c
  have : genPoly c.packed c.size ∣ P c.size f + P c.size g := by
    have := dvd_add hf hg
    have e : (A + P c.size f) + (A + P c.size g) = P c.size f + P c.size g := by
      linear_combination add_self A
    rwa [e] at this
  exact P_inj (eq_of_dvd_add hm hdeg (degree_P _ _) (degree_P _ _) this)

/-- State of the reading of the reference CRC: `n` bits left to read. -/
structure RefInv (c : Crc) (data : List (BitVec 8)) (s : Nat × Nat) : Prop where
  le : s.2 ≤ c.size
  bits : ∀ i, s.1.testBit i = (decide (i < c.size - s.2) && dataBit data (c.K + i))

theorem refBits_inv {c : Crc} {data : List (BitVec 8)} {p : Nat} :
    ∀ (fuel j : Nat) (s : Nat × Nat), j ≤ 8 → 8 - j ≤ fuel → RefInv c data s →
      p * 8 + j = c.K + (c.size - s.2) →
      RefInv c data (refBits c.size (data.getD p 0#8) j fuel s) ∧
      ((refBits c.size (data.getD p 0#8) j fuel s).2 = 0 ∨
        (p + 1) * 8 = c.K + (c.size - (refBits c.size (data.getD p 0#8) j fuel s).2)) ∧
      (j < 8 → 0 < s.2 → (refBits c.size (data.getD p 0#8) j fuel s).2 < s.2) ∧
      (refBits c.size (data.getD p 0#8) j fuel s).2 ≤ s.2 := by
  intro fuel
  induction fuel with
  | zero =>
    intro j s hj hf hs hp
    have : j = 8 := by omega
    subst this
    exact ⟨hs, Or.inr (by simp only [refBits]; omega), by omega, Nat.le_refl _⟩
  | succ fuel ih =>
    rintro j ⟨ref, n⟩ hj hf hs hp
    simp only at hp
    rw [refBits]
    by_cases hc : j < 8 ∧ n > 0
    · rw [if_pos hc]
      have hle := hs.le
      simp only at hle
      have hs' : RefInv c data (ref ||| ((((data.getD p 0#8).toNat >>> j) &&& 1) <<< (c.size - n)), n - 1) := by
        refine ⟨by simp only; omega, ?_⟩
        intro i
        have hb := hs.bits i
        simp only at hb ⊢
        rw [Nat.testBit_or, hb, Nat.testBit_shiftLeft, Nat.testBit_and, Nat.testBit_shiftRight,
          show (1 : Nat) = 2 ^ 1 - 1 from rfl, Nat.testBit_two_pow_sub_one]
        by_cases h1 : i < c.size - n
        · simp [h1, show ¬ (i ≥ c.size - n) by omega, show i < c.size - (n - 1) by omega]
        · by_cases h2 : i = c.size - n
          · subst h2
            have e : (data.getD p 0#8).toNat.testBit j = dataBit data (c.K + (c.size - n)) := by
              rw [← hp, testBit_dataBit hc.1]
            have e3 : c.size - n < c.size - (n - 1) := by omega
            simp only [Nat.lt_irrefl, decide_false, Bool.false_and, Bool.false_or, ge_iff_le, Nat.le_refl,
              decide_true, Bool.true_and, Nat.sub_self, Nat.add_zero, e, e3, Nat.zero_lt_one, Bool.and_true]
            simp [e3]
          · simp [h1, show ¬ (i < c.size - (n - 1)) by omega]
            intro _ _
            omega
      obtain ⟨h1, h2, h3, h4⟩ := ih (j + 1) _ (by omega) (by omega) hs' (by simp only; omega)
      refine ⟨h1, h2, fun _ _ => ?_, ?_⟩
      · simp only at h4; simp only; omega
      · simp only at h4; simp only; omega
    · rw [if_neg hc]
      refine ⟨hs, ?_, fun a b => absurd ⟨a, b⟩ hc, Nat.le_refl _⟩
      simp only
      by_cases hn : n = 0
      · left; exact hn
      · right; omega

theorem refLoop_inv {c : Crc} {data : List (BitVec 8)} (hlen : BitPacker.nSymbols (c.K + c.size) 8 ≤ data.length) :
    ∀ (fuel p : Nat) (s : Nat × Nat), s.2 ≤ fuel → RefInv c data s →
      (s.2 = 0 ∨ p * 8 = c.K + (c.size - s.2)) →
      (refLoop c.size data p fuel s).Sat fun s => s.2 = 0 ∧ RefInv c data s := by
  intro fuel
  induction fuel with
  | zero =>
    intro p s hf hs hp
    rw [refLoop, sat_ok]
    exact ⟨by omega, hs⟩
  | succ fuel ih =>
    intro p s hf hs hp
    rw [refLoop]
    by_cases hn : s.2 ≠ 0
    · rw [if_pos hn]
      have hle := hs.le
      have hp' : p * 8 = c.K + (c.size - s.2) := by rcases hp with h | h <;> omega
      have hlt : p < data.length := by
        have := BitPacker.lt_nSymbols (n := c.K + c.size) (b := 8) (t := p * 8) (by omega) (by omega)
        omega
      rw [rd_lt hlt, bind_ok, ← getD_lt 0#8 hlt]
      obtain ⟨h1, h2, h3, h4⟩ := refBits_inv (c := c) (data := data) (p := p) 8 0 s (by omega) (by omega) hs (by omega)
      exact ih (p + 1) _ (by have := h3 (by omega) (by omega); omega) h1 h2
    · rw [if_neg hn, sat_ok]
      exact ⟨by omega, hs⟩

/-- `_check_packed` compares the recomputed register with the bits that follow the payload. -/
theorem fastCheckPacked_iff {c : Crc} (h : c.WF) {data : List (BitVec 8)}
    (hlen : BitPacker.nSymbols (c.K + c.size) 8 ≤ data.length) :
    ∃ res, c.fastCheckPacked data = ok res ∧
      (res = true ↔ genPoly c.packed c.size ∣ P (c.K + c.size) (fun k => bz (dataBit data k))) := by
  have hsz := h.size_pos
  unfold Crc.fastCheckPacked
  simp only []
  have hK : BitPacker.nSymbols c.K 8 ≤ data.length := by
    unfold BitPacker.nSymbols at hlen ⊢; omega
  rw [crcV3_eq hK, bind_ok]
  have h0 : RefInv c data (0, c.size) := ⟨Nat.le_refl _, by intro i; simp⟩
  have href : (if c.K % 8 ≠ 0 then do
        let cur ← rd data (c.K / 8)
        let s := refBits c.size cur (c.K % 8) 8 (0, c.size)
        refLoop c.size data (c.K / 8 + 1) c.size s
      else refLoop c.size data (c.K / 8) c.size (0, c.size)).Sat fun s => s.2 = 0 ∧ RefInv c data s := by
    by_cases hr : c.K % 8 ≠ 0
    · rw [if_pos hr]
      have hlt : c.K / 8 < data.length := by
        have := BitPacker.lt_nSymbols (n := c.K + c.size) (b := 8) (t := c.K) (by omega) (by omega)
        omega
      rw [rd_lt hlt, bind_ok, ← getD_lt 0#8 hlt]
      obtain ⟨h1, h2, h3, h4⟩ := refBits_inv (c := c) (data := data) (p := c.K / 8) 8 (c.K % 8) (0, c.size)
        (by omega) (by omega) h0 (by simp only; omega)
      exact refLoop_inv hlen _ _ _ h4 h1 h2
    · rw [if_neg hr]
      exact refLoop_inv hlen _ _ _ (Nat.le_refl _) h0 (Or.inr (by simp only; omega))
  obtain ⟨s, hs, hs0, hinv⟩ := href
  rw [hs, bind_ok]
  refine ⟨_, rfl, ?_⟩
  obtain ⟨hhi, hdv⟩ := reg_inv h (dataBit data) c.K
  generalize loopN c.K (feed1 c.rev (dataBit data)) 0 = r at hhi hdv
  have e1 : ((r ^^^ s.1 == 0) = true) ↔ ∀ i, i < c.size → r.testBit i = dataBit data (c.K + i) := by
    rw [beq_iff_eq, xor_zero_iff]
    constructor
    · intro hh i hi
      rw [hh, hinv.bits i]
      simp [hs0, hi]
    · intro hh
      apply Nat.eq_of_testBit_eq
      intro i
      rw [hinv.bits i, hs0]
      by_cases hi : i < c.size
      · simp [hi, hh i hi]
      · simp [hi, hhi i (by omega)]
  rw [e1, P_add]
  constructor
  · intro hh
    rwa [P_congr (n := c.size) (g := fun k => bz (dataBit data (c.K + k))) (fun k hk => by rw [hh k hk])] at hdv
  · intro hh i hi
    have := rem_unique hdv hh i hi
    revert this
    generalize r.testBit i = a
    generalize dataBit data (c.K + i) = b
    cases a <;> cases b <;> simp [bz]

theorem bz_bitAt (v : List Int) (t : Nat) : bz (BitPacker.bitAt v t) = bit (v.getD t 0) := by
  simp [bz, BitPacker.bitAt, bit]

/-- Packing a frame of bits. -/
theorem pack_dataBit {n : Nat} {v : List Int} {data : List (BitVec 8)} (hv : n ≤ v.length)
    (hlen : BitPacker.nSymbols n 8 ≤ data.length) :
    (BitPacker.pack 8 false 8 n 1 v data).Sat fun o => o.length = data.length ∧
      ∀ t, t < n → dataBit o t = BitPacker.bitAt v t := by
  have := BitPacker.pack_sat (W := 8) (msb := false) (nb := 8) (nBits := n) (nFrames := 1) (vin := v) (out := data)
    (by omega) (by omega) (by omega) (by omega)
  refine this.mono ?_
  rintro o ⟨hl, hp, _⟩
  refine ⟨hl, fun t ht => ?_⟩
  have hlt : t / 8 < o.length := by
    have := BitPacker.lt_nSymbols (b := 8) (by omega) ht
    omega
  have := BitPacker.packed_bit (by omega) (by omega) hp (f := 0) (by omega) ht (s := o[t / 8])
    (by rw [Nat.zero_mul, Nat.zero_add]; exact List.getElem?_eq_getElem hlt)
  rw [Nat.zero_mul, Nat.zero_add] at this
  rw [← this, dataBit, getD_lt 0#8 hlt]
  rfl

theorem fastCheck_iff {c : Crc} (h : c.WF) {v : List Int} {data : List (BitVec 8)} (hv : v.length = c.K + c.size)
    (hlen : BitPacker.nSymbols (c.K + c.size) 8 ≤ data.length) :
    ∃ res, c.fastCheck data v = ok res ∧ (res = true ↔ genPoly c.packed c.size ∣ wordPoly v) := by
  unfold Crc.fastCheck
  obtain ⟨o, ho, hl, hbit⟩ := pack_dataBit (n := c.K + c.size) (v := v) (by omega) hlen
  rw [ho, bind_ok]
  obtain ⟨res, h1, h2⟩ := fastCheckPacked_iff h (data := o) (by omega)
  refine ⟨res, h1, h2.trans ?_⟩
  rw [wordPoly_eq, hv, P_congr (g := fun k => bit (v.getD k 0)) fun k hk => by rw [hbit k hk, bz_bitAt]]

theorem fastBuild_sat {c : Crc} (h : c.WF) {u out : List Int} {data : List (BitVec 8)} (hu : u.length = c.K)
    (ho : out.length = c.K + c.size) (hlen : BitPacker.nSymbols (c.K + c.size) 8 ≤ data.length) :
    ∃ r, c.fastBuild data u out = ok (u ++ r) ∧ r.length = c.size ∧ (∀ v ∈ r, v = 0 ∨ v = 1) ∧
      genPoly c.packed c.size ∣ wordPoly u * X ^ c.size + wordPoly r := by
  have hK : BitPacker.nSymbols c.K 8 ≤ data.length := by
    unfold BitPacker.nSymbols at hlen ⊢; omega
  unfold Crc.fastBuild
  obtain ⟨o, hpo, hl, hbit⟩ := pack_dataBit (n := c.K) (v := u) (by omega) hK
  rw [hpo, bind_ok, crcV3_eq (by omega), bind_ok]
  obtain ⟨hhi, hdv⟩ := reg_inv h (dataBit o) c.K
  generalize loopN c.K (feed1 c.rev (dataBit o)) 0 = r at hhi hdv
  obtain ⟨o1, ho1, hl1, hg1⟩ := copyTo_sat (src := u) (so := 0) (n := c.K) (dst := out) (d := 0) (by omega) (by omega)
  rw [ho1, bind_ok]
  obtain ⟨o2, ho2, hl2, hg2⟩ := forN_fill (n := c.size) (off := c.K)
    (g := fun i => (((r >>> i) &&& 1 : Nat) : Int)) (out := o1) (by omega)
  rw [ho2]
  have hlr : ((List.range c.size).map fun i => (((r >>> i) &&& 1 : Nat) : Int)).length = c.size := by simp
  refine ⟨(List.range c.size).map (fun i => (((r >>> i) &&& 1 : Nat) : Int)), ?_, hlr, ?_, ?_⟩
  · congr 1
    apply List.ext_getElem?
    intro j
    rw [hg2, hg1]
    by_cases h1 : j < c.K
    · rw [if_neg (by omega), if_pos (by omega), List.getElem?_append_left (by omega)]; simp
    · by_cases h2 : j < c.K + c.size
      · rw [if_pos (by omega), List.getElem?_append_right (by omega), getElem?_mapRange, if_pos (by omega), hu]
      · rw [if_neg (by omega), if_neg (by omega), List.getElem?_eq_none (by omega),
          List.getElem?_eq_none (by simp; omega)]
  · intro v hv
    obtain ⟨k, hk, rfl⟩ := List.mem_map.mp hv
    rw [Nat.and_one_is_mod]
    omega
  · rw [wordPoly_eq, wordPoly_eq, hu, hlr]
    have e : P c.size (fun k => bit (((List.range c.size).map fun i => (((r >>> i) &&& 1 : Nat) : Int)).getD k 0)) =
        P c.size (fun i => bz (r.testBit i)) := by
      apply P_congr
      intro k hk
      rw [List.getD_eq_getElem?_getD, getElem?_mapRange, if_pos hk]
      simp only [Option.getD_some, bit, shiftAnd_ne, bz]
    rw [e, P_congr (g := fun k => bz (dataBit o k)) fun k hk => by rw [hbit k hk, bz_bitAt]]
    exact hdv

end Verif.CRC
