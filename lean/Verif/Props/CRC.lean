import Verif.Proof.CRCFast
import Verif.Props.BitPacker
import Mathlib.RingTheory.Coprime.Basic
import Mathlib.RingTheory.PrincipalIdealDomain

/-! # C04–C06: cyclic redundancy checks -/

namespace Verif.CRC
open Exec Polynomial GF2

/-- **C04**.  For every payload size, every generator polynomial accepted by the constructor and every
payload, `build` outputs the payload followed by `size` bits, `check` accepts the result and `extract` gives
the payload back; no buffer is accessed out of bounds.  `buff`, `buff'` are the scratch buffer's previous
contents, `out`, `out'` those of the output sockets. -/
theorem C04_build_check_extract (K : Int) (packed size : Nat) (c : Crc) (hc : Crc.mk? K packed size = ok c)
    (u out out' buff buff' : List Int) (hu : u.length = K.toNat) (ho : out.length = K.toNat + size)
    (ho' : out'.length = K.toNat) (hb : K.toNat + size ≤ buff.length) (hb' : K.toNat + size ≤ buff'.length) :
    ∃ w, c.build buff u out = ok w ∧ w.length = K.toNat + size ∧ w.take K.toNat = u ∧
      (∀ v ∈ w.drop K.toNat, v = 0 ∨ v = 1) ∧ c.check buff' w = ok true ∧ c.extract w out' = ok u := by
  obtain ⟨hwf, hK, hp, hs⟩ := mk?_wf hc
  subst hs
  rw [← hK] at hu ho ho' hb hb' ⊢
  obtain ⟨r, h1, h2, h3, h4⟩ := build_sat hwf hu ho hb
  refine ⟨u ++ r, h1, by simp [hu, h2], by simp [← hu], by simpa [← hu] using h3, ?_, ?_⟩
  · obtain ⟨res, g1, g2⟩ := check_iff hwf (buff := buff') (v := u ++ r) (by simp [hu, h2]) hb'
    rw [g1, g2.mpr]
    rw [wordPoly_append, h2]
    exact h4
  · unfold Crc.extract
    obtain ⟨o, e1, e2, e3⟩ := copyTo_sat (src := u ++ r) (so := 0) (n := c.K) (dst := out') (d := 0)
      (by simp [hu]) (by omega)
    rw [e1]
    congr 1
    apply List.ext_getElem?
    intro j
    rw [e3]
    by_cases hj : j < c.K
    · rw [if_pos (by omega), Nat.sub_zero, Nat.zero_add, List.getElem?_append_left (by omega)]
    · rw [if_neg (by omega), List.getElem?_eq_none (by omega), List.getElem?_eq_none (by omega)]

/-- The constructor accepts exactly positive payload sizes with a nonzero polynomial of 1 to 32 bits. -/
theorem C04_constructor (K : Int) (packed size : Nat) (hs : size ≤ 32) :
    (∃ c, Crc.mk? K packed size = ok c) ↔ 0 < K ∧ packed ≠ 0 ∧ size ≠ 0 := by
  unfold Crc.mk?
  split
  · simp; omega
  split
  · simp_all
  split
  · simp_all
  split
  · omega
  · simp; omega

example : ∃ c, Crc.mk? 5 0x3 3 = ok c ∧ c.build (List.replicate 8 9) [1, 0, 4, 1, 1] (List.replicate 8 0) =
    ok [1, 0, 4, 1, 1, 0, 1, 1] ∧ c.check (List.replicate 8 9) [1, 0, 4, 1, 1, 0, 1, 1] = ok true ∧
    c.check (List.replicate 8 9) [1, 0, 4, 1, 0, 0, 1, 1] = ok false := ⟨_, rfl, by decide +kernel⟩

/-- **Finding**: `check_packed` of the bitwise CRC passes the frame length where the number of frames is
expected, so it always reads past the end of the temporary of the in-place unpacking. -/
theorem C04_check_packed_ub (K : Int) (packed size : Nat) (c : Crc) (hc : Crc.mk? K packed size = ok c)
    (sz : Nat) (hsz : 0 < sz) (bytes : List (BitVec 8)) (hlen : bytes.length = (K.toNat + size) * sz) :
    c.checkPackedUnpack sz bytes = ub := by
  obtain ⟨hwf, hK, hp, hs⟩ := mk?_wf hc
  subst hs
  rw [← hK] at *
  have h1 := hwf.K_pos
  have h2 := hwf.size_pos
  unfold Crc.checkPackedUnpack
  rw [Nat.div_self (by omega)]
  exact BitPacker.C08_unpack_in_place_ub sz hsz false 8 1 (c.K + c.size) (by omega) (by omega) (by omega)
    (by omega) bytes (by rw [Nat.mul_one, hlen])

/-- **C05**.  For every received word, `check` returns true exactly when the generator polynomial divides
the polynomial of the word, payload followed by CRC, first bit of highest degree. -/
theorem C05_check_iff_divisible (K : Int) (packed size : Nat) (c : Crc) (hc : Crc.mk? K packed size = ok c)
    (w buff : List Int) (hw : w.length = K.toNat + size) (hb : K.toNat + size ≤ buff.length) :
    ∃ res, c.check buff w = ok res ∧ (res = true ↔ genPoly packed size ∣ wordPoly w) := by
  obtain ⟨hwf, hK, hp, hs⟩ := mk?_wf hc
  subst hs hp
  rw [← hK] at *
  exact check_iff hwf hw hb

theorem errorWord_poly {w w' : List Int} (h : w.length = w'.length) :
    wordPoly (errorWord w w') = wordPoly w + wordPoly w' := by
  induction w generalizing w' with
  | nil =>
    cases w' with
    | nil => simp [errorWord, wordPoly]
    | cons => simp at h
  | cons a w ih =>
    cases w' with
    | nil => simp at h
    | cons b w' =>
      simp only [List.length_cons, Nat.add_right_cancel_iff] at h
      have := ih h
      simp only [errorWord] at this
      simp only [errorWord, List.zipWith_cons_cons, wordPoly, this, List.length_zipWith, h, Nat.min_self]
      have e : bit (if (a ≠ 0 ↔ b ≠ 0) then 0 else 1) = bit a + bit b := by
        unfold bit
        by_cases ha : a = 0 <;> by_cases hb : b = 0 <;> simp [ha, hb]
        decide
      rw [e, C_add]
      ring

/-- **C05**: an error is undetected exactly when the generator divides the error polynomial. -/
theorem C05_undetected_iff (K : Int) (packed size : Nat) (c : Crc) (hc : Crc.mk? K packed size = ok c)
    (w w' buff : List Int) (hw : w.length = K.toNat + size) (hw' : w'.length = K.toNat + size)
    (hb : K.toNat + size ≤ buff.length) (hok : c.check buff w = ok true) :
    c.check buff w' = ok true ↔ genPoly packed size ∣ wordPoly (errorWord w w') := by
  obtain ⟨r1, a1, a2⟩ := C05_check_iff_divisible K packed size c hc w buff hw hb
  obtain ⟨r2, b1, b2⟩ := C05_check_iff_divisible K packed size c hc w' buff hw' hb
  rw [a1] at hok
  cases hok
  have hd := a2.mp rfl
  rw [b1, errorWord_poly (by omega), dvd_add_right hd, ← b2]
  constructor
  · intro h; cases h; rfl
  · rintro rfl; rfl

/-- **C05**: every error burst of at most `size` bits is detected, for every generator polynomial with
a constant term. -/
theorem C05_burst_detected (K : Int) (packed size : Nat) (c : Crc) (hc : Crc.mk? K packed size = ok c)
    (hodd : packed % 2 = 1) (w w' buff : List Int) (hw : w.length = K.toNat + size)
    (hw' : w'.length = K.toNat + size) (hb : K.toNat + size ≤ buff.length) (hok : c.check buff w = ok true)
    (a : Nat) (hburst : ∀ k, errorAt w w' k → a ≤ k ∧ k < a + size) (herr : ∃ k, errorAt w w' k) :
    c.check buff w' = ok false := by
  obtain ⟨r2, b1, b2⟩ := C05_check_iff_divisible K packed size c hc w' buff hw' hb
  cases r2 with
  | false => exact b1
  | true =>
    exfalso
    have hd := (C05_undetected_iff K packed size c hc w w' buff hw hw' hb hok).mp b1
    obtain ⟨hwf, hK, hp, hs⟩ := mk?_wf hc
    subst hs hp
    rw [← hK] at *
    rw [errorWord_poly (by omega), wordPoly_eq, wordPoly_eq, hw, hw', ← P_add_fun] at hd
    obtain ⟨hm, hdeg⟩ := genPoly_monic c
    generalize hn : c.K + c.size = n at *
    -- the error polynomial, with `e k = 0` outside the burst
    have he0 : ∀ k, ¬ errorAt w w' k → bit (w.getD k 0) + bit (w'.getD k 0) = 0 := by
      intro k hk
      unfold errorAt at hk
      rw [not_not, ← bit_inj] at hk
      rw [hk, CharTwo.add_self_eq_zero]
    have he1 : ∀ k, errorAt w w' k → bit (w.getD k 0) + bit (w'.getD k 0) ≠ 0 := by
      intro k hk h0
      apply hk
      rw [← bit_inj, ← sub_eq_zero, CharTwo.sub_eq_add, h0]
    obtain ⟨k0, hk0⟩ := herr
    have hk0n : k0 < n := by
      by_contra h
      apply hk0
      rw [List.getD_eq_getElem?_getD, List.getD_eq_getElem?_getD, List.getElem?_eq_none (by omega),
        List.getElem?_eq_none (by omega)]
    generalize hf : (fun k => bit (w.getD k 0) + bit (w'.getD k 0)) = f at hd
    have he0' : ∀ k, ¬ errorAt w w' k → f k = 0 := by rw [← hf]; exact he0
    have he1' : f k0 ≠ 0 := by rw [← hf]; exact he1 k0 hk0
    -- split the word: `n = m + s`, nothing after the burst
    obtain ⟨s, hs⟩ : ∃ s, n = min n (a + c.size) + s := ⟨n - min n (a + c.size), by omega⟩
    generalize hm' : min n (a + c.size) = m at hs
    have hsplit : P n f = P m f * X ^ s := by
      rw [hs, P_add]
      have : P s (fun k => f (m + k)) = 0 := by
        rw [← P_zero s]
        apply P_congr
        intro k hk
        apply he0'
        intro h
        have := hburst _ h
        omega
      rw [this, add_zero]
    rw [hsplit] at hd
    -- the generator is coprime to `X`
    have hcop : IsCoprime (genPoly c.packed c.size) (X ^ s : (ZMod 2)[X]) := by
      apply IsCoprime.pow_right
      have h0 : (genPoly c.packed c.size).coeff 0 = 1 := by
        have := hwf.size_pos
        rw [genPoly_eq, coeff_P, if_pos (by omega), gbit, if_neg (by omega),
          show c.size - (c.size + 1 - 1 - 0) = 0 by omega, Nat.testBit_zero]
        simp [hodd]
      refine ⟨1, - divX (genPoly c.packed c.size), ?_⟩
      have := divX_mul_X_add (genPoly c.packed c.size)
      rw [h0] at this
      simp only [map_one] at this
      linear_combination -this
    have hd2 := hcop.dvd_of_dvd_mul_right hd
    -- degree below `size`, so zero
    have hlow : (P m f).degree < c.size := by
      rw [degree_lt_iff_coeff_zero]
      intro j hj
      rw [coeff_P]
      split
      · apply he0'
        intro h
        have := hburst _ h
        omega
      · rfl
    have hz : P m f = 0 := by
      by_contra hne
      have := degree_le_of_dvd hd2 hne
      rw [degree_eq_natDegree hm.ne_zero, hdeg] at this
      exact absurd hlow (not_lt.mpr this)
    have := hburst _ hk0
    have hkm : k0 < m := by omega
    apply he1'
    exact P_inj (hz.trans (P_zero m).symm) k0 hkm

/-- **C05**: every polynomial of the library's table is accepted by the constructor and has a constant term,
so every burst no longer than the CRC is detected with it. -/
theorem C05_known_polynomials (name : String) (packed size : Nat)
    (h : (name, packed, size) ∈ knownPolynomials) :
    packed % 2 = 1 ∧ ∀ K : Int, 0 < K → ∃ c, Crc.mk? K packed size = ok c := by
  have key : ∀ x ∈ knownPolynomials, x.2.1 % 2 = 1 ∧ x.2.1 ≠ 0 ∧ x.2.2 ≠ 0 ∧ x.2.2 ≤ 32 := by decide +kernel
  obtain ⟨h1, h2, h3, h4⟩ := key _ h
  exact ⟨h1, fun K hK => (C04_constructor K packed size h4).mpr ⟨hK, h2, h3⟩⟩

/-- **C05**: a generator with an even number of terms detects every odd number of bit errors. -/
theorem C05_odd_weight_detected (K : Int) (packed size : Nat) (c : Crc) (hc : Crc.mk? K packed size = ok c)
    (heven : (genPoly packed size).eval 1 = 0) (w w' buff : List Int) (hw : w.length = K.toNat + size)
    (hw' : w'.length = K.toNat + size) (hb : K.toNat + size ≤ buff.length) (hok : c.check buff w = ok true)
    (hodd : ((errorWord w w').filter (· ≠ 0)).length % 2 = 1) : c.check buff w' = ok false := by
  obtain ⟨r2, b1, b2⟩ := C05_check_iff_divisible K packed size c hc w' buff hw' hb
  cases r2 with
  | false => exact b1
  | true =>
    exfalso
    obtain ⟨q, hq⟩ := (C05_undetected_iff K packed size c hc w w' buff hw hw' hb hok).mp b1
    have h0 : (wordPoly (errorWord w w')).eval 1 = 0 := by rw [hq, eval_mul, heven, zero_mul]
    have key : ∀ l : List Int, (wordPoly l).eval 1 = ((l.filter (· ≠ 0)).length : ZMod 2) := by
      intro l
      induction l with
      | nil => simp [wordPoly]
      | cons v l ih =>
        rw [wordPoly, eval_add, ih, List.filter_cons]
        by_cases hv : v = 0
        · simp [hv, bit]
        · simp [hv, bit]; ring
    rw [key, ZMod.natCast_eq_zero_iff] at h0
    omega

example : (genPoly 0x3 3).eval 1 = 1 ∧ (genPoly 0x1 1).eval 1 = 0 := by
  constructor
  · simp [genPoly, Finset.sum_range_succ, Nat.testBit]; decide
  · simp [genPoly, Finset.sum_range_succ, Nat.testBit]; decide

theorem wordPoly_inj01 : ∀ {a b : List Int}, a.length = b.length → (∀ v ∈ a, v = 0 ∨ v = 1) →
    (∀ v ∈ b, v = 0 ∨ v = 1) → wordPoly a = wordPoly b → a = b := by
  intro a b hl ha hb h
  rw [wordPoly_eq, wordPoly_eq, hl] at h
  have := P_inj h
  apply List.ext_getElem hl
  intro k h1 h2
  have hk := this k h2
  rw [getD_lt 0 h1, getD_lt 0 h2, bit_inj] at hk
  rcases ha _ (List.getElem_mem h1) with e1 | e1 <;> rcases hb _ (List.getElem_mem h2) with e2 | e2 <;>
    simp_all

/-- **C06**.  The table-driven CRC builds exactly the same frames as the bitwise one, for every payload,
polynomial and payload size (multiple of 8 or not). `data` is the packing scratch buffer. -/
theorem C06_build_eq (K : Int) (packed size : Nat) (c : Crc) (hc : Crc.mk? K packed size = ok c)
    (u out buff : List Int) (data : List (BitVec 8)) (hu : u.length = K.toNat) (ho : out.length = K.toNat + size)
    (hb : K.toNat + size ≤ buff.length) (hd : K.toNat + size ≤ 8 * data.length) :
    ∃ w, c.fastBuild data u out = ok w ∧ c.build buff u out = ok w := by
  obtain ⟨hwf, hK, hp, hs⟩ := mk?_wf hc
  subst hs hp
  rw [← hK] at hu ho hb hd
  obtain ⟨r, h1, h2, h3, h4⟩ := build_sat hwf hu ho hb
  obtain ⟨r', h1', h2', h3', h4'⟩ := fastBuild_sat hwf hu ho (data := data)
    (by unfold BitPacker.nSymbols; omega)
  refine ⟨u ++ r', h1', ?_⟩
  rw [h1]
  have : r = r' := by
    apply wordPoly_inj01 (by omega) h3 h3'
    rw [wordPoly_eq r, h2] at h4 ⊢
    rw [wordPoly_eq r', h2'] at h4' ⊢
    exact P_congr (rem_unique h4 h4')
  rw [this]

/-- **C06**: the two `check`s agree on every received word. -/
theorem C06_check_eq (K : Int) (packed size : Nat) (c : Crc) (hc : Crc.mk? K packed size = ok c)
    (w buff : List Int) (data : List (BitVec 8)) (hw : w.length = K.toNat + size)
    (hb : K.toNat + size ≤ buff.length) (hd : K.toNat + size ≤ 8 * data.length) :
    ∃ res, c.fastCheck data w = ok res ∧ c.check buff w = ok res := by
  obtain ⟨hwf, hK, hp, hs⟩ := mk?_wf hc
  subst hs hp
  rw [← hK] at *
  obtain ⟨r, h1, h2⟩ := check_iff hwf hw hb
  obtain ⟨r', h1', h2'⟩ := fastCheck_iff hwf hw (data := data) (by unfold BitPacker.nSymbols; omega)
  refine ⟨r', h1', ?_⟩
  rw [h1]
  congr 1
  have := h2.trans h2'.symm
  cases r <;> cases r' <;> simp_all

/-- **C06**: the packed check of the table-driven CRC agrees with the bitwise check of the unpacked bits, for
every packed word. -/
theorem C06_check_packed_eq (K : Int) (packed size : Nat) (c : Crc) (hc : Crc.mk? K packed size = ok c)
    (buff : List Int) (data : List (BitVec 8)) (hb : K.toNat + size ≤ buff.length)
    (hd : K.toNat + size ≤ 8 * data.length) :
    ∃ res, c.fastCheckPacked data = ok res ∧ c.check buff (unpackedBits data (K.toNat + size)) = ok res := by
  obtain ⟨hwf, hK, hp, hs⟩ := mk?_wf hc
  subst hs hp
  rw [← hK] at *
  have hl : (unpackedBits data (c.K + c.size)).length = c.K + c.size := by simp [unpackedBits]
  obtain ⟨r, h1, h2⟩ := check_iff hwf hl hb
  obtain ⟨r', h1', h2'⟩ := fastCheckPacked_iff hwf (data := data) (by unfold BitPacker.nSymbols; omega)
  refine ⟨r', h1', ?_⟩
  rw [h1]
  congr 1
  rw [wordPoly_eq, hl, P_congr (g := fun k => bz (dataBit data k)) ?_] at h2
  · have := h2.trans h2'.symm
    cases r <;> cases r' <;> simp_all
  · intro k hk
    rw [List.getD_eq_getElem?_getD, unpackedBits, getElem?_mapRange, if_pos hk]
    simp only [Option.getD_some, dataBit, bz, bit]
    split <;> simp_all

/-- **C06**: the byte-wise and the table versions of the register computation agree. -/
theorem C06_v1_eq_v3 (c : Crc) (data : List (BitVec 8)) (n : Nat) (h : n ≤ 8 * data.length) :
    ∃ r, c.crcV1 data n = ok r ∧ c.crcV3 data n = ok r :=
  ⟨_, crcV1_eq (by unfold BitPacker.nSymbols; omega), crcV3_eq (by unfold BitPacker.nSymbols; omega)⟩

example : ∃ c, Crc.mk? 11 0x1021 16 = ok c ∧
    c.fastBuild (List.replicate 4 0xAA#8) [1, 0, 1, 1, 0, 0, 0, 0, 1, 1, 1] (List.replicate 27 0) =
    c.build (List.replicate 27 3) [1, 0, 1, 1, 0, 0, 0, 0, 1, 1, 1] (List.replicate 27 0) ∧
    c.fastCheck (List.replicate 4 0#8) (List.replicate 27 1) = ok false := ⟨_, rfl, by decide +kernel⟩

end Verif.CRC
