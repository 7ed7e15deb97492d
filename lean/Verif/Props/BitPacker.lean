import Verif.Proof.BitPackerInPlace

/-!
# C07, C08: bit packing
-/

namespace Verif.BitPacker
open Exec

/-- **C07**.  For every symbol width, bit order, number of bits per symbol, frame length, frame count and
content, packing succeeds, the `i`-th symbol of frame `f` holds bits `i*Nbps ..` of that frame in the
announced order with zero padding, and unpacking gives the bits back (as 0/1). -/
theorem C07_round_trip (W : Nat) (msb : Bool) (nb nBits nFrames : Nat) (hb : 0 < nb) (hW : nb ≤ W)
    (x : List Int) (hx : x.length = nFrames * nBits) (p0 : List (BitVec W))
    (hp0 : p0.length = nFrames * nSymbols nBits nb) (o0 : List Int) (ho0 : o0.length = nFrames * nBits) :
    ∃ p, pack W msb nb nBits nFrames x p0 = ok p ∧ p.length = nFrames * nSymbols nBits nb ∧
      (∀ f, f < nFrames → ∀ i, i < nSymbols nBits nb → ∃ s, p[f * nSymbols nBits nb + i]? = some s ∧
        SymbolOf msb (min nb (nBits - i * nb)) (fun k => bitAt x (f * nBits + (i * nb + k))) s) ∧
      unpack msb nb nBits nFrames p o0 = ok (x.map fun v => if v ≠ 0 then 1 else 0) := by
  obtain ⟨p, hp, h1, h2, -⟩ := pack_sat (msb := msb) (vin := x) (out := p0) (nBits := nBits)
    (nFrames := nFrames) hb hW (by omega) (by omega)
  obtain ⟨o, ho, g1, g2, -⟩ := unpack_sat (msb := msb) (vin := p) (out := o0) (nBits := nBits)
    (nFrames := nFrames) hb hW (by omega) (by omega)
  refine ⟨p, hp, by omega, h2, ?_⟩
  rw [ho]; congr 1
  apply List.ext_getElem?
  intro j
  by_cases hj : j < nFrames * nBits
  · have hn : 0 < nBits := by
      rcases Nat.eq_zero_or_pos nBits with rfl | h
      · simp at hj
      · exact h
    have hq : j / nBits < nFrames := Nat.div_lt_of_lt_mul (by rwa [Nat.mul_comm])
    have hm := Nat.mod_lt j hn
    have e := Nat.div_add_mod j nBits
    rw [Nat.mul_comm] at e
    obtain ⟨s, e1, e2⟩ := g2 _ hq _ hm
    rw [packed_bit hb hW h2 hq hm e1, e] at e2
    rw [e2, List.getElem?_map, List.getElem?_eq_getElem (by omega)]
    simp [ofBit, bitAt, show j < x.length by omega]
  · rw [List.getElem?_eq_none (by omega), List.getElem?_eq_none (by simp; omega)]

/-- **C07**, other direction: packing what was unpacked gives the symbols back, provided their padding bits
are zero. -/
theorem C07_round_trip_symbols (W : Nat) (msb : Bool) (nb nBits nFrames : Nat) (hb : 0 < nb) (hW : nb ≤ W)
    (p : List (BitVec W)) (hp : p.length = nFrames * nSymbols nBits nb)
    (hpad : ∀ f, f < nFrames → ∀ i, i < nSymbols nBits nb → ∀ s, p[f * nSymbols nBits nb + i]? = some s →
      ∀ k, k < W → nb ≤ k ∨ nBits - i * nb ≤ k → s.getLsbD (bitPos msb W k) = false)
    (o0 : List Int) (ho0 : o0.length = nFrames * nBits) (p0 : List (BitVec W))
    (hp0 : p0.length = nFrames * nSymbols nBits nb) :
    ∃ x, unpack msb nb nBits nFrames p o0 = ok x ∧ pack W msb nb nBits nFrames x p0 = ok p := by
  obtain ⟨x, hx, g1, g2, -⟩ := unpack_sat (msb := msb) (vin := p) (out := o0) (nBits := nBits)
    (nFrames := nFrames) hb hW (by omega) (by omega)
  obtain ⟨q, hq, h1, h2, -⟩ := pack_sat (msb := msb) (vin := x) (out := p0) (nBits := nBits)
    (nFrames := nFrames) hb hW (by omega) (by omega)
  refine ⟨x, hx, ?_⟩
  rw [hq]; congr 1
  apply List.ext_getElem?
  intro j
  by_cases hj : j < nFrames * nSymbols nBits nb
  · have hn : 0 < nSymbols nBits nb := by
      rcases Nat.eq_zero_or_pos (nSymbols nBits nb) with h | h
      · rw [h] at hj; simp at hj
      · exact h
    have hf : j / nSymbols nBits nb < nFrames := Nat.div_lt_of_lt_mul (by rwa [Nat.mul_comm])
    have hi := Nat.mod_lt j hn
    have e := Nat.div_add_mod j (nSymbols nBits nb)
    rw [Nat.mul_comm] at e
    generalize hF : j / nSymbols nBits nb = f at *
    generalize hI : j % nSymbols nBits nb = i at *
    obtain ⟨s, e1, e2⟩ := h2 f hf i hi
    rw [e] at e1
    have hpj : p[j]? = some (p[j]'(by omega)) := List.getElem?_eq_getElem (by omega)
    rw [e1, hpj]
    congr 1
    refine e2.unique (fun k hk => ?_)
    by_cases hk2 : k < min nb (nBits - i * nb)
    · have ht : i * nb + k < nBits := by omega
      obtain ⟨s', f1, f2⟩ := g2 f hf (i * nb + k) ht
      have d1 : (i * nb + k) / nb = i := by
        rw [Nat.mul_comm, Nat.mul_add_div hb, Nat.div_eq_of_lt (by omega), Nat.add_zero]
      have d2 : (i * nb + k) % nb = k := by
        rw [Nat.mul_comm, Nat.mul_add_mod, Nat.mod_eq_of_lt (by omega)]
      rw [d1, e, hpj] at f1
      cases f1
      rw [d2] at f2
      simp only [hk2, decide_true, Bool.true_and, bitAt, List.getD_eq_getElem?_getD, f2]
      cases hbit : (p[j]'(by omega)).getLsbD (bitPos msb W k) <;> simp [ofBit]
    · have := hpad f hf i hi (p[j]'(by omega)) (by rw [e]; exact hpj) k hk (by omega)
      rw [this]; simp [hk2]
  · rw [List.getElem?_eq_none (by omega), List.getElem?_eq_none (by omega)]

/-- Out of range `Nbps` values are refused, in both directions. -/
theorem C07_rejects (W : Nat) (msb : Bool) (nbps : Int) (h : nbps ≤ 0 ∨ (W : Int) < nbps) (nBits nFrames : Nat)
    (x : List Int) (p : List (BitVec W)) :
    pack W msb nbps nBits nFrames x p = exc .invalidArgument ∧
    unpack msb nbps nBits nFrames p x = exc .invalidArgument := by
  unfold pack unpack
  rw [if_pos (by omega), if_pos (by omega)]
  exact ⟨rfl, rfl⟩

/-- **C07** on vectors, one frame: when the size checks pass, packing and unpacking never leave the
buffers, and the round trip holds. -/
theorem C07_vectors_one_frame (W : Nat) (msb : Bool) (nb : Nat) (hb : 0 < nb) (hW : nb ≤ W) (x : List Int)
    (p0 : List (BitVec W)) (hp0 : x.length ≤ p0.length * nb) :
    ∃ p, packVec W msb nb 1 x p0 = ok p ∧ p.length = p0.length ∧
      unpackVec msb nb 1 p (x.map fun _ => 0) = ok (x.map fun v => if v ≠ 0 then 1 else 0) := by
  have hle : nSymbols x.length nb ≤ p0.length := by
    unfold nSymbols
    rw [Nat.div_le_iff_le_mul_add_pred hb, Nat.mul_comm]; omega
  obtain ⟨p, hp, h1, h2, -⟩ := pack_sat (msb := msb) (vin := x) (out := p0) (nBits := x.length)
    (nFrames := 1) hb hW (by omega) (by omega)
  obtain ⟨o, ho, g1, g2, -⟩ := unpack_sat (msb := msb) (vin := p) (out := x.map fun _ => (0 : Int))
    (nBits := x.length) (nFrames := 1) hb hW (by omega) (by simp)
  refine ⟨p, ?_, h1, ?_⟩
  · unfold packVec
    rw [if_neg (by omega), if_neg (by simp [Nat.mod_one]), if_neg (by omega)]
    simpa using hp
  · unfold unpackVec
    rw [if_neg (by omega), if_neg (by simp [Nat.mod_one]), if_neg (by simp only [List.length_map]; rw [h1]; omega)]
    have ho' : unpack msb nb ((x.map fun _ => (0 : Int)).length / (1 : Int).toNat) (1 : Int).toNat p
        (x.map fun _ => (0 : Int)) = ok o := by simpa using ho
    rw [ho']; congr 1
    apply List.ext_getElem?
    intro j
    by_cases hj : j < x.length
    · obtain ⟨s, e1, e2⟩ := g2 0 (by omega) j hj
      rw [packed_bit hb hW h2 (by omega) hj e1] at e2
      simp only [Nat.zero_mul, Nat.zero_add] at e2
      rw [e2, List.getElem?_map, List.getElem?_eq_getElem hj]
      simp [ofBit, bitAt, hj]
    · rw [List.getElem?_eq_none (by simp at g1; omega), List.getElem?_eq_none (by simp; omega)]

/-- **Finding**: with several frames whose length is not a multiple of `Nbps`, the size check of the vector
overload accepts an output vector that is too small; here 2 frames of 9 bits need 4 bytes, the check accepts
3 and the packing writes past the end. -/
theorem C07_vector_check_insufficient :
    packVec 8 false 8 2 (List.replicate 18 1) (List.replicate 3 0#8) = ub := by decide +kernel

/-- **Finding**: the byte-wise vector `unpack` compares the size of its input with `sizeof(B)` (the output
element size) instead of `sizeof(S)`; with one input byte and a 16-element output of 4-byte integers the
check passes and the input is read out of bounds. -/
theorem C07_unpack_check_wrong_type :
    unpackVecBytes 1 4 false 8 1 [0#8] (List.replicate 16 0) = ub := by decide +kernel

example : ∃ p, pack 8 true 3 5 2 [1, 0, 1, 7, 0, 0, 0, 1, 1, 1] (List.replicate 4 0#8) = ok p ∧
    p = [0xA0#8, 0x80#8, 0x20#8, 0xC0#8] := ⟨_, rfl, by decide⟩

/-- **C08** (one frame).  In-place packing overwrites the beginning of the vector with the packed bytes
without ever reading an element it has already overwritten, and in-place unpacking restores every element
to its bit: element `t` becomes the little-endian 0/1 value of its original truth value. -/
theorem C08_in_place_partial (sz : Nat) (hsz : 0 < sz) (msb : Bool) (nb nBits : Nat) (hb : 0 < nb) (hW : nb ≤ 8)
    (mem : List (BitVec 8)) (hm : mem.length = nBits * sz) :
    ∃ p o, packInPlace sz msb nb nBits 1 mem = ok p ∧ unpackInPlace sz msb nb nBits 1 p = ok o ∧
      o.length = nBits * sz ∧
      ∀ t, t < nBits → ∀ k, k < sz →
        o[t * sz + k]? = some (if k = 0 ∧ elemBit sz mem t = true then 1#8 else 0#8) := by
  obtain ⟨p, hp, h1, h2, -⟩ := packInPlace_sat (msb := msb) (mem := mem) (nBits := nBits) (nFrames := 1)
    hsz hb hW (by rw [Nat.one_mul]; omega)
  obtain ⟨o, ho, g1, g2, -⟩ := unpackInPlace_one (msb := msb) (mem := p) (nBits := nBits) hb hW hsz (by omega)
  refine ⟨p, o, hp, ho, by omega, fun t ht k hk => ?_⟩
  obtain ⟨s, e1, e2⟩ := g2 t ht
  rw [e2 k hk]
  obtain ⟨s', f1, f2⟩ := h2 0 (by omega) (t / nb) (lt_nSymbols hb ht)
  simp only [Nat.zero_mul, Nat.zero_add] at f1 f2
  rw [e1] at f1
  cases f1
  have hmod := Nat.mod_lt t hb
  have e := Nat.div_add_mod t nb
  rw [Nat.mul_comm] at e
  have hbit := f2 (t % nb) (by omega)
  simp only [e] at hbit
  have hlt : t % nb < min nb (nBits - t / nb * nb) := by omega
  simp only [hlt, decide_true, Bool.true_and] at hbit
  rw [hbit]
  congr 1
  by_cases hk0 : k = 0
  · cases hb' : elemBit sz mem t <;> simp [hk0, ofBit]
  · simp [hk0]

/-- **C08**, in-place packing alone, any number of frames. -/
theorem C08_pack_in_place (sz : Nat) (hsz : 0 < sz) (msb : Bool) (nb nBits nFrames : Nat) (hb : 0 < nb)
    (hW : nb ≤ 8) (mem : List (BitVec 8)) (hm : nFrames * nBits * sz ≤ mem.length) :
    ∃ p, packInPlace sz msb nb nBits nFrames mem = ok p ∧ p.length = mem.length ∧
      (∀ f, f < nFrames → ∀ i, i < nSymbols nBits nb → ∃ s, p[f * nSymbols nBits nb + i]? = some s ∧
        SymbolOf msb (min nb (nBits - i * nb)) (fun k => elemBit sz mem (f * nBits + (i * nb + k))) s) ∧
      (∀ j : Nat, nFrames * nSymbols nBits nb ≤ j → p[j]? = mem[j]?) := by
  obtain ⟨p, hp, h⟩ := packInPlace_sat (msb := msb) hsz hb hW hm
  exact ⟨p, hp, h⟩

/-- **Finding** (negation of C08 for several frames): in-place unpacking of two frames or more reads past
the end of its temporary copy, whatever the content. -/
theorem C08_unpack_in_place_ub (sz : Nat) (hsz : 0 < sz) (msb : Bool) (nb nBits nFrames : Nat) (hb : 0 < nb)
    (hW : nb ≤ 8) (hn : 0 < nBits) (hf : 2 ≤ nFrames) (mem : List (BitVec 8))
    (hm : nFrames * nBits * sz ≤ mem.length) : unpackInPlace sz msb nb nBits nFrames mem = ub :=
  unpackInPlace_ub hsz hb hW hn hf hm

example : packInPlace 2 false 8 3 1 [0#8, 1#8, 0#8, 0#8, 5#8, 0#8] = ok [5#8, 1#8, 0#8, 0#8, 5#8, 0#8] ∧
    unpackInPlace 2 false 8 3 1 [5#8, 1#8, 0#8, 0#8, 5#8, 0#8] = ok [1#8, 0#8, 0#8, 0#8, 1#8, 0#8] := by decide

end Verif.BitPacker
