import Verif.Proof.CRCInter
import Verif.Props.CRC

/-! # C125–C126: cyclic redundancy checks of several frames at once -/

namespace Verif.CRC
open Exec Polynomial GF2

/-- **C125**.  For every constructed CRC, every number `n` of frames per call and every vector of `n` interleaved frames of bits, `check`
returns true exactly when the bitwise CRC accepts each of the frames; no buffer is accessed out of bounds.  `buff` is the previous contents
of the scratch buffer, of `(K + size) * n` elements. -/
theorem C125_check (K : Int) (packed size : Nat) (c : Crc) (hc : Crc.mk? K packed size = ok c) (n : Nat) (hn : 0 < n)
    (v buff : List Int) (hv : v.length = (K.toNat + size) * n) (hb : buff.length = (K.toNat + size) * n) (h01 : ∀ x ∈ v, x = 0 ∨ x = 1) :
    ∃ res, c.checkInter n buff v = ok res ∧
      (res = true ↔ ∀ l < n, ∀ buff', K.toNat + size ≤ buff'.length → c.check buff' (lane n (K.toNat + size) l v) = ok true) := by
  obtain ⟨hwf, hK, hp, hs⟩ := mk?_wf hc
  subst hs
  rw [← hK] at hv hb ⊢
  exact checkInter_iff hwf hn hv hb h01

/-- **C125**.  The same in terms of polynomials: `check` returns true exactly when the generator divides every interleaved frame. -/
theorem C125_divisible (K : Int) (packed size : Nat) (c : Crc) (hc : Crc.mk? K packed size = ok c) (n : Nat) (hn : 0 < n)
    (v buff : List Int) (hv : v.length = (K.toNat + size) * n) (hb : buff.length = (K.toNat + size) * n) (h01 : ∀ x ∈ v, x = 0 ∨ x = 1) :
    ∃ res, c.checkInter n buff v = ok res ∧
      (res = true ↔ ∀ l < n, genPoly packed size ∣ wordPoly (lane n (K.toNat + size) l v)) := by
  obtain ⟨res, h1, h2⟩ := C125_check K packed size c hc n hn v buff hv hb h01
  refine ⟨res, h1, h2.trans ?_⟩
  constructor
  · intro hh l hl
    obtain ⟨r, e1, e2⟩ := C05_check_iff_divisible K packed size c hc (lane n (K.toNat + size) l v) (List.replicate (K.toNat + size) 0)
      (lane_length _ _ _ _) (by simp)
    rw [hh l hl _ (by simp)] at e1
    exact e2.mp (Exec.ok.inj e1).symm
  · intro hh l hl buff' hb'
    obtain ⟨r, e1, e2⟩ := C05_check_iff_divisible K packed size c hc (lane n (K.toNat + size) l v) buff' (lane_length _ _ _ _) hb'
    rw [e1, e2.mpr (hh l hl)]

/-- **C125**.  For every vector of `n` payloads stored one after the other, `build` outputs frames stored one after the other, each made of
its payload and `size` bits and accepted by the bitwise CRC, and `extract` gives the payloads back. -/
theorem C125_build_extract (K : Int) (packed size : Nat) (c : Crc) (hc : Crc.mk? K packed size = ok c) (n : Nat)
    (u out out' buff : List Int) (hu : u.length = n * K.toNat) (ho : out.length = n * (K.toNat + size)) (ho' : out'.length = n * K.toNat)
    (hb : K.toNat + size ≤ buff.length) :
    ∃ w, c.buildInter n buff u out = ok w ∧ w.length = n * (K.toNat + size) ∧
      (∀ f < n, (frame (K.toNat + size) f w).take K.toNat = frame K.toNat f u ∧
        (∀ x ∈ (frame (K.toNat + size) f w).drop K.toNat, x = 0 ∨ x = 1) ∧
        ∀ buff', K.toNat + size ≤ buff'.length → c.check buff' (frame (K.toNat + size) f w) = ok true) ∧
      c.extractInter n w out' = ok u := by
  obtain ⟨hwf, hK, hp, hs⟩ := mk?_wf hc
  subst hs
  rw [← hK] at hu ho ho' hb ⊢
  obtain ⟨w, h1, h2, h3⟩ := buildInter_sat hwf hu ho hb
  refine ⟨w, h1, h2, fun f hf => ?_, ?_⟩
  · obtain ⟨r, e1, e2, e3, e4⟩ := h3 f hf
    have hfl := frame_length hu hf
    rw [e1]
    refine ⟨by rw [List.take_append_of_le_length (by omega), List.take_of_length_le (by omega)], ?_, fun buff' hb' => ?_⟩
    · rw [List.drop_append_of_le_length (by omega), List.drop_of_length_le (by omega)]
      exact e3
    · obtain ⟨res, g1, g2⟩ := check_iff hwf (buff := buff') (v := frame c.K f u ++ r) (by simp [hfl, e2]) hb'
      rw [g1, g2.mpr]
      rw [wordPoly_append, e2]
      exact e4
  · obtain ⟨o, g1, g2, g3⟩ := extractInter_sat h2 ho'
    rw [g1]
    congr 1
    apply List.ext_getElem?
    intro j
    by_cases hj : j < n * c.K
    · have hKp := hwf.K_pos
      have hf : j / c.K < n := Nat.div_lt_of_lt_mul (by rwa [Nat.mul_comm] at hj)
      have hm := Nat.mod_lt j hKp
      have hdm : j / c.K * c.K + j % c.K = j := by rw [Nat.mul_comm]; exact Nat.div_add_mod j c.K
      obtain ⟨r, e1, e2, _⟩ := h3 _ hf
      have hfl := frame_length hu hf
      have e := g3 _ hf
      rw [e1, List.take_append_of_le_length (by omega), List.take_of_length_le (by omega)] at e
      have q := congrArg (fun l : List Int => l[j % c.K]?) e
      simp only [frame_getElem?, if_pos hm, hdm] at q
      exact q
    · rw [List.getElem?_eq_none (by omega), List.getElem?_eq_none (by omega)]

/-- Four payloads of three bits, `X^2 + X + 1`. -/
example : ∃ c, Crc.mk? 3 3 2 = ok c ∧
    c.buildInter 4 (List.replicate 5 9) [1, 0, 0, 0, 1, 1, 1, 1, 1, 0, 0, 1] (List.replicate 20 7) =
      ok [1, 0, 0, 1, 0, 0, 1, 1, 1, 0, 1, 1, 1, 0, 0, 0, 0, 1, 1, 1] := ⟨_, rfl, by decide +kernel⟩

/-- The same frames interleaved are accepted, and refused with one error. -/
example : ∃ c, Crc.mk? 3 3 2 = ok c ∧
    c.checkInter 4 (List.replicate 20 9) [1, 0, 1, 0, 0, 1, 1, 0, 0, 1, 1, 1, 1, 1, 0, 1, 0, 0, 0, 1] = ok true ∧
    c.checkInter 4 (List.replicate 20 9) [1, 0, 1, 0, 0, 1, 1, 0, 0, 1, 0, 1, 1, 1, 0, 1, 0, 0, 0, 1] = ok false ∧
    lane 4 5 3 [1, 0, 1, 0, 0, 1, 1, 0, 0, 1, 1, 1, 1, 1, 0, 1, 0, 0, 0, 1] = [0, 0, 1, 1, 1] := ⟨_, rfl, by decide +kernel⟩

/-! ## Defects -/

/-- **C126**, **finding**: `build` stores the frames one after the other while `check` reads them interleaved, so that the output of `build`
is refused by `check` of the same object. -/
theorem C126_layout : ∃ (c : Crc) (u w : List Int), Crc.mk? 3 3 2 = ok c ∧
    c.buildInter 4 (List.replicate 20 0) u (List.replicate 20 0) = ok w ∧ c.checkInter 4 (List.replicate 20 0) w = ok false :=
  ⟨_, [1, 0, 0, 0, 1, 1, 1, 1, 1, 0, 0, 1], [1, 0, 0, 1, 0, 0, 1, 1, 1, 0, 1, 1, 1, 0, 0, 0, 0, 1, 1, 1], rfl, by decide +kernel⟩

/-- **C126**, **finding**: conversely `check` accepts frames stored one after the other of which none has a correct CRC. -/
theorem C126_accepts_errors : ∃ (c : Crc) (w : List Int), Crc.mk? 2 1 1 = ok c ∧ w.length = 4 * 3 ∧
    c.checkInter 4 (List.replicate 12 0) w = ok true ∧
    ∀ f < 4, c.check (List.replicate 3 0) (frame 3 f w) = ok false :=
  ⟨_, [0, 0, 1, 0, 0, 1, 0, 1, 0, 1, 1, 1], rfl, by decide +kernel⟩

/-- **C126**, **finding**: the bitwise CRC takes any non-zero element for a one; with the interleaved one the same frames are refused. -/
theorem C126_values : ∃ (c : Crc) (v : List Int), Crc.mk? 1 1 1 = ok c ∧ (∀ l < 4, c.check (List.replicate 2 0) (lane 4 2 l v) = ok true) ∧
    c.checkInter 4 (List.replicate 8 0) v = ok false :=
  ⟨_, [2, 2, 2, 2, 2, 2, 2, 2], rfl, by decide +kernel⟩

end Verif.CRC
