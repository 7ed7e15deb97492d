import Verif.Proof.Reorderer

/-! # Properties of the reordering of frames (C39, C64) -/

namespace Verif.Reorderer
open Exec
variable {α : Type}

/-- C39: for every number of frames, length and size of the registers, `apply` puts the element `i` of the frame `f` at
`i * n + f` and leaves what follows. -/
theorem C39_apply {w len n : Nat} {F : Nat → Nat → α} {inData : List (List α)} (h : Frames n len F inData) {out : List α}
    (hl : len * n ≤ out.length) :
    ∃ out', apply (2 ^ w) inData out len = ok out' ∧ out'.length = out.length ∧
      (∀ f, f < n → ∀ i, i < len → out'[i * n + f]? = some (F f i)) ∧ ∀ e, len * n ≤ e → out'[e]? = out[e]? := by
  obtain ⟨o, e, h1, h2⟩ := apply_spec (w := w) h hl
  refine ⟨o, e, h1, fun f hf i hi => ?_, fun e he => by rw [h2, if_neg (by omega)]⟩
  have : i * n + n ≤ len * n := by rw [← Nat.succ_mul]; exact Nat.mul_le_mul_right n hi
  rw [h2, if_pos (by omega), Nat.mul_comm i n, Nat.mul_add_mod, Nat.mul_add_div (by omega), Nat.mod_eq_of_lt hf, Nat.div_eq_of_lt hf, Nat.add_zero]

/-- When the vectorised version is not used, or when the number of bits of the frame numbers divides that of the positions in a
register, or this number less one, frames are not exchanged. -/
def Straight (w n : Nat) : Prop := vect (2 ^ w) n = false ∨ ∃ m, n = 2 ^ m ∧ m ∣ w ∨ n = 2 ^ m ∧ m ∣ w - 1

theorem source_id {w m : Nat} (hm : 1 ≤ m) (hw : 1 ≤ w) (h : m ∣ w ∨ m ∣ w - 1) {f : Nat} (hf : f < 2 ^ m) : source w m f = f := by
  unfold source last
  rcases h with h | h
  · have hl : (w - 1) % m = m - 1 := by
      obtain ⟨c, rfl⟩ := h
      obtain ⟨c, rfl⟩ : ∃ k, c = k + 1 := ⟨c - 1, by cases c <;> omega⟩
      rw [Nat.mul_succ, show m * c + m - 1 = m * c + (m - 1) by omega, Nat.mul_add_mod, Nat.mod_eq_of_lt (by omega)]
    rw [hl, show m - (m - 1 + 1) = 0 by omega, pow_zero, Nat.mod_one, Nat.div_one]
    omega
  · rw [Nat.mod_eq_zero_of_dvd h, Nat.zero_add, pow_one]
    have e := two_pow_pred hm
    rw [Nat.mod_eq_of_lt (show f / 2 < 2 ^ (m - 1) by omega), Nat.div_eq_of_lt (show f / 2 < 2 ^ (m - 1) by omega)]
    omega

/-- C39: `apply_rev` takes the element `i` of the frame `f` from `i * n + f`. -/
theorem C39_apply_rev {w len n : Nat} (hs : Straight w n) {I : Nat → α} {inData : List α}
    (hI : ∀ e, e < len * n → inData[e]? = some (I e)) {outs : List (List α)} (h : Room n len outs) :
    ∃ outs', applyRev (2 ^ w) inData outs len = ok outs' ∧ Room n len outs' ∧ ∀ f, f < n → ∀ x, at' outs' f x =
      if x < len then some (I (x * n + f)) else at' outs f x := by
  by_cases hv : vect (2 ^ w) n = false
  · exact applyRev_seq hv hI h
  · rcases hs with hs | ⟨m, hs⟩
    · exact absurd hs hv
    · have hn : n = 2 ^ m := by rcases hs with hs | hs <;> exact hs.1
      have hd : m ∣ w ∨ m ∣ w - 1 := by rcases hs with hs | hs <;> simp [hs.2]
      subst hn
      obtain ⟨m', hm', e, hle⟩ := vect_iff.1 (by simpa using hv)
      obtain rfl := Nat.pow_right_injective (Nat.le_refl 2) e
      have hmw : m ≤ w := (Nat.pow_le_pow_iff_right (by omega)).1 hle
      obtain ⟨o, e, hr, ho⟩ := applyRev_vect hm' hmw hI h
      refine ⟨o, e, hr, fun f hf x => ?_⟩
      rw [ho f hf, source_id hm' (by omega) hd hf]
      have := Nat.div_mul_le_self len (2 ^ w)
      by_cases h1 : x < len / 2 ^ w * 2 ^ w
      · rw [if_pos h1, if_pos (by omega)]
      · rw [if_neg h1]

/-- C39: `apply_rev` undoes `apply`. -/
theorem C39_round_trip {w len n : Nat} (hs : Straight w n) {F : Nat → Nat → α} {inData : List (List α)} (h : Frames n len F inData)
    {out : List α} (hl : len * n ≤ out.length) {outs : List (List α)} (ho : Room n len outs) :
    ∃ out' outs', apply (2 ^ w) inData out len = ok out' ∧ applyRev (2 ^ w) out' outs len = ok outs' ∧ Frames n len F outs' := by
  obtain ⟨o, e, h1, h2⟩ := apply_spec (w := w) h hl
  have hI : ∀ e, e < len * n → o[e]? = some (F (e % n) (e / n)) := fun e he => by rw [h2, if_pos he]
  obtain ⟨o', e', hr, ho'⟩ := C39_apply_rev (I := fun e => F (e % n) (e / n)) hs hI ho
  refine ⟨o, o', e, e', hr.1, fun f hf => ?_⟩
  obtain ⟨d, d1, _⟩ := hr.2 f hf
  refine ⟨d, d1, fun i hi => ?_⟩
  have := ho' f hf i
  unfold at' at this
  rw [d1, if_pos hi, Nat.mul_comm i n, Nat.mul_add_mod, Nat.mul_add_div (by omega), Nat.mod_eq_of_lt hf, Nat.div_eq_of_lt hf, Nat.add_zero] at this
  exact this

/-- C39: as many frames as elements in a register, half as many, or two or four: always straight. -/
theorem C39_straight (w : Nat) : Straight w (2 ^ w) ∧ Straight (w + 1) (2 ^ w) ∧ Straight w 2 ∧ Straight w 4 := by
  refine ⟨Or.inr ⟨w, Or.inl ⟨rfl, Nat.dvd_refl w⟩⟩, Or.inr ⟨w, Or.inr ⟨rfl, Nat.dvd_refl w⟩⟩, Or.inr ⟨1, Or.inl ⟨rfl, Nat.one_dvd w⟩⟩, ?_⟩
  rcases Nat.mod_two_eq_zero_or_one w with h | h
  · exact Or.inr ⟨2, Or.inl ⟨rfl, Nat.dvd_of_mod_eq_zero h⟩⟩
  · exact Or.inr ⟨2, Or.inr ⟨rfl, Nat.dvd_of_mod_eq_zero (by omega)⟩⟩

/-- Four frames of nine elements with registers of eight: one vectorised block and one sequential element. -/
example : apply 8 [[0, 1, 2, 3, 4, 5, 6, 7, 8], [10, 11, 12, 13, 14, 15, 16, 17, 18], [20, 21, 22, 23, 24, 25, 26, 27, 28],
    [30, 31, 32, 33, 34, 35, 36, 37, 38]] (List.replicate 37 99) 9 =
    ok [0, 10, 20, 30, 1, 11, 21, 31, 2, 12, 22, 32, 3, 13, 23, 33, 4, 14, 24, 34, 5, 15, 25, 35, 6, 16, 26, 36, 7, 17, 27, 37, 8, 18, 28, 38, 99] := by
  decide
example : Frames 2 3 (fun f i => 10 * f + i) [[0, 1, 2], [10, 11, 12]] ∧ Room 2 3 [[0, 0, 0], [0, 0, 0]] := by
  refine ⟨⟨rfl, fun f hf => ?_⟩, rfl, fun f hf => ?_⟩
  · match f, hf with
    | 0, _ => exact ⟨_, rfl, by decide⟩
    | 1, _ => exact ⟨_, rfl, by decide⟩
  · match f, hf with
    | 0, _ => exact ⟨_, rfl, by decide⟩
    | 1, _ => exact ⟨_, rfl, by decide⟩

/-! ## Exchanged frames (C64) -/

/-- C64: what the vectorised `apply_rev` does for every power of two of frames: the frame `f` receives the elements of the frame
`source w m f`. -/
theorem C64_vectorised {m w len : Nat} (hm : 1 ≤ m) (hw : m ≤ w) {I : Nat → α} {inData : List α}
    (hI : ∀ e, e < len * 2 ^ m → inData[e]? = some (I e)) {outs : List (List α)} (h : Room (2 ^ m) len outs) :
    ∃ o', applyRev (2 ^ w) inData outs len = ok o' ∧ ∀ f, f < 2 ^ m → ∀ x, x < len / 2 ^ w * 2 ^ w →
      at' o' f x = some (I (x * 2 ^ m + source w m f)) := by
  obtain ⟨o, e, _, ho⟩ := applyRev_vect hm hw hI h
  exact ⟨o, e, fun f hf x hx => by rw [ho f hf, if_pos hx]⟩

/-- C64: when neither the number of bits of the positions nor this number less one is a multiple of the number of bits of the
frame numbers, some frame receives the elements of another one. -/
theorem C64_exchanged {m w len : Nat} (hm : 1 ≤ m) (hw : m ≤ w) (h1 : ¬m ∣ w) (h2 : ¬m ∣ w - 1) (hlen : 2 ^ w ≤ len) {I : Nat → α} {inData : List α}
    (hI : ∀ e, e < len * 2 ^ m → inData[e]? = some (I e)) {outs : List (List α)} (h : Room (2 ^ m) len outs) :
    ∃ o' f, applyRev (2 ^ w) inData outs len = ok o' ∧ 2 < f ∧ f < 2 ^ m ∧ ∀ x, x < len / 2 ^ w * 2 ^ w → at' o' f x = some (I (x * 2 ^ m + 2)) := by
  obtain ⟨o, e, ho⟩ := C64_vectorised hm hw hI h
  have hlt := Nat.mod_lt (w - 1) (show 0 < m by omega)
  have hne1 : (w - 1) % m ≠ 0 := fun h => h2 (Nat.dvd_of_mod_eq_zero h)
  have hne2 : (w - 1) % m ≠ m - 1 := fun h => h1 (by
    have hdm := Nat.div_add_mod (w - 1) m
    rw [h] at hdm
    exact ⟨(w - 1) / m + 1, by rw [Nat.mul_succ]; omega⟩)
  have hp : 2 ^ (m - last w m) * 2 < 2 ^ m := by
    rw [← pow_succ]; exact Nat.pow_lt_pow_right (by omega) (by unfold last; omega)
  have hp2 : 2 ≤ 2 ^ (m - last w m) := by
    have := Nat.pow_le_pow_right (n := 2) (by omega) (show 1 ≤ m - last w m by unfold last; omega)
    simpa using this
  refine ⟨o, 2 ^ (m - last w m) * 2, e, by omega, hp, fun x hx => ?_⟩
  rw [ho _ hp x hx]
  have : source w m (2 ^ (m - last w m) * 2) = 2 := by
    unfold source
    rw [show 2 ^ (m - last w m) * 2 / 2 = 2 ^ (m - last w m) by omega, Nat.mod_self, Nat.div_self (by omega)]
    omega
  rw [this]

/-- C64: eight frames of 8-bit values with 256-bit registers, or of 16-bit values with 512-bit ones. -/
example : (3 : Nat) ≤ 5 ∧ ¬3 ∣ 5 ∧ ¬3 ∣ 5 - 1 := by decide
/-- The frames received by the frames 0, 1, ..., 7 in this case. -/
example : (List.range 8).map (source 5 3) = [0, 1, 4, 5, 2, 3, 6, 7] := by decide

end Verif.Reorderer
