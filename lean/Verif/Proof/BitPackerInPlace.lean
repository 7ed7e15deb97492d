import Verif.Proof.BitPacker

/-! # In-place bit packing -/

namespace Verif.BitPacker
open Exec

theorem elemTruth_eq {sz : Nat} {mem : List (BitVec 8)} {t : Nat} (h : t * sz + sz ≤ mem.length) :
    elemTruth sz mem t = ok (elemBit sz mem t) := by
  unfold elemTruth
  have : (forN sz (fun k acc => rd mem (t * sz + k) >>= fun b => ok (acc || decide (b ≠ 0#8))) false).Sat
      (fun r => r = elemBit sz mem t) := by
    unfold elemBit
    refine forN_inv (fun k (r : Bool) => r = (List.range k).any fun k => decide (mem.getD (t * sz + k) 0 ≠ 0)) rfl ?_
    rintro k r hk rfl
    have hk' : t * sz + k < mem.length := by omega
    rw [rd_lt hk', bind_ok, sat_ok, List.range_succ, List.any_append]
    simp [hk']
  obtain ⟨r, h1, rfl⟩ := this
  exact h1

theorem elemBit_congr {sz : Nat} {mem mem' : List (BitVec 8)} {t : Nat}
    (h : ∀ j, t * sz ≤ j → mem[j]? = mem'[j]?) : elemBit sz mem t = elemBit sz mem' t := by
  unfold elemBit
  congr 1
  funext k
  rw [List.getD_eq_getElem?_getD, List.getD_eq_getElem?_getD, h _ (Nat.le_add_right _ _)]

theorem elemStore_sat {sz : Nat} {mem : List (BitVec 8)} {t : Nat} {v : Int} (h : t * sz + sz ≤ mem.length) :
    (elemStore sz mem t v).Sat fun o => o.length = mem.length ∧
      ∀ j : Nat, o[j]? = if t * sz ≤ j ∧ j < t * sz + sz then
        some (if j - t * sz = 0 then BitVec.ofInt 8 v else 0#8) else mem[j]? :=
  forN_fill (g := fun k => if k = 0 then BitVec.ofInt 8 v else 0#8) h

theorem packInPlace_sat {sz : Nat} {msb : Bool} {nb nBits nFrames : Nat} {mem : List (BitVec 8)}
    (hsz : 0 < sz) (hb : 0 < nb) (hW : nb ≤ 8) (hin : nFrames * nBits * sz ≤ mem.length) :
    (packInPlace sz msb nb nBits nFrames mem).Sat fun o => o.length = mem.length ∧
      (∀ f, f < nFrames → ∀ i, i < nSymbols nBits nb → ∃ s, o[f * nSymbols nBits nb + i]? = some s ∧
        SymbolOf msb (min nb (nBits - i * nb)) (fun k => elemBit sz mem (f * nBits + (i * nb + k))) s) ∧
      (∀ j : Nat, nFrames * nSymbols nBits nb ≤ j → o[j]? = mem[j]?) := by
  unfold packInPlace
  rw [if_neg (by omega)]
  simp only [Int.toNat_natCast]
  have hns := nSymbols_le (n := nBits) hb
  refine forN_inv (fun F (o : List (BitVec 8)) => o.length = mem.length ∧
      (∀ f, f < F → ∀ i, i < nSymbols nBits nb → ∃ s, o[f * nSymbols nBits nb + i]? = some s ∧
        SymbolOf msb (min nb (nBits - i * nb)) (fun k => elemBit sz mem (f * nBits + (i * nb + k))) s) ∧
      (∀ j : Nat, F * nSymbols nBits nb ≤ j → o[j]? = mem[j]?)) ?_ ?_
  · exact ⟨rfl, fun f hf => absurd hf (Nat.not_lt_zero f), fun j _ => rfl⟩
  · rintro f o hf ⟨hl, hp, hr⟩
    have b1 := slice_le' (size := nBits) hf
    have b2 := slice_le' (size := nSymbols nBits nb) hf
    have b3 : nFrames * nBits ≤ nFrames * nBits * sz := Nat.le_mul_of_pos_right _ hsz
    have b4 : f * nSymbols nBits nb ≤ f * nBits := Nat.mul_le_mul_left _ hns
    refine (packFrame_inv (fun i (o : List (BitVec 8)) => o.length = mem.length ∧
      (∀ f', f' < f → ∀ i, i < nSymbols nBits nb → ∃ s, o[f' * nSymbols nBits nb + i]? = some s ∧
        SymbolOf msb (min nb (nBits - i * nb)) (fun k => elemBit sz mem (f' * nBits + (i * nb + k))) s) ∧
      (∀ k, k < i → ∃ s, o[f * nSymbols nBits nb + k]? = some s ∧
        SymbolOf msb (min nb (nBits - k * nb)) (fun j => elemBit sz mem (f * nBits + (k * nb + j))) s) ∧
        (∀ j : Nat, f * nSymbols nBits nb + i ≤ j → o[j]? = mem[j]?))
      (bits := fun t => elemBit sz mem (f * nBits + t)) hb hW ?_ ?_ ?_).mono ?_
    · exact ⟨hl, hp, fun k hk => absurd hk (Nat.not_lt_zero k), hr⟩
    · rintro i m hi ⟨g1, g2, g3, g4⟩ t ht1 ht2
      have c1 : (f * nBits + t) * sz + sz ≤ nFrames * nBits * sz := by
        have : (f * nBits + t + 1) * sz ≤ (nFrames * nBits) * sz := Nat.mul_le_mul_right _ (by omega)
        rwa [Nat.succ_mul] at this
      rw [elemTruth_eq (by omega)]
      congr 1
      apply elemBit_congr
      intro j hj
      apply g4
      have : f * nBits + t ≤ (f * nBits + t) * sz := Nat.le_mul_of_pos_right _ hsz
      have : i ≤ i * nb := Nat.le_mul_of_pos_right _ hb
      omega
    · rintro i m s hi ⟨g1, g2, g3, g4⟩ hs
      rw [wr_lt (by have : nFrames * nSymbols nBits nb ≤ nFrames * nBits := Nat.mul_le_mul_left _ hns
                    omega), sat_ok]
      have hlen : f * nSymbols nBits nb + i < m.length := by
        have : nFrames * nSymbols nBits nb ≤ nFrames * nBits := Nat.mul_le_mul_left _ hns
        omega
      refine ⟨by simpa using g1, ?_, ?_, ?_⟩
      · intro f' hf' k hk
        obtain ⟨s', h1, h2⟩ := g2 f' hf' k hk
        have := slice_le' (size := nSymbols nBits nb) hf'
        exact ⟨s', by rw [List.getElem?_set, if_neg (by omega)]; exact h1, h2⟩
      · intro k hk
        rcases Nat.lt_succ_iff_lt_or_eq.mp hk with hlt | rfl
        · obtain ⟨s', h1, h2⟩ := g3 k hlt
          exact ⟨s', by rw [List.getElem?_set, if_neg (by omega)]; exact h1, h2⟩
        · exact ⟨s, by rw [List.getElem?_set, if_pos rfl, if_pos hlen], hs⟩
      · intro j hj
        rw [List.getElem?_set, if_neg (by omega)]; exact g4 j (by omega)
    · rintro o' ⟨g1, g2, g3, g4⟩
      refine ⟨g1, ?_, ?_⟩
      · intro f' hf' k hk
        rcases Nat.lt_succ_iff_lt_or_eq.mp hf' with hlt | rfl
        · exact g2 f' hlt k hk
        · exact g3 k hk
      · intro j hj
        rw [Nat.succ_mul] at hj
        exact g4 j (by omega)

/-- One frame of the in-place unpacking, reading from a copy. -/
theorem unpackStore_sat {sz : Nat} {msb : Bool} {nb nBits : Nat} {mem cpy : List (BitVec 8)}
    (hb : 0 < nb) (hW : nb ≤ 8) (hin : nBits * sz ≤ mem.length) (hc : nSymbols nBits nb ≤ cpy.length) :
    (unpackFrame msb nb nBits (fun _ i => rd cpy (0 * nSymbols nBits nb + i))
        (fun mem t v => elemStore sz mem (0 * nBits + t) v) mem).Sat fun o => o.length = mem.length ∧
      (∀ t, t < nBits → ∃ s, cpy[t / nb]? = some s ∧ ∀ k, k < sz → o[t * sz + k]? =
        some (if k = 0 then BitVec.ofInt 8 (ofBit (s.getLsbD (bitPos msb 8 (t % nb)))) else 0#8)) ∧
      (∀ j : Nat, nBits * sz ≤ j → o[j]? = mem[j]?) := by
  simp only [Nat.zero_mul, Nat.zero_add]
  refine (unpackFrame_inv (fun n (o : List (BitVec 8)) => o.length = mem.length ∧
      (∀ t, t < n → ∃ s, cpy[t / nb]? = some s ∧ ∀ k, k < sz → o[t * sz + k]? =
        some (if k = 0 then BitVec.ofInt 8 (ofBit (s.getLsbD (bitPos msb 8 (t % nb)))) else 0#8)) ∧
      (∀ j : Nat, n * sz ≤ j → o[j]? = mem[j]?)) (sym := fun i => cpy.getD i 0#8) hb hW ?_ ?_ ?_)
  · exact ⟨rfl, fun k hk => absurd hk (Nat.not_lt_zero k), fun j _ => rfl⟩
  · intro t m ht _
    have := lt_nSymbols hb ht
    rw [rd_lt (by omega), getD_lt _ (by omega)]
  · rintro t m ht ⟨g1, g2, g3⟩
    have hs := lt_nSymbols hb ht
    have b1 := slice_le' (size := sz) ht
    refine (elemStore_sat (by omega)).mono ?_
    rintro o ⟨h1, h2⟩
    refine ⟨by omega, ?_, ?_⟩
    · intro t' ht'
      rcases Nat.lt_succ_iff_lt_or_eq.mp ht' with hlt | rfl
      · obtain ⟨s, e1, e2⟩ := g2 t' hlt
        refine ⟨s, e1, fun k hk => ?_⟩
        have := slice_le' (size := sz) hlt
        rw [h2, if_neg (by omega), e2 k hk]
      · refine ⟨cpy.getD (t' / nb) 0#8, ?_, fun k hk => ?_⟩
        · rw [getD_lt _ (by omega), List.getElem?_eq_getElem (by omega)]
        · rw [h2, if_pos (by omega), Nat.add_sub_cancel_left]
    · intro j hj
      rw [Nat.succ_mul] at hj
      rw [h2, if_neg (by omega), g3 j (by omega)]

theorem unpackInPlace_one {sz : Nat} {msb : Bool} {nb nBits : Nat} {mem : List (BitVec 8)}
    (hb : 0 < nb) (hW : nb ≤ 8) (hsz : 0 < sz) (hin : nBits * sz ≤ mem.length) :
    (unpackInPlace sz msb nb nBits 1 mem).Sat fun o => o.length = mem.length ∧
      (∀ t, t < nBits → ∃ s, mem[t / nb]? = some s ∧ ∀ k, k < sz → o[t * sz + k]? =
        some (if k = 0 then BitVec.ofInt 8 (ofBit (s.getLsbD (bitPos msb 8 (t % nb)))) else 0#8)) ∧
      (∀ j : Nat, nBits * sz ≤ j → o[j]? = mem[j]?) := by
  unfold unpackInPlace
  rw [if_neg (by omega)]
  simp only [Int.toNat_natCast]
  rw [forN_succ, forN_zero, bind_ok]
  have hns := nSymbols_le (n := nBits) hb
  have hz : nBits ≤ nBits * sz := Nat.le_mul_of_pos_right _ hsz
  refine (copyTo_sat (by omega) (by simp)).bind ?_
  rintro cpy ⟨c1, c2⟩
  simp only [List.length_replicate] at c1
  refine (unpackStore_sat (mem := mem) (cpy := cpy) hb hW hin (by omega)).mono ?_
  rintro o ⟨h1, h2, h3⟩
  refine ⟨h1, fun t ht => ?_, h3⟩
  obtain ⟨s, e1, e2⟩ := h2 t ht
  have := lt_nSymbols hb ht
  rw [c2, if_pos ⟨Nat.zero_le _, by rw [Nat.zero_add]; exact this⟩] at e1
  exact ⟨s, by simpa using e1, e2⟩

theorem unpackInPlace_ub {sz : Nat} {msb : Bool} {nb nBits nFrames : Nat} {mem : List (BitVec 8)}
    (hsz : 0 < sz) (hb : 0 < nb) (hW : nb ≤ 8) (hn : 0 < nBits) (hf : 2 ≤ nFrames)
    (hin : nFrames * nBits * sz ≤ mem.length) : unpackInPlace sz msb nb nBits nFrames mem = ub := by
  unfold unpackInPlace
  rw [if_neg (by omega)]
  simp only [Int.toNat_natCast]
  obtain ⟨m, rfl⟩ : ∃ m, nFrames = 1 + (1 + m) := ⟨nFrames - 2, by omega⟩
  have hns := nSymbols_le (n := nBits) hb
  have hpos : 0 < nSymbols nBits nb := Nat.lt_of_le_of_lt (Nat.zero_le _) (lt_nSymbols hb hn)
  have hz : (1 + (1 + m)) * nBits ≤ (1 + (1 + m)) * nBits * sz := Nat.le_mul_of_pos_right _ hsz
  have h2 : 2 * nBits ≤ (1 + (1 + m)) * nBits := Nat.mul_le_mul_right _ (by omega)
  have h1s : nBits * sz ≤ (1 + (1 + m)) * nBits * sz := Nat.mul_le_mul_right _ (by omega)
  rw [forN_add]
  obtain ⟨o, ho, hol, -⟩ := unpackInPlace_one (sz := sz) (msb := msb) (nb := nb) (nBits := nBits) (mem := mem)
    hb hW hsz (by omega)
  unfold unpackInPlace at ho
  rw [if_neg (by omega)] at ho
  simp only [Int.toNat_natCast] at ho
  rw [ho, bind_ok, forN_add, forN_succ, forN_zero, bind_ok]
  obtain ⟨cpy, hc, hcl, -⟩ := copyTo_sat (src := o) (so := (1 + 0) * nSymbols nBits nb)
    (n := nSymbols nBits nb) (dst := List.replicate (nSymbols nBits nb) 0#8) (d := 0) (by omega) (by simp)
  rw [hc, bind_ok, unpackFrame_flat hb]
  obtain ⟨n', rfl⟩ : ∃ n', nBits = n' + 1 := ⟨nBits - 1, by omega⟩
  rw [forN_succ', rd_ge (by simp only [List.length_replicate] at hcl; rw [hcl, Nat.zero_div]; omega)]
  rfl

end Verif.BitPacker
