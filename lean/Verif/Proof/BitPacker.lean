import Verif.Prelude.Loops
import Verif.Spec.BitPacker

/-! # Lemmas on the bit packer -/

namespace Verif.BitPacker
open Exec

theorem bitPos_lt {msb : Bool} {W k : Nat} (h : k < W) : bitPos msb W k < W := by
  unfold bitPos; split <;> omega

theorem packSymbol_sat {W : Nat} {msb : Bool} {m base : Nat} {get : Nat → Exec Bool} {bits : Nat → Bool}
    (hm : m ≤ W) (hget : ∀ j, j < m → get (base + j) = ok (bits j)) :
    (packSymbol W msb m get base).Sat (SymbolOf msb m bits) := by
  unfold packSymbol
  cases msb
  · simp only [if_true]
    refine (forN_inv (fun j (s : BitVec W) => ∀ k, k < W → s.getLsbD k = (decide (k < j) && bits k)) ?_ ?_)
    · intro k hk; simp
    · rintro j s hj hs
      rw [hget j hj, bind_ok, sat_ok]
      intro k hk
      rw [BitVec.getLsbD_or, hs k hk, BitVec.getLsbD_shiftLeft]
      by_cases h1 : k < j
      · have : k < j + 1 := by omega
        simp [h1, this]
      · by_cases h2 : k = j
        · subst h2
          cases hb : bits k
          · simp
          · simp [hk]; omega
        · have h3 : ¬ k < j + 1 := by omega
          have h4 : ¬ (0 = k - j) := by omega
          cases hb : bits j <;> simp [h1, h3]
          · intro _ _; omega
  · simp only [Bool.true_eq_false, if_false]
    refine Sat.bind (P := fun (s : BitVec W) => ∀ k, s.getLsbD k = (decide (k < m) && bits (m - 1 - k))) ?_ ?_
    · refine (forN_inv (fun j (s : BitVec W) => ∀ k, s.getLsbD k = (decide (k < j) && bits (j - 1 - k))) ?_ ?_)
      · intro k; simp
      · rintro j s hj hs
        rw [hget j hj, bind_ok, sat_ok]
        intro k
        rw [BitVec.getLsbD_or, BitVec.getLsbD_shiftLeft, hs]
        by_cases h0 : k = 0
        · subst h0
          cases hb : bits j <;> simp [hb]
          omega
        · have e : j - 1 - (k - 1) = j + 1 - 1 - k := by omega
          have h1 : ¬ k < 1 := by omega
          have hz : ¬ (0 = k) := by omega
          by_cases h2 : k < j + 1
          · have h3 : k - 1 < j := by omega
            have h4 : k < W := by omega
            rw [e]
            cases hb : bits j <;> simp [h2, h3, h4, h1, h0]
          · have h3 : ¬ (k - 1 < j) := by omega
            cases hb : bits j <;> simp [h2, h3, h0]
    · intro s hs
      rw [sat_ok]
      intro k hk
      simp only [bitPos, if_true]
      rw [BitVec.getLsbD_shiftLeft, hs]
      by_cases h : k < m
      · have h1 : W - 1 - k < W := by omega
        have h2 : ¬ (W - 1 - k < W - m) := by omega
        have h3 : W - 1 - k - (W - m) < m := by omega
        have e : m - 1 - (W - 1 - k - (W - m)) = k := by omega
        simp [h, h1, h2, h3, e]
      · have h2 : (W - 1 - k < W - m) := by omega
        simp [h, h2]

theorem SymbolOf.unique {W : Nat} {msb : Bool} {m : Nat} {bits : Nat → Bool} {s s' : BitVec W}
    (h : SymbolOf msb m bits s) (h' : SymbolOf msb m bits s') : s = s' := by
  apply BitVec.eq_of_getLsbD_eq
  intro i hi
  have hk : bitPos msb W i < W := bitPos_lt hi
  have e : bitPos msb W (bitPos msb W i) = i := by
    unfold bitPos; cases msb <;> simp; omega
  have a := h _ hk
  have b := h' _ hk
  rw [e] at a b
  rw [a, b]

theorem symbolBit_eq {W : Nat} {msb : Bool} {s : BitVec W} {j : Nat} (hj : j < W) :
    symbolBit msb s j = ofBit (s.getLsbD (bitPos msb W j)) := by
  have key : ∀ i, i < W → (((s >>> i) &&& 1#W).toNat : Int) = ofBit (s.getLsbD i) := by
    intro i hi
    have : ((s >>> i) &&& 1#W) = if s.getLsbD i then 1#W else 0#W := by
      apply BitVec.eq_of_getLsbD_eq
      intro k hk
      rw [BitVec.getLsbD_and, BitVec.getLsbD_ushiftRight]
      by_cases h0 : k = 0
      · subst h0
        cases hb : s.getLsbD i <;> simp [hb]
      · have : ¬ (0 = k) := by omega
        cases hb : s.getLsbD i <;> simp [h0]
    rw [this]
    unfold ofBit
    split
    · have h1 : 1 < 2 ^ W := Nat.one_lt_two_pow (by omega)
      simp [Nat.mod_eq_of_lt h1]
    · simp
  unfold symbolBit
  cases msb
  · simp only [if_true]; rw [key j hj]; rfl
  · simp only [Bool.true_eq_false, if_false]; rw [key _ (by omega)]; rfl

theorem nSymbols_eq {n b : Nat} (hb : 0 < b) :
    nSymbols n b = n / b + if n - n / b * b ≠ 0 then 1 else 0 := by
  unfold nSymbols
  have h1 := Nat.div_add_mod n b
  have h2 := Nat.mod_lt n hb
  rw [Nat.mul_comm] at h1
  generalize n / b = q at *
  generalize n % b = r at *
  subst h1
  by_cases hr : r = 0
  · subst hr
    rw [if_neg (by omega), Nat.add_zero, Nat.add_zero, Nat.mul_comm, Nat.add_sub_assoc (by omega),
      Nat.mul_add_div hb, Nat.div_eq_of_lt (by omega), Nat.add_zero]
  · rw [if_pos (by omega)]
    have : q * b + r + b - 1 = b * (q + 1) + (r - 1) := by
      rw [Nat.mul_add, Nat.mul_comm b q]; omega
    rw [this, Nat.mul_add_div hb, Nat.div_eq_of_lt (by omega)]

theorem nSymbols_le {n b : Nat} (hb : 0 < b) : nSymbols n b ≤ n := by
  unfold nSymbols
  rcases Nat.eq_zero_or_pos n with rfl | hn
  · rw [Nat.div_eq_of_lt (by omega)]; exact Nat.le_refl _
  · rw [Nat.div_le_iff_le_mul_add_pred hb]
    have : n ≤ b * n := Nat.le_mul_of_pos_left _ hb
    omega

theorem lt_nSymbols {n b t : Nat} (hb : 0 < b) (ht : t < n) : t / b < nSymbols n b := by
  unfold nSymbols
  rw [Nat.div_lt_iff_lt_mul hb]
  have h1 := Nat.div_add_mod (n + b - 1) b
  have h2 := Nat.mod_lt (n + b - 1) hb
  rw [Nat.mul_comm] at h1
  omega

theorem packFrame_inv {σ : Type _} {W : Nat} {msb : Bool} {nbps nBits : Nat} {get : σ → Nat → Exec Bool}
    {put : σ → Nat → BitVec W → Exec σ} {mem : σ} (Inv : Nat → σ → Prop) {bits : Nat → Bool}
    (hb : 0 < nbps) (hW : nbps ≤ W) (h0 : Inv 0 mem)
    (hget : ∀ i mem, i < nSymbols nBits nbps → Inv i mem → ∀ t, i * nbps ≤ t → t < nBits → get mem t = ok (bits t))
    (hput : ∀ i mem s, i < nSymbols nBits nbps → Inv i mem →
      SymbolOf msb (min nbps (nBits - i * nbps)) (fun k => bits (i * nbps + k)) s → (put mem i s).Sat (Inv (i + 1))) :
    (packFrame W msb nbps nBits get put mem).Sat (Inv (nSymbols nBits nbps)) := by
  unfold packFrame
  have hns := nSymbols_eq (n := nBits) hb
  have hle : nBits / nbps * nbps ≤ nBits := Nat.div_mul_le_self _ _
  have hlt : nBits < nBits / nbps * nbps + nbps := by
    have h1 := Nat.div_add_mod nBits nbps
    have h2 := Nat.mod_lt nBits hb
    rw [Nat.mul_comm] at h1; omega
  refine Sat.bind (P := Inv (nBits / nbps)) ?_ ?_
  · refine forN_inv Inv h0 ?_
    intro i mem hi hI
    have hi' : i < nSymbols nBits nbps := by rw [hns]; omega
    have hii : (i + 1) * nbps ≤ nBits / nbps * nbps := Nat.mul_le_mul_right _ hi
    rw [Nat.succ_mul] at hii
    refine (packSymbol_sat (msb := msb) (bits := fun k => bits (i * nbps + k)) hW ?_).bind ?_
    · intro j hj
      exact hget i mem hi' hI _ (by omega) (by omega)
    · intro s hs
      refine hput i mem s hi' hI ?_
      rwa [Nat.min_eq_left (by omega)]
  · intro mem hI
    by_cases hr : nBits - nBits / nbps * nbps ≠ 0
    · rw [if_pos hr] at hns ⊢
      have hi' : nBits / nbps < nSymbols nBits nbps := by omega
      refine (packSymbol_sat (msb := msb) (bits := fun k => bits (nBits / nbps * nbps + k)) (by omega) ?_).bind ?_
      · intro j hj
        exact hget _ mem hi' hI _ (by omega) (by omega)
      · intro s hs
        rw [hns]
        refine hput _ mem s hi' hI ?_
        rwa [Nat.min_eq_right (by omega)]
    · rw [if_neg hr] at hns ⊢
      rw [sat_ok, hns]; exact hI

theorem unpackFrame_flat {σ : Type _} {W : Nat} {msb : Bool} {nbps nBits : Nat}
    {get : σ → Nat → Exec (BitVec W)} {put : σ → Nat → Int → Exec σ} {mem : σ} (hb : 0 < nbps) :
    unpackFrame msb nbps nBits get put mem = forN nBits (fun t mem => do
      let s ← get mem (t / nbps)
      put mem t (symbolBit msb s (t % nbps))) mem := by
  unfold unpackFrame
  have h1 := Nat.div_add_mod nBits nbps
  have h2 := Nat.mod_lt nBits hb
  rw [Nat.mul_comm] at h1
  simp only
  rw [forN_nested (nBits / nbps) nbps (fun i j mem => do
    let s ← get mem i
    put mem (i * nbps + j) (symbolBit msb s j))]
  have e : nBits = nBits / nbps * nbps + (nBits - nBits / nbps * nbps) := by omega
  conv => rhs; rw [e, forN_add]
  congr 1
  · apply forN_congr
    intro t s _
    have := Nat.div_add_mod t nbps
    rw [Nat.mul_comm] at this
    rw [this]
  · funext mem
    apply forN_congr
    intro j s hj
    have hj' : j < nbps := by omega
    rw [Nat.mul_comm _ nbps, Nat.mul_add_div hb, Nat.mul_add_mod, Nat.div_eq_of_lt hj', Nat.mod_eq_of_lt hj']
    rfl

theorem unpackFrame_inv {σ : Type _} {W : Nat} {msb : Bool} {nbps nBits : Nat}
    {get : σ → Nat → Exec (BitVec W)} {put : σ → Nat → Int → Exec σ} {mem : σ} (Inv : Nat → σ → Prop)
    {sym : Nat → BitVec W} (hb : 0 < nbps) (hW : nbps ≤ W) (h0 : Inv 0 mem)
    (hget : ∀ t mem, t < nBits → Inv t mem → get mem (t / nbps) = ok (sym (t / nbps)))
    (hput : ∀ t mem, t < nBits → Inv t mem →
      (put mem t (ofBit ((sym (t / nbps)).getLsbD (bitPos msb W (t % nbps))))).Sat (Inv (t + 1))) :
    (unpackFrame msb nbps nBits get put mem).Sat (Inv nBits) := by
  rw [unpackFrame_flat hb]
  refine forN_inv Inv h0 ?_
  intro t mem ht hI
  rw [hget t mem ht hI, bind_ok, symbolBit_eq (by have := Nat.mod_lt t hb; omega)]
  exact hput t mem ht hI

/-- What a packed vector looks like: frame `f`, symbol `i`. -/
def Packed {W : Nat} (msb : Bool) (nb nBits nFrames : Nat) (vin : List Int) (out : List (BitVec W)) : Prop :=
  ∀ f, f < nFrames → ∀ i, i < nSymbols nBits nb → ∃ s, out[f * nSymbols nBits nb + i]? = some s ∧
    SymbolOf msb (min nb (nBits - i * nb)) (fun k => bitAt vin (f * nBits + (i * nb + k))) s

theorem slice_le' {f n size : Nat} (hf : f < n) : f * size + size ≤ n * size := by
  have : (f + 1) * size ≤ n * size := Nat.mul_le_mul_right _ hf
  rwa [Nat.succ_mul] at this

theorem pack_sat {W : Nat} {msb : Bool} {nb nBits nFrames : Nat} {vin : List Int} {out : List (BitVec W)}
    (hb : 0 < nb) (hW : nb ≤ W) (hin : nFrames * nBits ≤ vin.length)
    (hout : nFrames * nSymbols nBits nb ≤ out.length) :
    (pack W msb nb nBits nFrames vin out).Sat fun o => o.length = out.length ∧
      Packed msb nb nBits nFrames vin o ∧
      (∀ j : Nat, nFrames * nSymbols nBits nb ≤ j → o[j]? = out[j]?) := by
  unfold pack
  rw [if_neg (by omega)]
  simp only [Int.toNat_natCast]
  refine forN_inv (fun F (o : List (BitVec W)) => o.length = out.length ∧ Packed msb nb nBits F vin o ∧
      (∀ j : Nat, F * nSymbols nBits nb ≤ j → o[j]? = out[j]?)) ?_ ?_
  · exact ⟨rfl, fun f hf => absurd hf (Nat.not_lt_zero f), fun j _ => rfl⟩
  · rintro f o hf ⟨hl, hp, hr⟩
    have b1 := slice_le' (size := nBits) hf
    have b2 := slice_le' (size := nSymbols nBits nb) hf
    refine (packFrame_inv (fun i (o : List (BitVec W)) => o.length = out.length ∧
      Packed msb nb nBits f vin o ∧ (∀ k, k < i → ∃ s, o[f * nSymbols nBits nb + k]? = some s ∧
        SymbolOf msb (min nb (nBits - k * nb)) (fun j => bitAt vin (f * nBits + (k * nb + j))) s) ∧
        (∀ j : Nat, f * nSymbols nBits nb + i ≤ j → o[j]? = out[j]?))
      (bits := fun t => bitAt vin (f * nBits + t)) hb hW ?_ ?_ ?_).mono ?_
    · exact ⟨hl, hp, fun k hk => absurd hk (Nat.not_lt_zero k), hr⟩
    · intro i mem hi hI t ht1 ht2
      rw [rd_lt (by omega), bind_ok]
      unfold truth bitAt
      rw [getD_lt _ (by omega)]
    · rintro i mem s hi ⟨g1, g2, g3, g4⟩ hs
      rw [wr_lt (by omega), sat_ok]
      refine ⟨by simpa using g1, ?_, ?_, ?_⟩
      · intro f' hf' k hk
        obtain ⟨s', h1, h2⟩ := g2 f' hf' k hk
        have := slice_le' (size := nSymbols nBits nb) hf'
        exact ⟨s', by rw [List.getElem?_set, if_neg (by omega)]; exact h1, h2⟩
      · intro k hk
        rcases Nat.lt_succ_iff_lt_or_eq.mp hk with hlt | rfl
        · obtain ⟨s', h1, h2⟩ := g3 k hlt
          exact ⟨s', by rw [List.getElem?_set, if_neg (by omega)]; exact h1, h2⟩
        · exact ⟨s, by rw [List.getElem?_set, if_pos rfl, if_pos (by omega)], hs⟩
      · intro j hj
        rw [List.getElem?_set, if_neg (by omega)]; exact g4 j (by omega)
    · rintro o' ⟨g1, g2, g3, g4⟩
      refine ⟨g1, ?_, ?_⟩
      · intro f' hf' k hk
        rcases Nat.lt_succ_iff_lt_or_eq.mp hf' with hlt | rfl
        · exact g2 f' hlt k hk
        · exact g3 k hk
      · intro j hj
        rw [Nat.succ_mul] at hj
        exact g4 j (by omega)

theorem unpack_sat {W : Nat} {msb : Bool} {nb nBits nFrames : Nat} {vin : List (BitVec W)} {out : List Int}
    (hb : 0 < nb) (hW : nb ≤ W) (hin : nFrames * nSymbols nBits nb ≤ vin.length)
    (hout : nFrames * nBits ≤ out.length) :
    (unpack msb nb nBits nFrames vin out).Sat fun o => o.length = out.length ∧
      (∀ f, f < nFrames → ∀ t, t < nBits → ∃ s, vin[f * nSymbols nBits nb + t / nb]? = some s ∧
        o[f * nBits + t]? = some (ofBit (s.getLsbD (bitPos msb W (t % nb))))) ∧
      (∀ j : Nat, nFrames * nBits ≤ j → o[j]? = out[j]?) := by
  unfold unpack
  rw [if_neg (by omega)]
  simp only [Int.toNat_natCast]
  refine forN_inv (fun F (o : List Int) => o.length = out.length ∧
      (∀ f, f < F → ∀ t, t < nBits → ∃ s, vin[f * nSymbols nBits nb + t / nb]? = some s ∧
        o[f * nBits + t]? = some (ofBit (s.getLsbD (bitPos msb W (t % nb))))) ∧
      (∀ j : Nat, F * nBits ≤ j → o[j]? = out[j]?)) ?_ ?_
  · exact ⟨rfl, fun f hf => absurd hf (Nat.not_lt_zero f), fun j _ => rfl⟩
  · rintro f o hf ⟨hl, hp, hr⟩
    have b1 := slice_le' (size := nBits) hf
    have b2 := slice_le' (size := nSymbols nBits nb) hf
    refine (unpackFrame_inv (fun t (o : List Int) => o.length = out.length ∧
      (∀ f', f' < f → ∀ t, t < nBits → ∃ s, vin[f' * nSymbols nBits nb + t / nb]? = some s ∧
        o[f' * nBits + t]? = some (ofBit (s.getLsbD (bitPos msb W (t % nb))))) ∧
      (∀ k, k < t → ∃ s, vin[f * nSymbols nBits nb + k / nb]? = some s ∧
        o[f * nBits + k]? = some (ofBit (s.getLsbD (bitPos msb W (k % nb))))) ∧
      (∀ j : Nat, f * nBits + t ≤ j → o[j]? = out[j]?))
      (sym := fun i => vin.getD (f * nSymbols nBits nb + i) 0#W) hb hW ?_ ?_ ?_).mono ?_
    · exact ⟨hl, hp, fun k hk => absurd hk (Nat.not_lt_zero k), hr⟩
    · intro t mem ht _
      have := lt_nSymbols hb ht
      rw [rd_lt (by omega), getD_lt _ (by omega)]
    · rintro t mem ht ⟨g1, g2, g3, g4⟩
      have hs := lt_nSymbols hb ht
      rw [wr_lt (by omega), sat_ok]
      refine ⟨by simpa using g1, ?_, ?_, ?_⟩
      · intro f' hf' k hk
        obtain ⟨s', h1, h2⟩ := g2 f' hf' k hk
        have := slice_le' (size := nBits) hf'
        exact ⟨s', h1, by rw [List.getElem?_set, if_neg (by omega)]; exact h2⟩
      · intro k hk
        rcases Nat.lt_succ_iff_lt_or_eq.mp hk with hlt | rfl
        · obtain ⟨s', h1, h2⟩ := g3 k hlt
          exact ⟨s', h1, by rw [List.getElem?_set, if_neg (by omega)]; exact h2⟩
        · refine ⟨vin.getD (f * nSymbols nBits nb + k / nb) 0#W, ?_, ?_⟩
          · rw [getD_lt _ (by omega), List.getElem?_eq_getElem (by omega)]
          · rw [List.getElem?_set, if_pos rfl, if_pos (by omega)]
      · intro j hj
        rw [List.getElem?_set, if_neg (by omega)]; exact g4 j (by omega)
    · rintro o' ⟨g1, g2, g3, g4⟩
      refine ⟨g1, ?_, ?_⟩
      · intro f' hf' k hk
        rcases Nat.lt_succ_iff_lt_or_eq.mp hf' with hlt | rfl
        · exact g2 f' hlt k hk
        · exact g3 k hk
      · intro j hj
        rw [Nat.succ_mul] at hj
        exact g4 j (by omega)

/-- Unpacking a packed vector gives back the bits. -/
theorem packed_bit {W : Nat} {msb : Bool} {nb nBits nFrames : Nat} {vin : List Int} {p : List (BitVec W)}
    (hb : 0 < nb) (hW : nb ≤ W) (hp : Packed msb nb nBits nFrames vin p) {f t : Nat} (hf : f < nFrames)
    (ht : t < nBits) {s : BitVec W} (hs : p[f * nSymbols nBits nb + t / nb]? = some s) :
    s.getLsbD (bitPos msb W (t % nb)) = bitAt vin (f * nBits + t) := by
  obtain ⟨s', h1, h2⟩ := hp f hf (t / nb) (lt_nSymbols hb ht)
  rw [hs] at h1
  cases h1
  have hm := Nat.mod_lt t hb
  have e := Nat.div_add_mod t nb
  rw [Nat.mul_comm] at e
  rw [h2 (t % nb) (by omega)]
  simp only [e]
  have : t % nb < min nb (nBits - t / nb * nb) := by omega
  simp [this]

end Verif.BitPacker
