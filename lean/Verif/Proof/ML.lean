import Verif.Spec.ML
import Verif.Proof.BitPackerInPlace

/-! # Maximum likelihood decoders: the search -/

namespace Verif.ML
open Exec Verif.Float Verif.BitPacker

theorem copyTo_full {src dst : List Int} {n : Nat} (hs : src.length = n) (hd : n ≤ dst.length) : copyTo src 0 n dst 0 = ok (src ++ dst.drop n) := by
  obtain ⟨r, e, r1, r2⟩ := copyTo_sat (src := src) (so := 0) (n := n) (dst := dst) (d := 0) (by omega) (by omega)
  rw [e]
  congr 1
  apply List.ext_getElem?
  intro i
  rw [r2 i]
  by_cases hi : i < n
  · rw [if_pos (by omega), List.getElem?_append_left (by omega)]; simp
  · rw [if_neg (by omega), List.getElem?_append_right (by omega), List.getElem?_drop]
    congr 1; omega

/-! ## Integers as lists of bits -/

/-- The bits of an integer. -/
def bitsOf (n u : Nat) : List Int := (List.range n).map fun t => if u.testBit t then 1 else 0

theorem bitsOf_length (n u : Nat) : (bitsOf n u).length = n := by simp [bitsOf]

theorem bitsOf_bits (n u : Nat) : IsBits (bitsOf n u) := by
  intro b hb
  obtain ⟨t, -, rfl⟩ := List.mem_map.1 hb
  split <;> simp

theorem bitsOf_succ (n u : Nat) : bitsOf (n + 1) u = (if u % 2 = 1 then 1 else 0) :: bitsOf n (u / 2) := by
  unfold bitsOf
  rw [List.range_succ_eq_map, List.map_cons, List.map_map]
  congr 1
  · rw [Nat.testBit_zero]; simp
  · apply List.map_congr_left
    intro t _
    simp only [Function.comp_apply, Nat.succ_eq_add_one]
    rw [Nat.testBit_succ]

theorem value_bitsOf : ∀ (n u : Nat), u < 2 ^ n → value (bitsOf n u) = u
  | 0, u, h => by simp at h; simp [bitsOf, value, h]
  | n + 1, u, h => by
    rw [bitsOf_succ, value, value_bitsOf n (u / 2) (by rw [Nat.pow_succ] at h; omega)]
    have : u % 2 = 0 ∨ u % 2 = 1 := by omega
    rcases this with h1 | h1 <;> simp [h1] <;> omega

theorem bitsOf_value : ∀ (l : List Int), IsBits l → bitsOf l.length (value l) = l ∧ value l < 2 ^ l.length
  | [], _ => by simp [bitsOf, value]
  | b :: l, h => by
    obtain ⟨h1, h2⟩ := bitsOf_value l fun x hx => h x (List.mem_cons_of_mem _ hx)
    rw [List.length_cons, bitsOf_succ, value, Nat.pow_succ]
    rcases h b List.mem_cons_self with rfl | rfl
    · have e1 : ((if (0 : Int) ≠ 0 then 1 else 0) + 2 * value l) / 2 = value l := by simp
      have e2 : ((if (0 : Int) ≠ 0 then 1 else 0) + 2 * value l) % 2 = 0 := by simp
      rw [e1, e2, h1]
      exact ⟨by simp, by simp; omega⟩
    · have e1 : ((if (1 : Int) ≠ 0 then 1 else 0) + 2 * value l) / 2 = value l := by simp; omega
      have e2 : ((if (1 : Int) ≠ 0 then 1 else 0) + 2 * value l) % 2 = 1 := by simp
      rw [e1, e2, h1]
      exact ⟨by simp, by simp; omega⟩

theorem elemVal_eq {sz : Nat} (hsz : 0 < sz) {mem : List (BitVec 8)} {t : Nat} {b : BitVec 8}
    (h : ∀ k, k < sz → mem[t * sz + k]? = some (if k = 0 then b else 0#8)) : elemVal sz mem t = ok (b.toNat : Int) := by
  have : (elemVal sz mem t).Sat fun r => r = if sz = 0 then 0 else (b.toNat : Int) := by
    unfold elemVal
    refine forN_inv (fun k (acc : Int) => acc = if k = 0 then 0 else (b.toNat : Int)) (by simp) ?_
    rintro k acc hk rfl
    have hl : t * sz + k < mem.length := by
      by_contra hc
      have := h k hk
      rw [List.getElem?_eq_none (by omega)] at this
      cases this
    have e : mem[t * sz + k] = if k = 0 then b else 0#8 := by
      have := h k hk
      rw [List.getElem?_eq_getElem hl, Option.some.injEq] at this
      exact this
    rw [rd_lt hl, bind_ok, sat_ok, e]
    by_cases h0 : k = 0
    · subst h0; simp
    · simp [h0]
  obtain ⟨r, e, rfl⟩ := this
  rw [e, if_neg (by omega)]

theorem spread_eq {sz n : Nat} (hsz : 0 < sz) (hn : 0 < n) (h64 : n ≤ 64) (u : Nat) : spread sz n u = ok (bitsOf n u) := by
  unfold spread
  have hlen : 8 ≤ (n + 7) * sz := le_trans (by omega) (Nat.le_mul_of_pos_right _ hsz)
  have e1 : forN 8 (fun i mem => wr mem i (BitVec.ofNat 8 (u / 256 ^ i))) (List.replicate ((n + 7) * sz) 0#8) =
      forN 8 (fun i mem => wr mem (0 + i) (BitVec.ofNat 8 (u / 256 ^ i))) (List.replicate ((n + 7) * sz) 0#8) := by
    simp only [Nat.zero_add]
  rw [e1]
  obtain ⟨mem, em, m1, m2⟩ := forN_fill (n := 8) (off := 0) (g := fun i => BitVec.ofNat 8 (u / 256 ^ i)) (out := List.replicate ((n + 7) * sz) 0#8) (by simpa using hlen)
  rw [em, bind_ok]
  have hm : n * sz ≤ mem.length := by rw [m1, List.length_replicate]; exact Nat.mul_le_mul_right _ (by omega)
  obtain ⟨o, eo, o1, o2, -⟩ := unpackInPlace_one (sz := sz) (msb := false) (nb := 8) (nBits := n) (mem := mem) (by omega) (by omega) hsz hm
  have eo' : BitPacker.unpackInPlace sz false 8 n 1 mem = ok o := eo
  rw [eo', bind_ok]
  have key : ∀ t, t < n → elemVal sz o t = ok (if u.testBit t then 1 else 0) := by
    intro t ht
    obtain ⟨s, s1, s2⟩ := o2 t ht
    rw [elemVal_eq hsz s2]
    rw [m2, if_pos (by omega), Nat.sub_zero, Option.some.injEq] at s1
    rw [← s1]
    have hb : (BitVec.ofNat 8 (u / 256 ^ (t / 8))).getLsbD (BitPacker.bitPos false 8 (t % 8)) = u.testBit t := by
      simp only [BitPacker.bitPos, Bool.false_eq_true, if_false]
      rw [BitVec.getLsbD_ofNat, show (256 : Nat) ^ (t / 8) = 2 ^ (8 * (t / 8)) by rw [Nat.pow_mul], Nat.testBit_div_two_pow]
      have : t % 8 < 8 := Nat.mod_lt _ (by omega)
      rw [show t % 8 + 8 * (t / 8) = t by omega]
      simp [this]
    rw [hb]
    cases u.testBit t <;> rfl
  have e2 : forN n (fun t o' => do
      let v ← elemVal sz o t
      wr o' t v) (List.replicate n 0) = forN n (fun t o' => wr o' (0 + t) (if u.testBit t then 1 else 0)) (List.replicate n 0) := by
    refine forN_congr fun t s ht => ?_
    rw [key t ht, bind_ok, Nat.zero_add]
  rw [e2]
  obtain ⟨r, er, r1, r2⟩ := forN_fill (n := n) (off := 0) (g := fun t => if u.testBit t then (1 : Int) else 0) (out := List.replicate n 0) (by simp)
  rw [er]
  congr 1
  apply List.ext_getElem?
  intro i
  rw [r2]
  unfold bitsOf
  rw [getElem?_mapRange]
  by_cases hi : i < n
  · rw [if_pos (by omega), if_pos hi, Nat.sub_zero]
  · rw [if_neg (by omega), if_neg hi, List.getElem?_eq_none (by simp; omega)]

/-! ## Distances -/

theorem hamDist_eq {N : Nat} {x y : List Int} (hx : x.length = N) (hy : y.length = N) : hamDist N x y = ok (ham x y) := by
  have : (hamDist N x y).Sat fun r => r = ham (x.take N) (y.take N) := by
    unfold hamDist
    refine forN_inv (fun n (acc : Nat) => acc = ham (x.take n) (y.take n)) (by simp [ham]) ?_
    rintro n acc hn rfl
    rw [rd_lt (by omega), bind_ok, rd_lt (by omega), bind_ok, sat_ok]
    rw [List.take_succ_eq_append_getElem (by omega), List.take_succ_eq_append_getElem (by omega)]
    unfold ham
    rw [List.zip_append (by simp; omega), List.filter_append, List.length_append]
    congr 1
    simp only [List.zip_cons_cons, List.zip_nil_right, List.filter_cons, List.filter_nil]
    by_cases h : x[n] = y[n] <;> simp [h]
  obtain ⟨r, e, rfl⟩ := this
  rw [e, List.take_of_length_le (by omega), List.take_of_length_le (by omega)]

theorem eucDist_eq {N : Nat} {x : List Int} {y : List Fl} (hx : x.length = N) (hy : y.length = N) : eucDist N x y = ok (fdist x y) := by
  have : (eucDist N x y).Sat fun r => r = fdist (x.take N) (y.take N) := by
    unfold eucDist
    refine forN_inv (fun n (acc : Fl) => acc = fdist (x.take n) (y.take n)) (by simp [fdist]) ?_
    rintro n acc hn rfl
    rw [rd_lt (by omega), bind_ok, rd_lt (by omega), bind_ok, sat_ok]
    rw [List.take_succ_eq_append_getElem (by omega), List.take_succ_eq_append_getElem (by omega)]
    unfold fdist
    rw [List.zip_append (by simp; omega), List.foldl_append]
    rfl
  obtain ⟨r, e, rfl⟩ := this
  rw [e, List.take_of_length_le (by omega), List.take_of_length_le (by omega)]

/-! ## The search -/

/-- What the search gives. -/
inductive Picked {D : Type} (lt : D → D → Bool) (n k : Nat) (C : Nat → Option (List Int × List Int)) (δ : List Int → D) (r0 : D × List Int × List Int) (r : D × List Int × List Int) : Prop
  | none : r = r0 → (∀ i, i < n → ∀ p, C i = some p → lt (δ p.2) r0.1 = false) → Picked lt n k C δ r0 r
  | some (i : Nat) (p : List Int × List Int) : i < n → C i = some p → r.1 = δ p.2 → lt (δ p.2) r0.1 = true → r.2.1 = p.2 → r.2.2 = p.1 ++ r0.2.2.drop k →
      (∀ j, j < n → ∀ q, C j = some q → lt (δ q.2) (δ p.2) = false ∧ (j < i → lt (δ p.2) (δ q.2) = true)) → Picked lt n k C δ r0 r

theorem pick_sat {D : Type} {lt : D → D → Bool} {n N k : Nat} {cand : Nat → Exec (Option (List Int × List Int))} {dist : List Int → Exec D}
    {C : Nat → Option (List Int × List Int)} {δ : List Int → D} {r0 : D × List Int × List Int}
    (tr : ∀ a b c, lt a b = true → lt b c = true → lt a c = true)
    (irr : ∀ a, lt a a = false)
    (cot : ∀ i, i < n → ∀ p, C i = some p → ∀ c r, lt c r = true → lt (δ p.2) r = false → lt c (δ p.2) = true)
    (hc : ∀ i, i < n → cand i = ok (C i)) (hd : ∀ i, i < n → ∀ p, C i = some p → dist p.2 = ok (δ p.2) ∧ p.2.length = N ∧ p.1.length = k)
    (hv : r0.2.1.length = N) (hb : k ≤ r0.2.2.length) :
    (pick lt n N k cand dist r0).Sat fun r => Picked lt n k C δ r0 r := by
  unfold pick
  refine forN_inv (fun m (r : D × List Int × List Int) => Picked lt m k C δ r0 r) (.none rfl (by intro i hi; omega)) ?_
  intro m r hm hr
  rw [hc m hm, bind_ok]
  have hrv : r.2.1.length = N := by
    cases hr with
    | none h _ => rw [h]; exact hv
    | some i p hi hp _ _ h5 _ _ => rw [h5]; exact (hd i (by omega) p hp).2.1
  have hrb : r.2.2.drop k = r0.2.2.drop k ∧ k ≤ r.2.2.length := by
    cases hr with
    | none h _ => rw [h]; exact ⟨rfl, hb⟩
    | some i p hi hp _ _ _ h6 _ =>
      have hk := (hd i (by omega) p hp).2.2
      rw [h6, List.drop_append, hk, Nat.sub_self, List.drop_zero, List.drop_eq_nil_of_le (by omega), List.nil_append, List.length_append]
      exact ⟨rfl, by omega⟩
  cases hcm : C m with
  | none =>
    simp only
    rw [sat_ok]
    cases hr with
    | none h h' =>
      refine .none h fun i hi p hp => ?_
      by_cases him : i = m
      · subst him; rw [hcm] at hp; cases hp
      · exact h' i (by omega) p hp
    | some i p h1 h2 h3 h4 h5 h6 h7 =>
      refine .some i p (by omega) h2 h3 h4 h5 h6 fun j hj q hq => ?_
      by_cases hjm : j = m
      · subst hjm; rw [hcm] at hq; cases hq
      · exact h7 j (by omega) q hq
  | some q =>
    simp only
    obtain ⟨d1, d2, d3⟩ := hd m hm q hcm
    rw [d1, bind_ok]
    by_cases hl : lt (δ q.2) r.1 = true
    · rw [if_pos hl, copyTo_full d2 (by omega), bind_ok, copyTo_full d3 hrb.2, bind_ok, sat_ok]
      refine .some m q (by omega) hcm rfl ?_ (by simp only; rw [List.drop_eq_nil_of_le (by omega), List.append_nil]) (by simp only; rw [hrb.1]) ?_
      · cases hr with
        | none h _ => rw [h] at hl; exact hl
        | some i p h1 h2 h3 h4 _ _ _ => rw [h3] at hl; exact tr _ _ _ hl h4
      · intro j hj q' hq'
        by_cases hjm : j = m
        · subst hjm
          rw [hcm] at hq'
          cases hq'
          exact ⟨irr _, fun h => by omega⟩
        · have hold : lt (δ q'.2) r.1 = false := by
            cases hr with
            | none h h' => rw [h]; exact h' j (by omega) q' hq'
            | some i p h1 h2 h3 h4 h5 h6 h7 => rw [h3]; exact (h7 j (by omega) q' hq').1
          refine ⟨?_, fun _ => cot j (by omega) q' hq' _ _ hl hold⟩
          by_contra hc'
          have := tr _ _ _ (by simpa using hc') hl
          rw [hold] at this
          cases this
    · rw [if_neg hl, sat_ok]
      have hl' : lt (δ q.2) r.1 = false := by simpa using hl
      cases hr with
      | none h h' =>
        refine .none h fun i hi p hp => ?_
        by_cases him : i = m
        · subst him; rw [hcm] at hp; cases hp; rw [h] at hl'; exact hl'
        · exact h' i (by omega) p hp
      | some i p h1 h2 h3 h4 h5 h6 h7 =>
        refine .some i p (by omega) h2 h3 h4 h5 h6 fun j hj q' hq' => ?_
        by_cases hjm : j = m
        · subst hjm
          rw [hcm] at hq'
          cases hq'
          rw [h3] at hl'
          exact ⟨hl', fun h => by omega⟩
        · exact h7 j (by omega) q' hq'

end Verif.ML
