import Verif.Props.PolarFast

/-! # C98: defects of the fast successive cancellation decoder; cases of C97 -/

namespace Verif.PolarFast
open Exec Verif.PolarSC Verif.Polar Verif.Float Verif.BCJR

variable {R : Type} {w : Nat}

/-! ## Concrete cases of C97 -/

/-- The information bits are at the 22 positions whose index has at least four bits set. -/
def fr64 : List Bool := (List.range 64).map fun i => decide (((List.range 6).filter fun j => i.testBit j).length < 4)

/-- One null value, one wrong sign. -/
def y64 : List Int := [0, -1] ++ List.replicate 62 1

theorem pats_default : PatsOk defaultPats 2 3 := ⟨⟨_, rfl, rfl⟩, ⟨_, rfl, rfl⟩, ⟨_, rfl, rfl⟩⟩

theorem mk64 (A : Api R w) : ∃ d, Dec.mk? A 22 64 fr64 defaultPats 2 3 = ok d ∧ Reach A d ∧ d.N = 64 ∧ d.K = 22 ∧ d.frozen = fr64 := by
  obtain ⟨d, e, h, h1, _⟩ := mk?_sat A (K := 22) (N := 64) (frozen := fr64) (n := 6) pats_default (by decide) (by decide) (by decide +kernel) (by decide +kernel)
  refine ⟨d, e, .make pats_default e, h.N, ?_, h1⟩
  rw [h.K, h1]; decide +kernel

/-- The soft values of the information bits are not null. -/
theorem soft64 : ∀ i : Nat, fr64[i]? = some false → soft (ex (w := 8)) 6 y64 (sc ex 6 fr64 y64) i ≠ 0 := by
  have h : ∀ i : Nat, i < 64 → fr64[i]? = some false → soft (ex (w := 8)) 6 y64 (sc ex 6 fr64 y64) i ≠ 0 := by decide +kernel
  intro i hi
  refine h i ?_ hi
  have := (List.getElem?_eq_some_iff.1 hi).1
  have e : fr64.length = 64 := by decide +kernel
  omega

/-- The hypotheses of `C97_int8`, of its two parts. -/
example : ∃ (d : Dec Int 8) (dn dn' dn'' : PolarSC.Dec Int 8) (u v vc o oc : List (BitVec 8)), Reach int8 d ∧ PolarSC.Reach PolarSC.int8 dn ∧ dn.N = d.N ∧ dn.frozen = d.frozen ∧ d.N = 2 ^ 6 ∧
    y64.length = d.N ∧ sumAbs y64 ≤ 63 ∧ IsSC PolarSC.int8 6 d.frozen y64 u ∧ (∀ i : Nat, d.frozen[i]? = some false → soft PolarSC.int8 6 y64 u i ≠ 0) ∧ v.length = d.K ∧ vc.length = d.N ∧
    dn.siho PolarSC.int8 .sys y64 v = ok (dn', o) ∧ dn.sihoCw PolarSC.int8 y64 vc = ok (dn'', oc) := by
  obtain ⟨d, e, hd, hN, hK, hf⟩ := mk64 int8
  obtain ⟨dn, en, ho, hfn⟩ := PolarSC.mk?_sat PolarSC.int8 (K := 22) (N := 64) (frozen := fr64) (n := 6) (by decide) (by decide) (by decide +kernel) (by decide +kernel)
  have hq : tot y64 ≤ 63 := by decide +kernel
  have hs : sc PolarSC.int8 6 fr64 y64 = sc (ex (w := 8)) 6 fr64 y64 := by
    have := emb_sc emb_int8 (k := 6) (fr := fr64) hq
    rwa [List.map_id] at this
  have hyl : y64.length = 64 := by decide +kernel
  have hNn : dn.N = 64 := ho.N
  have hKn : dn.K = 22 := by rw [ho.K, hfn]; decide +kernel
  have hrn : PolarSC.Reach PolarSC.int8 dn := .make en
  obtain ⟨n, _, _, _, c, _⟩ := C73_decode PolarSC.int8 dn hrn
  obtain ⟨_, _, c⟩ := c y64 (by omega)
  obtain ⟨_, ⟨d1, s1, _⟩, ⟨d2, s2, _⟩⟩ := c (List.replicate 22 0) (List.replicate 64 0) (by simp [hKn]) (by simp [hNn])
  refine ⟨d, dn, d1, d2, sc PolarSC.int8 6 fr64 y64, List.replicate 22 0, List.replicate 64 0, _, _, hd, hrn, by omega, by rw [hf, hfn], hN, by omega, by decide +kernel, by rw [hf]; exact sc_isSC _ _ _ _,
    fun i hi => ?_, by simp [hK], by simp [hN], s1, s2⟩
  rw [hf] at hi
  have := emb_soft emb_int8 (k := 6) (u := sc (ex (w := 8)) 6 fr64 y64) (i := i) hq
  rw [List.map_id] at this
  rw [hs]
  show soft int8.fns 6 y64 _ i ≠ 0
  rw [this]
  exact soft64 i hi

/-- The inputs of `C97_float`: the same ones, multiplied by `3/4`, a wrong sign. -/
example : SmallFl 24 (-74) 103 (y64.map fun a : Int => .fin ((a : ℚ) * (3 / 4))) := by
  refine ⟨-2, y64.map (3 * ·), by decide, by decide, ?_, by decide +kernel⟩
  rw [List.map_map]
  refine List.map_congr_left fun a _ => ?_
  simp only [Function.comp]
  congr 1
  push_cast
  norm_num
  ring

/-- The hypotheses of `C97_recovers_int8` and of the other types (first part): a codeword that is not null, inputs that vote for it. -/
example : ∃ (d : Dec Int 8) (x : List (BitVec 8)), Reach int8 d ∧ d.N = 2 ^ 6 ∧ IsCodeword 6 d.frozen x ∧ (∀ b ∈ x, b = 0 ∨ b = 1) ∧ x ≠ List.replicate 64 0 ∧
    List.Forall₂ (VotesInt 8) (x.map fun b => if b = 0 then 127 else -3) x := by
  obtain ⟨d, e, hd, hN, hK, hf⟩ := mk64 int8
  have hu : ((List.range 64).map fun i => if i = 31 ∨ i = 60 then (1 : BitVec 8) else 0).length = 2 ^ 6 := by simp
  refine ⟨d, polarTransform 6 ((List.range 64).map fun i => if i = 31 ∨ i = 60 then 1 else 0), hd, hN, ⟨_, hu, fun i hi => ?_, rfl⟩, transform_bits hu ?_, by decide +kernel, ?_⟩
  · rw [hf] at hi
    have h : ∀ i : Nat, i < 64 → fr64[i]? = some true → ((List.range 64).map fun i => if i = 31 ∨ i = 60 then (1 : BitVec 8) else 0)[i]? = some 0 := by decide +kernel
    have := (List.getElem?_eq_some_iff.1 hi).1
    have e : fr64.length = 64 := by decide +kernel
    exact h i (by omega) hi
  · intro b hb
    obtain ⟨i, _, rfl⟩ := List.mem_map.1 hb
    by_cases h : i = 31 ∨ i = 60
    · rw [if_pos h]; exact Or.inr rfl
    · rw [if_neg h]; exact Or.inl rfl
  · rw [List.forall₂_map_left_iff, List.forall₂_same]
    intro b _
    unfold VotesInt
    by_cases h : b = 0
    · rw [if_pos h]; exact ⟨by norm_num, by norm_num, fun _ => by norm_num, fun h' => absurd h h'⟩
    · rw [if_neg h]; exact ⟨by norm_num, by norm_num, fun h' => absurd h' h, fun _ => by norm_num⟩

/-- `C97_recovers_int8` (second part): the frozen bits are convex and the encoder is built. -/
example : Convex fr64 ∧ ∃ e, Enc.mk? 22 64 fr64 = ok e := by
  refine ⟨?_, _, rfl⟩
  have h : ∀ i : Nat, i < 64 → ∀ j : Nat, j < 64 → j &&& i = i → fr64[i]? = some false → fr64[j]? ≠ some true := by decide +kernel
  have e : fr64.length = 64 := by decide +kernel
  intro i j k h1 _ h3 _ h5
  have l1 := (List.getElem?_eq_some_iff.1 h3).1
  have l2 := (List.getElem?_eq_some_iff.1 h5).1
  exact h i (by omega) j (by omega) h1 h3 h5

/-- `C97_total_int8`: a decoder after a decoding, and a new one. -/
example : ∃ d d' : Dec Int 8, Reach int8 d ∧ Reach int8 d' ∧ d ≠ d' ∧ d'.frozen = d.frozen ∧ d'.pats = d.pats ∧ d'.i0 = d.i0 ∧ d'.i1 = d.i1 ∧ 64 ≤ d.N ∧ ∀ a ∈ y64, |a| ≤ 126 := by
  have h : (do
      let d ← Dec.mk? int8 22 64 fr64 defaultPats 2 3
      let p ← d.siho int8 y64 (List.replicate 22 0)
      ok (decide (p.1 ≠ d ∧ p.1.frozen = d.frozen ∧ p.1.pats = d.pats ∧ p.1.i0 = d.i0 ∧ p.1.i1 = d.i1 ∧ 64 ≤ d.N ∧ d.K = 22 ∧ d.N = 64))) = ok true := by decide +kernel
  obtain ⟨d, e1, h⟩ := bind_inv h
  obtain ⟨p, e2, h⟩ := bind_inv h
  injection h with h
  rw [decide_eq_true_eq] at h
  obtain ⟨g1, g2, g3, g4, g5, g6, g7, g8⟩ := h
  have hd : Reach int8 d := .make pats_default e1
  exact ⟨d, p.1, hd, .siho hd (by rw [g8]; decide +kernel) (by simp [g7]) e2, g1.symm, g2, g3, g4, g5, g6, by decide +kernel⟩

/-! ## Defects -/

/-- **C98**, sizes: decoders of size less than 64 are built, but each decoding throws. -/
theorem C98_small_size (A : Api R w) (d : Dec R w) (hd : Reach A d) (hN : d.N < 64) (y : List R) (hy : y.length = d.N) (v : List (BitVec w)) :
    d.siho A y v = exc .runtimeError ∧ d.sihoCw A y v = exc .runtimeError ∧
      ∃ d', Dec.mk? A 2 4 [true, true, false, false] defaultPats 2 3 = ok d' := by
  obtain ⟨n, h⟩ := hd.ok
  have hn : n < 6 := by
    by_contra hc
    have : 2 ^ 6 ≤ 2 ^ n := Nat.pow_le_pow_right (by norm_num) (by omega)
    have := h.N
    omega
  have hr : d.run A y = exc .runtimeError := by
    unfold Dec.run
    rw [load_put h (by rw [hy, h.N]), bind_ok, h.N, Nat.log2_two_pow, if_pos (show n < staticLevel from hn)]
  refine ⟨by unfold Dec.siho; rw [hr]; rfl, by unfold Dec.sihoCw; rw [hr]; rfl, ?_⟩
  exact (C97_constructor A 2 4 _ _ _ _ pats_default).2 ⟨by decide, ⟨2, by decide⟩, by decide, by decide⟩

/-- A message of one bit, repeated. -/
def rep64 : List Bool := List.replicate 63 true ++ [false]

/-- The message decoded by a new decoder. -/
def run (A : Api Int w) (K : Int) (fr : List Bool) (y : List Int) : Exec (List (BitVec w)) := do
  let d ← Dec.mk? A K fr.length fr defaultPats 2 3
  let p ← d.siho A y (List.replicate K.toNat 0)
  ok p.2

/-- The message decoded by a new naive decoder. -/
def runNaive (F : Fns Int w) (K : Int) (fr : List Bool) (y : List Int) : Exec (List (BitVec w)) := do
  let d ← PolarSC.Dec.mk? F K fr.length fr
  let p ← d.siho F .sys y (List.replicate K.toNat 0)
  ok p.2

/-- **C98**, representation: where the naive decoder writes `1`, this one writes the word of the sign bit, `-128`. -/
theorem C98_representation : runNaive PolarSC.int8 1 rep64 (List.replicate 64 (-1)) = ok [1] ∧ run int8 1 rep64 (List.replicate 64 (-1)) = ok [128] := by
  constructor <;> decide +kernel

/-- **C98**, `int16_t`: the sum of a repetition wraps, without saturation: 64 inputs of 1000 all vote for a null bit, the decoded bit is
not null. -/
theorem C98_int16_rep : runNaive PolarSC.int16 1 rep64 (List.replicate 64 1000) = ok [0] ∧ run int16 1 rep64 (List.replicate 64 1000) = ok [32768] := by
  constructor <;> decide +kernel

/-- **C98**, `int8_t`: the naive decoder saturates where this one adds integers: they give opposite bits, though no decision is on a null
value. -/
theorem C98_int8_saturation : runNaive PolarSC.int8 1 rep64 ([63, -60, -10] ++ List.replicate 29 0 ++ [63] ++ List.replicate 31 0) = ok [1] ∧
    run int8 1 rep64 ([63, -60, -10] ++ List.replicate 29 0 ++ [63] ++ List.replicate 31 0) = ok [0] ∧
    soft PolarSC.int8 6 ([63, -60, -10] ++ List.replicate 29 0 ++ [63] ++ List.replicate 31 0) (List.replicate 63 0) 63 = -7 := by
  refine ⟨?_, ?_, ?_⟩ <;> decide +kernel

/-- **C98**, null soft values: without frozen bits, one negative input gives one bit, and all bits with the naive decoder. -/
theorem C98_tie : run int8 64 (List.replicate 64 false) (-1 :: List.replicate 63 0) = ok (128 :: List.replicate 63 0) ∧
    runNaive PolarSC.int8 64 (List.replicate 64 false) (-1 :: List.replicate 63 0) = ok (List.replicate 64 1) := by
  constructor <;> decide +kernel

/-- **C98**, saturated inputs: on a single parity check whose inputs have all the greatest magnitude of the type, with odd parity, no position
is found and the decoder writes before its array; for `int8_t` and `int16_t`. -/
theorem C98_spc_max : run int8 63 (true :: List.replicate 63 false) (-127 :: List.replicate 63 127) = ub ∧
    run int16 63 (true :: List.replicate 63 false) (-32767 :: List.replicate 63 32767) = ub := by
  constructor <;> decide +kernel

/-- **C98**, new frozen bits of another size: more bits are written after the end of the array; less bits are accepted, the last ones are
kept. -/
theorem C98_set_frozen_size : (do
      let d ← Dec.mk? int8 2 4 [true, true, false, false] defaultPats 2 3
      d.setFrozen [true, true, true, false, false]) = ub ∧
    (do
      let d ← Dec.mk? int8 2 4 [true, true, false, false] defaultPats 2 3
      let d ← d.setFrozen [true]
      ok d.frozen) = ok [true, true, false, false] := by
  constructor <;> decide +kernel

/-- **C98**, new frozen bits in another number: they are accepted, the next decoding writes after the end of the message, and then the right
frozen bits are refused. -/
theorem C98_set_frozen_count : (do
      let d ← Dec.mk? int8 1 64 rep64 defaultPats 2 3
      let d ← d.setFrozen (List.replicate 64 false)
      ok d.K) = ok 1 ∧
    (do
      let d ← Dec.mk? int8 1 64 rep64 defaultPats 2 3
      let d ← d.setFrozen (List.replicate 64 false)
      let p ← d.siho int8 (List.replicate 64 1) [0]
      ok p.2) = ub ∧
    (do
      let d ← Dec.mk? int8 1 64 rep64 defaultPats 2 3
      let d ← d.setFrozen (List.replicate 64 false)
      let d ← d.setFrozen rep64
      ok d.K) = exc .runtimeError := by
  refine ⟨?_, ?_, ?_⟩ <;> decide +kernel

/-- **C98**, construction without frozen bits: the depth of the tree is the conversion of an infinity. -/
theorem C98_empty (A : Api R w) (K N : Int) (hK : 0 < K) (hN : K ≤ N) (pats : List Pat) (i0 i1 : Nat) : Dec.mk? A K N [] pats i0 i1 = ub := by
  unfold Dec.mk?
  rw [if_neg (by omega), if_neg (by omega), if_neg (by omega), if_pos List.length_nil]

end Verif.PolarFast
