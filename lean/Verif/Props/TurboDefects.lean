import Verif.Props.TurboDec

/-! # C96: what the turbo encoders, decoder and post-processings do not do -/

namespace Verif.Turbo
open Exec Verif.RSC Verif.Interleaver Verif.BCJR

/-- **C96**: the constructor of `Encoder_turbo` accepts sub-encoders of another message length, and `encode` then reads out of the
message. -/
theorem C96_encoder_length : ∃ en e, genericEnc (6 : Nat) 16 true [7, 5] = ok en ∧ TEnc.mk? 4 20 en en core4 1 = ok e ∧
    e.encode 0 [1, 0, 1, 1] (List.replicate 20 0) = ub := by
  have h : (do let en ← genericEnc (6 : Nat) 16 true [7, 5]
               let e ← TEnc.mk? 4 20 en en core4 1
               ok (decide (e.encode 0 [1, 0, 1, 1] (List.replicate 20 0) >>= (fun r => ok r.2) = (ub : Exec (List Int))))) = ok true := by decide +kernel
  obtain ⟨en, h1, h⟩ := bind_inv h
  obtain ⟨e, h2, h⟩ := bind_inv h
  injection h with h
  refine ⟨en, e, h1, h2, ?_⟩
  have h := of_decide_eq_true h
  cases hr : e.encode 0 [1, 0, 1, 1] (List.replicate 20 0) with
  | ok r => rw [hr, bind_ok] at h; cases h
  | exc x => rw [hr, bind_exc] at h; cases h
  | ub => rfl

/-- **C96**: with sub-encoders that are not buffered, `Encoder_turbo` rejects its own codewords; so does `Encoder_turbo_legacy` with a
buffered one. -/
theorem C96_encoder_layout :
    (do let en ← genericEnc (4 : Nat) 12 false [7, 5]
        let e ← TEnc.mk? 4 20 en en core4 1
        let r ← e.encode 0 [1, 0, 1, 1] (List.replicate 20 0)
        let b ← r.1.isCodeword r.2
        ok b.2) = ok false ∧
    (do let en ← genericEnc (4 : Nat) 12 true [7, 5]
        let e ← LEnc.mk? 4 20 en core4 1
        let r ← e.encode 0 [1, 0, 1, 1] (List.replicate 20 0)
        let b ← r.1.isCodeword r.2
        ok b.2) = ok false := by
  constructor <;> decide +kernel

/-- A generator of different permutations for different frames. -/
def gen2 : GenLut := fun f _ => ok (if f = 0 then [0, 1, 2, 3] else [3, 1, 2, 0])

/-- **C96**: with an interleaver that has one permutation per frame, `is_codeword` uses that of frame 0, and rejects the codewords of the
other frames. -/
theorem C96_is_codeword_frame :
    (do let en ← genericEnc (4 : Nat) 12 true [7, 5]
        let c ← history (4 : Nat) true gen2 [.setNFrames 2 gen2]
        let e ← TEnc.mk? 4 20 en en c 2
        let r ← e.encode 1 [1, 0, 1, 0] (List.replicate 20 0)
        let b ← r.1.isCodeword r.2
        ok (perm c 1 0, b.2)) = ok (3, false) := by
  decide +kernel

/-- **C96**: on `short`, a constant scaling by a factor between 0 and 1 erases the extrinsic values. -/
theorem C96_constant_scaling {D : Type} {A : Arith Int D} {nIte ite : Nat} {num den : Int} (h0 : 0 ≤ num) (h1 : num < den) {sys ext : List Int}
    {s : List Int} {r} (h : (const16 nIte num den).sisoN A 0 ite sys ext s = ok r) : r.2.1 = List.replicate ext.length 0 := by
  unfold const16 at h
  simp only [PP.sisoN] at h
  injection h with h
  subst h
  have e : num.tdiv den = 0 := Int.tdiv_eq_zero_of_lt h0 h1
  simp only [e, mul_zero, Bool.false_and, Bool.false_eq_true, if_false]
  rw [show wrap 16 0 = 0 by decide]
  exact List.map_const' ..

/-- **C96**: on `short`, the adaptive scaling erases the extrinsic values from the third iteration. -/
theorem C96_adaptive_scaling {D : Type} {A : Arith Int D} {ite : Nat} (hi : 3 ≤ ite) {sys ext : List Int} {s : List Int} {r q}
    (h : adaptive16.sisoN A 0 ite sys ext s = ok r) (h' : adaptive16.sisoI 0 ite ext = ok q) :
    r.2.1 = List.replicate ext.length 0 ∧ q.2.1 = List.replicate ext.length 0 := by
  unfold adaptive16 at h h'
  simp only [PP.sisoN] at h
  simp only [PP.sisoI] at h'
  injection h with h
  injection h' with h'
  subst h h'
  have e : ¬(ite = 1 ∨ ite = 2) := by omega
  simp only [e, if_false, show (85 : Int).tdiv 100 = 0 by decide, mul_zero]
  rw [show wrap 16 0 = 0 by decide]
  exact ⟨List.map_const' .., List.map_const' ..⟩

/-- **C96**: the scaling by shifts of `short` is not symmetric: the values of `x` and `-x` are not opposite, unless `x` is a multiple of 4. -/
theorem C96_scaling_asymmetric {D : Type} {A : Arith Int D} {nIte ite : Nat} {x : Int} (hx : |x| ≤ 32767) (h4 : ¬4 ∣ x) {sys : List Int} {s : List Int}
    {r r'} (h : (seq16 nIte).sisoN A 0 ite sys [x] s = ok r) (h' : (seq16 nIte).sisoN A 0 ite sys [-x] s = ok r') :
    ∃ a b, r.2.1 = [a] ∧ r'.2.1 = [b] ∧ b < -a := by
  unfold seq16 at h h'
  simp only [PP.sisoN] at h h'
  injection h with h
  injection h' with h'
  subst h h'
  have hx := abs_le.1 hx
  refine ⟨x / 2 + x / 4, -x / 2 + -x / 4, ?_, ?_, by omega⟩
  · simp only [Bool.false_and, Bool.false_eq_true, if_false, List.map_cons, List.map_nil, List.cons.injEq, and_true]
    unfold wrap
    rw [Int.bmod_eq_of_le (by norm_num; omega) (by norm_num; omega)]
  · simp only [Bool.false_and, Bool.false_eq_true, if_false, List.map_cons, List.map_nil, List.cons.injEq, and_true]
    unfold wrap
    rw [Int.bmod_eq_of_le (by norm_num; omega) (by norm_num; omega)]

example : ∃ r r', (seq16 3).sisoN a16 0 1 [5] [1] [0] = ok r ∧ (seq16 3).sisoN a16 0 1 [5] [-1] [0] = ok r' ∧ r.2.1 = [0] ∧ r'.2.1 = [-2] :=
  ⟨_, _, rfl, rfl, by decide, by decide⟩

/-- A new `Self_corrected` for `K = 4`. -/
def newSelf (nIte : Nat) : PP Int :=
  .selfc 1 nIte Int.sign (List.replicate nIte (List.replicate 4 0)) (List.replicate nIte (List.replicate 4 0)) (List.replicate 4 0) (List.replicate 4 0)

/-- **C96**: with `Self_corrected`, the decisions depend on the words decoded before. -/
theorem C96_self_corrected_history : ∃ y y' v v' w, runs 3 [newSelf 3] [y] = ok [v] ∧ runs 3 [newSelf 3] [y', y] = ok [w, v'] ∧ v ≠ v' :=
  ⟨[5, -6, -4, -1, 3, -5, 1, -5, 3, -1, -4, -6, 6, 6, 6, -5, -2, 2, 6, -1], [0, 2, 6, 1, -2, -2, 0, 5, 0, -2, -2, 1, -6, 2, 0, 1, 4, -3, 6, 4],
    [1, 1, 0, 1], [0, 1, 1, 0], [0, 1, 0, 0], by decide +kernel, by decide +kernel, by decide⟩

/-- **C96**: `Flip_and_check` sorts the 20 least reliable bits of a message that may have less. -/
theorem C96_flip_and_check_short : runs 1 [.fnc 1 (fun _ => false) 2 [1] fun _ _ => [0, 1]] [y1011] = ub := by decide +kernel

/-- **C96**: on `short`, LLRs that all have the signs of the null codeword are decoded into another word: the sums wrap around. -/
theorem C96_wrap : runs 1 [] [List.replicate 20 1500] = ok [[1, 1, 0, 0]] := by decide +kernel

end Verif.Turbo
