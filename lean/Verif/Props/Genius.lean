import Verif.Model.Genius
import Verif.Proof.BitPacker
import Verif.Props.Distance

/-! # C20, C48: memorizing encoders and genius decoders -/

namespace Verif.Genius
open Exec Distance

/-- The recorded words have the right sizes. -/
def MemEnc.Wf (e : MemEnc) : Prop :=
  e.uMem.length = e.nFrames ∧ e.xMem.length = e.nFrames ∧ (∀ w ∈ e.uMem, w.length = e.K) ∧ ∀ w ∈ e.xMem, w.length = e.N

theorem init_wf (K N nFrames npw : Nat) : (MemEnc.init K N nFrames npw).Wf := by
  refine ⟨by simp [MemEnc.init], by simp [MemEnc.init], ?_, ?_⟩ <;> intro w hw <;>
    simp only [MemEnc.init] at hw ⊢ <;> rw [(List.mem_replicate.mp hw).2] <;> simp

/-- Frame `f` of a buffer of frames of `n` elements. -/
def frame (n : Nat) (buf : List Int) (f : Nat) : List Int := (buf.drop (f * n)).take n

theorem copy_all {src dst : List Int} {so n : Nat} (h1 : so + n ≤ src.length) (h2 : dst.length = n) :
    copyTo src so n dst 0 = ok ((src.drop so).take n) := by
  obtain ⟨o, ho, hl, hv⟩ := copyTo_sat (src := src) (so := so) (n := n) (dst := dst) (d := 0) h1 (by omega)
  rw [ho]
  congr 1
  apply ext_of_getElem?
  intro i
  rw [hv]
  rw [List.getElem?_take, List.getElem?_drop]
  by_cases h : i < n
  · rw [if_pos (by omega), if_pos h]
    congr 1
  · rw [if_neg (by omega), if_neg h, List.getElem?_eq_none (by omega)]

theorem record_sat {n npw frameId : Nat} {buf : List Int} {mem : List (List Int)} (hb : buf.length = npw * n)
    (hf : frameId + npw ≤ mem.length) (hm : ∀ w ∈ mem, w.length = n) :
    (record n npw frameId buf mem).Sat fun m => m.length = mem.length ∧ (∀ w ∈ m, w.length = n) ∧
      ∀ j : Nat, m[j]? = if frameId ≤ j ∧ j < frameId + npw then some (frame n buf (j - frameId)) else mem[j]? := by
  refine forN_inv (fun k (m : List (List Int)) => m.length = mem.length ∧ (∀ w ∈ m, w.length = n) ∧
      ∀ j : Nat, m[j]? = if frameId ≤ j ∧ j < frameId + k then some (frame n buf (j - frameId)) else mem[j]?)
    ⟨rfl, hm, fun j => by rw [if_neg (by omega)]⟩ ?_
  rintro k m hk ⟨h1, h2, h3⟩
  have hle : k * n + n ≤ npw * n := by rw [← Nat.succ_mul]; exact Nat.mul_le_mul_right _ hk
  rw [rd_lt (by omega), bind_ok, copy_all (by omega) (h2 _ (List.getElem_mem _)), bind_ok, wr_lt (by omega), sat_ok]
  refine ⟨by simpa using h1, fun w hw => ?_, fun j => ?_⟩
  · rcases List.mem_or_eq_of_mem_set hw with hw | rfl
    · exact h2 w hw
    · rw [List.length_take, List.length_drop]; omega
  · by_cases e : frameId + k = j
    · subst e
      rw [List.getElem?_set_self (by omega), if_pos (by omega), Nat.add_sub_cancel_left]
      rfl
    · rw [List.getElem?_set_ne e, h3]
      by_cases h : frameId ≤ j ∧ j < frameId + k
      · rw [if_pos h, if_pos (by omega)]
      · rw [if_neg h, if_neg (by omega)]

/-- C20, recording: encoding a wave of `npw` frames that lies inside the `n_frames` frames records exactly the encoder's
output for each frame of the wave, and keeps what was recorded for the other frames. -/
theorem C20_recorded (e : MemEnc) (he : e.Wf) (hmem : e.memorizing = true) (enc : List Int → Nat → Exec (List Int))
    (u x : List Int) (frameId : Nat) (hu : u.length = e.npw * e.K) (hx : enc u frameId = ok x)
    (hxl : x.length = e.npw * e.N) (hf : frameId + e.npw ≤ e.nFrames) :
    ∃ e', e.codelet enc u frameId = ok (e', x) ∧ e'.Wf ∧ e'.nFrames = e.nFrames ∧
      (∀ f, f < e.npw → e'.getX (frameId + f) = ok ((x.drop (f * e.N)).take e.N)) ∧
      ∀ j, j < e.nFrames → j < frameId ∨ frameId + e.npw ≤ j → e'.getX j = e.getX j := by
  obtain ⟨hw1, hw2, hw3, hw4⟩ := he
  obtain ⟨mu, hmu, u1, u2, -⟩ := record_sat hu (by omega : frameId + e.npw ≤ e.uMem.length) hw3
  obtain ⟨mx, hmx, x1, x2, x3⟩ := record_sat hxl (by omega : frameId + e.npw ≤ e.xMem.length) hw4
  refine ⟨{ e with uMem := mu, xMem := mx }, ?_, ⟨by simpa using u1.trans hw1, by simpa using x1.trans hw2, u2, x2⟩, rfl,
    fun f hfl => ?_, fun j hj hn => ?_⟩
  · unfold MemEnc.codelet MemEnc.recordIf
    rw [if_pos hmem, hmu, bind_ok, hx, bind_ok, if_pos hmem, hmx, bind_ok]
  · unfold MemEnc.getX
    simp only
    rw [Nat.mod_eq_of_lt (by omega)]
    refine rd_eq ?_
    rw [x3, if_pos (by omega), Nat.add_sub_cancel_left]
    rfl
  · unfold MemEnc.getX
    simp only
    rw [Nat.mod_eq_of_lt hj]
    unfold rd
    rw [x3, if_neg (by omega)]

/-- Non-vacuity of C20_recorded: two frames of a three-frame object, with a rate-1/2 encoder. -/
example : ∃ e', (MemEnc.init 1 2 3 2).codelet (fun u _ => ok (u.flatMap fun b => [b, b])) [1, 0] 1 = ok (e', [1, 1, 0, 0]) ∧
    e'.getX 1 = ok [1, 1] ∧ e'.getX 2 = ok [0, 0] := ⟨_, rfl, by decide, by decide⟩

/-- C48, false part: when the number of frames is not a multiple of the wave size, the last wave starts at a frame from
which the wave does not fit, and recording it is an out-of-bounds access, whatever the encoder and the message. -/
theorem C48_partial_wave_ub (e : MemEnc) (he : e.Wf) (hmem : e.memorizing = true) (enc : List Int → Nat → Exec (List Int))
    (u : List Int) (frameId : Nat) (hu : u.length = e.npw * e.K) (h1 : frameId < e.nFrames)
    (h2 : e.nFrames < frameId + e.npw) : e.codelet enc u frameId = ub := by
  obtain ⟨hw1, -, hw3, -⟩ := he
  have : record e.K e.npw frameId u e.uMem = ub := by
    refine forN_ub (fun m => m.length = e.nFrames ∧ ∀ w ∈ m, w.length = e.K) (k0 := e.nFrames - frameId) ⟨hw1, hw3⟩
      (by omega) ?_ ?_
    · rintro k m hk ⟨h3, h4⟩
      by_cases h : frameId + k < m.length
      · have hle : k * e.K + e.K ≤ e.npw * e.K := by rw [← Nat.succ_mul]; exact Nat.mul_le_mul_right _ hk
        rw [rd_lt h, bind_ok, copy_all (by omega) (h4 _ (List.getElem_mem _)), bind_ok, wr_lt h]
        refine Or.inr ⟨_, rfl, by simpa using h3, fun w hw => ?_⟩
        rcases List.mem_or_eq_of_mem_set hw with hw | rfl
        · exact h4 w hw
        · rw [List.length_take, List.length_drop]; omega
      · rw [rd_ge (by omega)]
        exact Or.inl rfl
    · rintro m ⟨h3, -⟩
      rw [rd_ge (by omega)]
      rfl
  unfold MemEnc.codelet MemEnc.recordIf
  rw [if_pos hmem, this]
  rfl

/-- The hypotheses of C48_partial_wave_ub are met by three frames in waves of two. -/
example : (MemEnc.init 1 2 3 2).codelet (fun u _ => ok (u ++ u)) [1, 0] 2 = ub := by decide

/-- C20: the genius BCH decoder returns the information part of the transmitted word exactly when at most `t` bits are
wrong, the information part of the received word otherwise, and `get_last_is_codeword` says which; nothing is read or
written out of bounds. -/
theorem C20_bch (bits L K N : Nat) (t : Int) (e : MemEnc) (x y v : List Int) (frameId : Nat)
    (hb : bits = 8 ∨ bits = 16 ∨ bits = 32 ∨ bits = 64) (hN : N < 2 ^ 31) (hK : K ≤ N) (hx : e.getX frameId = ok x)
    (hxl : x.length = N) (hyl : y.length = N) (hvl : v.length = K) :
    bchPublic bits L K N t e y v frameId =
      ok (if (differences x y N : Int) ≤ t then x.drop (N - K) else y.drop (N - K), 0,
        decide ((differences x y N : Int) ≤ t)) := by
  unfold bchPublic bchHiho
  rw [hx, bind_ok, C45_hamming_distance bits L x y N hb (by omega) (by omega) hN, bind_ok,
    copy_all (by omega) hvl, copy_all (by omega) hvl]
  rw [List.take_of_length_le (by rw [List.length_drop]; omega), List.take_of_length_le (by rw [List.length_drop]; omega)]
  by_cases h : (differences x y N : Int) ≤ t
  · simp only [if_pos h, bind_ok]
  · simp only [if_neg h, bind_ok]

/-- C20, whole words. -/
theorem C20_bch_cw (bits L N : Nat) (t : Int) (e : MemEnc) (x y v : List Int) (frameId : Nat)
    (hb : bits = 8 ∨ bits = 16 ∨ bits = 32 ∨ bits = 64) (hN : N < 2 ^ 31) (hx : e.getX frameId = ok x)
    (hxl : x.length = N) (hyl : y.length = N) (hvl : v.length = N) :
    bchPublicCw bits L N t e y v frameId =
      ok (if (differences x y N : Int) ≤ t then x else y, 0, decide ((differences x y N : Int) ≤ t)) := by
  unfold bchPublicCw bchHihoCw
  rw [hx, bind_ok, C45_hamming_distance bits L x y N hb (by omega) (by omega) hN, bind_ok,
    copy_all (by omega) hvl, copy_all (by omega) hvl]
  rw [List.take_of_length_le (by rw [List.length_drop]; omega), List.take_of_length_le (by rw [List.length_drop]; omega),
    List.drop_zero, List.drop_zero]
  by_cases h : (differences x y N : Int) ≤ t
  · simp only [if_pos h, bind_ok]
  · simp only [if_neg h, bind_ok]

/-- Non-vacuity of C20_bch: one error corrected, two errors left. -/
example : bchPublic 8 4 4 7 1 ⟨4, 7, 1, 1, true, [[0, 0, 0, 0]], [[1, 1, 0, 1, 0, 0, 1]]⟩ [1, 1, 0, 1, 0, 0, 0] [0, 0, 0, 0] 0
      = ok ([1, 0, 0, 1], 0, true) ∧
    bchPublic 8 4 4 7 1 ⟨4, 7, 1, 1, true, [[0, 0, 0, 0]], [[1, 1, 0, 1, 0, 0, 1]]⟩ [1, 1, 0, 1, 0, 1, 0] [0, 0, 0, 0] 0
      = ok ([1, 0, 1, 0], 0, false) := by decide

/-- C20: a genius decoder cannot be built on an encoder that does not record. -/
theorem C20_bch_needs_memorizing (K N t : Int) (e : MemEnc) (h : e.memorizing = false) :
    bchCtor K N t e = exc .invalidArgument := by
  unfold bchCtor; rw [if_pos h]; split <;> rfl

/-- C48, false part: the codeword flag on the `CWD` socket of the genius BCH decoder is 0 even when the output is the
transmitted codeword. -/
theorem C48_bch_cwd_zero (bits L K N : Nat) (t : Int) (e : MemEnc) (y v : List Int) (frameId : Nat) (r : List Int × Int × Bool)
    (h : bchPublic bits L K N t e y v frameId = ok r) : r.2.1 = 0 := by
  unfold bchPublic at h
  cases hb : bchHiho bits L K N t e y v frameId with
  | ok p =>
    obtain ⟨v', l⟩ := p
    rw [hb, bind_ok] at h
    simp only [Exec.ok.injEq] at h
    rw [← h]
  | exc _ => rw [hb] at h; cases h
  | ub => rw [hb] at h; cases h

/-- C48, false part: every decoding request on the genius Reed–Solomon decoder throws, for every received word and every
symbol size that fits. -/
theorem C48_rs_always_throws (W m nRdncy K N : Nat) (y : List Int) (yhN : List (BitVec W)) (v : List Int) (frameId : Nat)
    (hm : 0 < m) (hW : m ≤ W) (hy : N ≤ y.length) (hyh : BitPacker.nSymbols N m ≤ yhN.length) :
    rsPublic W m nRdncy K N y yhN v frameId = exc .unimplemented ∧
      rsPublicCw W m N y yhN v frameId = exc .unimplemented := by
  obtain ⟨o, ho, -⟩ := BitPacker.pack_sat (msb := false) (nBits := N) (nFrames := 1) (vin := y) (out := yhN) hm hW
    (by rw [Nat.one_mul]; exact hy) (by rw [Nat.one_mul]; exact hyh)
  unfold rsPublic rsPublicCw
  rw [ho, bind_ok, bind_ok]
  exact ⟨rfl, rfl⟩

example : rsPublic 8 3 2 15 21 (List.replicate 21 1) (List.replicate 7 0#8) (List.replicate 15 0) 0 = exc .unimplemented := by
  decide

end Verif.Genius
