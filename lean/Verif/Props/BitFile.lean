import Verif.Proof.BitFileSink

/-!
# Binary files of bits (C107, C108)

`Sink_user_binary` writes the frames it is sent as a stream of bits, `Source_user_binary` reads frames from one.
-/

namespace Verif.BitFile
open Exec

/-- **C107.**  For every history of `send` and `reset` (any number of frames, of any values), a sink of frame length at
least 8 never fails, and its file holds the frames sent since the last reset, one after the other without gap, eight per
byte: bit `t` of the file is the truth value of the `t`-th element sent, for every `t` of the complete bytes. -/
theorem C107_sink (K : Nat) (hK : 8 ≤ K) (old : List (BitVec 8)) (ops : List SinkOp) (hf : framesOf K ops) :
    ∃ s0 s, (Sink.make K old).2 = ok s0 ∧ runSink s0 ops = ok s ∧
      s.file.length = (sentBits [] ops).length / 8 ∧
      ∀ t, t < s.file.length * 8 → fileBit s.file t = asBit ((sentBits [] ops).getD t 0) := by
  obtain ⟨s0, e0, h0⟩ := sink_make_at hK old
  obtain ⟨s, e, h⟩ := runSink_sat hK ops s0 [] h0 hf
  exact ⟨s0, s, e0, e, h.fl, h.bits⟩

/-- **C107.**  A sink of frame length below 8 is rejected. -/
theorem C107_sink_rejects (K : Nat) (hK : K < 8) (old : List (BitVec 8)) :
    (Sink.make K old).2 = exc .runtimeError := by
  unfold Sink.make
  rw [if_pos hK]

theorem runSource_plain {K : Nat} (hK : K = 4 ∨ 6 ≤ K) {file : List (BitVec 8)} {fuel : Nat} (hf : 2 ≤ fuel) :
    ∀ (ops : List SourceOp) (s : Source) (n : Nat), s.At K file n → buffersOf K ops →
      runSource fuel s ops = ok (some (expected (slice file K) (fun n => decide (file.length * 8 < (n + 1) * K)) n ops)) := by
  intro ops
  induction ops with
  | nil => intro s n _ _; rfl
  | cons op ops ih =>
    intro s n h hb
    have hb' : buffersOf K ops := fun U hU => hb U (List.mem_cons_of_mem _ hU)
    cases op with
    | reset => exact ih _ _ (reset_at h.wf) hb'
    | generate U =>
      obtain ⟨s', e, h', hd⟩ := generate_plain h (left_le hK n) hf (hb U List.mem_cons_self)
      unfold runSource expected
      rw [e, bind_ok]
      dsimp only
      rw [ih s' (n + 1) h' hb', bind_ok, hd]

/-- **C107.**  Reading without automatic reset, for every file, every history of `generate` and `reset` and every frame
length that is 4 or at least 6: the `n`-th frame since the last reset is the `n`-th slice of the bits of the file, with
zeros after its end; `is_done()` becomes true with the first frame that goes beyond the end of the file.  The reading
loop takes at most two turns. -/
theorem C107_source (K : Nat) (hK : K = 4 ∨ 6 ≤ K) (file : List (BitVec 8)) (fuel : Nat) (hf : 2 ≤ fuel)
    (ops : List SourceOp) (hb : buffersOf K ops) :
    runSource fuel (Source.make K file false) ops =
      ok (some (expected (slice file K) (fun n => decide (file.length * 8 < (n + 1) * K)) 0 ops)) :=
  runSource_plain hK hf ops _ 0 (make_at K file) hb

theorem runSource_cyc {K : Nat} (hK0 : 0 < K) (hK : K = 4 ∨ 6 ≤ K) {file : List (BitVec 8)} (hL : 0 < file.length)
    (hd : 8 ∣ K ∨ K ∣ 8 * file.length) {fuel : Nat} (hf : K + 1 ≤ fuel) :
    ∀ (ops : List SourceOp) (s : Source) (n : Nat), s.Cyc K file n → buffersOf K ops →
      runSource fuel s ops = ok (some (expected (cyclicSlice file K) (fun _ => false) n ops)) := by
  intro ops
  induction ops with
  | nil => intro s n _ _; rfl
  | cons op ops ih =>
    intro s n h hb
    have hb' : buffersOf K ops := fun U hU => hb U (List.mem_cons_of_mem _ hU)
    cases op with
    | reset => exact ih _ _ (reset_cyc h.wf) hb'
    | generate U =>
      obtain ⟨s', e, h', hd'⟩ := generate_cyc h hL hK0 hd hK hf (hb U List.mem_cons_self)
      unfold runSource expected
      rw [e, bind_ok]
      dsimp only
      rw [ih s' (n + 1) h' hb', bind_ok, hd']

/-- **C107.**  Reading with automatic reset, for every file that is not empty and every history, when the frames are
whole bytes or when a whole number of them makes the file: the `n`-th frame since the last reset is the `n`-th slice of
the bits of the file repeated forever, and `is_done()` stays false.  The reading loop ends. -/
theorem C107_source_cyclic (K : Nat) (hK : K = 4 ∨ 6 ≤ K) (file : List (BitVec 8)) (hL : 0 < file.length)
    (hd : 8 ∣ K ∨ K ∣ 8 * file.length) (fuel : Nat) (hf : K + 1 ≤ fuel) (ops : List SourceOp) (hb : buffersOf K ops) :
    runSource fuel (Source.make K file true) ops = ok (some (expected (cyclicSlice file K) (fun _ => false) 0 ops)) :=
  runSource_cyc (by omega) hK hL hd hf ops _ 0 (make_cyc K file) hb

theorem expected_replicate (frame : Nat → List Int) (done : Nat → Bool) (U : List Int) : ∀ (k n : Nat),
    expected frame done n (List.replicate k (.generate U)) = (List.range k).map fun i => (frame (n + i), done (n + i)) := by
  intro k
  induction k with
  | zero => intro n; rfl
  | succ k ih =>
    intro n
    rw [List.replicate_succ, expected, ih (n + 1), List.range_succ_eq_map, List.map_cons, List.map_map, Nat.add_zero]
    congr 1
    refine List.map_congr_left fun i _ => ?_
    show (frame (n + 1 + i), done (n + 1 + i)) = (frame (n + (i + 1)), done (n + (i + 1)))
    rw [Nat.add_assoc, Nat.add_comm 1 i]

theorem sentBits_sends (fs : List (List Int)) : ∀ acc, sentBits acc (fs.map .send) = acc ++ fs.flatten := by
  induction fs with
  | nil => intro acc; simp [sentBits]
  | cons f fs ih => intro acc; rw [List.map_cons, sentBits, ih, List.flatten_cons, List.append_assoc]

theorem flatten_get {K : Nat} (fs : List (List Int)) : (∀ f, f ∈ fs → f.length = K) → fs.flatten.length = fs.length * K ∧
    ∀ (i j : Nat) (f : List Int), fs[i]? = some f → j < K → fs.flatten[i * K + j]? = f[j]? := by
  induction fs with
  | nil => intro _; exact ⟨by simp, fun i j f hf => by simp at hf⟩
  | cons g fs ih =>
    intro hl
    obtain ⟨h1, h2⟩ := ih fun f hf => hl f (List.mem_cons_of_mem _ hf)
    have hg := hl g List.mem_cons_self
    refine ⟨by rw [List.flatten_cons, List.length_append, h1, hg, List.length_cons]; ring, fun i j f hf hj => ?_⟩
    rw [List.flatten_cons]
    cases i with
    | zero =>
      rw [List.getElem?_cons_zero, Option.some.injEq] at hf
      subst hf
      rw [Nat.zero_mul, Nat.zero_add, List.getElem?_append_left (by omega)]
    | succ i =>
      rw [List.getElem?_cons_succ] at hf
      have : (i + 1) * K = i * K + K := by ring
      rw [List.getElem?_append_right (by omega), ← h2 i j f hf hj]
      congr 1; omega

/-- **C107 (round trip).**  Any number of frames of at least 8 elements sent to a sink, then read from its file by a
source of the same frame length: every frame whose bits all fit in the complete bytes of the file (all of them when the
total number of bits is a multiple of 8) is read back, as bits, in order, and `is_done()` is false after it. -/
theorem C107_round_trip (K : Nat) (hK : 8 ≤ K) (old : List (BitVec 8)) (fs : List (List Int))
    (hl : ∀ f, f ∈ fs → f.length = K) (U : List Int) (hU : U.length = K) (fuel : Nat) (hf : 2 ≤ fuel) :
    ∃ s0 s outs, (Sink.make K old).2 = ok s0 ∧ runSink s0 (fs.map .send) = ok s ∧
      runSource fuel (Source.make K s.file false) (List.replicate fs.length (.generate U)) = ok (some outs) ∧
      ∀ (i : Nat) (f : List Int), fs[i]? = some f → (i + 1) * K ≤ fs.length * K / 8 * 8 →
        outs[i]? = some (f.map asBit, false) := by
  obtain ⟨s0, s, e0, e, h1, h2⟩ := C107_sink K hK old (fs.map .send) fun V hV => by
    obtain ⟨g, hg, e⟩ := List.mem_map.1 hV
    rw [SinkOp.send.injEq] at e
    rw [← e]
    exact hl g hg
  rw [sentBits_sends, List.nil_append] at h1 h2
  obtain ⟨g1, g2⟩ := flatten_get fs hl
  rw [g1] at h1
  refine ⟨s0, s, _, e0, e, C107_source K (Or.inr (by omega)) s.file fuel hf _ fun V hV => ?_, fun i f hi hle => ?_⟩
  · have := List.eq_of_mem_replicate hV
    cases this
    exact hU
  · have hlt : i < fs.length := (List.getElem?_eq_some_iff.1 hi).1
    have hfl : f.length = K := hl f (List.mem_of_getElem? hi)
    have hK1 : (i + 1) * K = i * K + K := by ring
    rw [expected_replicate, getElem?_mapRange, if_pos hlt, Nat.zero_add, h1, decide_eq_false (by omega)]
    congr 2
    refine List.ext_getElem? fun j => ?_
    unfold slice
    rw [getElem?_mapRange, List.getElem?_map]
    by_cases hj : j < K
    · rw [if_pos hj, h2 _ (by omega), List.getElem?_eq_getElem (by omega), Option.map_some, getD_of_get (g2 i j f hi hj),
        getD_lt _ (by omega)]
    · rw [if_neg hj, List.getElem?_eq_none (by omega)]
      rfl

example : framesOf 9 [.send (List.replicate 9 1), .reset, .send [1, 0, 1, 0, 2, 0, 0, -1, 1], .send (List.replicate 9 1)] := by
  intro V hV
  simp at hV
  rcases hV with rfl | rfl | rfl <;> rfl

example : (runSink ⟨9, [], List.replicate 9 0#8, List.replicate 8 0, 0⟩
      [.send (List.replicate 9 1), .reset, .send [1, 0, 1, 0, 2, 0, 0, -1, 1], .send (List.replicate 9 0)] >>=
        fun s => ok s.file) = ok [0x95#8, 0x01#8] ∧
    runSource 2 (Source.make 12 [0x95#8, 0x01#8] false) [.generate (List.replicate 12 7), .generate (List.replicate 12 7)] =
      ok (some [([1, 0, 1, 0, 1, 0, 0, 1, 1, 0, 0, 0], false), ([0, 0, 0, 0, 0, 0, 0, 0, 0, 0, 0, 0], true)]) ∧
    runSource 13 (Source.make 12 [0x95#8, 0x01#8, 0xF0#8] true)
        [.generate (List.replicate 12 7), .generate (List.replicate 12 7), .generate (List.replicate 12 7)] =
      ok (some [([1, 0, 1, 0, 1, 0, 0, 1, 1, 0, 0, 0], false), ([0, 0, 0, 0, 0, 0, 0, 0, 1, 1, 1, 1], false),
        ([1, 0, 1, 0, 1, 0, 0, 1, 1, 0, 0, 0], false)]) := by decide +kernel

/-! ## Defects -/

/-- **Finding.**  With automatic reset and frames that do not end with the file, the bits left by the previous call are
overwritten when the file is started again, and zeros are inserted: a file of 16 ones, read by frames of 12, gives a
second frame with four zeros. -/
theorem C108_auto_reset_loses_bits :
    runSource 13 (Source.make 12 [0xFF#8, 0xFF#8] true) [.generate (List.replicate 12 7), .generate (List.replicate 12 7)] =
      ok (some [(List.replicate 12 1, false), ([1, 1, 1, 1, 1, 1, 1, 1, 0, 0, 0, 0], false)]) ∧
    cyclicSlice [0xFF#8, 0xFF#8] 12 1 = List.replicate 12 1 := by decide +kernel

/-- **Finding.**  With automatic reset (the default), `generate` never returns on an empty file: whatever the number of
turns of its loop, it has not ended. -/
theorem C108_empty_file_never_returns (K : Nat) (hK : 0 < K) (fuel : Nat) (U : List Int) :
    (Source.make K [] true).generate fuel U = ok none := by
  unfold Source.generate
  rw [if_neg (show ¬ (Source.make K [] true).isDone = true from Bool.false_ne_true)]
  dsimp only
  rw [show (Source.make K [] true).nLeft = 0 from rfl, forN_zero, bind_ok,
    readLoop_empty _ (by show 0 < (K + 8 - 1 - 0) / 8; omega) fuel _ rfl rfl, bind_ok]

/-- **Finding.**  Frame lengths 1, 2, 3 and 5 are accepted, but then more bits may be left by a call than the next frame
has elements, and they are written after its end: on every file of at least two bytes, three calls are enough. -/
theorem C108_short_frames_ub (K : Nat) (hK : K = 1 ∨ K = 2 ∨ K = 3 ∨ K = 5) (file : List (BitVec 8))
    (hL : 2 ≤ file.length) (fuel : Nat) (hf : 2 ≤ fuel) (U : List Int) (hU : U.length = K) :
    runSource fuel (Source.make K file false) [.generate U, .generate U, .generate U] = ub := by
  obtain ⟨s1, e1, h1, -⟩ := generate_plain (make_at K file) (by omega) hf hU
  simp only [runSource]
  rw [e1, bind_ok]
  dsimp only
  rcases hK with rfl | rfl | rfl | rfl
  · rw [generate_ub h1 (by omega) (by omega) fuel hU]; rfl
  · rw [generate_ub h1 (by omega) (by omega) fuel hU]; rfl
  · rw [generate_ub h1 (by omega) (by omega) fuel hU]; rfl
  · obtain ⟨s2, e2, h2, -⟩ := generate_plain h1 (by omega) hf hU
    rw [e2, bind_ok]
    dsimp only
    rw [generate_ub h2 (by omega) (by omega) fuel hU]; rfl

/-- **Finding.**  The bits that do not make a complete byte stay in the sink and are never written: two frames that
differ in their last element give the same file. -/
theorem C108_sink_tail_lost :
    (runSink ⟨9, [], List.replicate 9 0#8, List.replicate 8 0, 0⟩ [.send [1, 1, 1, 1, 1, 1, 1, 1, 0]] >>=
      fun s => ok s.file) =
    (runSink ⟨9, [], List.replicate 9 0#8, List.replicate 8 0, 0⟩ [.send [1, 1, 1, 1, 1, 1, 1, 1, 1]] >>=
      fun s => ok s.file) ∧
    (runSink ⟨9, [], List.replicate 9 0#8, List.replicate 8 0, 0⟩ [.send [1, 1, 1, 1, 1, 1, 1, 1, 1]] >>=
      fun s => ok s.file) = ok [0xFF#8] := by decide +kernel

/-- **Finding.**  The constructor of the sink empties the file before it checks the frame length and throws. -/
theorem C108_sink_truncates_before_check (K : Nat) (hK : K < 8) (old : List (BitVec 8)) :
    Sink.make K old = ([], exc .runtimeError) := by
  unfold Sink.make
  rw [if_pos hK]

/-- **Finding.**  On a file of exactly `m` frames, `is_done()` is still false after the `m`-th one: a frame of zeros that
is not in the file is generated before it becomes true. -/
theorem C108_extra_frame (K : Nat) (hK : K = 4 ∨ 6 ≤ K) (file : List (BitVec 8)) (m : Nat)
    (hm : file.length * 8 = m * K) (fuel : Nat) (hf : 2 ≤ fuel) (U : List Int) (hU : U.length = K) :
    ∃ outs, runSource fuel (Source.make K file false) (List.replicate (m + 1) (.generate U)) = ok (some outs) ∧
      (∀ i : Nat, i < m → outs[i]? = some (slice file K i, false)) ∧ outs[m]? = some (List.replicate K 0, true) := by
  refine ⟨_, C107_source K hK file fuel hf _ fun V hV => ?_, fun i hi => ?_, ?_⟩
  · have := List.eq_of_mem_replicate hV
    cases this
    exact hU
  · have : (i + 1) * K ≤ m * K := Nat.mul_le_mul_right _ hi
    rw [expected_replicate, getElem?_mapRange, if_pos (by omega), Nat.zero_add, decide_eq_false (by omega)]
  · have : (m + 1) * K = m * K + K := by ring
    rw [expected_replicate, getElem?_mapRange, if_pos (by omega), Nat.zero_add, decide_eq_true (by omega)]
    congr 2
    refine List.ext_getElem? fun j => ?_
    unfold slice
    rw [getElem?_mapRange, List.getElem?_replicate]
    split
    · rw [fileBit_ge (by omega)]
    · rfl

end Verif.BitFile
