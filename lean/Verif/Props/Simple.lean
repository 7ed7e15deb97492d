import Verif.Proof.Simple

/-! # C131–C132: modules with a plain treatment -/

namespace Verif.Simple
open Exec

variable {I O T : Type}

/-- **C131**, operators.  For every frame size: the unary and binary modules apply their operation to each element (to the elements of the same index, the
first input being the first operand). -/
theorem C131_operators (uop : I → O) (bop : I → I → O) (n : Nat) (in1 in2 : List I) (out : List O) (h1 : in1.length = n) (h2 : in2.length = n)
    (ho : out.length = n) : unary uop n in1 out = ok (in1.map uop) ∧ binary bop n in1 in2 out = ok (List.zipWith bop in1 in2) := by
  constructor
  · have : (unary uop n in1 out).Sat fun o => o.length = n ∧ ∀ j : Nat, j < n → o[j]? = (in1[j]?).map uop := by
      refine Sat.mono (forN_inv (fun k (o : List O) => o.length = n ∧ ∀ j : Nat, j < k → o[j]? = (in1[j]?).map uop) ⟨ho, by simp⟩ ?_) fun o h => h
      rintro k o hk ⟨l, v⟩
      rw [rd_lt (by omega), bind_ok, wr_lt (by omega), sat_ok]
      refine ⟨by rw [List.length_set, l], fun j hj => ?_⟩
      by_cases q : j = k
      · subst q
        rw [List.getElem?_set_self (by omega), List.getElem?_eq_getElem (by omega)]
        rfl
      · rw [List.getElem?_set_ne (by omega), v j (by omega)]
    obtain ⟨o, e, l, v⟩ := this
    rw [e]
    congr 1
    apply List.ext_getElem?
    intro j
    rw [List.getElem?_map]
    by_cases q : j < n
    · exact v j q
    · rw [List.getElem?_eq_none (by omega), List.getElem?_eq_none (by omega)]; rfl
  · have : (binary bop n in1 in2 out).Sat fun o => o.length = n ∧ ∀ j : Nat, j < n → o[j]? = (List.zipWith bop in1 in2)[j]? := by
      refine Sat.mono (forN_inv (fun k (o : List O) => o.length = n ∧ ∀ j : Nat, j < k → o[j]? = (List.zipWith bop in1 in2)[j]?) ⟨ho, by simp⟩ ?_)
        fun o h => h
      rintro k o hk ⟨l, v⟩
      rw [rd_lt (show k < in1.length by omega), bind_ok, rd_lt (show k < in2.length by omega), bind_ok, wr_lt (by omega), sat_ok]
      refine ⟨by rw [List.length_set, l], fun j hj => ?_⟩
      by_cases q : j = k
      · subst q
        rw [List.getElem?_set_self (by omega), List.getElem?_eq_getElem (by rw [List.length_zipWith]; omega), List.getElem_zipWith]
      · rw [List.getElem?_set_ne (by omega), v j (by omega)]
    obtain ⟨o, e, l, v⟩ := this
    rw [e]
    congr 1
    apply List.ext_getElem?
    intro j
    by_cases q : j < n
    · exact v j q
    · rw [List.getElem?_eq_none (by omega), List.getElem?_eq_none (by rw [List.length_zipWith]; omega)]

/-- The value computed by the reducer, with its casts. -/
theorem reduce_eq (toO : I → O) (toI : O → I) (bop : I → I → O) (n frames : Nat) (x : I) (xs : List I) (out : List O) (hn : 0 < n)
    (hl : (x :: xs).length = frames * n) (ho : 0 < out.length) :
    reduce toO toI bop n frames (x :: xs) out = ok (out.set 0 (xs.foldl (fun v y => bop (toI v) y) (toO x))) := by
  let G := fun m => (((x :: xs).take m).drop 1).foldl (fun v y => bop (toI v) y) (toO x)
  have hstep : ∀ m, (hm : m < (x :: xs).length) → 0 < m → G (m + 1) = bop (toI (G m)) (x :: xs)[m] := by
    intro m hm h0
    show (((x :: xs).take (m + 1)).drop 1).foldl _ _ = _
    rw [List.take_add_one, List.getElem?_eq_getElem hm, List.drop_append_of_le_length (by rw [List.length_take]; omega), List.foldl_append]
    rfl
  have hG0 : G 0 = toO x := rfl
  have hG1 : G 1 = toO x := rfl
  have : (forN frames (fun f v =>
    forRange (if f = 0 then 1 else 0) n (fun e v => do
      let x ← rd (x :: xs) (f * n + e)
      ok (bop (toI v) x)) v) (toO x)).Sat fun v => v = G (frames * n) := by
    refine forN_inv (fun k v => v = G (k * n)) (by rw [Nat.zero_mul, hG0]) ?_
    rintro f v hf rfl
    refine Sat.mono (forRange_inv (fun e v => v = G (f * n + e)) (by split <;> omega) ?_ ?_) ?_
    · by_cases q : f = 0
      · subst q; rw [if_pos rfl, Nat.zero_mul]; exact hG0.trans hG1.symm
      · rw [if_neg q, Nat.add_zero]
    · rintro e v h1 h2 rfl
      have hlt : f * n + e < (x :: xs).length := by
        rw [hl]
        calc f * n + e < f * n + n := by omega
          _ = (f + 1) * n := by rw [Nat.succ_mul]
          _ ≤ frames * n := Nat.mul_le_mul_right _ hf
      have hpos : 0 < f * n + e := by
        by_cases q : f = 0
        · rw [if_pos q] at h1; omega
        · have := Nat.mul_pos (Nat.pos_of_ne_zero q) hn; omega
      rw [rd_lt hlt, bind_ok, sat_ok, ← Nat.add_assoc, hstep _ hlt hpos]
    · rintro v rfl
      rw [Nat.succ_mul]
  obtain ⟨v, e, rfl⟩ := this
  unfold reduce
  rw [rd_lt (by simp), bind_ok, List.getElem_cons_zero, e, bind_ok, wr_lt ho]
  congr 2
  show (((x :: xs).take (frames * n)).drop 1).foldl _ _ = _
  rw [← hl, List.take_length]
  rfl

/-- **C131**, reduction.  For every number of frames and frame size, with the same input and output types the first output of the reducer is the operation
applied to all the elements of all the frames from left to right, and the other outputs are unchanged. -/
theorem C131_reduce (bop : T → T → T) (n frames : Nat) (x : T) (xs out : List T) (hn : 0 < n) (hl : (x :: xs).length = frames * n)
    (ho : 0 < out.length) : reduce id id bop n frames (x :: xs) out = ok (out.set 0 (xs.foldl bop x)) :=
  reduce_eq id id bop n frames x xs out hn hl ho

/-- **C131**, minimum: the reducer with the minimum outputs an element of the frames that none of them is smaller than. -/
theorem C131_min (n frames : Nat) (x : Int) (xs out : List Int) (hn : 0 < n) (hl : (x :: xs).length = frames * n) (ho : 0 < out.length) :
    ∃ m, reduce id id min n frames (x :: xs) out = ok (out.set 0 m) ∧ m ∈ x :: xs ∧ ∀ y ∈ x :: xs, m ≤ y := by
  refine ⟨_, C131_reduce min n frames x xs out hn hl ho, ?_⟩
  clear hl
  induction xs generalizing x with
  | nil => simp
  | cons y xs ih =>
    obtain ⟨h1, h2⟩ := ih (min x y)
    rw [List.foldl_cons]
    generalize List.foldl min (min x y) xs = m at h1 h2
    have h3 := h2 _ (List.mem_cons_self ..)
    refine ⟨?_, fun z hz => ?_⟩
    · rcases List.mem_cons.mp h1 with h | h
      · by_cases q : x ≤ y
        · rw [h, Int.min_eq_left q]; simp
        · rw [h, Int.min_eq_right (by omega)]; simp
      · simp [h]
    · rcases List.mem_cons.mp hz with rfl | hz
      · omega
      · rcases List.mem_cons.mp hz with rfl | hz
        · omega
        · exact h2 z (List.mem_cons_of_mem _ hz)

/-- **C131**, initializer.  After any sequence of calls, accepted or not, none of which gives a wrong size for one frame only, every frame is initialised with the
data expected: the last data set for it, or that of the first frame when it was created. -/
theorem C131_initializer (zero : T) (n : Nat) (i0 : Ini T) (h0 : Ini.mk? zero n = ok i0) (ops : List (IOp T))
    (hops : ∀ vs, IOp.each vs ∈ ops → ∀ v ∈ vs, v.length = n) :
    ∃ i, i0.runAll ops = ok i ∧ i.frames = (expected (List.replicate n zero) ops).1 ∧
      ∀ f < i.frames, ∀ out, out.length = n → i.initialize f out = ok ((expected (List.replicate n zero) ops).2 f) := by
  unfold Ini.mk? at h0
  split at h0
  · cases h0
  cases h0
  have key : ∀ (ops : List (IOp T)) (i : Ini T) (s : Nat × (Nat → List T)), IOk n i s → (∀ vs, IOp.each vs ∈ ops → ∀ v ∈ vs, v.length = n) →
      ∃ i', i.runAll ops = ok i' ∧ IOk n i' (ops.foldl (fun s o => if o.accepted n s.1 then o.expect s else s) s) := by
    intro ops
    induction ops with
    | nil => intro i s h _; exact ⟨i, rfl, h⟩
    | cons o ops ih =>
      intro i s h ho
      obtain ⟨r, e, -, k⟩ := iop_eq h o fun vs q => ho vs (q ▸ List.mem_cons_self ..)
      obtain ⟨i', e', k'⟩ := ih r.1 _ k fun vs q => ho vs (List.mem_cons_of_mem _ q)
      exact ⟨i', by rw [Ini.runAll, e, bind_ok, e'], k'⟩
  obtain ⟨i, e, k⟩ := key ops ⟨1, [List.replicate n zero]⟩ (1, fun _ => List.replicate n zero)
    ⟨rfl, Nat.one_pos, rfl, fun _ _ => by simp⟩ hops
  have hE : expected (List.replicate n zero) ops =
      ops.foldl (fun s o => if o.accepted n s.1 then o.expect s else s) (1, fun _ => List.replicate n zero) := by
    unfold expected
    rw [List.length_replicate]
  rw [hE]
  exact ⟨i, e, k.frames, fun f hf out ho => initialize_eq k (by rw [← k.frames]; exact hf) ho⟩

/-- **C131**, initializer.  After any sequence of calls whatsoever each frame can be initialised without access out of bounds. -/
theorem C131_initializer_safe (zero : T) (n : Nat) (i0 : Ini T) (h0 : Ini.mk? zero n = ok i0) (ops : List (IOp T)) :
    ∃ i, i0.runAll ops = ok i ∧ 0 < i.frames ∧ ∀ f < i.frames, ∀ out, out.length = n → ∃ d, i.initialize f out = ok d ∧ d.length = n := by
  unfold Ini.mk? at h0
  split at h0
  · cases h0
  cases h0
  have key : ∀ (ops : List (IOp T)) (i : Ini T) (s : Nat × (Nat → List T)), IOk n i s → ∃ i' s', i.runAll ops = ok i' ∧ IOk n i' s' := by
    intro ops
    induction ops with
    | nil => intro i s h; exact ⟨i, s, rfl, h⟩
    | cons o ops ih =>
      intro i s h
      obtain ⟨r, e, s1, k⟩ := iop_safe h o
      obtain ⟨i', s', e', k'⟩ := ih r.1 s1 k
      exact ⟨i', s', by rw [Ini.runAll, e, bind_ok, e'], k'⟩
  obtain ⟨i, s, e, k⟩ := key ops ⟨1, [List.replicate n zero]⟩ (1, fun _ => List.replicate n zero)
    ⟨rfl, Nat.one_pos, rfl, fun _ _ => by simp⟩
  exact ⟨i, e, by rw [k.frames]; exact k.pos, fun f hf out ho =>
    ⟨_, initialize_eq k (by rw [← k.frames]; exact hf) ho, k.len f (by rw [← k.frames]; exact hf)⟩⟩

/-- **C131**, finalizer.  After any sequence of calls the data of each frame are the last received by this frame, or zeros. -/
theorem C131_finalizer (zero : T) (n : Nat) (i0 : Fin' T) (h0 : Fin'.mk? zero n = ok i0) (ops : List (FOp T)) (hops : legal n 1 ops = true) :
    ∃ i, i0.runAll zero ops = ok i ∧ i.frames = (received (List.replicate n zero) ops).1 ∧
      i.data = (List.range i.frames).map (received (List.replicate n zero) ops).2 := by
  unfold Fin'.mk? at h0
  split at h0
  · cases h0
  cases h0
  have key : ∀ (ops : List (FOp T)) (i : Fin' T) (s : Nat × (Nat → List T)), FOk (List.replicate n zero) i s → legal n s.1 ops = true →
      ∃ i', i.runAll zero ops = ok i' ∧ FOk (List.replicate n zero) i' (ops.foldl (FOp.expect (List.replicate n zero)) s) := by
    intro ops
    induction ops with
    | nil => intro i s h _; exact ⟨i, rfl, h⟩
    | cons o ops ih =>
      intro i s h hl
      cases o with
      | finalize f inp =>
        rw [legal, Bool.and_eq_true, Bool.and_eq_true, decide_eq_true_eq, beq_iff_eq] at hl
        obtain ⟨r, e, k⟩ := finalize_eq h f inp hl.1.1 hl.1.2
        obtain ⟨i', e', k'⟩ := ih r _ k hl.2
        exact ⟨i', by rw [Fin'.runAll, e, bind_ok, e'], k'⟩
      | frames q =>
        rw [legal] at hl
        obtain ⟨r, e, k⟩ := fframes_eq h q
        obtain ⟨i', e', k'⟩ := ih r _ k (by
          unfold FOp.expect
          dsimp only
          by_cases q0 : q = 0
          · rw [if_pos q0] at hl ⊢; exact hl
          · rw [if_neg q0] at hl ⊢; exact hl)
        exact ⟨i', by rw [Fin'.runAll, e, bind_ok, e'], k'⟩
  obtain ⟨i, e, k⟩ := key ops ⟨1, [List.replicate n zero]⟩ (1, fun _ => List.replicate n zero)
    ⟨rfl, Nat.one_pos, rfl, fun _ => rfl, fun _ _ => rfl⟩ hops
  exact ⟨i, e, k.frames, by rw [k.frames]; exact k.data⟩

example : reduce id id (· - ·) 2 2 [10, 1, 2, 3] [9, 9] = ok ([4, 9] : List Int) := by decide +kernel
example : binary (· - ·) 3 [10, 1, 2] [1, 2, 3] [0, 0, 0] = ok ([9, -1, -1] : List Int) := by decide +kernel
example : (do
    let i ← Ini.mk? 0 2
    let i ← i.runAll [.frames 3, .each [[1, 2], [3, 4], [5, 6]], .frames 0, .all [7], .frames 2, .frames 4]
    ok i.data) = ok ([[1, 2], [3, 4], [1, 2], [1, 2]] : List (List Nat)) := by decide +kernel
example : (do
    let i ← Fin'.mk? 0 2
    let i ← i.runAll 0 [.frames 2, .finalize 1 [1, 2], .finalize 0 [3, 4], .frames 1, .frames 3]
    ok i.data) = ok ([[3, 4], [0, 0], [0, 0]] : List (List Nat)) := by decide +kernel
example : legal 2 1 [.frames 2, .finalize 1 [1, 2], .finalize 0 [3, 4], .frames 1, .frames 3] = true := by decide

/-! ## Defects -/

/-- **C132**, **finding**: when the output type is wider than that of the input, each intermediate result is cast to the type of the input: the sum of
the bytes 100, 100 and 100 in 32 bits is 44. -/
theorem C132_narrow :
    reduce (I := BitVec 8) (O := BitVec 32) (BitVec.signExtend 32) (BitVec.setWidth 8) (fun a b => a.signExtend 32 + b.signExtend 32) 3 1
      [100#8, 100#8, 100#8] [0#32] = ok [44#32] := by decide +kernel

/-- **C132**, **finding**: a refused `set_init_data` is not without effect: the frames before that of the wrong size are changed. -/
theorem C132_not_atomic (zero : T) (n : Nat) (hn : 0 < n) (v w : List T) (hv : v.length = n) (hw : w.length ≠ n) :
    ∃ i0 i1 i2, Ini.mk? zero n = ok i0 ∧ (IOp.frames 2).run i0 = ok (i1, true) ∧ (IOp.each [v, w]).run i1 = ok (i2, false) ∧
      (∀ out, out.length = n → i2.initialize 0 out = ok v) := by
  have h0 : Ini.mk? zero n = ok ⟨1, [List.replicate n zero]⟩ := by
    unfold Ini.mk?; rw [if_neg (by omega)]
  refine ⟨_, ⟨2, [List.replicate n zero, List.replicate n zero]⟩, ⟨2, [v, List.replicate n zero]⟩, h0, rfl, ?_, fun out ho => ?_⟩
  · unfold IOp.run
    dsimp only
    rw [if_neg (by simp), setEach, rd_lt (by simp), bind_ok, List.getElem_cons_zero, if_neg (by simp [hv]), wr_lt (by simp), bind_ok, List.set_cons_zero,
      setEach, rd_lt (by simp), bind_ok, if_pos (by simpa using hw), bind_ok]
  · have k : IOk n (⟨2, [v, List.replicate n zero]⟩ : Ini T) (2, fun f => if f = 0 then v else List.replicate n zero) :=
      ⟨rfl, Nat.two_pos, rfl, fun f _ => by dsimp only; split <;> simp [hv]⟩
    exact initialize_eq k Nat.two_pos ho

end Verif.Simple
