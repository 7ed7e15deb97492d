import Verif.Proof.BitFile

/-! # Proofs about the binary sink -/

namespace Verif.BitFile
open Exec BitPacker

theorem fileBit_append (a b : List (BitVec 8)) (t : Nat) :
    fileBit (a ++ b) t = if t < a.length * 8 then fileBit a t else fileBit b (t - a.length * 8) := by
  unfold fileBit
  by_cases h : t < a.length * 8
  · rw [if_pos h, dif_pos (show t / 8 < a.length by omega), dif_pos (by rw [List.length_append]; omega),
      List.getElem_append_left (by omega)]
  · rw [if_neg h]
    by_cases h2 : t / 8 < (a ++ b).length
    · have h2' := h2
      rw [List.length_append] at h2'
      rw [dif_pos h2, dif_pos (show (t - a.length * 8) / 8 < b.length by omega), List.getElem_append_right (by omega)]
      have e1 : (t - a.length * 8) / 8 = t / 8 - a.length := by omega
      have e2 : (t - a.length * 8) % 8 = t % 8 := by omega
      simp only [e1, e2]
    · rw [dif_neg h2, dif_neg (by rw [List.length_append] at h2; omega)]

theorem pack_bits {V : List Int} {out : List (BitVec 8)} {m : Nat} (hV : m * 8 ≤ V.length) (hm : m ≤ out.length) :
    (pack 8 false 8 (m * 8) 1 V out).Sat fun o => o.length = out.length ∧
      ∀ t, t < m * 8 → fileBit (o.take m) t = asBit (V.getD t 0) := by
  refine (pack_sat (msb := false) (nb := 8) (nBits := m * 8) (nFrames := 1) (vin := V) (out := out) (by omega) (by omega)
    (by omega) (by rw [nSymbols_eight]; omega)).mono fun o ho => ?_
  obtain ⟨h1, h2, -⟩ := ho
  refine ⟨h1, fun t ht => ?_⟩
  obtain ⟨s, hs1, hs2⟩ := h2 0 (by omega) (t / 8) (by rw [nSymbols_eight]; omega)
  rw [Nat.zero_mul, Nat.zero_add] at hs1
  have hk := hs2 (t % 8) (by omega)
  rw [fileBit_eq (x := s) (by rw [List.getElem?_take, if_pos (by omega), hs1])]
  unfold bitPos at hk
  simp only [Bool.false_eq_true, if_false] at hk
  rw [hk, decide_eq_true (by omega), Bool.true_and]
  simp only [Nat.zero_mul, Nat.zero_add]
  rw [show t / 8 * 8 + t % 8 = t by omega]
  unfold bitAt ofBit asBit
  by_cases hz : V.getD t 0 = 0
  · simp [hz]
  · simp [hz]

/-- The state of a sink whose frames since the last reset, one after the other, are `S`. -/
structure Sink.At (s : Sink) (K : Nat) (S : List Int) : Prop where
  k : s.K = K
  cl : s.chunk.length = K
  bl : s.buf.length = 8
  nl : s.nLeft = S.length % 8
  fl : s.file.length = S.length / 8
  rest : ∀ i : Nat, i < s.nLeft → s.buf[i]? = S[s.file.length * 8 + i]?
  bits : ∀ t, t < s.file.length * 8 → fileBit s.file t = asBit (S.getD t 0)

theorem getD_append {S V : List Int} (t : Nat) :
    (S ++ V).getD t 0 = if t < S.length then S.getD t 0 else V.getD (t - S.length) 0 := by
  by_cases h : t < S.length
  · rw [if_pos h, List.getD_eq_getElem?_getD, List.getD_eq_getElem?_getD, List.getElem?_append_left h]
  · rw [if_neg h, List.getD_eq_getElem?_getD, List.getD_eq_getElem?_getD, List.getElem?_append_right (by omega)]

theorem getD_of_get {a b : List Int} {i j : Nat} (h : a[i]? = b[j]?) : a.getD i 0 = b.getD j 0 := by
  rw [List.getD_eq_getElem?_getD, List.getD_eq_getElem?_getD, h]

/-- Writing a part of a frame in a buffer. -/
theorem fillFrom_sat {V b : List Int} {n off : Nat} (hV : n ≤ V.length) (hb : off + n ≤ b.length) :
    (forN n (fun i b => rd V i >>= fun v => wr b (off + i) v) b).Sat fun o => o.length = b.length ∧
      ∀ j : Nat, o[j]? = if off ≤ j ∧ j < off + n then V[j - off]? else b[j]? := by
  refine (forN_inv (fun k (o : List Int) => o.length = b.length ∧
    ∀ j : Nat, o[j]? = if off ≤ j ∧ j < off + k then V[j - off]? else b[j]?) ⟨rfl, fun j => by rw [if_neg (by omega)]⟩ ?_)
  rintro k o hk ⟨h1, h2⟩
  rw [rd_lt (by omega), bind_ok, wr_lt (by omega), sat_ok]
  refine ⟨by simpa using h1, fun j => ?_⟩
  rw [List.getElem?_set]
  by_cases hj : off + k = j
  · subst hj
    rw [if_pos rfl, if_pos (by omega), if_pos (by omega), Nat.add_sub_cancel_left, List.getElem?_eq_getElem]
  · rw [if_neg hj, h2]
    by_cases hc : off ≤ j ∧ j < off + k
    · rw [if_pos hc, if_pos (by omega)]
    · rw [if_neg hc, if_neg (by omega)]

theorem complete_sat {s : Sink} {K : Nat} {S V : List Int} (h : s.At K S) (hK : 8 ≤ K) (hV : V.length = K) :
    (s.complete V ((8 - s.nLeft) % 8)).Sat fun s' => s'.K = K ∧ s'.chunk.length = K ∧ s'.buf.length = 8 ∧
      s'.file.length * 8 = S.length + (8 - s.nLeft) % 8 ∧
      ∀ t, t < s'.file.length * 8 → fileBit s'.file t = asBit ((S ++ V).getD t 0) := by
  have hnl := h.nl
  have hfl := h.fl
  unfold Sink.complete
  by_cases h0 : s.nLeft = 0
  · rw [if_neg (by omega), sat_ok]
    refine ⟨h.k, h.cl, h.bl, by omega, fun t ht => ?_⟩
    rw [h.bits t ht, getD_append, if_pos (by omega)]
  · rw [if_pos h0]
    refine (fillFrom_sat (V := V) (b := s.buf) (n := (8 - s.nLeft) % 8) (off := s.nLeft) (by omega)
      (by rw [h.bl]; omega)).bind fun b hb => ?_
    refine (pack_bits (V := b) (out := [0#8]) (m := 1) (by rw [hb.1, h.bl]) (by simp)).bind fun o ho => ?_
    unfold writeBytes
    have hol : o.length = 1 := by rw [ho.1]; rfl
    rw [if_pos (by omega), bind_ok, sat_ok]
    have hlen : (s.file ++ List.take 1 o).length = s.file.length + 1 := by
      rw [List.length_append, List.length_take, hol]; rfl
    refine ⟨h.k, h.cl, by show b.length = 8; rw [hb.1, h.bl], by show (s.file ++ List.take 1 o).length * 8 = _; omega,
      fun t ht => ?_⟩
    have ht' : t < (s.file ++ List.take 1 o).length * 8 := ht
    show fileBit (s.file ++ List.take 1 o) t = _
    rw [fileBit_append]
    by_cases hc : t < s.file.length * 8
    · rw [if_pos hc, h.bits t hc, getD_append, if_pos (by omega)]
    · rw [if_neg hc, ho.2 _ (by omega)]
      congr 1
      refine getD_of_get ?_
      rw [hb.2]
      by_cases hc2 : t - s.file.length * 8 < s.nLeft
      · rw [if_neg (by omega), h.rest _ hc2, List.getElem?_append_left (by omega)]
        congr 1; omega
      · rw [if_pos (by omega), List.getElem?_append_right (by omega)]
        congr 1; omega

theorem keepRest_sat {K : Nat} {V b : List Int} {first : Nat} (hV : V.length = K) (hf : first ≤ K) (hb : b.length = 8)
    (h8 : K - first < 8) :
    (keepRest K V first b).Sat fun p => p.1.length = 8 ∧ p.2 = K - first ∧
      ∀ i : Nat, i < p.2 → p.1[i]? = V[first + i]? := by
  unfold keepRest
  refine (forN_inv (fun k (p : List Int × Nat) => p.1.length = 8 ∧ p.2 = k ∧ ∀ i : Nat, i < k → p.1[i]? = V[first + i]?)
    ⟨hb, rfl, fun i hi => absurd hi (Nat.not_lt_zero i)⟩ ?_).mono fun p hp => ⟨hp.1, hp.2.1, fun i hi => hp.2.2 i (by rw [← hp.2.1]; exact hi)⟩
  rintro k ⟨o, c⟩ hk ⟨h1, h2, h3⟩
  dsimp only at h1 h2 h3 ⊢
  subst h2
  rw [rd_lt (by omega), bind_ok, wr_lt (by omega), bind_ok, sat_ok]
  refine ⟨by simpa using h1, rfl, fun i hi => ?_⟩
  show (o.set c _)[i]? = _
  rw [List.getElem?_set]
  by_cases hic : c = i
  · subst hic; rw [if_pos rfl, if_pos (by omega), List.getElem?_eq_getElem]
  · rw [if_neg hic, h3 i (by omega)]

theorem send_sat {s : Sink} {K : Nat} {S V : List Int} (h : s.At K S) (hK : 8 ≤ K) (hV : V.length = K) :
    (s.send V).Sat fun s' => s'.At K (S ++ V) := by
  have hnl := h.nl
  have hfl := h.fl
  unfold Sink.send
  dsimp only
  refine (complete_sat h hK hV).bind fun s1 h1 => ?_
  obtain ⟨a1, a2, a3, a4, a5⟩ := h1
  rw [a1]
  generalize hnc : (8 - s.nLeft) % 8 = nc at *
  generalize hmain : (K - nc) / 8 = main at *
  refine (pack_bits (V := V.drop nc) (out := s1.chunk) (m := main) (by rw [List.length_drop]; omega) (by omega)).bind
    fun c hc => ?_
  unfold writeBytes
  rw [if_pos (by omega), bind_ok]
  refine (keepRest_sat (V := V) (b := s1.buf) (first := nc + main * 8) hV (by omega) a3 (by omega)).bind fun r hr => ?_
  rw [sat_ok]
  have hlen : (s1.file ++ List.take main c).length = s1.file.length + main := by
    rw [List.length_append, List.length_take]; omega
  have hSV : (S ++ V).length = S.length + K := by rw [List.length_append, hV]
  refine ⟨rfl, by show c.length = K; omega, hr.1, ?_, ?_, fun i hi => ?_, fun t ht => ?_⟩
  · show r.2 = _
    rw [hr.2.1]; omega
  · show (s1.file ++ List.take main c).length = _
    omega
  · show r.1[i]? = (S ++ V)[(s1.file ++ List.take main c).length * 8 + i]?
    rw [hr.2.2 i hi, List.getElem?_append_right (by omega)]
    congr 1; omega
  · have ht' : t < (s1.file ++ List.take main c).length * 8 := ht
    show fileBit (s1.file ++ List.take main c) t = _
    rw [fileBit_append]
    by_cases hc1 : t < s1.file.length * 8
    · rw [if_pos hc1, a5 t hc1]
    · rw [if_neg hc1, hc.2 _ (by omega)]
      congr 1
      refine getD_of_get ?_
      rw [List.getElem?_drop, List.getElem?_append_right (by omega)]
      congr 1; omega

theorem sink_make_at {K : Nat} (hK : 8 ≤ K) (old : List (BitVec 8)) :
    (Sink.make K old).2.Sat fun s => s.At K [] := by
  unfold Sink.make
  rw [if_neg (by omega), sat_ok]
  exact ⟨rfl, List.length_replicate, List.length_replicate, rfl, rfl, fun i hi => absurd hi (Nat.not_lt_zero i),
    fun t ht => absurd ht (Nat.not_lt_zero t)⟩

theorem sink_reset_at {s : Sink} {K : Nat} {S : List Int} (h : s.At K S) : s.reset.At K [] :=
  ⟨h.k, h.cl, h.bl, rfl, rfl, fun i hi => absurd hi (Nat.not_lt_zero i), fun t ht => absurd ht (Nat.not_lt_zero t)⟩

theorem runSink_sat {K : Nat} (hK : 8 ≤ K) : ∀ (ops : List SinkOp) (s : Sink) (S : List Int), s.At K S → framesOf K ops →
    (runSink s ops).Sat fun s' => s'.At K (sentBits S ops) := by
  intro ops
  induction ops with
  | nil => intro s S h _; exact sat_ok.2 h
  | cons op ops ih =>
    intro s S h hf
    have hf' : framesOf K ops := fun V hV => hf V (List.mem_cons_of_mem _ hV)
    cases op with
    | send V =>
      exact (send_sat h hK (hf V List.mem_cons_self)).bind fun s' hs' => ih s' _ hs' hf'
    | reset => exact ih _ _ (sink_reset_at h) hf'

end Verif.BitFile
