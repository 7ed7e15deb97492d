import Mathlib.Algebra.Order.BigOperators.Group.Finset
import Mathlib.Algebra.Order.Group.Abs
import Mathlib.Algebra.Order.Group.Int
import Verif.Prelude.Loops
import Verif.Model.Repetition
import Verif.Proof.Repetition
import Verif.Props.Interleaver

/-! # Repeat-accumulate codes: proofs -/

namespace Verif.Repetition
open Exec Interleaver

/-- The interleaver core permutes one frame by the table `π`. -/
structure Permutes (c : Core) (nf frameId N : Nat) (π : List Nat) : Prop where
  perm : IsPermutation N π
  fwd : ∀ {α : Type} (x out : List α), x.length = N → out.length = N →
    ∃ y, interleave c 1 nf frameId x out = ok y ∧ y.length = N ∧ ∀ i (h : i < π.length), y[i]? = x[π[i]]?
  bwd : ∀ {α : Type} (x out : List α), x.length = N → out.length = N →
    ∃ z, deinterleave c 1 nf frameId x out = ok z ∧ z.length = N ∧ ∀ i (h : i < π.length), z[π[i]]? = x[i]?

theorem permutes_of_history {N : Nat} (hs : 0 < N) {uniform : Bool} {gen : GenLut} (hgen : ValidGen N gen)
    {ops : List Op} (hops : OpsValid N ops) (frameId : Nat) :
    ∃ c, history N uniform gen ops = ok c ∧ 0 < c.nFrames ∧
      Permutes c c.nFrames frameId N ((c.pi.drop ((if uniform then frameId % c.nFrames else 0) * N)).take N) := by
  obtain ⟨c, hc, hn, hl, hperm, -⟩ := C01_pointwise (α := Nat) hs uniform gen hgen ops hops 1 0
    (List.replicate N 0) (List.replicate N 0) (by simp) (by simp)
  refine ⟨c, hc, hn, ?_⟩
  have hf : (if uniform then frameId % c.nFrames else 0) < c.nFrames := by
    split
    · exact Nat.mod_lt _ hn
    · exact hn
  have hpw : ∀ {α : Type} (x out y : List α), x.length = N → out.length = N → interleave c 1 c.nFrames frameId x out = ok y →
      y.length = N ∧ ∀ i p, i < N → c.pi[(if uniform then frameId % c.nFrames else 0) * N + i]? = some p → y[i]? = x[p]? := by
    intro α x out y hx ho hy
    obtain ⟨c', hc', -, -, -, y', hy', hyl, hv⟩ := C01_pointwise hs uniform gen hgen ops hops 1 frameId x out
      (by rw [Nat.one_mul]; exact hx) (by rw [Nat.one_mul]; exact ho)
    rw [hc] at hc'; cases hc'
    rw [hy] at hy'; cases hy'
    refine ⟨by rw [hyl, Nat.one_mul], fun i p hi hp => ?_⟩
    have := hv 0 (by omega) i hi p (by simpa using hp)
    simpa using this
  have hlook : ∀ i (h : i < ((c.pi.drop ((if uniform then frameId % c.nFrames else 0) * N)).take N).length), i < N ∧
      c.pi[(if uniform then frameId % c.nFrames else 0) * N + i]? =
        some (((c.pi.drop ((if uniform then frameId % c.nFrames else 0) * N)).take N)[i]) := by
    intro i h
    have hi : i < N := by rw [List.length_take] at h; omega
    refine ⟨hi, ?_⟩
    rw [← List.getElem?_eq_getElem h, List.getElem?_take, if_pos hi, List.getElem?_drop]
  refine ⟨hperm _ hf, ?_, ?_⟩
  · intro α x out hx ho
    obtain ⟨c', hc', -, -, -, y, hy, hyl, -⟩ := C01_pointwise hs uniform gen hgen ops hops 1 frameId x out
      (by rw [Nat.one_mul]; exact hx) (by rw [Nat.one_mul]; exact ho)
    rw [hc] at hc'; cases hc'
    obtain ⟨h1, h2⟩ := hpw x out y hx ho hy
    exact ⟨y, hy, h1, fun i h => h2 i _ (hlook i h).1 (hlook i h).2⟩
  · intro α x out hx ho
    obtain ⟨c', hc', -, z, hz, hzl, hzi⟩ := C01_round_trip hs uniform gen hgen ops hops 1 c.nFrames frameId x out out
      (by rw [Nat.one_mul]; exact hx) (by rw [Nat.one_mul]; exact ho) (by rw [Nat.one_mul]; exact ho)
    rw [hc] at hc'; cases hc'
    rw [Nat.one_mul] at hzl
    obtain ⟨h1, h2⟩ := hpw z out x hzl ho hzi
    exact ⟨z, hz, hzl, fun i h => (h2 i _ (hlook i h).1 (hlook i h).2).symm⟩

/-! ## Encoder -/

theorem raRepeat_sat {α : Type _} {K rep : Nat} {u U : List α} (hu : u.length = K) (hU : U.length = K * rep) :
    (raRepeat K rep u U).Sat fun o => o.length = K * rep ∧ ∀ i j, i < K → j < rep → o[i * rep + j]? = u[i]? := by
  unfold raRepeat
  refine forN_inv (fun n (o : List α) => o.length = K * rep ∧ ∀ i j, i < n → j < rep → o[i * rep + j]? = u[i]?)
    ⟨hU, fun i j hi => by omega⟩ ?_
  rintro n o hn ⟨h1, h2⟩
  have hle : (n + 1) * rep ≤ K * rep := Nat.mul_le_mul_right _ hn
  rw [Nat.succ_mul] at hle
  have : ∀ j (U : List α), j < rep → (rd u n >>= fun b => wr U (n * rep + j) b) = wr U (n * rep + j) (u[n]'(by omega)) := by
    intro j U _; rw [rd_lt (by omega), bind_ok]
  rw [forN_congr (fun j U hj => this j U hj)]
  obtain ⟨o', h3, h4, h5⟩ := forN_fill (n := rep) (off := n * rep) (g := fun _ => u[n]'(by omega)) (out := o) (by omega)
  refine ⟨o', h3, by omega, fun i j hi hj => ?_⟩
  rw [h5]
  rcases Nat.lt_succ_iff_lt_or_eq.mp hi with hi | rfl
  · have : (i + 1) * rep ≤ n * rep := Nat.mul_le_mul_right _ hi
    rw [Nat.succ_mul] at this
    rw [if_neg (by omega), h2 i j hi hj]
  · rw [if_pos (by omega), List.getElem?_eq_getElem (by omega)]

/-- The accumulated word. -/
def acc (r : Nat → Nat) : Nat → Nat
  | 0 => r 0
  | i + 1 => acc r i ^^^ r (i + 1)

theorem raAccumulate_sat {N : Nat} {x : List Nat} {r : Nat → Nat} (hx : x.length = N) (hr : ∀ i, i < N → x[i]? = some (r i)) :
    (raAccumulate N x).Sat fun o => o.length = N ∧ ∀ i, i < N → o[i]? = some (acc r i) := by
  unfold raAccumulate
  refine (forN_inv (fun k (o : List Nat) => o.length = N ∧ (∀ i, i ≤ k → i < N → o[i]? = some (acc r i)) ∧
    ∀ i, k < i → i < N → o[i]? = some (r i)) ⟨hx, fun i hi hN => ?_, fun i _ hN => hr i hN⟩ ?_).mono ?_
  · obtain rfl : i = 0 := by omega
    exact hr 0 hN
  · rintro k o hk ⟨h1, h2, h3⟩
    rw [rd_eq (h2 k (by omega) (by omega)), bind_ok, rd_eq (h3 (k + 1) (by omega) (by omega)), bind_ok, wr_lt (by omega),
      sat_ok]
    refine ⟨by simpa using h1, fun i hi hN => ?_, fun i hi hN => ?_⟩
    · by_cases e : k + 1 = i
      · subst e; rw [List.getElem?_set_self (by omega)]; rfl
      · rw [List.getElem?_set_ne e, h2 i (by omega) hN]
    · rw [List.getElem?_set_ne (by omega), h3 i (by omega) hN]
  · rintro o ⟨h1, h2, -⟩
    exact ⟨h1, fun i hi => h2 i (by omega) hi⟩

theorem raEncode_sat {c : Core} {K rep nf frameId : Nat} {π : List Nat} (hc : Permutes c nf frameId (K * rep) π)
    (hrep : 0 < rep) {u U tmp x : List Nat} (hu : u.length = K) (hU : U.length = K * rep) (ht : tmp.length = K * rep)
    (hx : x.length = K * rep) :
    (raEncode c K rep nf frameId u U tmp x).Sat fun o => o.length = K * rep ∧
      ∀ i, i < K * rep → o[i]? = some (acc (fun i => u.getD (π.getD i 0 / rep) 0) i) := by
  unfold raEncode
  refine (raRepeat_sat hu hU).bind ?_
  rintro r ⟨r1, r2⟩
  obtain ⟨y, hy, yl, yv⟩ := hc.fwd r tmp r1 ht
  rw [hy, bind_ok]
  have hval : ∀ i, i < K * rep → y[i]? = some (u.getD (π.getD i 0 / rep) 0) := by
    intro i hi
    have hi' : i < π.length := by rw [hc.perm.length]; exact hi
    have hlt := hc.perm.lt hi'
    rw [yv i hi', getD_lt 0 hi']
    have hq : π[i] / rep < K := (Nat.div_lt_iff_lt_mul hrep).mpr hlt
    have := r2 (π[i] / rep) (π[i] % rep) hq (Nat.mod_lt _ hrep)
    rw [Nat.mul_comm, Nat.div_add_mod] at this
    rw [this, getD_lt 0 (by omega), List.getElem?_eq_getElem (by omega)]
  refine (raAccumulate_sat yl hval).bind ?_
  rintro a ⟨a1, a2⟩
  refine (copyTo_sat (by omega) (by omega)).mono ?_
  rintro o ⟨o1, o2⟩
  refine ⟨by omega, fun i hi => ?_⟩
  rw [o2, if_pos (by omega), ← a2 i hi]
  congr 1; omega

/-! ## Decoder -/

section
variable {R : Type} [AddCommGroup R] [LinearOrder R] [IsOrderedAddMonoid R]

/-- `v` does not contradict bit `b` (0 is positive, 1 is negative). -/
def Weak (b : Nat) (v : R) : Prop := if b = 0 then 0 ≤ v else v ≤ 0

theorem Strict.weak {b : Nat} {v : R} (h : Strict b v) : Weak b v := by
  unfold Strict at h; unfold Weak
  split
  · rw [if_pos ‹_›] at h; exact h.le
  · rw [if_neg ‹_›] at h; exact h.le

theorem weak_zero (b : Nat) : Weak b (0 : R) := by unfold Weak; split <;> exact le_refl _

theorem Weak.add_strict {b : Nat} {v w : R} (h : Weak b v) (h' : Strict b w) : Strict b (v + w) := by
  unfold Weak at h; unfold Strict at h' ⊢
  by_cases e : b = 0
  · rw [if_pos e] at h h' ⊢; exact add_pos_of_nonneg_of_pos h h'
  · rw [if_neg e] at h h' ⊢; exact add_neg_of_nonpos_of_neg h h'

theorem Weak.add {b : Nat} {v w : R} (h : Weak b v) (h' : Weak b w) : Weak b (v + w) := by
  unfold Weak at h h' ⊢
  by_cases e : b = 0
  · rw [if_pos e] at h h' ⊢; exact add_nonneg h h'
  · rw [if_neg e] at h h' ⊢; exact add_nonpos h h'

theorem checkNode_strict {a b : Nat} (ha : a < 2) (hb : b < 2) {v w : R} (h : Strict a v) (h' : Strict b w) :
    Strict (a ^^^ b) (checkNode v w) := by
  have hv : v ≠ 0 := by
    rintro rfl; unfold Strict at h; split at h <;> exact lt_irrefl _ h
  have hw : w ≠ 0 := by
    rintro rfl; unfold Strict at h'; split at h' <;> exact lt_irrefl _ h'
  have hm : 0 < min |v| |w| := lt_min (abs_pos.mpr hv) (abs_pos.mpr hw)
  unfold checkNode
  rcases (show a = 0 ∨ a = 1 by omega) with rfl | rfl <;> rcases (show b = 0 ∨ b = 1 by omega) with rfl | rfl <;>
    simp only [Strict, if_true, if_false, one_ne_zero] at h h'
  · rw [if_pos (by rw [decide_eq_decide]; exact ⟨fun _ => h', fun _ => h⟩)]
    simpa [Strict] using hm
  · rw [if_neg (by rw [decide_eq_decide]; exact fun e => lt_asymm h' (e.mp h))]
    simp only [Strict, Nat.zero_xor, one_ne_zero, if_false]
    exact neg_lt_zero.mpr hm
  · rw [if_neg (by rw [decide_eq_decide]; exact fun e => lt_asymm h (e.mpr h'))]
    simp only [Strict, Nat.xor_zero, one_ne_zero, if_false]
    exact neg_lt_zero.mpr hm
  · rw [if_pos (by rw [decide_eq_decide]; exact ⟨fun e => absurd e (lt_asymm h), fun e => absurd e (lt_asymm h')⟩)]
    simpa [Strict] using hm

theorem checkNode_weak {a b : Nat} (ha : a < 2) (hb : b < 2) {v w : R} (h : Weak a v) (h' : Weak b w) :
    Weak (a ^^^ b) (checkNode v w) := by
  by_cases hv : v = 0
  · subst hv
    have : checkNode (0 : R) w = 0 := by
      unfold checkNode
      rw [abs_zero, min_eq_left (abs_nonneg w), neg_zero, ite_self]
    rw [this]; exact weak_zero _
  by_cases hw : w = 0
  · subst hw
    have : checkNode v (0 : R) = 0 := by
      unfold checkNode
      rw [abs_zero, min_eq_right (abs_nonneg v), neg_zero, ite_self]
    rw [this]; exact weak_zero _
  refine (checkNode_strict ha hb ?_ ?_).weak
  · unfold Weak at h; unfold Strict
    split
    · rw [if_pos ‹_›] at h; exact lt_of_le_of_ne h (Ne.symm hv)
    · rw [if_neg ‹_›] at h; exact lt_of_le_of_ne h hv
  · unfold Weak at h'; unfold Strict
    split
    · rw [if_pos ‹_›] at h'; exact lt_of_le_of_ne h' (Ne.symm hw)
    · rw [if_neg ‹_›] at h'; exact lt_of_le_of_ne h' hw

/-- Every element of `l` satisfies `P` at its index. -/
def Each (P : Nat → R → Prop) (N : Nat) (l : List R) : Prop := l.length = N ∧ ∀ i, i < N → ∃ v, l[i]? = some v ∧ P i v

/-- The context of the decoding proof: `r` are the interleaved repeated bits, `x` the accumulated bits. -/
structure Ctx (N : Nat) (r x : Nat → Nat) (y : List R) : Prop where
  N2 : 2 ≤ N
  rb : ∀ i, i < N → r i < 2
  xb : ∀ i, i < N → x i < 2
  x0 : x 0 = r 0
  xs : ∀ i, i + 1 < N → x (i + 1) = x i ^^^ r (i + 1)
  y : Each (fun i v => Strict (x i) v) N y

theorem xor_xor_cancel {a b c : Nat} (h : c = a ^^^ b) : c ^^^ b = a ∧ a ^^^ c = b := by
  subst h
  constructor
  · rw [Nat.xor_assoc, Nat.xor_self, Nat.xor_zero]
  · rw [← Nat.xor_assoc, Nat.xor_self, Nat.zero_xor]

theorem raForward_sat {N : Nat} {r x : Nat → Nat} {y Td Fw : List R} (h : Ctx N r x y)
    (hT : Each (fun i v => Weak (r i) v) N Td) (hF : Fw.length = N) :
    (raForward N y Td Fw).Sat fun o => Each (fun i v => Weak (x i) v) N o := by
  have h2 := h.N2
  obtain ⟨t0, ht0, wt0⟩ := hT.2 0 (by omega)
  unfold raForward
  rw [rd_eq ht0, bind_ok, wr_lt (by omega), bind_ok]
  refine (forN_inv (fun k (o : List R) => o.length = N ∧ ∀ i, i ≤ k → i < N → ∃ v, o[i]? = some v ∧ Weak (x i) v)
    ⟨by simpa using hF, fun i hi hN => ?_⟩ ?_).mono ?_
  · obtain rfl : i = 0 := by omega
    exact ⟨t0, by rw [List.getElem?_set_self (by omega)], by rw [h.x0]; exact wt0⟩
  · rintro k o hk ⟨l, w⟩
    obtain ⟨f, hf, wf⟩ := w k (by omega) (by omega)
    obtain ⟨v, hv, sv⟩ := h.y.2 k (by omega)
    obtain ⟨t, ht, wt⟩ := hT.2 (k + 1) (by omega)
    rw [rd_eq hf, bind_ok, rd_eq hv, bind_ok, rd_eq ht, bind_ok, wr_lt (by omega), sat_ok]
    refine ⟨by simpa using l, fun i hi hN => ?_⟩
    by_cases e : k + 1 = i
    · subst e
      refine ⟨_, List.getElem?_set_self (by omega), ?_⟩
      rw [h.xs k hN]
      exact checkNode_weak (h.xb k (by omega)) (h.rb _ hN) (wf.add sv.weak) wt
    · rw [List.getElem?_set_ne e]; exact w i (by omega) hN
  · rintro o ⟨l, w⟩
    exact ⟨l, fun i hi => w i (by omega) hi⟩

theorem raBackward_sat {N : Nat} {r x : Nat → Nat} {y Td Bw : List R} (h : Ctx N r x y)
    (hT : Each (fun i v => Weak (r i) v) N Td) (hB : Bw.length = N) :
    (raBackward N y Td Bw).Sat fun o => o.length = N ∧ ∀ i, i + 1 < N → ∃ v, o[i]? = some v ∧ Weak (x i) v := by
  have h2 := h.N2
  obtain ⟨v, hv, sv⟩ := h.y.2 (N - 1) (by omega)
  obtain ⟨t, ht, wt⟩ := hT.2 (N - 1) (by omega)
  unfold raBackward
  rw [if_neg (by omega), rd_eq hv, bind_ok, rd_eq ht, bind_ok, wr_lt (by omega), bind_ok, forDown_eq]
  refine (forN_inv (fun k (o : List R) => o.length = N ∧ ∀ i, N - 2 - k ≤ i → i + 1 < N → ∃ v, o[i]? = some v ∧ Weak (x i) v)
    ⟨by simpa using hB, fun i hi hN => ?_⟩ ?_).mono ?_
  · obtain rfl : i = N - 2 := by omega
    refine ⟨_, List.getElem?_set_self (by omega), ?_⟩
    have e1 : N - 2 + 1 = N - 1 := by omega
    have hx := h.xs (N - 2) (by omega)
    rw [e1] at hx
    rw [← (xor_xor_cancel hx).1]
    exact checkNode_weak (h.xb _ (by omega)) (h.rb _ (by omega)) sv.weak wt
  · rintro k o hk ⟨l, w⟩
    obtain ⟨b, hb, wb⟩ := w (N - 2 - 1 - k + 1) (by omega) (by omega)
    obtain ⟨v, hv, sv⟩ := h.y.2 (N - 2 - 1 - k + 1) (by omega)
    obtain ⟨t, ht, wt⟩ := hT.2 (N - 2 - 1 - k + 1) (by omega)
    rw [rd_eq hb, bind_ok, rd_eq hv, bind_ok, rd_eq ht, bind_ok, wr_lt (by omega), sat_ok]
    refine ⟨by simpa using l, fun i hi hN => ?_⟩
    by_cases e : N - 2 - 1 - k = i
    · subst e
      refine ⟨_, List.getElem?_set_self (by omega), ?_⟩
      have hx := h.xs (N - 2 - 1 - k) (by omega)
      have := checkNode_weak (h.xb _ (by omega)) (h.rb _ (by omega)) (wb.add sv.weak) wt
      rwa [(xor_xor_cancel hx).1] at this
    · rw [List.getElem?_set_ne e]; exact w i (by omega) hN
  · rintro o ⟨l, w⟩
    exact ⟨l, fun i hi => w i (by omega) hi⟩

theorem raExtrinsic_sat {N : Nat} {r x : Nat → Nat} {y Fw Bw Tu : List R} (h : Ctx N r x y)
    (hF : Each (fun i v => Weak (x i) v) N Fw) (hB : Bw.length = N ∧ ∀ i, i + 1 < N → ∃ v, Bw[i]? = some v ∧ Weak (x i) v)
    (hT : Tu.length = N) :
    (raExtrinsic N y Fw Bw Tu).Sat fun o => Each (fun i v => Strict (r i) v) N o := by
  have h2 := h.N2
  obtain ⟨b0, hb0, wb0⟩ := hB.2 0 (by omega)
  obtain ⟨v0, hv0, sv0⟩ := h.y.2 0 (by omega)
  obtain ⟨v1, hv1, sv1⟩ := h.y.2 (N - 1) (by omega)
  obtain ⟨v2, hv2, sv2⟩ := h.y.2 (N - 2) (by omega)
  obtain ⟨f2, hf2, wf2⟩ := hF.2 (N - 2) (by omega)
  unfold raExtrinsic
  rw [rd_eq hb0, bind_ok, rd_eq hv0, bind_ok, wr_lt (by omega), bind_ok, rd_eq hv1, bind_ok, rd_eq hv2, bind_ok,
    rd_eq hf2, bind_ok, wr_lt (by rw [List.length_set]; omega), bind_ok]
  have e1 : N - 2 + 1 = N - 1 := by omega
  have hxl := h.xs (N - 2) (by omega)
  rw [e1] at hxl
  refine (forRange_inv (fun k (o : List R) => o.length = N ∧ ∀ i, (i < k ∨ i = N - 1) → i < N → ∃ v, o[i]? = some v ∧ Strict (r i) v)
    (by omega) ⟨by simpa using hT, fun i hi hN => ?_⟩ ?_).mono ?_
  · by_cases e : i = N - 1
    · subst e
      refine ⟨_, List.getElem?_set_self (by simpa using by omega), ?_⟩
      rw [← (xor_xor_cancel hxl).2, Nat.xor_comm]
      refine checkNode_strict (h.xb _ (by omega)) (h.xb _ (by omega)) sv1 ?_
      rw [add_comm]; exact wf2.add_strict sv2
    · obtain rfl : i = 0 := by omega
      rw [List.getElem?_set_ne (by omega), List.getElem?_set_self (by omega)]
      refine ⟨_, rfl, ?_⟩
      rw [← h.x0]; exact wb0.add_strict sv0
  · rintro k o hk1 hk ⟨l, w⟩
    obtain ⟨f, hf, wf⟩ := hF.2 (k - 1) (by omega)
    obtain ⟨v, hv, sv⟩ := h.y.2 (k - 1) (by omega)
    obtain ⟨b, hb, wb⟩ := hB.2 k (by omega)
    obtain ⟨v', hv', sv'⟩ := h.y.2 k (by omega)
    rw [rd_eq hf, bind_ok, rd_eq hv, bind_ok, rd_eq hb, bind_ok, rd_eq hv', bind_ok, wr_lt (by omega), sat_ok]
    refine ⟨by simpa using l, fun i hi hN => ?_⟩
    by_cases e : k = i
    · subst e
      refine ⟨_, List.getElem?_set_self (by omega), ?_⟩
      have hx := h.xs (k - 1) (by omega)
      have e2 : k - 1 + 1 = k := by omega
      rw [e2] at hx
      rw [← (xor_xor_cancel hx).2]
      exact checkNode_strict (h.xb _ (by omega)) (h.xb _ (by omega)) (wf.add_strict sv) (wb.add_strict sv')
    · rw [List.getElem?_set_ne e]; exact w i (by omega) hN
  · rintro o ⟨l, w⟩
    exact ⟨l, fun i hi => w i (by omega) hi⟩

theorem sum_weak {rep : Nat} {b : Nat} {w : Nat → R} (h : ∀ j, j < rep → Strict b (w j)) :
    (0 < rep → Strict b (∑ j ∈ Finset.range rep, w j)) ∧ ∀ j, j < rep → Weak b (∑ j ∈ Finset.range rep, w j - w j) := by
  have hw := fun j hj => (h j hj).weak
  unfold Strict Weak at *
  by_cases e : b = 0
  · simp only [if_pos e] at *
    refine ⟨fun hr => Finset.sum_pos (fun j hj => h j (Finset.mem_range.mp hj)) ⟨0, Finset.mem_range.mpr hr⟩, fun j hj => ?_⟩
    rw [sub_nonneg]
    exact Finset.single_le_sum (f := w) (fun i hi => hw i (Finset.mem_range.mp hi)) (Finset.mem_range.mpr hj)
  · simp only [if_neg e] at *
    refine ⟨fun hr => ?_, fun j hj => ?_⟩
    · rw [← neg_pos, ← Finset.sum_neg_distrib]
      exact Finset.sum_pos (fun j hj => neg_pos.mpr (h j (Finset.mem_range.mp hj))) ⟨0, Finset.mem_range.mpr hr⟩
    · rw [sub_nonpos, ← neg_le_neg_iff, ← Finset.sum_neg_distrib]
      exact Finset.single_le_sum (f := fun i => - w i) (fun i hi => neg_nonneg.mpr (hw i (Finset.mem_range.mp hi)))
        (Finset.mem_range.mpr hj)

theorem foldl_eq {W : Nat → R} {off : Nat} {Wu : List R} {n : Nat} (h : ∀ j, j < n → Wu[off + j]? = some (W j)) :
    forN n (fun j t => rd Wu (off + j) >>= fun w => ok (t + w)) 0 = ok (∑ j ∈ Finset.range n, W j) := by
  induction n with
  | zero => simp [forN]
  | succ n ih =>
    rw [forN_succ, ih (fun j hj => h j (by omega)), bind_ok, rd_eq (h n (by omega)), bind_ok, Finset.sum_range_succ]

theorem raU_sat {K rep : Nat} {u : Nat → Nat} {Wu Wd U : List R} (hrep : 0 < rep)
    (hW : Each (fun j v => Strict (u (j / rep)) v) (K * rep) Wu) (hD : Wd.length = K * rep) (hU : U.length = K) :
    (forN K (raUBit rep Wu) (Wd, U)).Sat fun s => Each (fun j v => Weak (u (j / rep)) v) (K * rep) s.1 ∧
      Each (fun k v => Strict (u k) v) K s.2 := by
  refine (forN_inv (fun n (s : List R × List R) => (s.1.length = K * rep ∧ ∀ j, j < n * rep → ∃ v, s.1[j]? = some v ∧
    Weak (u (j / rep)) v) ∧ (s.2.length = K ∧ ∀ k, k < n → ∃ v, s.2[k]? = some v ∧ Strict (u k) v))
    ⟨⟨hD, fun j hj => by omega⟩, ⟨hU, fun k hk => by omega⟩⟩ ?_).mono ?_
  · rintro n ⟨D, V⟩ hn ⟨⟨h1, h2⟩, ⟨h3, h4⟩⟩
    simp only at h1 h2 h3 h4
    have hle : (n + 1) * rep ≤ K * rep := Nat.mul_le_mul_right _ hn
    rw [Nat.succ_mul] at hle
    have hdiv : ∀ j, j < rep → (n * rep + j) / rep = n := by
      intro j hj
      rw [Nat.mul_comm, Nat.mul_add_div hrep, Nat.div_eq_of_lt hj, Nat.add_zero]
    have hval : ∀ j, ∃ v, j < rep → Wu[n * rep + j]? = some v ∧ Strict (u n) v := by
      intro j
      by_cases hj : j < rep
      · obtain ⟨v, hv, sv⟩ := hW.2 (n * rep + j) (by omega)
        rw [hdiv j hj] at sv
        exact ⟨v, fun _ => ⟨hv, sv⟩⟩
      · exact ⟨0, fun h => absurd h hj⟩
    choose w hw using hval
    obtain ⟨hs, hs'⟩ := sum_weak (fun j hj => (hw j hj).2)
    unfold raUBit
    rw [foldl_eq (fun j hj => (hw j hj).1), bind_ok]
    have hcg : ∀ j (Wd : List R), j < rep → (rd Wu (n * rep + j) >>= fun w' => wr Wd (n * rep + j) (∑ j ∈ Finset.range rep, w j - w')) =
        wr Wd (n * rep + j) (∑ j ∈ Finset.range rep, w j - w j) := by
      intro j Wd hj; rw [rd_eq (hw j hj).1, bind_ok]
    rw [forN_congr (fun j Wd hj => hcg j Wd hj)]
    obtain ⟨o', e1, e2, e3⟩ := forN_fill (n := rep) (off := n * rep) (g := fun j => ∑ j ∈ Finset.range rep, w j - w j) (out := D)
      (by omega)
    rw [e1, bind_ok, wr_lt (by simpa using by omega), bind_ok]
    refine sat_ok.mpr ⟨⟨by simpa using by omega, fun j hj => ?_⟩, ⟨by simpa using h3, fun k hk => ?_⟩⟩
    · simp only
      rw [e3]
      rw [Nat.succ_mul] at hj
      by_cases e : n * rep ≤ j ∧ j < n * rep + rep
      · rw [if_pos e]
        refine ⟨_, rfl, ?_⟩
        obtain ⟨i, rfl⟩ : ∃ i, j = n * rep + i := ⟨j - n * rep, by omega⟩
        rw [hdiv i (by omega), Nat.add_sub_cancel_left]
        exact hs' i (by omega)
      · rw [if_neg e]; exact h2 j (by omega)
    · simp only
      by_cases e : n = k
      · subst e; exact ⟨_, List.getElem?_set_self (by omega), hs hrep⟩
      · rw [List.getElem?_set_ne e]; exact h4 k (by omega)
  · rintro s ⟨⟨h1, h2⟩, h3⟩
    exact ⟨⟨h1, h2⟩, h3⟩

/-- The arrays have the sizes given by the constructor. -/
structure Sized (K N : Nat) (m : RaMem R) : Prop where
  Fw : m.Fw.length = N
  Bw : m.Bw.length = N
  Tu : m.Tu.length = N
  Td : m.Td.length = N
  Wu : m.Wu.length = N
  Wd : m.Wd.length = N
  U : m.U.length = K

theorem raIter_sat {c : Core} {K rep nf frameId : Nat} {π : List Nat} (hc : Permutes c nf frameId (K * rep) π) (hrep : 0 < rep)
    {u x : Nat → Nat} {y : List R} (h : Ctx (K * rep) (fun i => u (π.getD i 0 / rep)) x y) {m : RaMem R} (hm : Sized K (K * rep) m)
    (hT : Each (fun i v => Weak (u (π.getD i 0 / rep)) v) (K * rep) m.Td) :
    (raIter c K rep nf frameId y m).Sat fun m' => Sized K (K * rep) m' ∧
      Each (fun i v => Weak (u (π.getD i 0 / rep)) v) (K * rep) m'.Td ∧ Each (fun k v => Strict (u k) v) K m'.U := by
  unfold raIter
  refine (raForward_sat h hT hm.Fw).bind ?_
  intro Fw hF
  refine (raBackward_sat h hT hm.Bw).bind ?_
  intro Bw hB
  refine (raExtrinsic_sat h hF hB hm.Tu).bind ?_
  intro Tu hTu
  obtain ⟨Wu, hz, zl, zv⟩ := hc.bwd Tu m.Wu hTu.1 hm.Wu
  rw [hz, bind_ok]
  have hWu : Each (fun j v => Strict (u (j / rep)) v) (K * rep) Wu := by
    refine ⟨zl, fun j hj => ?_⟩
    obtain ⟨i, hi, hij⟩ := hc.perm.surj hj
    have hN : i < K * rep := by rw [← hc.perm.length]; exact hi
    obtain ⟨v, hv, sv⟩ := hTu.2 i hN
    refine ⟨v, ?_, ?_⟩
    · rw [← hij, zv i hi, hv]
    · rw [getD_lt 0 hi, hij] at sv; exact sv
  refine (raU_sat hrep hWu hm.Wd hm.U).bind ?_
  rintro ⟨Wd, U⟩ ⟨hD, hU⟩
  simp only at hD hU ⊢
  obtain ⟨Td, hy, yl, yv⟩ := hc.fwd Wd m.Td hD.1 hm.Td
  rw [hy, bind_ok]
  refine sat_ok.mpr ⟨⟨hF.1, hB.1, hTu.1, yl, zl, hD.1, hU.1⟩, ⟨yl, fun i hi => ?_⟩, hU⟩
  have hi' : i < π.length := by rw [hc.perm.length]; exact hi
  obtain ⟨v, hv, wv⟩ := hD.2 π[i] (hc.perm.lt hi')
  exact ⟨v, by rw [yv i hi', hv], by beta_reduce; rw [getD_lt 0 hi']; exact wv⟩

theorem zero_fill {N : Nat} {a : List R} (ha : a.length = N) :
    forN N (fun i a => wr a i (0 : R)) a = ok (List.replicate N 0) := by
  have := forN_fill (n := N) (off := 0) (g := fun _ => (0 : R)) (out := a) (by omega)
  simp only [Nat.zero_add] at this
  obtain ⟨o, h1, h2, h3⟩ := this
  rw [h1]
  congr 1
  refine List.ext_getElem? fun i => ?_
  rw [h3, List.getElem?_replicate]
  by_cases hi : i < N
  · rw [if_pos ⟨by omega, hi⟩, if_pos hi]
  · rw [if_neg (by omega), if_neg hi, List.getElem?_eq_none (by omega)]

theorem raDecode_eq {c : Core} {K rep nf frameId maxIter : Nat} {π : List Nat} (hc : Permutes c nf frameId (K * rep) π)
    (hrep : 0 < rep) (hit : 0 < maxIter) {u x : Nat → Nat} (hu : ∀ k, k < K → u k < 2) {y : List R}
    (h : Ctx (K * rep) (fun i => u (π.getD i 0 / rep)) x y) {m : RaMem R} (hm : Sized K (K * rep) m) {v : List Nat}
    (hv : v.length = K) :
    raDecode c K rep nf frameId maxIter y m v = ok ((List.range K).map u) := by
  unfold raDecode
  simp only
  rw [zero_fill hm.Fw, bind_ok, zero_fill hm.Bw, bind_ok, zero_fill hm.Td, bind_ok]
  obtain ⟨m', hm', -, -, hU⟩ : (forN maxIter (fun _ m => raIter c K rep nf frameId y m)
      { m with Fw := List.replicate (K * rep) 0, Bw := List.replicate (K * rep) 0, Td := List.replicate (K * rep) 0 }).Sat
      fun m' => Sized K (K * rep) m' ∧
      Each (fun i v => Weak (u (π.getD i 0 / rep)) v) (K * rep) m'.Td ∧ Each (fun k v => Strict (u k) v) K m'.U := by
    have h0 : Sized K (K * rep) (RaMem.mk (List.replicate (K * rep) 0) (List.replicate (K * rep) 0) m.Tu
        (List.replicate (K * rep) 0) m.Wu m.Wd m.U) :=
      ⟨List.length_replicate, List.length_replicate, hm.Tu, List.length_replicate, hm.Wu, hm.Wd, hm.U⟩
    refine (forN_inv (fun n (m : RaMem R) => Sized K (K * rep) m ∧ Each (fun i v => Weak (u (π.getD i 0 / rep)) v) (K * rep) m.Td ∧
      (0 < n → Each (fun k v => Strict (u k) v) K m.U)) ⟨h0, ⟨List.length_replicate, fun i hi => ⟨0, by
          rw [List.getElem?_replicate, if_pos hi], weak_zero _⟩⟩, fun h => absurd h (lt_irrefl _)⟩ ?_).mono ?_
    · rintro n m - ⟨h1, h2, -⟩
      exact (raIter_sat hc hrep h h1 h2).mono fun m' ⟨a, b, e⟩ => ⟨a, b, fun _ => e⟩
    · rintro m' ⟨a, b, e⟩; exact ⟨a, b, e hit⟩
  rw [hm', bind_ok]
  have hval : ∀ k, k < K → m'.U[k]? = some (m'.U.getD k 0) := by
    intro k hk
    rw [getD_lt 0 (by rw [hU.1]; exact hk), List.getElem?_eq_getElem]
  rw [decide'_sat hv hval]
  congr 1
  refine List.map_congr_left fun k hk => ?_
  have hk := List.mem_range.mp hk
  obtain ⟨w, hw, sw⟩ := hU.2 k hk
  rw [hval k hk, Option.some.injEq] at hw
  rw [hw]
  unfold Strict at sw
  have hb := hu k hk
  by_cases e : u k = 0
  · rw [if_pos e] at sw
    rw [e]; simp [sw.le]
  · rw [if_neg e] at sw
    have : u k = 1 := by omega
    rw [this]; simp [sw]

end

end Verif.Repetition
