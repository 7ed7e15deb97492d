import Mathlib.Tactic.NormNum
import Mathlib.Tactic.Linarith
import Mathlib.Data.Int.Log
import Verif.Spec.Prng
import Verif.Prelude.Loops

/-! # The generator follows the recurrence -/

namespace Verif.Prng
open Exec Verif.Float

/-! ## Bits -/

theorem join_eq (a b : BitVec 32) : M32 a ||| L31 b = join a b := by
  apply BitVec.eq_of_getLsbD_eq
  intro i hi
  have h1 : (0x80000000#32).getLsbD i = decide (i = 31) := by revert i; decide
  have h2 : (0x7FFFFFFF#32).getLsbD i = decide (i < 31) := by revert i; decide
  unfold M32 L31 join
  simp only [BitVec.getLsbD_or, BitVec.getLsbD_and, BitVec.getLsbD_cast, BitVec.getLsbD_append, BitVec.getLsbD_extractLsb', h1, h2]
  by_cases h : i < 31
  · have : i ≠ 31 := by omega
    simp [h, this]
  · have : i = 31 := by omega
    subst this
    simp

theorem odd_eq (y : BitVec 32) : ODD y = (y.getLsbD 0).toNat := by
  unfold ODD
  have : y &&& 1#32 = BitVec.ofNat 32 ((y.getLsbD 0).toNat) := by
    apply BitVec.eq_of_getLsbD_eq
    intro i hi
    rw [BitVec.getLsbD_and]
    have h1 : (1#32).getLsbD i = decide (i = 0) := by revert i; decide
    rw [h1]
    by_cases h : i = 0
    · subst h; cases y.getLsbD 0 <;> decide
    · cases y.getLsbD 0 <;> simp [h]
  rw [this]
  cases y.getLsbD 0 <;> decide

theorem matrix_eq (c y : BitVec 32) : ∃ m, rd MATRIX (ODD y) = ok m ∧ c ^^^ (y >>> 1) ^^^ m = c ^^^ mulA y := by
  rw [odd_eq]
  unfold mulA
  cases y.getLsbD 0
  · exact ⟨0#32, rfl, by simp⟩
  · exact ⟨0x9908b0df#32, rfl, by simp [BitVec.xor_assoc]⟩

/-! ## Terms -/

theorem term_lt {s : BitVec 32} {k : Nat} (h : k < 624) : term s k = init s k := by rw [term, if_pos h]

theorem term_add (s : BitVec 32) (k : Nat) :
    term s (k + 624) = term s (k + 397) ^^^ mulA (join (term s k) (term s (k + 1))) := by
  rw [term, if_neg (by omega), show k + 624 - 624 = k by omega]

/-! ## `generate_numbers` -/

/-- `i` numbers of the block `g + 1` are computed. -/
structure Upd (s : BitVec 32) (g i : Nat) (MT : List (BitVec 32)) : Prop where
  length : MT.length = 624
  get : ∀ j, j < 624 → MT[j]? = some (term s (if j < i then 624 * g + j + 624 else 624 * g + j))

theorem twist_spec {s : BitVec 32} {g i i1 e : Nat} {MT : List (BitVec 32)} (h : Upd s g i MT) (hi : i < 624)
    (h1 : i1 = (i + 1) % 624) (he : e = (i + 397) % 624) : (twist i i1 e MT).Sat (Upd s g (i + 1)) := by
  have a : MT[i]? = some (term s (624 * g + i)) := by rw [h.get i hi, if_neg (by omega)]
  have b : MT[i1]? = some (term s (624 * g + i + 1)) := by
    rw [h.get i1 (by omega)]
    congr 2
    split <;> omega
  have c : MT[e]? = some (term s (624 * g + i + 397)) := by
    rw [h.get e (by omega)]
    congr 2
    split <;> omega
  unfold twist
  rw [rd_eq a, bind_ok, rd_eq b, bind_ok, rd_eq c, bind_ok]
  obtain ⟨m, em, hm⟩ := matrix_eq (term s (624 * g + i + 397)) (M32 (term s (624 * g + i)) ||| L31 (term s (624 * g + i + 1)))
  rw [em, bind_ok, hm, wr_lt (by rw [h.length]; exact hi), join_eq, ← term_add, sat_ok]
  refine ⟨by rw [List.length_set, h.length], fun j hj => ?_⟩
  rw [List.getElem?_set]
  by_cases hij : i = j
  · subst hij
    rw [if_pos rfl, if_pos (by rw [h.length]; exact hi), if_pos (by omega)]
  · rw [if_neg hij, h.get j hj]
    congr 2
    by_cases hl : j < i
    · rw [if_pos hl, if_pos (by omega)]
    · rw [if_neg hl, if_neg (by omega)]

theorem unroll_spec {s : BitVec 32} {g : Nat} {expr : Nat → Nat} {st : List (BitVec 32) × Nat} (h : Upd s g st.2 st.1)
    (hi : st.2 < 623) (he : expr st.2 = (st.2 + 397) % 624) :
    (unroll expr st).Sat fun st' => st'.2 = st.2 + 1 ∧ Upd s g st'.2 st'.1 := by
  unfold unroll
  refine (twist_spec h (by omega) (by omega) he).bind fun MT hMT => ?_
  rw [Exec.pure_eq, sat_ok]
  exact ⟨rfl, hMT⟩

theorem unrolls_spec {s : BitVec 32} {g n : Nat} {expr : Nat → Nat} {st : List (BitVec 32) × Nat} (h : Upd s g st.2 st.1)
    (hi : st.2 + n ≤ 623) (he : ∀ i, st.2 ≤ i → i < st.2 + n → expr i = (i + 397) % 624) :
    (unrolls n expr st).Sat fun st' => st'.2 = st.2 + n ∧ Upd s g st'.2 st'.1 := by
  unfold unrolls
  refine forN_inv (fun k (st' : List (BitVec 32) × Nat) => st'.2 = st.2 + k ∧ Upd s g st'.2 st'.1) ⟨rfl, h⟩ fun k st' hk hI => ?_
  refine (unroll_spec hI.2 (by omega) (he _ (by omega) (by omega))).mono fun st'' h'' => ⟨by omega, h''.2⟩

theorem while_spec {s : BitVec 32} {g n bound : Nat} {expr : Nat → Nat} (hn : 1 ≤ n) (hb : bound ≤ 623) :
    ∀ {fuel : Nat} {st : List (BitVec 32) × Nat}, Upd s g st.2 st.1 → st.2 ≤ bound → bound ≤ st.2 + fuel →
    n ∣ bound - st.2 → (∀ i, st.2 ≤ i → i < bound → expr i = (i + 397) % 624) →
    (whileLt bound (unrolls n expr) fuel st).Sat fun st' => st'.2 = bound ∧ Upd s g st'.2 st'.1 := by
  intro fuel
  induction fuel with
  | zero =>
    intro st h h1 h2 _ _
    rw [whileLt, if_neg (by omega), Exec.pure_eq, sat_ok]
    exact ⟨by omega, h⟩
  | succ fuel ih =>
    intro st h h1 h2 hd he
    rw [whileLt]
    by_cases hc : st.2 < bound
    · rw [if_pos hc]
      have hle : n ≤ bound - st.2 := Nat.le_of_dvd (by omega) hd
      refine (unrolls_spec (n := n) h (by omega) fun i hi hi2 => he i hi (by omega)).bind fun st' h' => ?_
      refine ih h'.2 (by omega) (by omega) ?_ fun i hi hi2 => he i (by omega) hi2
      rw [h'.1, Nat.sub_add_eq]
      exact Nat.dvd_sub hd (Nat.dvd_refl n)
    · rw [if_neg hc, Exec.pure_eq, sat_ok]
      exact ⟨by omega, h⟩

theorem generate_spec {s : BitVec 32} {g : Nat} {MT : List (BitVec 32)} (h : Upd s g 0 MT) :
    (generateNumbers MT).Sat (Upd s (g + 1) 0) := by
  unfold generateNumbers
  rw [show DIFF - 1 = 226 from rfl, show SIZE - 1 = 623 from rfl, show SIZE = 624 from rfl, show PERIOD = 397 from rfl,
    show DIFF = 227 from rfl]
  refine (while_spec (s := s) (g := g) (n := 2) (bound := 226) (expr := fun i => i + 397) (fuel := 624) (st := (MT, 0)) (by omega) (by omega) h (Nat.zero_le _) (by omega) ⟨113, rfl⟩
    fun i _ hi => by omega).bind fun st h1 => ?_
  refine (unroll_spec h1.2 (by omega) rfl).bind fun st2 h2 => ?_
  refine (while_spec (s := s) (g := g) (by omega) (by omega) h2.2 (by omega) (by omega) ⟨36, by omega⟩
    fun i hi hi2 => by omega).bind fun st3 h3 => ?_
  have h4 := h3.2
  rw [h3.1] at h4
  refine (twist_spec h4 (by omega) (by omega) (by omega)).mono fun MT' h5 => ⟨h5.length, fun j hj => ?_⟩
  rw [h5.get j hj, if_pos (by omega), if_neg (by omega)]
  congr 2
  omega

/-! ## The state between two calls -/

/-- The generator was seeded with `s` and `i` numbers were drawn since then. -/
structure At (s : BitVec 32) (i : Nat) (p : Prng) : Prop where
  index : p.index = i % 624
  mt : Upd s ((i + 623) / 624) 0 p.MT

theorem seed_spec {p : Prng} (hl : p.MT.length = 624) (s : BitVec 32) : (seed p s).Sat (At s 0) := by
  unfold seed
  rw [wr_lt (by rw [hl]; omega), bind_ok]
  refine (forRange_inv (fun k MT => MT.length = 624 ∧ ∀ j, j < k → MT[j]? = some (init s j)) (by decide) ?_ ?_).bind
    fun MT h => ?_
  · refine ⟨by rw [List.length_set, hl], fun j hj => ?_⟩
    obtain rfl : j = 0 := by omega
    rw [List.getElem?_set, if_pos rfl, if_pos (by omega)]
    rfl
  · intro i MT h1 h2 ⟨h3, h4⟩
    have h2 : i < 624 := h2
    have e : MT[i - 1]? = some (init s (i - 1)) := h4 _ (by omega)
    rw [rd_eq e, bind_ok, bind_ok, wr_lt (by omega), sat_ok]
    refine ⟨by rw [List.length_set, h3], fun j hj => ?_⟩
    rw [List.getElem?_set]
    by_cases hij : i = j
    · subst hij
      rw [if_pos rfl, if_pos (by omega)]
      obtain ⟨k, rfl⟩ : ∃ k, i = k + 1 := ⟨i - 1, by omega⟩
      rfl
    · rw [if_neg hij, h4 j (by omega)]
  · rw [Exec.pure_eq, sat_ok]
    refine ⟨rfl, h.1, fun j hj => ?_⟩
    rw [h.2 j hj, if_neg (by omega), show 624 * ((0 + 623) / 624) + j = j by omega, term_lt hj]

theorem tempering_eq (y : BitVec 32) : tempering y = temper y := rfl

theorem randU32_spec {s : BitVec 32} {i : Nat} {p : Prng} (h : At s i p) :
    (randU32 p).Sat fun r => r.1 = number s i ∧ At s (i + 1) r.2 := by
  unfold randU32
  have hg : (refresh p).Sat (Upd s (i / 624 + 1) 0) := by
    unfold refresh
    by_cases h0 : p.index = 0
    · rw [if_pos h0]
      have := h.index
      have hm := h.mt
      rw [show (i + 623) / 624 = i / 624 by omega] at hm
      exact generate_spec hm
    · rw [if_neg h0, Exec.pure_eq, sat_ok]
      have := h.index
      have hm := h.mt
      rw [show (i + 623) / 624 = i / 624 + 1 by omega] at hm
      exact hm
  refine hg.bind fun MT hMT => ?_
  have hi := h.index
  have e : MT[p.index]? = some (term s (624 + i)) := by
    rw [hMT.get _ (by omega), if_neg (by omega)]
    congr 2
    omega
  rw [rd_eq e, bind_ok, Exec.pure_eq, sat_ok]
  refine ⟨rfl, ?_, ?_⟩
  · show (if p.index + 1 = SIZE then 0 else p.index + 1) = (i + 1) % 624
    rw [show SIZE = 624 from rfl]
    split <;> omega
  · show Upd s ((i + 1 + 623) / 624) 0 MT
    rw [show (i + 1 + 623) / 624 = i / 624 + 1 by omega]
    exact hMT

theorem mask_int (u : BitVec 32) : (0x7FFFFFFF#32 &&& u).toInt = (u.toNat % 2 ^ 31 : Nat) := by
  have : (0x7FFFFFFF#32 &&& u).toNat = u.toNat % 2 ^ 31 := by
    rw [BitVec.toNat_and, Nat.and_comm, show (0x7FFFFFFF#32).toNat = 2 ^ 31 - 1 from rfl, Nat.and_two_pow_sub_one_eq_mod]
  rw [BitVec.toInt_eq_toNat_of_lt (by rw [this]; omega), this]

theorem concat_eq (l r : BitVec 32) : l.setWidth 64 <<< 32 ||| r.setWidth 64 = (l ++ r).cast rfl := by
  apply BitVec.eq_of_getLsbD_eq
  intro i hi
  simp only [BitVec.getLsbD_or, BitVec.getLsbD_shiftLeft, BitVec.getLsbD_setWidth, BitVec.getLsbD_cast, BitVec.getLsbD_append]
  by_cases h : i < 32
  · simp [h, hi]
  · have h2 : r.getLsbD i = false := BitVec.getLsbD_of_ge _ _ (by omega)
    have h3 : i - 32 < 64 := by omega
    simp [h, hi, h2, h3]

theorem real_spec {s : BitVec 32} {i : Nat} {p : Prng} (h : At s i p) (f : BitVec 32 → Fl) :
    (randReal f p).Sat fun r => r.1 = f (number s i) ∧ At s (i + 1) r.2 := by
  unfold randReal
  refine (randU32_spec h).bind fun r hr => ?_
  exact sat_ok.2 ⟨by rw [← hr.1], hr.2⟩

theorem op_spec {s : BitVec 32} {i : Nat} {p : Prng} (h : At s i p) (op : Op) :
    (op.run p).Sat fun r => r.1 = (op.expect s i).1 ∧ At (op.expect s i).2.1 (op.expect s i).2.2 r.2 := by
  cases op with
  | seed s' =>
    refine (seed_spec h.mt.length s').bind fun q hq => ?_
    exact sat_ok.2 ⟨rfl, hq⟩
  | rand =>
    have : (Prng.rand p).Sat fun r => r.1 = ((number s i).toNat % 2 ^ 31 : Nat) ∧ At s (i + 1) r.2 := by
      unfold Prng.rand
      refine (randU32_spec h).bind fun r hr => ?_
      exact sat_ok.2 ⟨by rw [← hr.1]; exact mask_int _, hr.2⟩
    refine this.bind fun q hq => ?_
    exact sat_ok.2 ⟨congrArg Res.int hq.1, hq.2⟩
  | u32 =>
    refine (randU32_spec h).bind fun q hq => ?_
    exact sat_ok.2 ⟨congrArg Res.u32 hq.1, hq.2⟩
  | u64 left =>
    have : (randU64 left p).Sat fun r => Res.u64 r.1 = ((Op.u64 left).expect s i).1 ∧ At s (i + 2) r.2 := by
      unfold randU64
      refine (randU32_spec h).bind fun a ha => (randU32_spec ha.2).bind fun b hb => ?_
      obtain ⟨a, p1⟩ := a
      obtain ⟨b, p2⟩ := b
      obtain ⟨rfl, -⟩ := ha
      obtain ⟨rfl, hb⟩ := hb
      cases left <;> refine sat_ok.2 ⟨?_, hb⟩ <;> exact congrArg Res.u64 (concat_eq _ _)
    refine this.bind fun q hq => ?_
    exact sat_ok.2 ⟨hq.1, hq.2⟩
  | fcc | fco | foo | dcc | dco | doo =>
    refine (real_spec h _).bind fun q hq => ?_
    exact sat_ok.2 ⟨congrArg Res.real hq.1, hq.2⟩

theorem run_spec : ∀ {ops : List Op} {s : BitVec 32} {i : Nat} {p : Prng}, At s i p →
    (runAll p ops).Sat fun r => r.1 = expectAll s i ops
  | [], _, _, _, _ => by rw [runAll]; exact sat_ok.2 rfl
  | op :: ops, s, i, p, h => by
    rw [runAll]
    refine (op_spec h op).bind fun r hr => (run_spec hr.2).bind fun q hq => ?_
    refine sat_ok.2 ?_
    rw [expectAll]
    exact congrArg₂ List.cons hr.1 hq

end Verif.Prng
