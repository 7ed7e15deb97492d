import Verif.Proof.TurboPres
import Verif.Proof.TurboSpec
import Verif.Props.BCJR

/-! # Turbo decoder: `short` and floating point -/

namespace Verif.Turbo
open Exec Verif.RSC Verif.Interleaver Verif.BCJR Verif.Float

variable {R D : Type}

theorem maxlog_congr {bf : Bool} {m g0 g1 K : Nat} {s s' p p' : Nat → Int} (hs : ∀ t, t < K + m → s t = s' t) (hp : ∀ t, t < K + m → p t = p' t)
    {j : Nat} {h : Int} (hh : MaxLog bf m g0 g1 K s p j h) : MaxLog bf m g0 g1 K s' p' j h := by
  have e : ∀ x, corr bf (K + m) s p x = corr bf (K + m) s' p' x := fun x => Finset.sum_congr rfl fun t ht => by
    rw [hs t (Finset.mem_range.1 ht), hp t (Finset.mem_range.1 ht)]
  have e' : ∀ b, Corrs bf m g0 g1 K s p j b = Corrs bf m g0 g1 K s' p' j b := fun b => by
    unfold Corrs
    simp only [e]
  unfold MaxLog at hh ⊢
  rwa [e', e'] at hh

/-- A list cut at `n`. -/
def trim (n : Nat) (s : Nat → Int) (t : Nat) : Int := if t < n then s t else 0

theorem sisoOk {A : Arith R D} {m g0 g1 K W : Nat} {M B lim : Int} (sd : Sound A (m * M) M B) {fill : R} {T : List (List Int)} {bf' : Bool}
    (hM0 : 0 ≤ M) (hh : ∀ s p : Nat → Int, (∀ t, |s t| + |p t| ≤ M) → Hyp A m g0 g1 K W M B T s p) (hlim : 2 * B + 2 * M ≤ lim) :
    SisoOk A sd.llr lim M ⟨m, g0, g1⟩ K (Inv A fill K (2 ^ m) m bf' T) where
  hK d hd := ⟨hd.hK, hd.hm⟩
  run d s p sys par ext hd hM hs hp he := by
    dsimp only at hM hs hp ⊢
    have h := hh (trim (K + m) s) (trim (K + m) p) (fun t => by
      unfold trim
      split
      next ht => exact hM t ht
      · simpa using hM0)
    have ts : ∀ t, t < K + m → trim (K + m) s t = s t := fun t ht => if_pos ht
    have tp : ∀ t, t < K + m → trim (K + m) p t = p t := fun t ht => if_pos ht
    obtain ⟨⟨d', o⟩, e, h1, _, h3⟩ := sisoAlt_sat sd hd h.tr h.fwd h.bwd (fun t _ => h.hM t)
      (fun t ht => by rw [ts t ht]; exact hs t ht) (fun t ht => by rw [tp t ht]; exact hp t ht) (ext := ext) (by omega)
    refine ⟨_, e, (sisoAlt_inv hd e).1, by dsimp only at h1 ⊢; omega, fun i hi => ?_⟩
    obtain ⟨x, hx, hx'⟩ := h3 i hi
    rw [ts i (by omega)] at hx'
    obtain ⟨z0, h0⟩ := corrs_max (both (bf := true) (s := trim (K + m) s) (p := trim (K + m) p) h.hm h.h0 h.h1 hi false)
    obtain ⟨z1, h1⟩ := corrs_max (both (bf := true) (s := trim (K + m) s) (p := trim (K + m) p) h.hm h.h0 h.h1 hi true)
    obtain ⟨g, hg⟩ := maxlog_of (j := sysPos true i) h0 h1
    obtain ⟨b1, rfl⟩ := hx' z0 z1 (by rw [through_sys h.hm h.h0 h.h1 (by omega) (bf := true)]; exact h0)
      (by rw [through_sys h.hm h.h0 h.h1 (by omega) (bf := true)]; exact h1) g hg
    have b2 := hM i (by omega)
    have b3 := abs_sub g (s i)
    have b4 := abs_nonneg (p i)
    exact ⟨g, hx, maxlog_congr ts tp ⟨z0, z1, h0, h1, hg.symm⟩, by omega, by omega⟩

theorem ts16 : TS a16 (fun n => n) 0 32767 where
  zero := rfl
  add x y _ _ h := by
    have := abs_le.1 h
    exact wrap16 (x := x + y) (by omega) (by omega)
  hadd x y _ _ h := by
    have := abs_le.1 h
    show sat (-32768) 32767 (x + y) = x + y
    unfold sat
    omega
  neg x _ := rfl

/-- `n 2 ^ q`. -/
def llrF (q : Int) (n : Int) : Fl := .fin ((n : Rat) * 2 ^ q)

theorem tsF {F : Fmt} {q : Int} (hF : Covered F q) : TS (aF F) (llrF q) (.fin 0) (2 ^ F.p - 1) where
  zero := by simp [llrF]
  add x y _ _ h := by
    have hf := covered_ok hF
    have := hf.lo
    have := hf.hi
    show F.of ((x : ℚ) * 2 ^ q + y * 2 ^ q) = _
    rw [← add_mul, ← Int.cast_add, of_scaled (by omega) (by omega) (by omega)]
    rfl
  hadd x y _ _ h := by
    have hf := covered_ok hF
    have := hf.lo
    have := hf.hi
    show F.of ((x : ℚ) * 2 ^ q + y * 2 ^ q) = _
    rw [← add_mul, ← Int.cast_add, of_scaled (by omega) (by omega) (by omega)]
    rfl
  neg x _ := by
    show Fl.lt (.fin ((x : ℚ) * 2 ^ q)) (.fin 0) = _
    have h2 := two_zpow_pos q
    simp only [Fl.lt]
    congr 1
    rw [mul_neg_iff]
    simp only [h2, h2.not_gt, and_true, and_false, false_or, Int.cast_lt_zero]

/-- A post-processing: scaling of the extrinsic LLRs by 0.75, early termination by a CRC. -/
inductive Pp where
  | seq
  | crc (start : Nat) (chk : List Int → Bool)

/-- The post-processings on `short`. -/
def Pp.short (nIte : Nat) : Pp → PP Int
  | .seq => seq16 nIte
  | .crc a c => .crc a c

/-- The post-processings in floating point. -/
def Pp.float (F : Fmt) (nIte : Nat) : Pp → PP Fl
  | .seq => seqF F nIte
  | .crc a c => .crc a c

/-- On `short`, the scaling replaces `x` by `⌊x / 2⌋ + ⌊x / 4⌋`, but for the second code at the last two iterations. -/
def Pp.short' (nIte : Nat) : Pp → Post
  | .seq => .scale fun i ite x => some (if i && !(ite + 1 < nIte) then x else x / 2 + x / 4)
  | .crc a c => .crc a c

/-- In floating point the scaling replaces `x` by `3 x / 4`. -/
def Pp.float' (nIte : Nat) : Pp → Post
  | .seq => .scale fun i ite x => if i && !(ite + 1 < nIte) then some x else if 4 ∣ x then some (3 * (x / 4)) else none
  | .crc a c => .crc a c

theorem pp16 (nIte : Nat) (pps : List Pp) : List.Forall₂ (PPOk (fun n => n) 32767) (pps.map (Pp.short nIte)) (pps.map (Pp.short' nIte)) := by
  induction pps with
  | nil => exact .nil
  | cons p ps ih =>
    refine .cons ?_ ih
    cases p with
    | crc a c => exact ⟨rfl, rfl⟩
    | seq =>
      intro b ite x x' hx h
      injection h with h
      rw [← h]
      have := abs_le.1 hx
      dsimp only
      split
      · rfl
      · exact wrap16 (by omega) (by omega)

theorem half_q {F : Fmt} {q : Int} (hf : FOk F q) : F.of (1 / 2) = .fin (1 / 2) ∧ (F.emin ≤ -2 → F.of (1 / 4) = .fin (1 / 4)) := by
  have h2 := hf.p2
  have h0 := hf.e0
  have h1 := hf.e1
  have hp : (2 : ℤ) ^ 1 ≤ 2 ^ F.p := pow_le_pow_right₀ (by norm_num) (by omega)
  constructor
  · have := of_scaled (F := F) (x := 1) (e := -1) (by norm_num; omega) (by omega) (by omega)
    norm_num at this ⊢
    exact this
  · intro he
    have := of_scaled (F := F) (x := 1) (e := -2) (by norm_num; omega) (by omega) (by omega)
    norm_num at this ⊢
    exact this

theorem ppF {F : Fmt} {q : Int} (hF : Covered F q) (nIte : Nat) (pps : List Pp) :
    List.Forall₂ (PPOk (llrF q) (2 ^ F.p - 1)) (pps.map (Pp.float F nIte)) (pps.map (Pp.float' nIte)) := by
  have hf := covered_ok hF
  have hlo := hf.lo
  have hhi := hf.hi
  have he : F.emin ≤ -2 := by
    rcases hF with ⟨rfl, _⟩ | ⟨rfl, _⟩ <;> decide
  obtain ⟨q1, q2⟩ := half_q hf
  have q2 := q2 he
  induction pps with
  | nil => exact .nil
  | cons p ps ih =>
    refine .cons ?_ ih
    cases p with
    | crc a c => exact ⟨rfl, rfl⟩
    | seq =>
      intro b ite x x' hx h
      dsimp only at h ⊢
      split at h
      next hc =>
        injection h with h
        rw [if_pos hc, h]
      next hc =>
        split at h
        next hd =>
          injection h with h
          obtain ⟨k, rfl⟩ := hd
          rw [← h, if_neg hc, q1, q2]
          have hk : 4 * |k| ≤ 2 ^ F.p - 1 := by rwa [abs_mul] at hx
          have hk0 := abs_nonneg k
          have a1 : F.of ((((4 * k : ℤ)) : ℚ) * 2 ^ q * (1 / 2)) = .fin (((2 * k : ℤ) : ℚ) * 2 ^ q) := by
            rw [show (((4 * k : ℤ)) : ℚ) * 2 ^ q * (1 / 2) = ((2 * k : ℤ) : ℚ) * 2 ^ q by push_cast; ring]
            exact of_scaled (by rw [abs_mul]; norm_num; omega) (by omega) (by omega)
          have a2 : F.of ((((4 * k : ℤ)) : ℚ) * 2 ^ q * (1 / 4)) = .fin ((k : ℚ) * 2 ^ q) := by
            rw [show (((4 * k : ℤ)) : ℚ) * 2 ^ q * (1 / 4) = (k : ℚ) * 2 ^ q by push_cast; ring]
            exact of_scaled (by omega) (by omega) (by omega)
          show F.add (F.of ((((4 * k : ℤ)) : ℚ) * 2 ^ q * (1 / 2))) (F.of ((((4 * k : ℤ)) : ℚ) * 2 ^ q * (1 / 4))) = _
          rw [a1, a2]
          show F.of (((2 * k : ℤ) : ℚ) * 2 ^ q + (k : ℚ) * 2 ^ q) = _
          rw [← add_mul, ← Int.cast_add, show 2 * k + k = 3 * k by ring, of_scaled (by rw [abs_mul]; norm_num; omega) (by omega) (by omega),
            Int.mul_ediv_cancel_left _ (by norm_num)]
          rfl
        · cases h

theorem less16 {nIte : Nat} {pps : List Pp} : ∀ p ∈ pps.map (Pp.short nIte), p.Stateless := by
  intro p hp
  obtain ⟨q, _, rfl⟩ := List.mem_map.1 hp
  cases q <;> exact trivial

theorem lessF {F : Fmt} {nIte : Nat} {pps : List Pp} : ∀ p ∈ pps.map (Pp.float F nIte), p.Stateless := by
  intro p hp
  obtain ⟨q, _, rfl⟩ := List.mem_map.1 hp
  cases q <;> exact trivial

theorem signs16 {nIte : Nat} {pps : List Pp} : ∀ p ∈ pps.map (Pp.short' nIte), p.KeepsSigns := by
  intro p hp
  obtain ⟨q, _, rfl⟩ := List.mem_map.1 hp
  cases q with
  | crc a c => exact trivial
  | seq =>
    intro b ite x x' h
    injection h with h
    subst h
    split
    · exact ⟨id, id⟩
    · omega

theorem signsF {nIte : Nat} {pps : List Pp} : ∀ p ∈ pps.map (Pp.float' nIte), p.KeepsSigns := by
  intro p hp
  obtain ⟨q, _, rfl⟩ := List.mem_map.1 hp
  cases q with
  | crc a c => exact trivial
  | seq =>
    intro b ite x x' h
    dsimp only at h
    split at h
    · injection h with h
      subst h
      exact ⟨id, id⟩
    · split at h
      · injection h with h
        subst h
        omega
      · cases h

theorem total16 {nIte : Nat} {pps : List Pp} : ∀ p ∈ pps.map (Pp.short' nIte), p.Total 1 := by
  intro p hp
  obtain ⟨q, _, rfl⟩ := List.mem_map.1 hp
  cases q with
  | crc a c => exact trivial
  | seq =>
    intro b ite x j _
    refine ⟨_, rfl, ?_, by simp⟩
    split
    · omega
    · rcases abs_cases x with ⟨h1, _⟩ | ⟨h1, _⟩ <;> rcases abs_cases (x / 2 + x / 4) with ⟨h2, _⟩ | ⟨h2, _⟩ <;> rw [h1, h2] <;> omega

theorem totalF {nIte : Nat} {pps : List Pp} : ∀ p ∈ pps.map (Pp.float' nIte), p.Total 4 := by
  intro p hp
  obtain ⟨q, _, rfl⟩ := List.mem_map.1 hp
  cases q with
  | crc a c => exact trivial
  | seq =>
    intro b ite x j hd
    dsimp only
    split
    · exact ⟨x, rfl, by omega, pow_dvd_of hd (by omega)⟩
    · rw [pow_succ] at hd
      obtain ⟨k, rfl⟩ := hd
      have e : (4 ^ j * 4 * k : Int) / 4 = 4 ^ j * k := by
        rw [show (4 ^ j * 4 * k : Int) = 4 * (4 ^ j * k) by ring]
        exact Int.mul_ediv_cancel_left _ (by norm_num)
      rw [if_pos ⟨4 ^ j * k, by ring⟩, e]
      refine ⟨_, rfl, ?_, ⟨3 * k, by ring⟩⟩
      rw [show (4 ^ j * 4 * k : Int) = 4 * (4 ^ j * k) by ring]
      generalize (4 ^ j * k : Int) = z
      rcases abs_cases (3 * z) with ⟨h1, _⟩ | ⟨h1, _⟩ <;> rcases abs_cases (4 * z) with ⟨h2, _⟩ | ⟨h2, _⟩ <;> rw [h1, h2] <;> omega

end Verif.Turbo
