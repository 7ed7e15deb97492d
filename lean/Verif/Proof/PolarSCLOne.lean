import Verif.Proof.PolarSCLUse

/-! # The list decoder of one path is a successive cancellation decoder -/

namespace Verif.PolarSCL
open Exec Verif.Polar
open Verif.PolarSC (Fns soft zip3 IsSC)

variable {R : Type} {w : Nat} {F : Fns R w} {A : Ar R} {m : Nat} {y : List R} {B : Int} {num : R → Int → Prop} {rep : Bool → R → Int → Prop}

theorem pen_least {z : Int} {b : Bool} (h : pen z b ≤ pen z (!b)) : pen z b = 0 := by
  unfold pen at *
  cases b <;> simp at * <;> omega

theorem getElem?_snoc_lt {α : Type} {l : List α} {a : α} {i : Nat} (h : i < l.length) : (l ++ [a])[i]? = l[i]? := List.getElem?_append_left h

theorem take_snoc {α : Type} {l : List α} {a : α} {i : Nat} (h : i ≤ l.length) : (l ++ [a]).take i = l.take i := List.take_append_of_le_length h

theorem Lists.one (E : Exact F A B num rep) {z : List Int} (hn : List.Forall₂ num y z) (hz : z.length = 2 ^ m) (hB : tot z ≤ B) {fr : List Bool} {V : List (List Bool × R)} (h : Lists F A m y 1 fr V)
    (hfr : fr.length ≤ 2 ^ m) : V.length = 1 ∧ ∀ p ∈ V, ∀ (i : Nat) b, fr[i]? = some false → p.1[i]? = some b → pen (softZ m z (p.1.take i)) b = 0 := by
  have old : ∀ {fr : List Bool} {V : List (List Bool × R)} {f c : Bool} {q : List Bool × R}, Lists F A m y 1 fr V → q ∈ V → (∀ p ∈ V, ∀ (i : Nat) b, fr[i]? = some false → p.1[i]? = some b → pen (softZ m z (p.1.take i)) b = 0) →
      (f = false → pen (softZ m z q.1) c = 0) → ∀ (i : Nat) b, (fr ++ [f])[i]? = some false → (q.1 ++ [c])[i]? = some b → pen (softZ m z ((q.1 ++ [c]).take i)) b = 0 := by
    intro fr V f c q hV hq ih hl i b h1 h2
    have hlen := hV.len hq
    have hi : i < fr.length + 1 := by
      have := (List.getElem?_eq_some_iff.1 h1).1
      simpa using this
    rcases Nat.lt_succ_iff_lt_or_eq.1 hi with h | h
    · rw [getElem?_snoc_lt h] at h1
      rw [getElem?_snoc_lt (by omega)] at h2
      rw [take_snoc (by omega)]
      exact ih q hq i b h1 h2
    · subst h
      rw [List.getElem?_concat_length] at h1
      rw [← hlen, List.getElem?_concat_length] at h2
      rw [take_snoc (by omega), List.take_of_length_le (by omega)]
      cases h2
      exact hl (by simpa using h1)
  induction h with
  | start => exact ⟨rfl, fun p _ i b h1 => by simp at h1⟩
  | @frozen fr V hV ih =>
    rw [List.length_append, List.length_singleton] at hfr
    obtain ⟨h1, h2⟩ := ih (by omega)
    refine ⟨by unfold normalize; simpa using h1, fun p hp => ?_⟩
    obtain ⟨q, hq, rfl⟩ := norm_mem.1 hp
    obtain ⟨q, hq', rfl⟩ := List.mem_map.1 hq
    exact old hV hq' h2 (fun h => by simp at h)
  | @info fr V hV hl ih =>
    rw [List.length_append, List.length_singleton] at hfr
    have := (ih (by omega)).1
    omega
  | @prune fr V kept dropped hV _ hperm hlen hbest ih =>
    rw [List.length_append, List.length_singleton] at hfr
    obtain ⟨h1, h2⟩ := ih (by omega)
    refine ⟨by omega, fun p hp => ?_⟩
    obtain ⟨k, o, ho, hc⟩ := hV.cost E hn hz hB (by omega)
    have hx := hV.ext_cost E hn hz hB (by omega) ho hc
    obtain ⟨q, hq, c, rfl⟩ := pairs_mem.1 (hperm.subset (List.mem_append_left _ hp))
    obtain ⟨k0, rfl⟩ := List.length_eq_one_iff.1 (hlen.trans h1)
    have hk := List.mem_singleton.1 hp
    have hd : extend F A m y (!c) q ∈ dropped := by
      have := hperm.symm.subset (pairs_mem.2 ⟨q, hq, !c, rfl⟩)
      rcases List.mem_append.1 this with h | h
      · rw [List.mem_singleton, ← hk] at h
        have := congrArg (fun p => p.1) h
        simp only [extend, List.append_cancel_left_eq, List.cons.injEq, and_true] at this
        cases c <;> simp at this
      · exact h
    have hlt := hbest _ hp _ hd
    obtain ⟨a1, a2, a3⟩ := hx q hq c
    obtain ⟨b1, b2, b3⟩ := hx q hq (!c)
    have := E.lt b3 a3 (by omega) (by omega) (by omega) (by omega)
    rw [hlt] at this
    simp only [Bool.false_eq_true, false_iff, not_lt] at this
    have hql := hV.len hq
    simp only [extend] at this
    rw [costZ_snoc (by omega), costZ_snoc (by omega)] at this
    exact old hV hq h2 (fun _ => pen_least (by omega))
  | perm _ hp ih =>
    obtain ⟨h1, h2⟩ := ih hfr
    exact ⟨hp.length_eq ▸ h1, fun p h => h2 p (hp.mem_iff.2 h)⟩

theorem zip3_bits (hg : ∀ a b, F.g a b (bitInit w) = F.g a b 1) : ∀ (a b : List R) (c : List Bool), zip3 F.g a b (bits w c) = zip3 F.g a b (word w c)
  | [], _, _ => by simp [zip3]
  | _ :: _, [], _ => by simp [zip3]
  | _ :: _, _ :: _, [] => by simp [zip3, bits, word]
  | x :: a, y :: b, c :: cs => by
    have := zip3_bits hg a b cs
    unfold zip3 bits word at *
    simp only [List.map_cons, List.zip_cons_cons, List.zipWith_cons_cons]
    rw [this]
    cases c
    · rfl
    · simp only [if_true]; rw [hg]

/-- Only the bits before `i` matter, and the value of the non null ones does not. -/
theorem soft_bits (hg : ∀ a b, F.g a b (bitInit w) = F.g a b 1) : ∀ {n : Nat} {y : List R} {u : List Bool} {i : Nat}, u.length = 2 ^ n → i < 2 ^ n → soft F n y (bits w u) i = soft F n y (word w (u.take i)) i
  | 0, y, u, i, _, _ => rfl
  | n + 1, y, u, i, hu, hi => by
    have hp : 2 ^ (n + 1) = 2 ^ n + 2 ^ n := by rw [Nat.pow_succ]; omega
    have e1 : (u.take (2 ^ n)).length = 2 ^ n := by simp; omega
    have e2 : (u.drop (2 ^ n)).length = 2 ^ n := by simp; omega
    rw [soft_succ, soft_succ]
    by_cases hl : i < 2 ^ n
    · rw [if_pos hl, if_pos hl]
      have := soft_bits hg (y := List.zipWith F.f (y.take (2 ^ n)) (y.drop (2 ^ n))) e1 hl
      rw [List.take_take, Nat.min_eq_left (by omega)] at this
      rw [← this]
      have hs : bits w u = bits w (u.take (2 ^ n)) ++ bits w (u.drop (2 ^ n)) := by unfold bits; rw [← List.map_append, List.take_append_drop]
      rw [hs]
      exact PolarSC.soft_prefix F n _ _ _ _ (by rw [bits_length, e1]) hl
    · rw [if_neg hl, if_neg hl]
      have e3 : polarTransform n ((bits w u).take (2 ^ n)) = bits w (boolT n (u.take (2 ^ n))) := by
        rw [← bits_transform e1]; simp only [bits, ← List.map_take]
      have e4 : (bits w u).drop (2 ^ n) = bits w (u.drop (2 ^ n)) := by simp only [bits, ← List.map_drop]
      have e5 : polarTransform n ((word w (u.take i)).take (2 ^ n)) = word w (boolT n (u.take (2 ^ n))) := by
        rw [← word_transform e1]; simp only [word, ← List.map_take, List.take_take, Nat.min_eq_left (not_lt.1 hl)]
      have e6 : (word w (u.take i)).drop (2 ^ n) = word w ((u.drop (2 ^ n)).take (i - 2 ^ n)) := by
        simp only [word, ← List.map_drop, List.drop_take]
      rw [e3, e4, e5, e6, zip3_bits hg]
      exact soft_bits hg e2 (by omega)

/-- With one path, and no tie, the list decoder gives the result of successive cancellation. -/
theorem Lists.one_sc (hw : 0 < w) (E : Exact F A B num rep) (hg : ∀ a b, F.g a b (bitInit w) = F.g a b 1) (hh : ∀ {l z}, num l z → (F.h l ≠ 0 ↔ z < 0)) {z : List Int} (hn : List.Forall₂ num y z)
    (hz : z.length = 2 ^ m) (hB : tot z ≤ B) {fr : List Bool} {V : List (List Bool × R)} (h : Lists F A m y 1 fr V) (hfr : fr.length = 2 ^ m) {u : List Bool} {mu : R} (hu : (u, mu) ∈ V) {U : List (BitVec w)}
    (hU : IsSC F m fr y U) (ht : ∀ i : Nat, fr[i]? = some false → ¬ num (soft F m y U i) 0) : bits w u = U := by
  obtain ⟨_, h2⟩ := h.one E hn hz hB (by omega)
  have h3 := h2 _ hu
  have hfit := h.fits _ hu
  have hul : u.length = 2 ^ m := by rw [← hfr]; exact hfit.length_eq.symm
  dsimp only at h3 hfit
  obtain ⟨v, rfl⟩ : ∃ v, U = bits w v := bits_exists hw fun x hx => by
    obtain ⟨i, hi, rfl⟩ := List.mem_iff_getElem.1 hx
    have := hU.bit i (by rw [← hU.len]; exact hi)
    rw [List.getElem?_eq_getElem hi, Option.some.injEq] at this
    rw [this]
    split
    · exact Or.inr rfl
    · exact Or.inl rfl
  have hvl : v.length = 2 ^ m := by rw [← bits_length (w := w), hU.len]
  have hnull := fits_null hfit
  have key : ∀ i, i ≤ 2 ^ m → u.take i = v.take i := by
    intro i
    induction i with
    | zero => intro _; simp
    | succ i ih =>
      intro hi
      have ih := ih (by omega)
      rw [List.take_add_one, List.take_add_one, ih]
      congr 2
      have hb := hU.bit i (by omega)
      have hui : i < u.length := by omega
      have hvi : i < v.length := by omega
      have e1 : (bits w v)[i]? = some (if v[i] then 1 else 0) := by unfold bits; rw [List.getElem?_map, List.getElem?_eq_getElem hvi]; rfl
      rw [e1] at hb
      rw [List.getElem?_eq_getElem hui, List.getElem?_eq_getElem hvi]
      congr 1
      cases hf : fr[i]? with
      | none => rw [List.getElem?_eq_none_iff] at hf; omega
      | some f =>
        cases f with
        | true =>
          have := hnull i hf
          rw [List.getElem?_eq_getElem hui] at this
          rw [Option.some.inj this]
          rw [hf] at hb
          have h1 := one_ne hw
          cases hvv : v[i]
          · rfl
          · rw [hvv] at hb; simp [hw.ne'] at hb
        | false =>
          have ht' := ht i hf
          have hp := h3 i u[i] hf (List.getElem?_eq_getElem hui)
          rw [soft_bits hg hvl (by omega)] at ht' hb
          have hnum := soft_num E (u := v.take i) hn hB hz (by simp; omega)
          rw [show (v.take i).length = i by simp; omega] at hnum
          have hs := hh hnum
          rw [ih] at hp
          generalize softZ m z (v.take i) = s at hp hnum hs
          have hs0 : s ≠ 0 := fun h => ht' (h ▸ hnum)
          rw [hf] at hb
          simp only [true_and, Option.some.injEq] at hb
          have h1 := one_ne hw
          unfold pen at hp
          by_cases hneg : s < 0
          · rw [if_pos (hs.2 hneg)] at hb
            cases hvv : v[i]
            · rw [hvv] at hb; exact absurd hb.symm (by simpa using h1)
            · cases huu : u[i]
              · rw [huu] at hp; simp at hp; omega
              · rfl
          · rw [if_neg (fun h => hneg (hs.1 h))] at hb
            cases hvv : v[i]
            · cases huu : u[i]
              · rfl
              · rw [huu] at hp; simp at hp; omega
            · rw [hvv] at hb; exact absurd hb (by simpa using h1)
  have := key (2 ^ m) (le_refl _)
  rw [List.take_of_length_le (by omega), List.take_of_length_le (by omega)] at this
  rw [this]

theorem likeSC {sort : List (Cand R w) → List (Cand R w)} (hw : 0 < w) (hA : Strict A) (hsort : SortOk A sort) (E : Exact F A B num rep) (hg : ∀ a b, F.g a b (bitInit w) = F.g a b 1)
    (hh : ∀ {l z}, num l z → (F.h l ≠ 0 ↔ z < 0)) : LikeSC F A sort num B := by
  intro d hr hL y z hn hy hB n U hN hU ht v vc hv hvc
  have h := hr.ok hw hA hsort
  have hf : d.frozen.length = 2 ^ d.m := h.frozen.trans h.N
  obtain rfl : n = d.m := Nat.pow_right_injective (le_refl 2) (by dsimp only; rw [← hN, h.N])
  obtain ⟨V, hV, mu, hm, _⟩ := result_chosen (F := F) (y := y) hA hsort h
  rw [hL] at hV
  have hul : (aResult F A sort d y).length = 2 ^ d.m := by rw [← hf]; exact (hV.fits _ hm).length_eq.symm
  have hres := hV.one_sc hw E hg hh hn (by rw [← hn.length_eq, hy, hN]) hB hf hm hU ht
  constructor
  · obtain ⟨r, e, _, _, e2⟩ := siho_ok (F := F) hA hsort h hy hv
    exact ⟨r.1, by rw [e]; congr 1; exact Prod.ext rfl (by rw [e2, hres])⟩
  · obtain ⟨r, e, _, _, e2⟩ := sihoCw_ok (F := F) hA hsort h hy hvc
    refine ⟨r.1, ?_⟩
    rw [e]; congr 1
    refine Prod.ext rfl ?_
    rw [e2, ← hres, word_transform hul, bits_transform hul, marked_bits hw]

end Verif.PolarSCL
