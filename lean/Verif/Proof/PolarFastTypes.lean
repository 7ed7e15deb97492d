import Verif.Proof.PolarFastVotes
import Verif.Proof.PolarFastNum

/-! # Fast successive cancellation: votes of the types, results of any input -/

namespace Verif.PolarFast
open Exec Verif.PolarSC Verif.Polar Verif.Float

variable {R : Type} {w : Nat}

/-! ## Votes -/

theorem gw_int (hh : bitInit w ≠ 0) {α : Type} (x y : α) (u : BitVec w) : (if word u = 0 then x else y) = if u = 0 then x else y := by
  by_cases h : u = 0
  · rw [if_pos h, if_pos ((word_zero_iff hh u).2 h)]
  · rw [if_neg h, if_neg fun e => h ((word_zero_iff hh u).1 e)]

theorem sum_pos' {y : List Int} (h0 : y ≠ []) (h : ∀ v ∈ y, 0 < v) : 0 < y.sum := by
  cases y with
  | nil => exact absurd rfl h0
  | cons a y =>
    have : 0 ≤ y.sum := List.sum_nonneg fun v hv => (h v (List.mem_cons_of_mem _ hv)).le
    have := h a List.mem_cons_self
    rw [List.sum_cons]; omega

theorem sum_neg' {y : List Int} (h0 : y ≠ []) (h : ∀ v ∈ y, v < 0) : y.sum < 0 := by
  have h1 := sum_pos' (y := y.map fun v => -v) (by simpa using h0) (by
    intro v hv
    obtain ⟨z, hz, rfl⟩ := List.mem_map.1 hv
    have := h z hz; omega)
  have : (y.map fun v => -v).sum = -y.sum := by
    clear h0 h h1
    induction y with
    | nil => rfl
    | cons a y ih => simp only [List.map_cons, List.sum_cons]; rw [ih]; omega
  omega

theorem fsound_int8 : FSound int8 (VotesInt 8) where
  s := sound_int8
  h := by
    intro a x hx hb
    rw [votesInt_iff (by decide) hb] at hx
    show hInt 8 a = word x
    rw [hInt_eq]
    rcases hx with ⟨rfl, h1, _⟩ | ⟨rfl, _, h1⟩
    · rw [if_neg (by omega), word_zero]
    · rw [if_pos h1, word_one (by decide)]
  gw := by
    intro a b u
    show gInt 63 a b (word u) = gInt 63 a b u
    unfold gInt
    rw [gw_int (by decide)]
  g0 := by
    intro a b x ha hb hx
    rw [votesInt_iff (by decide) hx] at ha hb ⊢
    have e : int8.g0 a b = max (-63) (min 63 (a + b)) ∨ int8.g0 a b = min 63 (max (-63) (a + b)) := by
      show saturate (a + b) (-63) 63 = _ ∨ saturate (a + b) (-63) 63 = _
      unfold saturate; omega
    generalize int8.g0 a b = z at e
    norm_num at *
    rcases ha with ⟨rfl, h1, _⟩ | ⟨rfl, _, h1⟩ <;> rcases hb with ⟨h0, h2, _⟩ | ⟨h0, _, h2⟩
    · exact Or.inl ⟨rfl, by omega, by omega⟩
    · exact absurd h0 (by decide)
    · exact absurd h0 (by decide)
    · exact Or.inr ⟨rfl, by omega, by omega⟩
  rep := by
    intro y x h0 hv hb
    show hInt 8 (y.foldl (fun s x => s + x) 0) = word x
    rw [← List.sum_eq_foldl, hInt_eq]
    rcases hb with rfl | rfl
    · have := sum_pos' h0 fun v h => by
        have := hv v h
        rw [votesInt_iff (by decide) (Or.inl rfl)] at this
        rcases this with ⟨_, h, _⟩ | ⟨h, _⟩
        · exact h
        · exact absurd h (by decide)
      rw [if_neg (by omega), word_zero]
    · have := sum_neg' h0 fun v h => by
        have := hv v h
        rw [votesInt_iff (by decide) (Or.inr rfl)] at this
        rcases this with ⟨h, _⟩ | ⟨_, _, h⟩
        · exact absurd h (by decide)
        · exact h
      rw [if_pos this, word_one (by decide)]

/-- The sign of a vote. -/
def VotesEx (x : Int) (b : BitVec w) : Prop := (b = 0 ∧ 0 < x) ∨ (b = 1 ∧ x < 0)

theorem fsound_ex (h10 : (1 : BitVec w) ≠ 0) (hh : bitInit w ≠ 0) (T : Int) : FSound (exA (w := w) T) VotesEx where
  s := {
    f := by
      intro x y p q hx hy _ _
      show VotesEx (sgn x * sgn y * min (sgn x * x) (sgn y * y)) _
      rcases hx with ⟨rfl, h1⟩ | ⟨rfl, h1⟩ <;> rcases hy with ⟨rfl, h2⟩ | ⟨rfl, h2⟩
      · rw [sgn_pos h1, sgn_pos h2]; exact Or.inl ⟨by simp, by omega⟩
      · rw [sgn_pos h1, sgn_neg h2]; exact Or.inr ⟨by simp, by omega⟩
      · rw [sgn_neg h1, sgn_pos h2]; exact Or.inr ⟨by simp, by omega⟩
      · rw [sgn_neg h1, sgn_neg h2]; exact Or.inl ⟨by simp, by omega⟩
    g := by
      intro x y p q hx hy hp _
      show VotesEx ((if p = 0 then x else -x) + y) q
      rcases hp with rfl | rfl
      · rw [if_pos rfl]
        rw [show (0 : BitVec w) ^^^ q = q from BitVec.zero_xor] at hx
        rcases hx with ⟨rfl, h1⟩ | ⟨rfl, h1⟩ <;> rcases hy with ⟨h0, h2⟩ | ⟨h0, h2⟩
        · exact Or.inl ⟨rfl, by omega⟩
        · exact absurd h0.symm h10
        · exact absurd h0 h10
        · exact Or.inr ⟨rfl, by omega⟩
      · rw [if_neg h10]
        rcases hy with ⟨rfl, h2⟩ | ⟨rfl, h2⟩
        · rw [show (1 : BitVec w) ^^^ 0 = 1 from BitVec.xor_zero] at hx
          rcases hx with ⟨h0, h1⟩ | ⟨_, h1⟩
          · exact absurd h0 h10
          · exact Or.inl ⟨rfl, by omega⟩
        · rw [BitVec.xor_self] at hx
          rcases hx with ⟨_, h1⟩ | ⟨h0, h1⟩
          · exact Or.inr ⟨rfl, by omega⟩
          · exact absurd h0.symm h10
    h := by
      intro a x hx _
      show hInt w a ≠ 0 ↔ _
      rw [hInt_eq]
      rcases hx with ⟨rfl, h⟩ | ⟨rfl, h⟩
      · rw [if_neg (by omega)]
      · rw [if_pos h]; exact ⟨fun _ => h10, fun _ => hh⟩
    one := Or.inl ⟨rfl, by show (0 : Int) < 1; decide⟩
    mone := Or.inr ⟨rfl, by show (-1 : Int) < 0; decide⟩ }
  h := by
    intro a x hx _
    show hInt w a = _
    rw [hInt_eq]
    rcases hx with ⟨rfl, h⟩ | ⟨rfl, h⟩
    · rw [if_neg (by omega), word_zero]
    · rw [if_pos h, word_one h10]
  gw := by
    intro a b u
    show (if word u = 0 then a else -a) + b = (if u = 0 then a else -a) + b
    rw [gw_int hh]
  g0 := by
    intro a b x ha hb _
    show VotesEx (a + b) x
    rcases ha with ⟨rfl, h1⟩ | ⟨rfl, h1⟩ <;> rcases hb with ⟨h0, h2⟩ | ⟨h0, h2⟩
    · exact Or.inl ⟨rfl, by omega⟩
    · exact absurd h0.symm h10
    · exact absurd h0 h10
    · exact Or.inr ⟨rfl, by omega⟩
  rep := by
    intro y x h0 hv hb
    show hInt w (y.foldl (fun s x => s + x) 0) = word x
    rw [← List.sum_eq_foldl, hInt_eq]
    rcases hb with rfl | rfl
    · have := sum_pos' h0 fun v h => by
        rcases hv v h with ⟨_, h⟩ | ⟨h, _⟩
        · exact h
        · exact absurd h.symm h10
      rw [if_neg (by omega), word_zero]
    · have := sum_neg' h0 fun v h => by
        rcases hv v h with ⟨h, _⟩ | ⟨_, h⟩
        · exact absurd h h10
        · exact h
      rw [if_pos this, word_one h10]

theorem zero_add_pos {F : Fmt} {e : Int} (he : F.emin ≤ e) {x : Fl} (h : Pos e x) : Pos e (F.add (.fin 0) x) := by
  cases x with
  | fin q => simp only [Fmt.add, zero_add]; exact of_pos he h
  | inf s => exact h
  | nan => exact h

theorem zero_add_neg {F : Fmt} {e : Int} (he : F.emin ≤ e) {x : Fl} (h : Pos e x.neg) : Pos e (F.add (.fin 0) x).neg := by
  cases x with
  | fin q => simp only [Fmt.add, zero_add]; exact of_neg' he h
  | inf s => exact h
  | nan => exact h

theorem acc_pos {F : Fmt} {e : Int} (he : F.emin ≤ e) : ∀ {y : List Fl} {s : Fl}, Pos e s → (∀ v ∈ y, Pos e v) → Pos e (y.foldl F.add s)
  | [], _, hs, _ => hs
  | a :: y, s, hs, h => acc_pos (y := y) (s := F.add s a) he (PolarSC.add_pos' he hs (h _ List.mem_cons_self)) fun v hv => h v (List.mem_cons_of_mem _ hv)

theorem acc_neg {F : Fmt} {e : Int} (he : F.emin ≤ e) : ∀ {y : List Fl} {s : Fl}, Pos e s.neg → (∀ v ∈ y, Pos e v.neg) → Pos e (y.foldl F.add s).neg
  | [], _, hs, _ => hs
  | a :: y, s, hs, h => acc_neg (y := y) (s := F.add s a) he (PolarSC.add_neg' he hs (h _ List.mem_cons_self)) fun v hv => h v (List.mem_cons_of_mem _ hv)

theorem fsound_fl {F : Fmt} {e : Int} (he : F.emin ≤ e + e) (he1 : F.emin ≤ e) (he0 : e ≤ 0) (h10 : (1 : BitVec w) ≠ 0) (hh : bitInit w ≠ 0) (top : ℚ) :
    FSound (w := w) (ofFl F top ⟨fFl F, gFl F, hFl w, .fin 0, .fin 1, .fin (-1)⟩) (VotesFl e) where
  s := sound_fl he he1 he0 h10 hh _
  h := by
    intro a x hx hb
    rw [votesFl_iff h10 hb] at hx
    show hFl w a = _
    rcases hx with ⟨rfl, h⟩ | ⟨rfl, h⟩
    · rw [h_pos h, word_zero]
    · rw [h_neg h, word_one h10]; rfl
  gw := by
    intro a b u
    show gFl F a b (word u) = gFl F a b u
    unfold gFl
    rw [gw_int hh]
  g0 := by
    intro a b x ha hb hx
    rw [votesFl_iff h10 hx] at ha hb ⊢
    rcases ha with ⟨rfl, h1⟩ | ⟨rfl, h1⟩ <;> rcases hb with ⟨h0, h2⟩ | ⟨h0, h2⟩
    · exact Or.inl ⟨rfl, PolarSC.add_pos' he1 h1 h2⟩
    · exact absurd h0.symm h10
    · exact absurd h0 h10
    · exact Or.inr ⟨rfl, PolarSC.add_neg' he1 h1 h2⟩
  rep := by
    intro y x h0 hv hb
    show hFl w (y.foldl F.add (.fin 0)) = word x
    cases y with
    | nil => exact absurd rfl h0
    | cons a y =>
      rw [List.foldl_cons]
      rcases hb with rfl | rfl
      · have hp : ∀ v ∈ a :: y, Pos e v := fun v h => by
          have := hv v h
          rw [votesFl_iff h10 (Or.inl rfl)] at this
          rcases this with ⟨_, h⟩ | ⟨h, _⟩
          · exact h
          · exact absurd h.symm h10
        rw [h_pos (acc_pos he1 (zero_add_pos he1 (hp a List.mem_cons_self)) fun v h => hp v (List.mem_cons_of_mem _ h)), word_zero]
      · have hp : ∀ v ∈ a :: y, Pos e v.neg := fun v h => by
          have := hv v h
          rw [votesFl_iff h10 (Or.inr rfl)] at this
          rcases this with ⟨h, _⟩ | ⟨_, h⟩
          · exact absurd h h10
          · exact h
        rw [h_neg (acc_neg he1 (zero_add_neg he1 (hp a List.mem_cons_self)) fun v h => hp v (List.mem_cons_of_mem _ h)), word_one h10]; rfl

theorem fsound_flt : FSound flt (VotesFl (-74)) := fsound_fl (F := b32) (by decide) (by decide) (by decide) (by decide) (by decide) _
theorem fsound_dbl : FSound dbl (VotesFl (-537)) := fsound_fl (F := b64) (by decide) (by decide) (by decide) (by decide) (by decide) _

/-! ## Any input -/

/-- Hard decisions are null or the sign bit. -/
def HardOk (A : Api R w) : Prop := ∀ a, A.fns.h a = 0 ∨ A.fns.h a = bitInit w

theorem hard_words (h10 : (1 : BitVec w) ≠ 0) {A : Api R w} (hA : HardOk A) (y : List R) : ∃ z : List (BitVec w), z.length = y.length ∧ Bits z ∧ y.map A.fns.h = z.map word := by
  refine ⟨y.map fun a => if A.fns.h a = 0 then 0 else 1, by simp, ?_, ?_⟩
  · intro b hb
    obtain ⟨a, _, rfl⟩ := List.mem_map.1 hb
    by_cases h : A.fns.h a = 0
    · rw [if_pos h]; exact Or.inl rfl
    · rw [if_neg h]; exact Or.inr rfl
  · rw [List.map_map]
    refine List.map_congr_left fun a _ => ?_
    simp only [Function.comp]
    by_cases h : A.fns.h a = 0
    · rw [if_pos h, word_zero, h]
    · rw [if_neg h, word_one h10, (hA a).resolve_left h]

/-- The parity of hard decisions. -/
theorem scan_par' (A : Api R w) (y : List R) : (spcScan A y).2.2 = (y.map A.fns.h).foldl (fun p b => p ^^ decide (b ≠ 0)) false := by
  induction y using List.reverseRecOn with
  | nil => rfl
  | append_singleton y x ih =>
    rw [spcScan_snoc, List.map_append, List.foldl_append, ← ih]
    unfold spcStep
    simp only
    split <;> simp

theorem dec_codeword (h10 : (1 : BitVec w) ≠ 0) (hh : bitInit w ≠ 0) {A : Api R w} (hA : HardOk A) : ∀ {k : Nat} {fr : List Bool} {t : Bin (NT × Nat)} {y : List R} {x : List (BitVec w)},
    Lab k fr t → y.length = 2 ^ k → dec A k t y = some x →
    ∃ u, u.length = 2 ^ k ∧ Bits u ∧ (∀ i : Nat, fr[i]? = some true → u[i]? = some 0) ∧ x = (polarTransform k u).map word
  | k, fr, .leaf ln c, y, x, hl, hy, hx => by
    have hd : dec A k (.leaf ln c) y = term A c.1 y := by cases k <;> rfl
    have hpos := Nat.two_pow_pos k
    have hfr : fr = expand (c.1, 2 ^ k) := by
      obtain ⟨_, h2, _, h4⟩ : c.1.terminal = true ∧ c.2 = 2 ^ k ∧ (k = 0 → c.1 = .r0 ∨ c.1 = .r1) ∧ fr = expand c := by cases k <;> exact hl
      rw [h4, ← h2]
    have hterm : c.1.terminal = true := by
      obtain ⟨h1, _⟩ : c.1.terminal = true ∧ c.2 = 2 ^ k ∧ (k = 0 → c.1 = .r0 ∨ c.1 = .r1) ∧ fr = expand c := by cases k <;> exact hl
      exact h1
    rw [hd] at hx
    obtain ⟨z, z1, z2, z3⟩ := hard_words h10 hA y
    have tz : ∀ {z : List (BitVec w)}, z.length = 2 ^ k → Bits z → ∃ u, u.length = 2 ^ k ∧ Bits u ∧ z = polarTransform k u ∧ u[0]? = some (xorAll z) := fun {z} hz hb =>
      ⟨polarTransform k z, polarTransform_length _ _, transform_bits hz hb, (transform_invol hz).symm, transform_head hz⟩
    cases hc : c.1 <;> rw [hc] at hfr hterm hx <;> simp [NT.terminal] at hterm <;> subst hfr <;> simp only [term] at hx
    · cases hx
      refine ⟨List.replicate (2 ^ k) 0, by simp, fun b hb => Or.inl (List.eq_of_mem_replicate hb), fun i hi => ?_, ?_⟩
      · have := (List.getElem?_eq_some_iff.1 hi).1
        simp only [expand, List.length_replicate] at this
        rw [List.getElem?_replicate, if_pos this]
      · rw [transform_zeros, List.map_replicate, word_zero, hy]
    · cases hx
      obtain ⟨u, u1, u2, u3, _⟩ := tz (z1.trans hy) z2
      refine ⟨u, u1, u2, fun i hi => ?_, by rw [z3, u3]⟩
      simp only [expand, List.getElem?_replicate] at hi
      split at hi <;> simp at hi
    · cases hx
      obtain ⟨b, hb, e⟩ : ∃ b : BitVec w, (b = 0 ∨ b = 1) ∧ A.fns.h (y.foldl A.acc A.fns.zero) = word b := by
        rcases hA (y.foldl A.acc A.fns.zero) with h | h
        · exact ⟨0, Or.inl rfl, by rw [h, word_zero]⟩
        · exact ⟨1, Or.inr rfl, by rw [h, word_one h10]⟩
      refine ⟨List.replicate (2 ^ k - 1) 0 ++ [b], by simp; omega, ?_, fun i hi => ?_, ?_⟩
      · intro v hv
        rcases List.mem_append.1 hv with hv | hv
        · exact Or.inl (List.eq_of_mem_replicate hv)
        · rw [List.mem_singleton.1 hv]; exact hb
      · simp only [expand] at hi
        by_cases hlt : i < 2 ^ k - 1
        · rw [List.getElem?_append_left (by simpa using hlt), List.getElem?_replicate, if_pos hlt]
        · rw [List.getElem?_append_right (by simpa using hlt), List.length_replicate] at hi
          rcases hq : i - (2 ^ k - 1) with _ | q <;> rw [hq] at hi <;> simp at hi
      · rw [e, hy]
        have : ∀ (k : Nat), polarTransform k (List.replicate (2 ^ k - 1) 0 ++ [b]) = List.replicate (2 ^ k) b := transform_rep (fsound_ex h10 hh 0) b
        rw [this, List.map_replicate]
    · have hp := par_bits (fsound_ex h10 hh 0) h10 hh z2 false
      rw [← z3, ← scan_par'] at hp
      simp only [Bool.false_eq_true, if_false] at hp
      rw [show (0 : BitVec w) ^^^ xorAll z = xorAll z from BitVec.zero_xor] at hp
      have fin : ∀ {z : List (BitVec w)}, z.length = 2 ^ k → Bits z → xorAll z = 0 → z.map word = x →
          ∃ u, u.length = 2 ^ k ∧ Bits u ∧ (∀ i : Nat, (expand (.spc, 2 ^ k))[i]? = some true → u[i]? = some 0) ∧ x = (polarTransform k u).map word := by
        intro z hz hb hx0 hzx
        obtain ⟨u, u1, u2, u3, u4⟩ := tz hz hb
        refine ⟨u, u1, u2, fun i hi => ?_, by rw [← hzx, u3]⟩
        simp only [expand] at hi
        cases i with
        | zero => rw [u4, hx0]
        | succ i =>
          rw [List.getElem?_cons_succ, List.getElem?_replicate] at hi
          split at hi <;> simp at hi
      by_cases ho : (spcScan A y).2.2 = true
      · rw [if_pos ho] at hx hp
        obtain ⟨p, hp1, hp2⟩ := Option.map_eq_some_iff.1 hx
        have hlt := spcScan_pos A y hp1
        rw [z3, map_modify h10 hh z2] at hp2
        refine fin (by rw [List.length_modify]; omega) (modify_bits z2) ?_ hp2
        rw [xorAll_modify (by omega), ← hp, BitVec.xor_self]; rfl
      · rw [if_neg ho] at hx hp
        refine fin (by omega) z2 hp.symm ?_
        rw [← z3]; exact Option.some.inj hx
  | 0, _, .node _ _ _ _, _, _, hl, _, _ => hl.elim
  | k + 1, fr, .node ln c l r, y, x, hl, hy, hx => by
    have hp : 2 ^ (k + 1) = 2 ^ k + 2 ^ k := by rw [Nat.pow_succ]; omega
    obtain ⟨t1, t2, t3, t4, t5, t6⟩ := hl
    have ha : (y.take (2 ^ k)).length = 2 ^ k := by rw [List.length_take]; omega
    have hb : (y.drop (2 ^ k)).length = 2 ^ k := by rw [List.length_drop]; omega
    have join : ∀ {ul ur : List (BitVec w)}, ul.length = 2 ^ k → Bits ul → (∀ i : Nat, (fr.take (2 ^ k))[i]? = some true → ul[i]? = some 0) → ur.length = 2 ^ k → Bits ur →
        (∀ i : Nat, (fr.drop (2 ^ k))[i]? = some true → ur[i]? = some 0) →
        x = List.zipWith (· ^^^ ·) ((polarTransform k ul).map word) ((polarTransform k ur).map word) ++ (polarTransform k ur).map word →
        ∃ u, u.length = 2 ^ (k + 1) ∧ Bits u ∧ (∀ i : Nat, fr[i]? = some true → u[i]? = some 0) ∧ x = (polarTransform (k + 1) u).map word := by
      intro ul ur a1 a2 a3 b1 b2 b3 e
      refine ⟨ul ++ ur, by rw [List.length_append]; omega, bits_append.2 ⟨a2, b2⟩, fun i hi => ?_, ?_⟩
      · by_cases h : i < 2 ^ k
        · rw [List.getElem?_append_left (by omega)]
          exact a3 i (by rw [List.getElem?_take, if_pos h]; exact hi)
        · rw [List.getElem?_append_right (by omega), a1]
          exact b3 _ (by rw [List.getElem?_drop, show 2 ^ k + (i - 2 ^ k) = i by omega]; exact hi)
      · rw [transform_halves a1 b1, List.map_append, ← word_xors hh h10 (transform_bits a1 a2) (transform_bits b1 b2)]
        exact e
    unfold dec at hx
    simp only at hx
    cases hc : c.1 <;> rw [hc] at t1 t2 t3 hx <;> simp [NT.terminal] at t1 <;> simp only at hx
    · obtain ⟨xl, e1, hx⟩ := Option.bind_eq_some_iff.1 hx
      obtain ⟨xr, e2, hx⟩ := Option.bind_eq_some_iff.1 hx
      have lxl := dec_length A (by rw [List.length_zipWith]; omega) e1
      obtain ⟨ul, a1, a2, a3, rfl⟩ := dec_codeword h10 hh hA t5 (by rw [List.length_zipWith]; omega) e1
      obtain ⟨ur, b1, b2, b3, rfl⟩ := dec_codeword h10 hh hA t6 (zip3_length ha hb lxl) e2
      exact join a1 a2 a3 b1 b2 b3 (Option.some.inj hx).symm
    · obtain ⟨xr, e2, hx⟩ := Option.bind_eq_some_iff.1 hx
      obtain ⟨ur, b1, b2, b3, rfl⟩ := dec_codeword h10 hh hA t6 (by rw [List.length_zipWith]; omega) e2
      have h0 := t5.of_type (by rw [t2 rfl]; rfl)
      refine join (ul := List.replicate (2 ^ k) 0) (by simp) (fun b hb => Or.inl (List.eq_of_mem_replicate hb)) (fun i hi => ?_) b1 b2 b3 ?_
      · have := (List.getElem?_eq_some_iff.1 hi).1
        rw [List.length_take] at this
        rw [List.getElem?_replicate, if_pos (by omega)]
      · rw [transform_zeros, List.map_replicate, word_zero, xor_zero (by rw [List.length_map, polarTransform_length])]
        exact (Option.some.inj hx).symm
    · obtain ⟨xl, e1, hx⟩ := Option.bind_eq_some_iff.1 hx
      obtain ⟨xr, e2, hx⟩ := Option.bind_eq_some_iff.1 hx
      obtain ⟨ul, a1, a2, a3, rfl⟩ := dec_codeword h10 hh hA t5 (by rw [List.length_zipWith]; omega) e1
      obtain ⟨ur, b1, b2, b3, rfl⟩ := dec_codeword h10 hh hA t6 (by rw [List.length_zipWith]; omega) e2
      exact join a1 a2 a3 b1 b2 b3 (Option.some.inj hx).symm

/-- A bound that the functions keep, under the maximum of the type. -/
structure Bnd (A : Api R w) (P : R → Prop) : Prop where
  f : ∀ {a b}, P a → P b → P (A.fns.f a b)
  g : ∀ {a b} u, P a → P b → P (A.fns.g a b u)
  g0 : ∀ {a b}, P a → P b → P (A.g0 a b)
  top : ∀ {a}, P a → A.gt A.top (A.smul (decide (A.fns.h a ≠ 0)) a) = true

theorem scan_some {A : Api R w} {P : R → Prop} (B : Bnd A P) {y : List R} (h : ∀ v ∈ y, P v) (h0 : y ≠ []) : ∃ p, (spcScan A y).2.1 = some p := by
  induction y using List.reverseRecOn with
  | nil => exact absurd rfl h0
  | append_singleton y x ih =>
    rw [spcScan_snoc]
    unfold spcStep
    simp only
    by_cases hy : y = []
    · subst hy
      have : (spcScan A []).1 = A.top := rfl
      rw [this, B.top (h x (by simp)), if_pos rfl]
      exact ⟨_, rfl⟩
    · obtain ⟨p, hp⟩ := ih (fun v hv => h v (List.mem_append_left _ hv)) hy
      split
      · exact ⟨_, rfl⟩
      · exact ⟨p, hp⟩

theorem all_zipWith {P : R → Prop} {f : R → R → R} (hf : ∀ {a b}, P a → P b → P (f a b)) {a b : List R} (ha : ∀ v ∈ a, P v) (hb : ∀ v ∈ b, P v) : ∀ v ∈ List.zipWith f a b, P v := by
  induction a generalizing b with
  | nil => simp
  | cons x a ih =>
    cases b with
    | nil => simp
    | cons y b =>
      intro v hv
      rw [List.zipWith_cons_cons, List.mem_cons] at hv
      rcases hv with rfl | hv
      · exact hf (ha x List.mem_cons_self) (hb y List.mem_cons_self)
      · exact ih (fun v h => ha v (List.mem_cons_of_mem _ h)) (fun v h => hb v (List.mem_cons_of_mem _ h)) v hv

theorem all_zip3 {P : R → Prop} {g : R → R → BitVec w → R} (hg : ∀ {a b} u, P a → P b → P (g a b u)) {a b : List R} {x : List (BitVec w)} (ha : ∀ v ∈ a, P v) (hb : ∀ v ∈ b, P v) :
    ∀ v ∈ zip3 g a b x, P v := by
  unfold zip3
  induction a generalizing b x with
  | nil => simp
  | cons c a ih =>
    cases b with
    | nil => simp
    | cons y b =>
      cases x with
      | nil => simp
      | cons z x =>
        intro v hv
        rw [List.zip_cons_cons, List.zipWith_cons_cons, List.mem_cons] at hv
        rcases hv with rfl | hv
        · exact hg _ (ha c List.mem_cons_self) (hb y List.mem_cons_self)
        · exact ih (fun v h => ha v (List.mem_cons_of_mem _ h)) (fun v h => hb v (List.mem_cons_of_mem _ h)) v hv

theorem dec_total {A : Api R w} {P : R → Prop} (B : Bnd A P) : ∀ {k : Nat} {fr : List Bool} {t : Bin (NT × Nat)} {y : List R}, Lab k fr t → y.length = 2 ^ k → (∀ v ∈ y, P v) →
    ∃ x, dec A k t y = some x
  | k, fr, .leaf ln c, y, hl, hy, hP => by
    have hd : dec A k (.leaf ln c) y = term A c.1 y := by cases k <;> rfl
    have hpos := Nat.two_pow_pos k
    have hterm : c.1.terminal = true := by
      obtain ⟨h1, _⟩ : c.1.terminal = true ∧ c.2 = 2 ^ k ∧ (k = 0 → c.1 = .r0 ∨ c.1 = .r1) ∧ fr = expand c := by cases k <;> exact hl
      exact h1
    rw [hd]
    cases hc : c.1 <;> rw [hc] at hterm <;> simp [NT.terminal] at hterm <;> simp only [term]
    · exact ⟨_, rfl⟩
    · exact ⟨_, rfl⟩
    · exact ⟨_, rfl⟩
    · obtain ⟨p, hp⟩ := scan_some B hP (by rintro rfl; simp at hy; omega)
      rw [hp]
      split
      · exact ⟨_, rfl⟩
      · exact ⟨_, rfl⟩
  | 0, _, .node _ _ _ _, _, hl, _, _ => hl.elim
  | k + 1, fr, .node ln c l r, y, hl, hy, hP => by
    have hp : 2 ^ (k + 1) = 2 ^ k + 2 ^ k := by rw [Nat.pow_succ]; omega
    obtain ⟨t1, t2, t3, t4, t5, t6⟩ := hl
    have ha : (y.take (2 ^ k)).length = 2 ^ k := by rw [List.length_take]; omega
    have hb : (y.drop (2 ^ k)).length = 2 ^ k := by rw [List.length_drop]; omega
    have pa : ∀ v ∈ y.take (2 ^ k), P v := fun v h => hP v (List.mem_of_mem_take h)
    have pb : ∀ v ∈ y.drop (2 ^ k), P v := fun v h => hP v (List.mem_of_mem_drop h)
    obtain ⟨xl, e1⟩ := dec_total B t5 (y := List.zipWith A.fns.f (y.take (2 ^ k)) (y.drop (2 ^ k))) (by rw [List.length_zipWith]; omega) (all_zipWith B.f pa pb)
    have lxl := dec_length A (by rw [List.length_zipWith]; omega) e1
    unfold dec
    simp only
    cases hc : c.1 <;> rw [hc] at t1 t2 t3 <;> simp [NT.terminal] at t1 <;> simp only
    · rw [e1, Option.bind_some]
      obtain ⟨xr, e2⟩ := dec_total B t6 (zip3_length ha hb lxl) (all_zip3 B.g pa pb)
      exact ⟨_, by rw [e2]; rfl⟩
    · obtain ⟨xr, e2⟩ := dec_total B t6 (y := List.zipWith A.g0 (y.take (2 ^ k)) (y.drop (2 ^ k))) (by rw [List.length_zipWith]; omega) (all_zipWith B.g0 pa pb)
      exact ⟨_, by rw [e2]; rfl⟩
    · rw [e1, Option.bind_some]
      obtain ⟨xr, e2⟩ := dec_total B t6 (y := List.zipWith (fun a b => A.fns.g a b (xl.headD 0)) (y.take (2 ^ k)) (y.drop (2 ^ k))) (by rw [List.length_zipWith]; omega)
        (all_zipWith (fun h1 h2 => B.g _ h1 h2) pa pb)
      exact ⟨_, by rw [e2]; rfl⟩

theorem hard_int8 : HardOk int8 := fun a => by show hInt 8 a = 0 ∨ hInt 8 a = _; rw [hInt_eq]; split <;> simp
theorem hard_int16 : HardOk int16 := fun a => by show hInt 16 a = 0 ∨ hInt 16 a = _; rw [hInt_eq]; split <;> simp

theorem bnd_int8 : Bnd int8 (fun x => mg x ≤ 126) where
  f := by
    intro a b ha hb
    show mg (wrap 8 _) ≤ 126
    have h1 := ex_f_le (w := 8) a b
    have h2 : mg ((ex (w := 8)).f a b) ≤ 126 := by omega
    have h3 : wrap 8 ((ex (w := 8)).f a b) = (ex (w := 8)).f a b := by
      refine PolarSCL.wrap_id (by decide) ?_ ?_ <;> unfold mg at h2 <;> norm_num <;> omega
    have h4 : mg (wrap 8 ((ex (w := 8)).f a b)) ≤ 126 := by rw [h3]; exact h2
    exact h4
  g := by
    intro a b u _ _
    show mg (saturate _ (-63) 63) ≤ 126
    unfold saturate mg; omega
  g0 := by
    intro a b _ _
    show mg (saturate _ (-63) 63) ≤ 126
    unfold saturate mg; omega
  top := by
    intro a ha
    show decide ((127 : Int) > smulInt _ a) = true
    rw [decide_eq_true_eq]
    unfold smulInt mg at *; split <;> omega

theorem bnd_int16 : Bnd int16 (fun x => mg x ≤ 32766) where
  f := by
    intro a b ha hb
    show mg (wrap 16 _) ≤ 32766
    have h1 := ex_f_le (w := 16) a b
    have h2 : mg ((ex (w := 16)).f a b) ≤ 32766 := by omega
    have h3 : wrap 16 ((ex (w := 16)).f a b) = (ex (w := 16)).f a b := by
      refine PolarSCL.wrap_id (by decide) ?_ ?_ <;> unfold mg at h2 <;> norm_num <;> omega
    have h4 : mg (wrap 16 ((ex (w := 16)).f a b)) ≤ 32766 := by rw [h3]; exact h2
    exact h4
  g := by
    intro a b u _ _
    show mg (saturate _ (-16382) 16382) ≤ 32766
    unfold saturate mg; omega
  g0 := by
    intro a b _ _
    show mg (saturate _ (-16382) 16382) ≤ 32766
    unfold saturate mg; omega
  top := by
    intro a ha
    show decide ((32767 : Int) > smulInt _ a) = true
    rw [decide_eq_true_eq]
    unfold smulInt mg at *; split <;> omega

end Verif.PolarFast
