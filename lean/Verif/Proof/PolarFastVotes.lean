import Verif.Proof.PolarFastML
import Verif.Proof.PolarFns

/-! # Fast successive cancellation on soft values that vote for a codeword -/

namespace Verif.PolarFast
open Exec Verif.PolarSC Verif.Polar Verif.Float

variable {R : Type} {w : Nat}

/-- The functions keep votes. -/
structure FSound (A : Api R w) (V : R → BitVec w → Prop) : Prop where
  s : Sound A.fns V
  h : ∀ {a x}, V a x → (x = 0 ∨ x = 1) → A.fns.h a = word x
  gw : ∀ a b u, A.fns.g a b (word u) = A.fns.g a b u
  g0 : ∀ {a b x}, V a x → V b x → (x = 0 ∨ x = 1) → V (A.g0 a b) x
  rep : ∀ {y : List R} {x}, y ≠ [] → (∀ v ∈ y, V v x) → (x = 0 ∨ x = 1) → A.fns.h (y.foldl A.acc A.fns.zero) = word x

section
variable {A : Api R w} {V : R → BitVec w → Prop} (S : FSound A V)
include S

theorem bit_xor {x v : BitVec w} (hx : x = 0 ∨ x = 1) (hv : v = 0 ∨ v = 1) : x ^^^ v = 0 ∨ x ^^^ v = 1 := by
  rcases hx with rfl | rfl <;> rcases hv with rfl | rfl <;> simp

theorem votes_f : ∀ {a b : List R} {xl xr : List (BitVec w)}, Bits xl → Bits xr → xl.length = xr.length → List.Forall₂ V a (List.zipWith (· ^^^ ·) xl xr) → List.Forall₂ V b xr →
    List.Forall₂ V (List.zipWith A.fns.f a b) xl
  | _, _, [], [], _, _, _, h1, h2 => by cases h2; cases h1; exact .nil
  | _, _, x :: xl, v :: xr, hl, hr, hlen, h1, h2 => by
    cases h1 with
    | cons c1 c2 =>
      cases h2 with
      | cons d1 d2 =>
        have hx := hl x List.mem_cons_self
        have hv := hr v List.mem_cons_self
        refine .cons ?_ (votes_f (fun b hb => hl b (List.mem_cons_of_mem _ hb)) (fun b hb => hr b (List.mem_cons_of_mem _ hb)) (by simpa using hlen) c2 d2)
        have := S.s.f c1 d1 (bit_xor S hx hv) hv
        rwa [BitVec.xor_assoc, BitVec.xor_self, BitVec.xor_zero] at this

theorem votes_g : ∀ {a b : List R} {xl xr : List (BitVec w)}, Bits xl → Bits xr → xl.length = xr.length → List.Forall₂ V a (List.zipWith (· ^^^ ·) xl xr) → List.Forall₂ V b xr →
    List.Forall₂ V (zip3 A.fns.g a b xl) xr
  | _, _, [], [], _, _, _, h1, h2 => by cases h2; cases h1; exact .nil
  | _, _, x :: xl, v :: xr, hl, hr, hlen, h1, h2 => by
    cases h1 with
    | cons c1 c2 =>
      cases h2 with
      | cons d1 d2 =>
        have hx := hl x List.mem_cons_self
        have hv := hr v List.mem_cons_self
        exact .cons (S.s.g c1 d1 hx hv) (votes_g (fun b hb => hl b (List.mem_cons_of_mem _ hb)) (fun b hb => hr b (List.mem_cons_of_mem _ hb)) (by simpa using hlen) c2 d2)

theorem votes_g0 : ∀ {a b : List R} {x : List (BitVec w)}, Bits x → List.Forall₂ V a x → List.Forall₂ V b x → List.Forall₂ V (List.zipWith A.g0 a b) x
  | _, _, [], _, h1, h2 => by cases h1; cases h2; exact .nil
  | _, _, v :: x, hx, h1, h2 => by
    cases h1 with
    | cons c1 c2 =>
      cases h2 with
      | cons d1 d2 => exact .cons (S.g0 c1 d1 (hx v List.mem_cons_self)) (votes_g0 (fun b hb => hx b (List.mem_cons_of_mem _ hb)) c2 d2)

theorem votes_h : ∀ {y : List R} {x : List (BitVec w)}, Bits x → List.Forall₂ V y x → y.map A.fns.h = x.map word
  | _, _, _, .nil => rfl
  | _, _, hb, .cons c1 c2 => by
    rw [List.map_cons, List.map_cons, S.h c1 (hb _ List.mem_cons_self), votes_h (fun b h => hb b (List.mem_cons_of_mem _ h)) c2]

theorem scan_par (y : List R) : (spcScan A y).2.2 = (y.map A.fns.h).foldl (fun p b => p ^^ decide (b ≠ 0)) false := by
  induction y using List.reverseRecOn with
  | nil => rfl
  | append_singleton y x ih =>
    rw [spcScan_snoc, List.map_append, List.foldl_append, ← ih]
    unfold spcStep
    simp only
    split <;> simp

theorem par_bits (h10 : (1 : BitVec w) ≠ 0) (hh : bitInit w ≠ 0) : ∀ {x : List (BitVec w)}, Bits x → ∀ p : Bool,
    (if (x.map word).foldl (fun p b => p ^^ decide (b ≠ 0)) p then (1 : BitVec w) else 0) = (if p then 1 else 0) ^^^ xorAll x
  | [], _, p => by simp [xorAll]
  | a :: x, hb, p => by
    rw [List.map_cons, List.foldl_cons, par_bits h10 hh (fun b h => hb b (List.mem_cons_of_mem _ h))]
    have ex : xorAll (a :: x) = a ^^^ xorAll x := rfl
    rw [ex, ← BitVec.xor_assoc]
    congr 1
    rcases hb a List.mem_cons_self with rfl | rfl
    · rw [word_zero]; cases p <;> simp
    · rw [word_one h10, decide_eq_true hh]; cases p <;> simp

theorem transform_rep (b : BitVec w) : ∀ (k : Nat), polarTransform k (List.replicate (2 ^ k - 1) 0 ++ [b]) = List.replicate (2 ^ k) b
  | 0 => transform_zero b
  | k + 1 => by
    have hp : 2 ^ (k + 1) = 2 ^ k + 2 ^ k := by rw [Nat.pow_succ]; omega
    have hpos := Nat.two_pow_pos k
    have e : List.replicate (2 ^ (k + 1) - 1) (0 : BitVec w) ++ [b] = List.replicate (2 ^ k) 0 ++ (List.replicate (2 ^ k - 1) 0 ++ [b]) := by
      rw [← List.append_assoc, List.replicate_append_replicate]; congr 2; omega
    rw [e, transform_halves (by simp) (by simp; omega), transform_zeros, transform_rep b k, xor_replicate, List.replicate_append_replicate, hp]

theorem rep_shape {k : Nat} {u : List (BitVec w)} (hu : u.length = 2 ^ k) (hz : ∀ i : Nat, (expand (.rep, 2 ^ k))[i]? = some true → u[i]? = some 0) :
    ∃ b, u = List.replicate (2 ^ k - 1) 0 ++ [b] := by
  have hpos := Nat.two_pow_pos k
  refine ⟨u[2 ^ k - 1], List.ext_getElem? fun i => ?_⟩
  by_cases hi : i < 2 ^ k - 1
  · rw [List.getElem?_append_left (by simpa using hi), List.getElem?_replicate, if_pos hi]
    apply hz
    simp only [expand]
    rw [List.getElem?_append_left (by simpa using hi), List.getElem?_replicate, if_pos hi]
  · rw [List.getElem?_append_right (by simpa using hi), List.length_replicate]
    by_cases he : i = 2 ^ k - 1
    · subst he; rw [Nat.sub_self, List.getElem?_eq_getElem (by omega)]; rfl
    · rw [List.getElem?_eq_none (by omega), List.getElem?_eq_none (by simp; omega)]

theorem dec_votes (h10 : (1 : BitVec w) ≠ 0) (hh : bitInit w ≠ 0) : ∀ {k : Nat} {fr : List Bool} {t : Bin (NT × Nat)} {y : List R} {u : List (BitVec w)}, Lab k fr t → u.length = 2 ^ k → Bits u →
    (∀ i : Nat, fr[i]? = some true → u[i]? = some 0) → List.Forall₂ V y (polarTransform k u) → dec A k t y = some ((polarTransform k u).map word)
  | k, fr, .leaf ln c, y, u, hl, hu, hb, hz, hv => by
    have hd : dec A k (.leaf ln c) y = term A c.1 y := by cases k <;> rfl
    have hpos := Nat.two_pow_pos k
    have hfr : fr = expand (c.1, 2 ^ k) := by
      obtain ⟨_, h2, _, h4⟩ : c.1.terminal = true ∧ c.2 = 2 ^ k ∧ (k = 0 → c.1 = .r0 ∨ c.1 = .r1) ∧ fr = expand c := by cases k <;> exact hl
      rw [h4, ← h2]
    have hterm : c.1.terminal = true := by
      obtain ⟨h1, _⟩ : c.1.terminal = true ∧ c.2 = 2 ^ k ∧ (k = 0 → c.1 = .r0 ∨ c.1 = .r1) ∧ fr = expand c := by cases k <;> exact hl
      exact h1
    have tb := transform_bits hu hb
    have hy : y.length = 2 ^ k := by rw [hv.length_eq, polarTransform_length]
    have hm := votes_h S tb hv
    rw [hd]
    cases hc : c.1 <;> rw [hc] at hfr hterm <;> simp [NT.terminal] at hterm <;> subst hfr
    · have e : u = List.replicate (2 ^ k) 0 := by
        refine List.ext_getElem? fun i => ?_
        by_cases hi : i < 2 ^ k
        · rw [hz i (by simp only [expand]; rw [List.getElem?_replicate, if_pos hi]), List.getElem?_replicate, if_pos hi]
        · rw [List.getElem?_eq_none (by omega), List.getElem?_eq_none (by simp; omega)]
      rw [e, transform_zeros]
      simp [term, hy, word]
    · simp only [term]; rw [hm]
    · obtain ⟨b, rfl⟩ := rep_shape S hu hz
      rw [transform_rep S] at hv tb ⊢
      have hbit : b = 0 ∨ b = 1 := hb b (by simp)
      simp only [term]
      rw [S.rep (x := b) (by rintro rfl; simp at hy; omega) ?_ hbit, List.map_replicate, hy]
      intro v hvm
      obtain ⟨i, hi, rfl⟩ := List.mem_iff_getElem.1 hvm
      have := (List.forall₂_iff_get.1 hv).2 i hi (by simp; omega)
      simpa using this
    · have hp : (spcScan A y).2.2 = false := by
        rw [scan_par S, hm]
        have h1 := par_bits S h10 hh tb false
        have hx : xorAll (polarTransform k u) = 0 := by
          have h2 := transform_head (polarTransform_length k u)
          rw [transform_invol hu, hz 0 (by simp [expand]), Option.some.injEq] at h2
          exact h2.symm
        rw [hx] at h1
        cases hq : List.foldl (fun p b => p ^^ decide (b ≠ 0)) false (List.map word (polarTransform k u)) with
        | false => rfl
        | true =>
          rw [hq] at h1
          exact absurd (by simpa using h1) h10
      simp only [term]
      rw [hp, hm]
      rfl
  | 0, _, .node _ _ _ _, _, _, hl, _, _, _, _ => hl.elim
  | k + 1, fr, .node ln c l r, y, u, hl, hu, hb, hz, hv => by
    have hp : 2 ^ (k + 1) = 2 ^ k + 2 ^ k := by rw [Nat.pow_succ]; omega
    obtain ⟨t1, t2, t3, t4, t5, t6⟩ := hl
    obtain ⟨ul, ur, rfl, hul, hur⟩ : ∃ ul ur, u = ul ++ ur ∧ ul.length = 2 ^ k ∧ ur.length = 2 ^ k :=
      ⟨u.take (2 ^ k), u.drop (2 ^ k), (List.take_append_drop _ _).symm, by simp; omega, by simp; omega⟩
    obtain ⟨hb1, hb2⟩ := bits_append.1 hb
    have tb1 := transform_bits hul hb1
    have tb2 := transform_bits hur hb2
    have l1 := polarTransform_length k ul
    have l2 := polarTransform_length k ur
    have hy : y.length = 2 ^ (k + 1) := by rw [hv.length_eq, polarTransform_length]
    rw [transform_halves hul hur] at hv ⊢
    have va : List.Forall₂ V (y.take (2 ^ k)) (List.zipWith (· ^^^ ·) (polarTransform k ul) (polarTransform k ur)) := by
      have := List.forall₂_take (2 ^ k) hv
      rwa [List.take_left' (by rw [List.length_zipWith]; omega)] at this
    have vb : List.Forall₂ V (y.drop (2 ^ k)) (polarTransform k ur) := by
      have := List.forall₂_drop (2 ^ k) hv
      rwa [List.drop_left' (by rw [List.length_zipWith]; omega)] at this
    have zl : ∀ i : Nat, (fr.take (2 ^ k))[i]? = some true → ul[i]? = some 0 := by
      intro i hi
      rw [List.getElem?_take] at hi
      split at hi
      · rename_i h; have := hz i hi; rwa [List.getElem?_append_left (by omega)] at this
      · cases hi
    have zr : ∀ i : Nat, (fr.drop (2 ^ k))[i]? = some true → ur[i]? = some 0 := by
      intro i hi
      rw [List.getElem?_drop] at hi
      have := hz _ hi
      rwa [List.getElem?_append_right (by omega), hul, Nat.add_sub_cancel_left] at this
    have left := dec_votes h10 hh t5 hul hb1 zl (votes_f S tb1 tb2 (by omega) va vb)
    have right := dec_votes h10 hh t6 hur hb2 zr (votes_g S tb1 tb2 (by omega) va vb)
    unfold dec
    simp only
    rw [List.map_append]
    cases hc : c.1 <;> rw [hc] at t1 t2 t3 <;> simp [NT.terminal] at t1
    · simp only
      rw [left, Option.bind_some, zip3_word S.gw, right, Option.bind_some, word_xors hh h10 tb1 tb2]
    · have h0 := t5.of_type (by rw [t2 rfl]; rfl)
      rw [t2 rfl] at h0
      have hzr : ul = List.replicate (2 ^ k) 0 := by
        refine List.ext_getElem? fun i => ?_
        by_cases hi : i < 2 ^ k
        · rw [zl i (by rw [h0]; simp only [expand]; rw [List.getElem?_replicate, if_pos hi]), List.getElem?_replicate, if_pos hi]
        · rw [List.getElem?_eq_none (by omega), List.getElem?_eq_none (by simp; omega)]
      rw [hzr, transform_zeros, xor_zero l2] at va ⊢
      simp only
      rw [dec_votes h10 hh t6 hur hb2 zr (votes_g0 S tb2 va vb), Option.bind_some]
    · have h0 := t5.of_type (by rw [t3 rfl]; rfl)
      rw [t3 rfl] at h0
      obtain ⟨b, hb⟩ := rep_shape S hul (fun i hi => zl i (by rw [h0]; exact hi))
      have hx : polarTransform k ul = List.replicate (2 ^ k) b := by rw [hb, transform_rep S]
      simp only
      rw [left, Option.bind_some]
      have hhd : ((polarTransform k ul).map word).headD 0 = word b := by
        rw [hx, List.map_replicate]
        have := Nat.two_pow_pos k
        obtain ⟨m, hm⟩ : ∃ m, 2 ^ k = m + 1 := ⟨2 ^ k - 1, by omega⟩
        rw [hm, List.replicate_succ]; rfl
      have e : List.zipWith (fun a c => A.fns.g a c (((polarTransform k ul).map word).headD 0)) (y.take (2 ^ k)) (y.drop (2 ^ k)) =
          zip3 A.fns.g (y.take (2 ^ k)) (y.drop (2 ^ k)) (polarTransform k ul) := by
        rw [hhd, hx]
        have : ∀ (n : Nat) (a c : List R), a.length = n → c.length = n → List.zipWith (fun a c => A.fns.g a c (word b)) a c = zip3 A.fns.g a c (List.replicate n b) := by
          intro n
          induction n with
          | zero => intro a c ha hc; rw [List.length_eq_zero_iff] at ha hc; subst ha hc; rfl
          | succ n ih =>
            intro a c ha hc
            cases a with
            | nil => cases ha
            | cons x a =>
              cases c with
              | nil => cases hc
              | cons z c =>
                have := ih a c (by simpa using ha) (by simpa using hc)
                rw [List.replicate_succ, List.zipWith_cons_cons, this, S.gw]
                rfl
        exact this _ _ _ (by rw [List.length_take]; omega) (by rw [List.length_drop]; omega)
      rw [e, right, Option.bind_some, word_xors hh h10 tb1 tb2]

end

end Verif.PolarFast
