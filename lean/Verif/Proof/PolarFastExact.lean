import Verif.Proof.PolarFastParse
import Verif.Proof.PolarFns
import Mathlib.Algebra.BigOperators.Group.List.Basic
import Mathlib.Algebra.Order.BigOperators.Group.List
import Mathlib.Data.List.Induction

/-! # Exact arithmetic: fast decoding is successive cancellation -/

namespace Verif.PolarFast
open Exec Verif.PolarSC Verif.Polar

variable {w : Nat}

/-- The functions on integers without saturation. -/
def ex : Fns Int w := ⟨fun x y => sgn x * sgn y * min (sgn x * x) (sgn y * y), fun x y u => (if u = 0 then x else -x) + y, hInt w, 0, 1, -1⟩

/-- The interface on integers without saturation, with maximum `T`. -/
def exA (T : Int) : Api Int w := ⟨ex, fun x y => x + y, fun s x => s + x, smulInt, fun a b => a > b, T⟩

/-- Magnitude. -/
def mg (x : Int) : Int := max x (-x)

/-- Sum of magnitudes. -/
def tot (y : List Int) : Int := (y.map mg).sum

/-- Correlation of a word with soft values. -/
def corr (x : List (BitVec w)) (y : List Int) : Int := (List.zipWith (fun b v => if b = 0 then v else -v) x y).sum

/-- Signs. -/
def sg (y : List Int) : List (BitVec w) := y.map fun v => if v < 0 then 1 else 0

/-- No decision on a null value. -/
def noTie (w : Nat) : Nat → List Bool → List Int → Prop
  | 0, fr, y => fr[0]? = some false → y.headD 0 ≠ 0
  | k + 1, fr, y =>
    noTie w k (fr.take (2 ^ k)) (List.zipWith (ex (w := w)).f (y.take (2 ^ k)) (y.drop (2 ^ k))) ∧
    noTie w k (fr.drop (2 ^ k)) (zip3 (ex (w := w)).g (y.take (2 ^ k)) (y.drop (2 ^ k))
      (polarTransform k (sc ex k (fr.take (2 ^ k)) (List.zipWith (ex (w := w)).f (y.take (2 ^ k)) (y.drop (2 ^ k))))))

/-! ## Numbers -/

theorem hInt_eq (x : Int) : hInt w x = if x < 0 then bitInit w else 0 := rfl

theorem sgn_cases (x : Int) : (x < 0 ∧ sgn x = -1) ∨ (x = 0 ∧ sgn x = 0) ∨ (0 < x ∧ sgn x = 1) := by
  rcases lt_trichotomy x 0 with h | h | h
  · exact Or.inl ⟨h, PolarSC.sgn_neg h⟩
  · subst h; exact Or.inr (Or.inl ⟨rfl, rfl⟩)
  · exact Or.inr (Or.inr ⟨h, PolarSC.sgn_pos h⟩)

theorem f_cases (x y : Int) : (ex (w := w)).f x y = if (x < 0) = (y < 0) then min (mg x) (mg y) else -min (mg x) (mg y) := by
  simp only [ex, mg]
  rcases sgn_cases x with ⟨h1, e1⟩ | ⟨h1, e1⟩ | ⟨h1, e1⟩ <;> rcases sgn_cases y with ⟨h2, e2⟩ | ⟨h2, e2⟩ | ⟨h2, e2⟩ <;> rw [e1, e2] <;> split <;> rename_i h <;>
    simp only [eq_iff_iff] at h <;> omega

theorem mg_f (x y : Int) : mg ((ex (w := w)).f x y) ≤ mg x + mg y := by
  rw [f_cases]; unfold mg; split <;> omega

theorem mg_g (x y : Int) (u : BitVec w) : mg ((ex (w := w)).g x y u) ≤ mg x + mg y := by
  simp only [ex, mg]; split <;> omega

/-- The magnitude of `g` in terms of `f`. -/
theorem mg_g_f (x y : Int) (u : BitVec w) :
    mg ((ex (w := w)).g x y u) = max (mg x) (mg y) + (if u = 0 then (ex (w := w)).f x y else -(ex (w := w)).f x y) := by
  rw [f_cases]
  have e1 : x < 0 ∧ mg x = -x ∨ ¬ x < 0 ∧ mg x = x := by unfold mg; omega
  have e2 : y < 0 ∧ mg y = -y ∨ ¬ y < 0 ∧ mg y = y := by unfold mg; omega
  have e3 : mg ((ex (w := w)).g x y u) = max ((if u = 0 then x else -x) + y) (-((if u = 0 then x else -x) + y)) := rfl
  rw [e3]
  rcases e1 with ⟨h1, e1⟩ | ⟨h1, e1⟩ <;> rcases e2 with ⟨h2, e2⟩ | ⟨h2, e2⟩ <;> rw [e1, e2] <;> by_cases h : u = 0 <;> simp only [h1, h2, h, if_true, if_false, eq_self, eq_iff_iff, iff_false, iff_true, not_true] <;> omega

theorem tot_nonneg (y : List Int) : 0 ≤ tot y := by
  unfold tot
  apply List.sum_nonneg
  intro x hx
  obtain ⟨v, _, rfl⟩ := List.mem_map.1 hx
  unfold mg; omega

theorem tot_append (a b : List Int) : tot (a ++ b) = tot a + tot b := by unfold tot; rw [List.map_append, List.sum_append]

theorem mg_le_tot {y : List Int} {v : Int} (h : v ∈ y) : mg v ≤ tot y := by
  induction y with
  | nil => cases h
  | cons x y ih =>
    have h1 := tot_nonneg y
    have h2 : 0 ≤ mg x := by unfold mg; omega
    have h3 : tot (x :: y) = mg x + tot y := by simp [tot]
    rcases List.mem_cons.1 h with rfl | h
    · omega
    · have := ih h; omega

theorem tot_f : ∀ (a b : List Int), tot (List.zipWith (ex (w := w)).f a b) ≤ tot a + tot b
  | [], b => by simp [tot]; exact tot_nonneg b
  | a, [] => by simp [tot]; exact tot_nonneg a
  | x :: a, y :: b => by
    have h1 := tot_f a b
    have h2 := mg_f (w := w) x y
    simp only [List.zipWith_cons_cons, tot, List.map_cons, List.sum_cons] at h1 ⊢
    omega

theorem tot_g : ∀ (a b : List Int) (u : List (BitVec w)), tot (zip3 (ex (w := w)).g a b u) ≤ tot a + tot b
  | [], b, u => by simp [zip3, tot]; exact tot_nonneg b
  | a, [], u => by simp [zip3, tot]; exact tot_nonneg a
  | x :: a, y :: b, [] => by
    have := tot_nonneg (x :: a); have := tot_nonneg (y :: b)
    simp [zip3, tot] at *; omega
  | x :: a, y :: b, c :: u => by
    have h1 := tot_g a b u
    have h2 := mg_g (w := w) x y c
    simp only [zip3, List.zip_cons_cons, List.zipWith_cons_cons, tot, List.map_cons, List.sum_cons] at h1 ⊢
    omega

/-! ## Correlations -/

theorem corr_cons (b : BitVec w) (x : List (BitVec w)) (v : Int) (y : List Int) : corr (b :: x) (v :: y) = (if b = 0 then v else -v) + corr x y := by
  simp [corr]

theorem corr_append : ∀ {x1 x2 : List (BitVec w)} {y1 y2 : List Int}, x1.length = y1.length → corr (x1 ++ x2) (y1 ++ y2) = corr x1 y1 + corr x2 y2
  | [], _, [], _, _ => by simp [corr]
  | [], _, _ :: _, _, h => by cases h
  | _ :: _, _, [], _, h => by cases h
  | b :: x1, x2, v :: y1, y2, h => by
    rw [List.cons_append, List.cons_append, corr_cons, corr_cons, corr_append (by simpa using h)]
    omega

theorem corr_le : ∀ {x : List (BitVec w)} {y : List Int}, x.length = y.length → corr x y ≤ tot y
  | [], [], _ => by simp [corr, tot]
  | [], _ :: _, h => by cases h
  | _ :: _, [], h => by cases h
  | b :: x, v :: y, h => by
    have h1 := corr_le (x := x) (y := y) (by simpa using h)
    rw [corr_cons]
    simp only [tot, List.map_cons, List.sum_cons, mg] at h1 ⊢
    split <;> omega

theorem corr_sg (h10 : (1 : BitVec w) ≠ 0) : ∀ (y : List Int), corr (sg (w := w) y) y = tot y
  | [] => by simp [corr, sg, tot]
  | v :: y => by
    have h1 := corr_sg h10 y
    simp only [sg, List.map_cons, tot, List.sum_cons, mg] at h1 ⊢
    rw [corr_cons, h1]
    by_cases h : v < 0
    · rw [if_pos h, if_neg h10]; omega
    · rw [if_neg h, if_pos rfl]; omega

/-- A word with a bit that is not the sign. -/
theorem corr_ne (h10 : (1 : BitVec w) ≠ 0) : ∀ {x : List (BitVec w)} {y : List Int} {j : Nat} {v : Int}, x.length = y.length → Bits x → y[j]? = some v → x[j]? ≠ (sg (w := w) y)[j]? →
    corr x y ≤ tot y - 2 * mg v
  | [], [], j, v, _, _, h, _ => by simp at h
  | [], _ :: _, _, _, h, _, _, _ => by cases h
  | _ :: _, [], _, _, h, _, _, _ => by cases h
  | b :: x, z :: y, j, v, hl, hb, hy, hx => by
    have hl' : x.length = y.length := by simpa using hl
    have hb' : Bits x := fun c hc => hb c (List.mem_cons_of_mem _ hc)
    rw [corr_cons]
    have ht : tot (z :: y) = mg z + tot y := by simp [tot]
    cases j with
    | zero =>
      have h1 := corr_le hl'
      simp only [List.getElem?_cons_zero, Option.some.injEq, sg, List.map_cons, ne_eq] at hy hx
      subst hy
      rw [ht]
      have hh : (if b = 0 then z else -z) = -mg z := by
        unfold mg
        rcases hb b List.mem_cons_self with rfl | rfl
        · by_cases h : z < 0
          · rw [if_pos rfl]; omega
          · rw [if_neg h] at hx; exact absurd rfl hx
        · rw [if_neg h10]
          by_cases h : z < 0
          · rw [if_pos h] at hx; exact absurd rfl hx
          · omega
      omega
    | succ j =>
      have h1 := corr_ne h10 (j := j) (v := v) hl' hb' (by simpa using hy) (by simpa [sg] using hx)
      rw [ht]
      have : (if b = 0 then z else -z) ≤ mg z := by unfold mg; split <;> omega
      omega

/-- Correlation of a word made of two halves. -/
theorem corr_halves (h10 : (1 : BitVec w) ≠ 0) : ∀ {xl xr : List (BitVec w)} {a b : List Int}, xl.length = a.length → xr.length = a.length → b.length = a.length → Bits xl → Bits xr →
    corr (List.zipWith (· ^^^ ·) xl xr) a + corr xr b = corr xr (zip3 (ex (w := w)).g a b xl)
  | [], [], [], [], _, _, _, _, _ => by simp [corr, zip3]
  | p :: xl, q :: xr, x :: a, y :: b, h1, h2, h3, hl, hr => by
    have ih := corr_halves h10 (xl := xl) (xr := xr) (a := a) (b := b) (by simpa using h1) (by simpa using h2) (by simpa using h3)
      (fun c hc => hl c (List.mem_cons_of_mem _ hc)) (fun c hc => hr c (List.mem_cons_of_mem _ hc))
    simp only [zip3, List.zip_cons_cons, List.zipWith_cons_cons] at ih ⊢
    rw [corr_cons, corr_cons, corr_cons, ← ih]
    simp only [ex]
    rcases hl p List.mem_cons_self with rfl | rfl <;> rcases hr q List.mem_cons_self with rfl | rfl <;> simp [h10] <;> omega
  | [], [], [], _ :: _, _, _, h, _, _ => by cases h
  | [], _ :: _, [], _, _, h, _, _, _ => by cases h
  | _ :: _, _, [], _, h, _, _, _, _ => by cases h
  | [], _, _ :: _, _, h, _, _, _, _ => by cases h
  | _, [], _ :: _, _, _, h, _, _, _ => by cases h
  | _, _, _ :: _, [], _, _, h, _, _ => by cases h

/-- The sum of magnitudes after `g`. -/
theorem tot_g_f : ∀ {xl : List (BitVec w)} {a b : List Int}, xl.length = a.length → b.length = a.length →
    tot (zip3 (ex (w := w)).g a b xl) = (List.zipWith (fun x y => max (mg x) (mg y)) a b).sum + corr xl (List.zipWith (ex (w := w)).f a b)
  | [], [], [], _, _ => by simp [tot, zip3, corr]
  | p :: xl, x :: a, y :: b, h1, h2 => by
    have ih := tot_g_f (xl := xl) (a := a) (b := b) (by simpa using h1) (by simpa using h2)
    simp only [zip3, List.zip_cons_cons, List.zipWith_cons_cons, tot, List.map_cons, List.sum_cons] at ih ⊢
    rw [corr_cons, ih, mg_g_f]
    omega
  | _ :: _, [], _, h, _ => by cases h
  | [], _ :: _, _, h, _ => by cases h
  | _, _ :: _, [], _, h => by cases h
  | _, [], _ :: _, _, h => by cases h

/-! ## Transform -/

theorem transform_zero (x : BitVec w) : polarTransform 0 [x] = [x] := by rw [polarTransform_eq]; simp [comp]

theorem xor_zero {n : Nat} : ∀ {x : List (BitVec w)}, x.length = n → List.zipWith (· ^^^ ·) (List.replicate n 0) x = x := by
  induction n with
  | zero => intro x h; cases x with | nil => rfl | cons a b => cases h
  | succ n ih =>
    intro x h
    cases x with
    | nil => cases h
    | cons a x => rw [List.replicate_succ, List.zipWith_cons_cons, ih (by simpa using h)]; simp

theorem transform_zeros : ∀ (k : Nat), polarTransform k (List.replicate (2 ^ k) (0 : BitVec w)) = List.replicate (2 ^ k) 0
  | 0 => transform_zero 0
  | k + 1 => by
    rw [← rep2, transform_halves (by simp) (by simp), transform_zeros k, xor_zero (by simp)]

theorem xor_self_word : ∀ {x y : List (BitVec w)}, x.length = y.length → List.zipWith (· ^^^ ·) (List.zipWith (· ^^^ ·) x y) y = x
  | [], [], _ => rfl
  | a :: x, b :: y, h => by
    simp only [List.zipWith_cons_cons]
    rw [xor_self_word (by simpa using h), BitVec.xor_assoc, BitVec.xor_self, BitVec.xor_zero]
  | [], _ :: _, h => by cases h
  | _ :: _, [], h => by cases h

theorem transform_xor : ∀ {k : Nat} {x y : List (BitVec w)}, x.length = 2 ^ k → y.length = 2 ^ k →
    polarTransform k (List.zipWith (· ^^^ ·) x y) = List.zipWith (· ^^^ ·) (polarTransform k x) (polarTransform k y) := by
  intro k x y hx hy
  apply List.ext_getElem?
  intro i
  by_cases hi : i < 2 ^ k
  · rw [List.getElem?_zipWith, polarTransform_eq, polarTransform_eq, polarTransform_eq, getElem?_mapRange, getElem?_mapRange, getElem?_mapRange, if_pos hi, if_pos hi, if_pos hi]
    simp only
    congr 1
    rw [← congrFun (comp_xor k (fun j => x.getD j 0#w) (fun j => y.getD j 0#w)) i]
    refine comp_congr (fun j hj => ?_) hi
    rw [List.getD_eq_getElem?_getD, List.getElem?_zipWith, List.getElem?_eq_getElem (by omega : j < x.length), List.getElem?_eq_getElem (by omega : j < y.length)]
    simp [List.getD_eq_getElem?_getD, List.getElem?_eq_getElem (by omega : j < x.length), List.getElem?_eq_getElem (by omega : j < y.length)]
  · rw [List.getElem?_eq_none (by rw [polarTransform_length]; omega), List.getElem?_eq_none (by rw [List.length_zipWith, polarTransform_length, polarTransform_length]; omega)]

theorem transform_invol : ∀ {k : Nat} {x : List (BitVec w)}, x.length = 2 ^ k → polarTransform k (polarTransform k x) = x
  | 0, x, h => by
    obtain ⟨a, rfl⟩ := List.length_eq_one_iff.1 (show x.length = 1 from h)
    rw [transform_zero, transform_zero]
  | k + 1, x, h => by
    have hp : 2 ^ (k + 1) = 2 ^ k + 2 ^ k := by rw [Nat.pow_succ]; omega
    obtain ⟨a, b, rfl, ha, hb⟩ : ∃ a b, x = a ++ b ∧ a.length = 2 ^ k ∧ b.length = 2 ^ k :=
      ⟨x.take (2 ^ k), x.drop (2 ^ k), (List.take_append_drop _ _).symm, by rw [List.length_take]; omega, by rw [List.length_drop]; omega⟩
    rw [transform_halves ha hb, transform_halves (by rw [List.length_zipWith, polarTransform_length, polarTransform_length]; omega) (polarTransform_length _ _),
      transform_xor (polarTransform_length _ _) (polarTransform_length _ _), transform_invol ha, transform_invol hb, xor_self_word (by omega)]

/-- The first bit is the parity of the codeword. -/
theorem transform_head {k : Nat} {x : List (BitVec w)} (hx : x.length = 2 ^ k) : (polarTransform k x)[0]? = some (xorAll x) := by
  unfold polarTransform
  rw [getElem?_mapRange, if_pos (Nat.two_pow_pos _)]
  congr 1
  have : (List.range (2 ^ k)).filter (fun j => decide (Below 0 j)) = List.range (2 ^ k) := by
    rw [List.filter_eq_self]; intro j _; simp [Below]
  rw [this]
  congr 1
  apply List.ext_getElem?
  intro i
  rw [getElem?_mapRange]
  split
  · rw [List.getD_eq_getElem?_getD, List.getElem?_eq_getElem (by omega : i < x.length)]; rfl
  · rw [List.getElem?_eq_none (by omega)]

/-! ## Successive cancellation on patterns -/

theorem sc_bits {R : Type} (F : Fns R w) (k : Nat) (fr : List Bool) (y : List R) : Bits (sc F k fr y) := by
  induction k generalizing fr y with
  | zero => intro b hb; simp only [sc, List.mem_singleton] at hb; subst hb; split <;> simp
  | succ k ih => simp only [sc]; exact bits_append.2 ⟨ih _ _, ih _ _⟩

theorem sc_frozen {R : Type} (F : Fns R w) {k : Nat} {fr : List Bool} {y : List R} (hf : fr.length = 2 ^ k) {i : Nat} (hi : fr[i]? = some true) : (sc F k fr y)[i]? = some 0 := by
  have h := (sc_isSC F k fr y).bit i (by obtain ⟨h, _⟩ := List.getElem?_eq_some_iff.1 hi; omega)
  rw [h, if_neg (by rw [hi]; simp)]

theorem sc_r0 {R : Type} (F : Fns R w) (k : Nat) (y : List R) : sc F k (List.replicate (2 ^ k) true) y = List.replicate (2 ^ k) 0 := by
  apply List.ext_getElem?
  intro i
  by_cases hi : i < 2 ^ k
  · rw [sc_frozen F (by simp) (by rw [List.getElem?_replicate, if_pos hi]), List.getElem?_replicate, if_pos hi]
  · rw [List.getElem?_eq_none (by rw [sc_length]; omega), List.getElem?_eq_none (by simp; omega)]

theorem zip3_zeros {n : Nat} : ∀ {a b : List Int}, a.length = n → b.length = n → zip3 (ex (w := w)).g a b (List.replicate n 0) = List.zipWith (fun x y => x + y) a b := by
  induction n with
  | zero => intro a b ha hb; rw [List.length_eq_zero_iff] at ha hb; subst ha hb; rfl
  | succ n ih =>
    intro a b ha hb
    cases a with
    | nil => cases ha
    | cons x a =>
      cases b with
      | nil => cases hb
      | cons y b =>
        have := ih (a := a) (b := b) (by simpa using ha) (by simpa using hb)
        simp only [zip3, List.replicate_succ, List.zip_cons_cons, List.zipWith_cons_cons] at this ⊢
        rw [this]
        simp [ex]

theorem sum_zipWith_add : ∀ {a b : List Int}, a.length = b.length → (List.zipWith (fun x y => x + y) a b).sum = a.sum + b.sum
  | [], [], _ => by simp
  | x :: a, y :: b, h => by
    have := sum_zipWith_add (a := a) (b := b) (by simpa using h)
    simp only [List.zipWith_cons_cons, List.sum_cons, this]; omega
  | [], _ :: _, h => by cases h
  | _ :: _, [], h => by cases h

theorem xor_replicate (n : Nat) (c : BitVec w) : List.zipWith (· ^^^ ·) (List.replicate n 0) (List.replicate n c) = List.replicate n c := xor_zero (by simp)

theorem sc_rep (hh : bitInit w ≠ 0) : ∀ {k : Nat} {y : List Int}, y.length = 2 ^ k →
    polarTransform k (sc ex k (expand (.rep, 2 ^ k)) y) = List.replicate (2 ^ k) (if y.sum < 0 then (1 : BitVec w) else 0)
  | 0, y, hy => by
    obtain ⟨v, rfl⟩ := List.length_eq_one_iff.1 (show y.length = 1 from hy)
    simp only [expand, Nat.pow_zero, Nat.sub_self, List.replicate_zero, List.nil_append, sc, transform_zero, List.sum_singleton]
    simp only [List.getElem?_cons_zero, List.headD_cons, ex, hInt_eq, true_and]
    by_cases h : v < 0
    · rw [if_pos h, if_pos h, if_pos hh]; rfl
    · rw [if_neg h, if_neg h, if_neg (by simp)]; rfl
  | k + 1, y, hy => by
    have hp : 2 ^ (k + 1) = 2 ^ k + 2 ^ k := by rw [Nat.pow_succ]; omega
    have ha : (y.take (2 ^ k)).length = 2 ^ k := by rw [List.length_take]; omega
    have hb : (y.drop (2 ^ k)).length = 2 ^ k := by rw [List.length_drop]; omega
    rw [← rep_cat]
    simp only [sc]
    rw [List.take_left' (by simp), List.drop_left' (by simp), sc_r0, transform_zeros, transform_halves (by simp) (sc_length _ _ _ _), transform_zeros, zip3_zeros ha hb,
      sc_rep hh (by rw [List.length_zipWith]; omega), sum_zipWith_add (by omega), xor_replicate, rep2, ← List.sum_append, List.take_append_drop]

/-- Frozen bits such that each right half is without frozen bits. -/
def Good : Nat → List Bool → Prop
  | 0, fr => fr.length = 1
  | k + 1, fr => Good k (fr.take (2 ^ k)) ∧ fr.drop (2 ^ k) = List.replicate (2 ^ k) false ∧ fr.length = 2 ^ (k + 1)

theorem good_r1 : ∀ (k : Nat), Good k (List.replicate (2 ^ k) false)
  | 0 => rfl
  | k + 1 => by
    refine ⟨?_, ?_, by simp⟩
    · rw [← rep2, List.take_left' (by simp)]; exact good_r1 k
    · rw [← rep2, List.drop_left' (by simp)]

theorem good_spc : ∀ (k : Nat), Good k (expand (.spc, 2 ^ k))
  | 0 => rfl
  | k + 1 => by
    have hp := Nat.two_pow_pos k
    refine ⟨?_, ?_, ?_⟩
    · rw [← spc_cat, List.take_left' (expand_length (c := (.spc, 2 ^ k)) rfl hp)]; exact good_spc k
    · rw [← spc_cat, List.drop_left' (expand_length (c := (.spc, 2 ^ k)) rfl hp)]
    · exact expand_length rfl (Nat.two_pow_pos _)

theorem good_len : ∀ {k : Nat} {fr : List Bool}, Good k fr → fr.length = 2 ^ k
  | 0, _, h => h
  | _ + 1, _, h => h.2.2

section ml
variable (h10 : (1 : BitVec w) ≠ 0) (hh : bitInit w ≠ 0)
include h10 hh

/-- Successive cancellation is the only word of largest correlation. -/
theorem ml : ∀ {k : Nat} {fr : List Bool} {y : List Int}, Good k fr → y.length = 2 ^ k → noTie w k fr y → ∀ {u : List (BitVec w)}, u.length = 2 ^ k → Bits u →
    (∀ i : Nat, fr[i]? = some true → u[i]? = some 0) → u ≠ sc ex k fr y → corr (polarTransform k u) y < corr (polarTransform k (sc (ex (w := w)) k fr y)) y
  | 0, fr, y, hg, hy, ht, u, hu, hb, hz, hne => by
    obtain ⟨v, rfl⟩ := List.length_eq_one_iff.1 (show y.length = 1 from hy)
    obtain ⟨b, rfl⟩ := List.length_eq_one_iff.1 (show u.length = 1 from hu)
    obtain ⟨f, rfl⟩ := List.length_eq_one_iff.1 (show fr.length = 1 from hg)
    rw [transform_zero]
    simp only [sc, transform_zero, List.getElem?_cons_zero, List.headD_cons, Option.some.injEq, ne_eq] at hne ⊢
    cases f with
    | true =>
      have h0 := hz 0 rfl
      simp only [List.getElem?_cons_zero, Option.some.injEq] at h0
      subst h0
      simp at hne
    | false =>
      have hv : v ≠ 0 := ht rfl
      simp only [true_and, ex, hInt_eq, ne_eq] at hne ⊢
      rw [corr_cons, corr_cons]
      simp only [corr, List.zipWith_nil_left, List.sum_nil, Int.add_zero]
      by_cases h : v < 0
      · rw [if_pos h, if_pos (show ¬ bitInit w = 0 from hh), List.cons.injEq] at hne
        rw [if_pos h, if_pos (show ¬ bitInit w = 0 from hh), if_neg h10]
        rcases hb b (by simp) with rfl | rfl
        · rw [if_pos rfl]; omega
        · simp at hne
      · rw [if_neg h, if_neg (by simp), List.cons.injEq] at hne
        rw [if_neg h, if_neg (show ¬ ¬ (0 : BitVec w) = 0 by simp), if_pos (rfl : (0 : BitVec w) = 0)]
        rcases hb b (by simp) with rfl | rfl
        · simp at hne
        · rw [if_neg h10]; omega
  | k + 1, fr, y, hg, hy, ht, u, hu, hb, hz, hne => by
    have hp : 2 ^ (k + 1) = 2 ^ k + 2 ^ k := by rw [Nat.pow_succ]; omega
    obtain ⟨g1, g2, g3⟩ := hg
    obtain ⟨a, b, rfl, ha, hb'⟩ : ∃ a b, y = a ++ b ∧ a.length = 2 ^ k ∧ b.length = 2 ^ k :=
      ⟨y.take (2 ^ k), y.drop (2 ^ k), (List.take_append_drop _ _).symm, by rw [List.length_take]; omega, by rw [List.length_drop]; omega⟩
    obtain ⟨ul, ur, rfl, hul, hur⟩ : ∃ a b, u = a ++ b ∧ a.length = 2 ^ k ∧ b.length = 2 ^ k :=
      ⟨u.take (2 ^ k), u.drop (2 ^ k), (List.take_append_drop _ _).symm, by rw [List.length_take]; omega, by rw [List.length_drop]; omega⟩
    obtain ⟨hbl, hbr⟩ := bits_append.1 hb
    obtain ⟨t1, t2⟩ := ht
    rw [g2] at t2
    have hfl : (fr.take (2 ^ k)).length = 2 ^ k := by rw [List.length_take]; omega
    have hzl : ∀ i : Nat, (fr.take (2 ^ k))[i]? = some true → ul[i]? = some 0 := by
      intro i hi
      have hlt : i < 2 ^ k := by obtain ⟨h, _⟩ := List.getElem?_eq_some_iff.1 hi; omega
      rw [List.getElem?_take, if_pos hlt] at hi
      have := hz i hi
      rwa [List.getElem?_append_left (by omega)] at this
    simp only [sc, List.take_left' ha, List.drop_left' ha, g2] at hne t1 t2 ⊢
    set fv := List.zipWith (ex (w := w)).f a b with hfv
    set sl' := sc ex k (fr.take (2 ^ k)) fv with hsl
    set gv := zip3 (ex (w := w)).g a b (polarTransform k sl') with hgv
    set sr' := sc ex k (List.replicate (2 ^ k) false) gv with hsr
    have lsl : sl'.length = 2 ^ k := sc_length _ _ _ _
    have lsr : sr'.length = 2 ^ k := sc_length _ _ _ _
    have lt (z : List (BitVec w)) : (polarTransform k z).length = 2 ^ k := polarTransform_length _ _
    have bl : Bits (polarTransform k sl') := transform_bits lsl (sc_bits _ _ _ _)
    have br : Bits (polarTransform k sr') := transform_bits lsr (sc_bits _ _ _ _)
    have bul : Bits (polarTransform k ul) := transform_bits hul hbl
    have bur : Bits (polarTransform k ur) := transform_bits hur hbr
    have lgv : gv.length = 2 ^ k := zip3_length ha hb' (lt _)
    have lfv : fv.length = 2 ^ k := by rw [hfv, List.length_zipWith]; omega
    rw [transform_halves hul hur, transform_halves lsl lsr, corr_append (by rw [List.length_zipWith, lt, lt]; omega), corr_append (by rw [List.length_zipWith, lt, lt]; omega),
      corr_halves h10 (by rw [lt, ha]) (by rw [lt, ha]) (by omega) bul bur, corr_halves h10 (by rw [lt, ha]) (by rw [lt, ha]) (by omega) bl br]
    have right : ∀ {z : List (BitVec w)}, z.length = 2 ^ k → Bits z → z ≠ sr' → corr (polarTransform k z) gv < corr (polarTransform k sr') gv := fun h1 h2 h3 =>
      ml (good_r1 k) lgv t2 h1 h2 (by intro i hi; rw [List.getElem?_replicate] at hi; split at hi <;> simp at hi) h3
    have full : corr (polarTransform k sr') gv = tot gv := by
      have lsg : (sg (w := w) gv).length = 2 ^ k := by simp [sg, lgv]
      have bsg : Bits (sg (w := w) gv) := by
        intro c hc
        obtain ⟨v, _, rfl⟩ := List.mem_map.1 hc
        by_cases h : v < 0 <;> simp [h]
      by_cases e : polarTransform k (sg gv) = sr'
      · rw [← e, transform_invol lsg, corr_sg h10]
      · have h1 := right (lt _) (transform_bits lsg bsg) e
        rw [transform_invol lsg, corr_sg h10] at h1
        have h2 := corr_le (x := polarTransform k sr') (y := gv) (by rw [lt, lgv])
        omega
    have le1 := corr_le (x := polarTransform k ur) (y := zip3 (ex (w := w)).g a b (polarTransform k ul)) (by rw [lt, zip3_length ha hb' (lt _)])
    by_cases e : ul = sl'
    · subst e
      exact right hur hbr fun h => hne (by rw [h])
    · have h1 := ml g1 lfv t1 hul hbl hzl e
      rw [full, hgv, tot_g_f (by rw [lt, ha]) (by omega)]
      rw [tot_g_f (by rw [lt, ha]) (by omega)] at le1
      rw [← hfv] at le1 ⊢
      rw [← hsl] at h1
      omega

theorem sg_bits (y : List Int) : Bits (sg (w := w) y) := by
  intro c hc
  obtain ⟨v, _, rfl⟩ := List.mem_map.1 hc
  by_cases h : v < 0 <;> simp [h]

theorem sc_r1 {k : Nat} {y : List Int} (hy : y.length = 2 ^ k) (ht : noTie w k (List.replicate (2 ^ k) false) y) :
    polarTransform k (sc ex k (List.replicate (2 ^ k) false) y) = sg (w := w) y := by
  have lsg : (sg (w := w) y).length = 2 ^ k := by simp [sg, hy]
  have bsg : Bits (sg (w := w) y) := sg_bits h10 hh y
  by_cases e : polarTransform k (sg (w := w) y) = sc ex k (List.replicate (2 ^ k) false) y
  · rw [← e, transform_invol lsg]
  · have h1 := ml h10 hh (good_r1 k) hy ht (polarTransform_length _ _) (transform_bits lsg bsg)
      (by intro i hi; rw [List.getElem?_replicate] at hi; split at hi <;> simp at hi) e
    rw [transform_invol lsg, corr_sg h10] at h1
    have h2 := corr_le (x := polarTransform k (sc (ex (w := w)) k (List.replicate (2 ^ k) false) y)) (y := y) (by rw [polarTransform_length, hy])
    omega

end ml

end Verif.PolarFast
