import Mathlib.Order.WithBot
import Mathlib.Data.List.Induction
import Verif.Proof.LDPCBP

/-!
# The update rules of the checks
-/

namespace Verif.LDPCBP
open Exec Verif.Sparse Verif.Float

variable {R : Type}

/-! ## The two least values -/

theorem two_min {α : Type} [LinearOrder α] (t : α) (l : List α) :
    (l.foldl (fun (s : α × α) a => (min s.1 a, min s.2 (max a s.1))) (t, t)).1 = l.foldl min t ∧
    (l.foldl (fun (s : α × α) a => (min s.1 a, min s.2 (max a s.1))) (t, t)).1 ≤
      (l.foldl (fun (s : α × α) a => (min s.1 a, min s.2 (max a s.1))) (t, t)).2 ∧
    ∀ i (h : i < l.length), l.foldl min t ≤ l[i] ∧
      (if l[i] = l.foldl min t then (l.foldl (fun (s : α × α) a => (min s.1 a, min s.2 (max a s.1))) (t, t)).2 else l.foldl min t) =
        (l.eraseIdx i).foldl min t := by
  induction l using List.reverseRecOn with
  | nil => exact ⟨rfl, le_refl _, fun i h => absurd h (by simp)⟩
  | append_singleton l a ih =>
    simp only [List.foldl_append, List.foldl_cons, List.foldl_nil]
    generalize hs : l.foldl (fun (s : α × α) a => (min s.1 a, min s.2 (max a s.1))) (t, t) = s at ih ⊢
    generalize hm : l.foldl min t = m at ih ⊢
    obtain ⟨m1, m2⟩ := s
    dsimp only at ih ⊢
    obtain ⟨rfl, h2, h3⟩ := ih
    refine ⟨rfl, ?_, ?_⟩
    · refine le_min (le_trans (min_le_left _ _) h2) (le_trans (min_le_right _ _) (le_max_left _ _))
    · intro i hi
      by_cases e : i < l.length
      · obtain ⟨k1, k2⟩ := h3 i e
        rw [List.getElem_append_left e, List.eraseIdx_append_of_lt_length e, List.foldl_append, ← k2]
        simp only [List.foldl_cons, List.foldl_nil]
        refine ⟨le_trans (min_le_left _ _) k1, ?_⟩
        by_cases hx : l[i] = m1
        · rw [if_pos hx, hx]
          by_cases ha : m1 ≤ a
          · rw [min_eq_left ha, if_pos rfl, max_eq_left ha]
          · rw [not_le] at ha
            rw [min_eq_right ha.le, if_neg ha.ne', min_eq_right (ha.le.trans h2)]
        · rw [if_neg hx, if_neg]
          intro h
          exact hx (le_antisymm (h ▸ min_le_left _ _) k1)
      · have : i = l.length := by simp at hi; omega
        subst this
        rw [List.eraseIdx_append_of_length_le (le_refl _)]
        simp only [Nat.sub_self, List.eraseIdx_zero, List.tail_cons, List.append_nil, hm]
        rw [List.getElem_append_right (le_refl _)]
        simp only [Nat.sub_self, List.getElem_cons_zero]
        refine ⟨min_le_right _ _, ?_⟩
        by_cases ha : a ≤ m1
        · rw [min_eq_right ha, if_pos rfl, max_eq_right ha, min_eq_right h2]
        · rw [not_le] at ha
          rw [min_eq_left ha.le, if_neg ha.ne']

/-- The operations compare the magnitudes (`P`) of the messages (`Q`) as an order does. -/
structure Lawful (o : Ops R) {α : Type} [LinearOrder α] (key : R → α) (P Q : R → Prop) : Prop where
  top : P o.top
  zero : P o.zero
  abs : ∀ x, Q x → P (o.abs x)
  lt : ∀ a b, P a → P b → (o.lt a b = true ↔ key a < key b)
  eq : ∀ a b, P a → P b → (o.eq a b = true ↔ a = b)
  inj : ∀ a b, P a → P b → key a = key b → a = b
  nonneg : ∀ a, P a → key o.zero ≤ key a

section
variable {o : Ops R} {α : Type} [LinearOrder α] {key : R → α} {P Q : R → Prop}

theorem Lawful.min (h : Lawful o key P Q) {a b : R} (ha : P a) (hb : P b) : P (o.min a b) ∧ key (o.min a b) = Min.min (key a) (key b) := by
  unfold Ops.min
  by_cases e : o.lt b a = true
  · rw [if_pos e]; exact ⟨hb, (min_eq_right ((h.lt b a hb ha).1 e).le).symm⟩
  · rw [if_neg e]
    exact ⟨ha, (min_eq_left (not_lt.1 fun k => e ((h.lt b a hb ha).2 k))).symm⟩

theorem Lawful.max (h : Lawful o key P Q) {a b : R} (ha : P a) (hb : P b) : P (o.max a b) ∧ key (o.max a b) = Max.max (key a) (key b) := by
  unfold Ops.max
  by_cases e : o.lt a b = true
  · rw [if_pos e]; exact ⟨hb, (max_eq_right ((h.lt a b ha hb).1 e).le).symm⟩
  · rw [if_neg e]
    exact ⟨ha, (max_eq_left (not_lt.1 fun k => e ((h.lt a b ha hb).2 k))).symm⟩

theorem Lawful.max_zero (h : Lawful o key P Q) {a : R} (ha : P a) : o.max o.zero a = a := by
  obtain ⟨h1, h2⟩ := h.max h.zero ha
  refine h.inj _ _ h1 ha ?_
  rw [h2, max_eq_right (h.nonneg a ha)]

theorem Lawful.fold (h : Lawful o key P Q) (xs : List R) (hx : ∀ x ∈ xs, Q x) :
    P (xs.foldl (fun a x => o.min a (o.abs x)) o.top) ∧
      key (xs.foldl (fun a x => o.min a (o.abs x)) o.top) = (xs.map fun x => key (o.abs x)).foldl Min.min (key o.top) := by
  induction xs using List.reverseRecOn with
  | nil => exact ⟨h.top, rfl⟩
  | append_singleton l a ih =>
    obtain ⟨i1, i2⟩ := ih fun x hx' => hx x (by simp [hx'])
    obtain ⟨k1, k2⟩ := h.min i1 (h.abs a (hx a (by simp)))
    simp only [List.foldl_append, List.map_append, List.map_cons, List.map_nil, List.foldl_cons, List.foldl_nil]
    exact ⟨k1, by rw [k2, i2]⟩

/-- The state after the inputs. -/
theorem Lawful.state (h : Lawful o key P Q) (xs : List R) (hx : ∀ x ∈ xs, Q x) :
    P (xs.foldl (fun s x => msIn o s 0 x) (msStart o)).min1 ∧ P (xs.foldl (fun s x => msIn o s 0 x) (msStart o)).min2 ∧
    (xs.foldl (fun s x => msIn o s 0 x) (msStart o)).min1 = xs.foldl (fun a x => o.min a (o.abs x)) o.top ∧
    (xs.foldl (fun s x => msIn o s 0 x) (msStart o)).sign = xs.foldl (fun s x => s ^^ o.sign x) false ∧
    key (xs.foldl (fun s x => msIn o s 0 x) (msStart o)).min2 =
      ((xs.map fun x => key (o.abs x)).foldl (fun (s : α × α) a => (Min.min s.1 a, Min.min s.2 (Max.max a s.1))) (key o.top, key o.top)).2 := by
  induction xs using List.reverseRecOn with
  | nil => exact ⟨h.top, h.top, rfl, rfl, rfl⟩
  | append_singleton l a ih =>
    obtain ⟨i1, i2, i3, i4, i5⟩ := ih fun x hx' => hx x (by simp [hx'])
    have ha := h.abs a (hx a (by simp))
    have hf := h.fold l fun x hx' => hx x (by simp [hx'])
    have ht := (two_min (key o.top) (l.map fun x => key (o.abs x))).1
    simp only [List.foldl_append, List.map_append, List.map_cons, List.map_nil, List.foldl_cons, List.foldl_nil]
    generalize l.foldl (fun s x => msIn o s 0 x) (msStart o) = s at i1 i2 i3 i4 i5 ⊢
    simp only [msIn]
    obtain ⟨k1, k2⟩ := h.min i1 ha
    obtain ⟨k3, k4⟩ := h.max ha i1
    obtain ⟨k5, k6⟩ := h.min i2 k3
    refine ⟨k1, k5, by rw [i3], by rw [i4], ?_⟩
    rw [k6, k4, i5, i3, hf.2, ht]

end

theorem parity_erase (o : Ops R) (xs : List R) (i : Nat) (hi : i < xs.length) :
    (xs.foldl (fun s x => s ^^ o.sign x) false ^^ o.sign xs[i]) = signOther o xs i := by
  have key : ∀ (xs : List R) (b : Bool), xs.foldl (fun s x => s ^^ o.sign x) b = (b ^^ xs.foldl (fun s x => s ^^ o.sign x) false) := by
    intro xs
    induction xs with
    | nil => simp
    | cons a l ih =>
      intro b
      simp only [List.foldl_cons]
      rw [ih, ih (false ^^ o.sign a)]
      simp
  unfold signOther
  induction xs generalizing i with
  | nil => simp at hi
  | cons a l ih =>
    cases i with
    | zero =>
      simp only [List.foldl_cons, List.getElem_cons_zero, List.eraseIdx_zero, List.tail_cons]
      rw [key]
      simp
      cases o.sign a <;> simp
    | succ i =>
      have hi' : i < l.length := by simpa using hi
      simp only [List.foldl_cons, List.getElem_cons_succ, List.eraseIdx_cons_succ]
      rw [key, key (l.eraseIdx i), ← ih i hi']
      simp

theorem fold_zipIdx {σ : Type} (f : σ → R → σ) (xs : List R) (s : σ) : xs.zipIdx.foldl (fun s p => f s p.1) s = xs.foldl f s := by
  have : xs.zipIdx.map Prod.fst = xs := by simp
  conv_rhs => rw [← this, List.foldl_map]

/-- Min-sum with a correction `f` of the magnitudes. -/
def msWith (o : Ops R) (f : R → R) : Rule R :=
  ⟨MSt R, msStart o, msIn o, fun s => { s with cst1 := o.max o.zero (f s.min2), cst2 := o.max o.zero (f s.min1) }, msOut o⟩

theorem msWith_eval {o : Ops R} {α : Type} [LinearOrder α] {key : R → α} {P Q : R → Prop} (h : Lawful o key P Q) (f : R → R) {xs : List R}
    (hx : ∀ x ∈ xs, Q x) {i : Nat} (hi : i < xs.length) :
    (msWith o f).eval xs i xs[i] = o.csign (o.max o.zero (f (minOther o xs i))) (signOther o xs i) := by
  have hfold : xs.zipIdx.foldl (fun s p => (msWith o f).inp s p.2 p.1) (msWith o f).start = xs.foldl (fun s x => msIn o s 0 x) (msStart o) :=
    fold_zipIdx (fun s x => msIn o s 0 x) xs (msStart o)
  have hev : (msWith o f).eval xs i xs[i] = o.csign
      (if o.eq (o.abs xs[i]) (xs.foldl (fun s x => msIn o s 0 x) (msStart o)).min1
        then o.max o.zero (f (xs.foldl (fun s x => msIn o s 0 x) (msStart o)).min2)
        else o.max o.zero (f (xs.foldl (fun s x => msIn o s 0 x) (msStart o)).min1))
      ((xs.foldl (fun s x => msIn o s 0 x) (msStart o)).sign ^^ o.sign xs[i]) := by
    unfold Rule.eval
    rw [hfold]
    rfl
  rw [hev]
  obtain ⟨s1, s2, s3, s4, s5⟩ := h.state xs hx
  have hq := h.abs _ (hx _ (List.getElem_mem hi))
  have hf := h.fold xs hx
  have he := h.fold (xs.eraseIdx i) fun x hx' => hx x (List.mem_of_mem_eraseIdx hx')
  obtain ⟨t1, t2, t3⟩ := two_min (key o.top) (xs.map fun x => key (o.abs x))
  have t4 := t3 i (by simpa using hi)
  rw [List.getElem_map, List.eraseIdx_map, ← he.2, ← s5, ← hf.2, ← s3] at t4
  rw [s4, parity_erase o xs i hi]
  unfold minOther
  congr 1
  by_cases e : key (o.abs xs[i]) = key (xs.foldl (fun s x => msIn o s 0 x) (msStart o)).min1
  · rw [if_pos ((h.eq _ _ hq s1).2 (h.inj _ _ hq s1 e))]
    rw [if_pos e] at t4
    rw [h.inj _ _ s2 he.1 t4.2]
  · rw [if_neg (fun k => e (by rw [(h.eq _ _ hq s1).1 k]))]
    rw [if_neg e] at t4
    rw [h.inj _ _ s1 he.1 t4.2]

theorem ms_eq (o : Ops R) : ms o = msWith o id := rfl

theorem oms_eq (o : Ops R) (offset : R) : oms o offset = msWith o fun x => o.sub x offset := rfl

theorem nms_eq (o : Ops R) (norm : R → R) : nms o norm = msWith o norm := rfl

theorem Lawful.minOther {o : Ops R} {α : Type} [LinearOrder α] {key : R → α} {P Q : R → Prop} (h : Lawful o key P Q) {xs : List R}
    (hx : ∀ x ∈ xs, Q x) (i : Nat) : P (minOther o xs i) :=
  (h.fold (xs.eraseIdx i) fun x hx' => hx x (List.mem_of_mem_eraseIdx hx')).1

theorem ms_eval {o : Ops R} {α : Type} [LinearOrder α] {key : R → α} {P Q : R → Prop} (h : Lawful o key P Q) {xs : List R}
    (hx : ∀ x ∈ xs, Q x) {i : Nat} (hi : i < xs.length) :
    (ms o).eval xs i xs[i] = o.csign (LDPCBP.minOther o xs i) (signOther o xs i) := by
  rw [ms_eq, msWith_eval h id hx hi, id, h.max_zero (h.minOther hx i)]

/-- With the exact minimum, `AMS` is min-sum. -/
theorem ams_eval {o : Ops R} {α : Type} [LinearOrder α] {key : R → α} {P Q : R → Prop} (h : Lawful o key P Q) {xs : List R}
    (hx : ∀ x ∈ xs, Q x) {i : Nat} (hi : i < xs.length) :
    (ams o o.min).eval xs i xs[i] = o.csign (LDPCBP.minOther o xs i) (signOther o xs i) := by
  rw [← ms_eval h hx hi]
  have hs : ∀ xs : List R, (∀ x ∈ xs, Q x) →
      xs.zipIdx.foldl (fun s p => (ams o o.min).inp s p.2 p.1) (ams o o.min).start =
      ⟨(xs.foldl (fun s x => msIn o s 0 x) (msStart o)).sign, (xs.foldl (fun s x => msIn o s 0 x) (msStart o)).min1,
        (xs.foldl (fun s x => msIn o s 0 x) (msStart o)).min2, o.zero⟩ := by
    intro xs hx
    refine (fold_zipIdx (fun s x => (ams o o.min).inp s 0 x) xs (ams o o.min).start).trans ?_
    induction xs using List.reverseRecOn with
    | nil => rfl
    | append_singleton l a ih =>
      have hl : ∀ x ∈ l, Q x := fun x hx' => hx x (by simp [hx'])
      obtain ⟨s1, s2, s3, s4, s5⟩ := h.state l hl
      have ha := h.abs a (hx a (by simp))
      simp only [List.foldl_append, List.foldl_cons, List.foldl_nil]
      rw [ih hl]
      generalize l.foldl (fun s x => msIn o s 0 x) (msStart o) = s at s1 s2 s3 s4 s5 ⊢
      simp only [ams, msIn]
      congr 2
      obtain ⟨k1, k2⟩ := h.min s1 ha
      obtain ⟨k3, k4⟩ := h.max ha s1
      by_cases e : o.eq (o.abs a) (o.min s.min1 (o.abs a)) = true
      · rw [if_pos e]
        have e' := (h.eq _ _ ha k1).1 e
        refine (h.inj _ _ k3 s1 ?_).symm
        rw [k4, max_eq_right]
        rw [e', k2]
        exact min_le_left _ _
      · rw [if_neg e]
        refine (h.inj _ _ k3 ha ?_).symm
        rw [k4, max_eq_left]
        by_contra hlt
        rw [not_le] at hlt
        refine e ((h.eq _ _ ha k1).2 (h.inj _ _ ha k1 ?_))
        rw [k2, min_eq_right hlt.le]
  have hm : xs.zipIdx.foldl (fun s p => (ms o).inp s p.2 p.1) (ms o).start = xs.foldl (fun s x => msIn o s 0 x) (msStart o) :=
    fold_zipIdx (fun s x => msIn o s 0 x) xs (msStart o)
  unfold Rule.eval
  rw [hs xs hx, hm]
  obtain ⟨s1, s2, s3, s4, s5⟩ := h.state xs hx
  have hf := h.fold xs hx
  obtain ⟨t1, t2, t3⟩ := two_min (key o.top) (xs.map fun x => key (o.abs x))
  have hle : key (xs.foldl (fun s x => msIn o s 0 x) (msStart o)).min1 ≤ key (xs.foldl (fun s x => msIn o s 0 x) (msStart o)).min2 := by
    rw [s5, s3, hf.2, ← t1]; exact t2
  simp only [ams, ms, msOut]
  congr 2
  obtain ⟨k1, k2⟩ := h.min s2 s1
  rw [h.max_zero s1, h.max_zero k1]
  exact h.inj _ _ k1 s1 (by rw [k2, min_eq_right hle])

/-! ## The types -/

theorem maxFin_nonneg (F : Fmt) : 0 ≤ maxFin F := by
  unfold maxFin
  have : (1 : ℚ) ≤ 2 ^ F.p := one_le_pow₀ (by norm_num)
  exact mul_nonneg (by linarith) (zpow_nonneg (by norm_num) _)

/-- The magnitude as a number or infinity. -/
def keyFz (x : Fz) : WithTop ℚ :=
  match x.mag with
  | .fin q => (q : ℚ)
  | _ => ⊤

/-- A magnitude. -/
def MagFz (x : Fz) : Prop := x.neg = false ∧ IsNum x

theorem lawful_fz (F : Fmt) : Lawful (opsFz F) keyFz MagFz IsNum where
  top := ⟨rfl, maxFin_nonneg F⟩
  zero := ⟨rfl, le_refl _⟩
  abs x hx := ⟨rfl, hx⟩
  lt := by
    rintro ⟨sa, a⟩ ⟨sb, b⟩ ⟨ha, ha'⟩ ⟨hb, hb'⟩
    dsimp only at ha hb
    subst ha hb
    cases a with
    | nan => exact absurd ha' (by simp [IsNum])
    | inf s =>
      have : s = false := ha'
      subst this
      cases b <;> simp_all [opsFz, Fz.val, keyFz, Fl.lt, IsNum]
    | fin q =>
      cases b <;> simp_all [opsFz, Fz.val, keyFz, Fl.lt, IsNum]
  eq := by
    rintro ⟨sa, a⟩ ⟨sb, b⟩ ⟨ha, ha'⟩ ⟨hb, hb'⟩
    dsimp only at ha hb
    subst ha hb
    cases a with
    | nan => exact absurd ha' (by simp [IsNum])
    | inf s => simp [opsFz, Fz.val]
    | fin q => simp [opsFz, Fz.val]
  inj := by
    rintro ⟨sa, a⟩ ⟨sb, b⟩ ⟨ha, ha'⟩ ⟨hb, hb'⟩
    dsimp only at ha hb
    subst ha hb
    cases a <;> cases b <;> simp_all [keyFz, IsNum]
  nonneg := by
    rintro ⟨sa, a⟩ ⟨ha, ha'⟩
    cases a <;> simp_all [keyFz, IsNum, opsFz]

theorem wrap_eq {b : Nat} {x : Int} (h1 : -2 ^ (b - 1) ≤ x) (h2 : x < 2 ^ (b - 1)) (hb : 0 < b) : wrap b x = x := by
  unfold wrap
  have : (2 : Int) ^ b = 2 * 2 ^ (b - 1) := by rw [← pow_succ']; congr 1; omega
  apply Int.bmod_eq_of_le
  · push_cast; rw [this]; omega
  · push_cast; rw [this]; omega

theorem lawful_int {b : Nat} (hb : 0 < b) : Lawful (opsInt b) (id : Int → Int) (fun m => 0 ≤ m) (fun x => |x| < 2 ^ (b - 1)) where
  top := by
    have : (0 : Int) < 2 ^ (b - 1) := by positivity
    simp only [opsInt]; omega
  zero := le_refl _
  abs x hx := by
    simp only [opsInt]
    rw [wrap_eq (by have := abs_nonneg x; have : (0 : Int) < 2 ^ (b - 1) := by positivity
                    omega) hx hb]
    exact abs_nonneg x
  lt a b _ _ := by simp [opsInt]
  eq a b _ _ := by simp [opsInt]
  inj a b _ _ h := h
  nonneg a h := h

/-- The sign of a sum-product message is that of the other messages. -/
theorem spa_sign (F : Fmt) (th ath : Fz → Fz) {xs : List Fz} {i : Nat} (hi : i < xs.length) :
    ((spa F th ath).eval xs i xs[i]).neg = signOther (opsFz F) xs i := by
  rw [← parity_erase (opsFz F) xs i hi]
  have : (xs.zipIdx.foldl (fun s p => (spa F th ath).inp s p.2 p.1) (spa F th ath).start).sign =
      xs.foldl (fun s x => s ^^ (opsFz F).sign x) false := by
    rw [← fold_zipIdx (fun s x => s ^^ (opsFz F).sign x)]
    generalize xs.zipIdx = l
    induction l using List.reverseRecOn with
    | nil => rfl
    | append_singleton l a ih =>
      rw [List.foldl_append, List.foldl_append, ← ih]; rfl
  rw [← this]
  rfl

theorem lspa_sign (F : Fmt) (th ath ln ex : Fz → Fz) {xs : List Fz} {i : Nat} (hi : i < xs.length) :
    ((lspa F th ath ln ex).eval xs i xs[i]).neg = signOther (opsFz F) xs i := by
  rw [← parity_erase (opsFz F) xs i hi]
  have : (xs.zipIdx.foldl (fun s p => (lspa F th ath ln ex).inp s p.2 p.1) (lspa F th ath ln ex).start).sign =
      xs.foldl (fun s x => s ^^ (opsFz F).sign x) false := by
    rw [← fold_zipIdx (fun s x => s ^^ (opsFz F).sign x)]
    generalize xs.zipIdx = l
    induction l using List.reverseRecOn with
    | nil => rfl
    | append_singleton l a ih =>
      rw [List.foldl_append, List.foldl_append, ← ih]; rfl
  rw [← this]
  rfl

end Verif.LDPCBP
