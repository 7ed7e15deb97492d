import Verif.Proof.PolarFastML
import Verif.Proof.BCJRSound
import Verif.Proof.PolarSCLTypes

/-! # The arithmetic of the types is exact on small values -/

namespace Verif.PolarFast
open Exec Verif.PolarSC Verif.Polar Verif.Float

variable {R : Type} {w : Nat}

/-- The integers of magnitudes of sum at most `M` are embedded in `R`. -/
structure Emb (A : Api R w) (e : Int → R) (M : Int) : Prop where
  zero : A.fns.zero = e 0
  f : ∀ a b, mg a + mg b ≤ M → A.fns.f (e a) (e b) = e ((ex (w := w)).f a b)
  g : ∀ a b u, mg a + mg b ≤ M → A.fns.g (e a) (e b) u = e ((ex (w := w)).g a b u)
  h : ∀ a, mg a ≤ M → A.fns.h (e a) = hInt w a
  g0 : ∀ a b, mg a + mg b ≤ M → A.g0 (e a) (e b) = e (a + b)
  acc : ∀ a b, mg a + mg b ≤ M → A.acc (e a) (e b) = e (a + b)
  smul : ∀ s a, mg a ≤ M → A.smul s (e a) = e (smulInt s a)
  gt : ∀ a b, mg a ≤ M → mg b ≤ M → A.gt (e a) (e b) = decide (a > b)
  top : ∀ a, mg a ≤ M → A.gt A.top (e a) = true

section
variable {A : Api R w} {e : Int → R} {M : Int} (E : Emb A e M)
include E

theorem mg_nonneg (x : Int) : 0 ≤ mg x := by unfold mg; omega

theorem tot_cons (x : Int) (y : List Int) : tot (x :: y) = mg x + tot y := by simp [tot]

theorem emb_f : ∀ {a b : List Int}, tot a + tot b ≤ M → List.zipWith A.fns.f (a.map e) (b.map e) = (List.zipWith (ex (w := w)).f a b).map e
  | [], _, _ => rfl
  | _ :: _, [], _ => rfl
  | x :: a, y :: b, h => by
    have h1 := tot_nonneg a; have h2 := tot_nonneg b
    rw [tot_cons E, tot_cons E] at h
    have := mg_nonneg E x; have := mg_nonneg E y
    simp only [List.map_cons, List.zipWith_cons_cons]
    rw [emb_f (by omega), E.f _ _ (by omega)]

theorem emb_g0 : ∀ {a b : List Int}, tot a + tot b ≤ M → List.zipWith A.g0 (a.map e) (b.map e) = (List.zipWith (fun x y => x + y) a b).map e
  | [], _, _ => rfl
  | _ :: _, [], _ => rfl
  | x :: a, y :: b, h => by
    have h1 := tot_nonneg a; have h2 := tot_nonneg b
    rw [tot_cons E, tot_cons E] at h
    have := mg_nonneg E x; have := mg_nonneg E y
    simp only [List.map_cons, List.zipWith_cons_cons]
    rw [emb_g0 (by omega), E.g0 _ _ (by omega)]

theorem emb_gr (u : BitVec w) : ∀ {a b : List Int}, tot a + tot b ≤ M →
    List.zipWith (fun a b => A.fns.g a b u) (a.map e) (b.map e) = (List.zipWith (fun a b => (ex (w := w)).g a b u) a b).map e
  | [], _, _ => rfl
  | _ :: _, [], _ => rfl
  | x :: a, y :: b, h => by
    have h1 := tot_nonneg a; have h2 := tot_nonneg b
    rw [tot_cons E, tot_cons E] at h
    have := mg_nonneg E x; have := mg_nonneg E y
    simp only [List.map_cons, List.zipWith_cons_cons]
    rw [emb_gr u (by omega), E.g _ _ _ (by omega)]

theorem emb_g : ∀ {a b : List Int} {u : List (BitVec w)}, tot a + tot b ≤ M → zip3 A.fns.g (a.map e) (b.map e) u = (zip3 (ex (w := w)).g a b u).map e
  | [], _, _, _ => rfl
  | _ :: _, [], _, _ => rfl
  | _ :: _, _ :: _, [], _ => rfl
  | x :: a, y :: b, c :: u, h => by
    have h1 := tot_nonneg a; have h2 := tot_nonneg b
    rw [tot_cons E, tot_cons E] at h
    have := mg_nonneg E x; have := mg_nonneg E y
    have ih := emb_g (a := a) (b := b) (u := u) (by omega)
    simp only [zip3, List.map_cons, List.zip_cons_cons, List.zipWith_cons_cons] at ih ⊢
    rw [ih, E.g _ _ _ (by omega)]

theorem emb_h {y : List Int} (h : ∀ v ∈ y, mg v ≤ M) : (y.map e).map A.fns.h = y.map (hInt w) := by
  rw [List.map_map]
  exact List.map_congr_left fun v hv => E.h v (h v hv)

theorem tot_halves (y : List Int) (n : Nat) : tot (y.take n) + tot (y.drop n) = tot y := by rw [← tot_append, List.take_append_drop]

theorem emb_sc : ∀ {k : Nat} {fr : List Bool} {y : List Int}, tot y ≤ M → sc A.fns k fr (y.map e) = sc (ex (w := w)) k fr y
  | 0, fr, y, h => by
    simp only [sc]
    have : A.fns.h ((y.map e).headD A.fns.zero) = hInt w (y.headD 0) := by
      cases y with
      | nil =>
        have : tot [] = 0 := rfl
        simp only [List.map_nil, List.headD_nil, E.zero]
        exact E.h 0 (by unfold mg; omega)
      | cons v y => exact E.h v (le_trans (mg_le_tot List.mem_cons_self) h)
    rw [this]
    rfl
  | k + 1, fr, y, h => by
    have ht := tot_halves E y (2 ^ k)
    have hf := tot_f (w := w) (y.take (2 ^ k)) (y.drop (2 ^ k))
    simp only [sc]
    rw [← List.map_take, ← List.map_drop, emb_f E (by omega), emb_sc (by omega), emb_g E (by omega), emb_sc ?_]
    have hg := tot_g (y.take (2 ^ k)) (y.drop (2 ^ k)) (polarTransform k (sc (ex (w := w)) k (fr.take (2 ^ k)) (List.zipWith (ex (w := w)).f (y.take (2 ^ k)) (y.drop (2 ^ k)))))
    omega

theorem emb_soft : ∀ {k : Nat} {y : List Int} {u : List (BitVec w)} {i : Nat}, tot y ≤ M → soft A.fns k (y.map e) u i = e (soft (ex (w := w)) k y u i)
  | 0, y, u, i, h => by
    simp only [soft]
    cases y with
    | nil => exact E.zero
    | cons v y => rfl
  | k + 1, y, u, i, h => by
    have ht := tot_halves E y (2 ^ k)
    have hf := tot_f (w := w) (y.take (2 ^ k)) (y.drop (2 ^ k))
    have hg := tot_g (y.take (2 ^ k)) (y.drop (2 ^ k)) (polarTransform k (u.take (2 ^ k)))
    simp only [soft]
    rw [← List.map_take, ← List.map_drop, emb_f E (by omega), emb_g E (by omega)]
    split
    · exact emb_soft (by omega)
    · exact emb_soft (by omega)

theorem emb_acc : ∀ {y : List Int} {s : Int}, mg s + tot y ≤ M → (y.map e).foldl A.acc (e s) = e (y.foldl (fun s x => s + x) s)
  | [], _, _ => rfl
  | v :: y, s, h => by
    rw [tot_cons E] at h
    have h1 := tot_nonneg y
    simp only [List.map_cons, List.foldl_cons]
    rw [E.acc _ _ (by omega)]
    refine emb_acc ?_
    have : mg (s + v) ≤ mg s + mg v := by unfold mg; omega
    omega

/-- The states of the two scans. -/
def ScanSim (A : Api R w) (e : Int → R) (M : Int) (p : R × Option Nat × Bool) (q : Int × Option Nat × Bool) : Prop :=
  ((p.1 = A.top ∧ q.1 = M + 1) ∨ (p.1 = e q.1 ∧ mg q.1 ≤ M)) ∧ p.2 = q.2

theorem emb_scan {y : List Int} (h : ∀ v ∈ y, mg v ≤ M) : ScanSim A e M (spcScan A (y.map e)) (spcScan (exA (w := w) (M + 1)) y) := by
  induction y using List.reverseRecOn with
  | nil => exact ⟨Or.inl ⟨rfl, rfl⟩, rfl⟩
  | append_singleton y x ih =>
    have ih := ih fun v hv => h v (List.mem_append_left _ hv)
    have hx := h x (by simp)
    rw [List.map_append, List.map_singleton, spcScan_snoc, spcScan_snoc, List.length_map]
    obtain ⟨i1, i2⟩ := ih
    generalize spcScan A (y.map e) = p at i1 i2
    generalize spcScan (exA (w := w) (M + 1)) y = q at i1 i2
    unfold spcStep
    simp only
    have hh : A.fns.h (e x) = (exA (w := w) (M + 1)).fns.h x := E.h x hx
    rw [hh]
    set neg := decide ((exA (w := w) (M + 1)).fns.h x ≠ 0)
    have hm : mg (smulInt neg x) ≤ M := by
      unfold smulInt mg at *; split <;> omega
    rw [E.smul _ _ hx]
    have hs : (exA (w := w) (M + 1)).smul neg x = smulInt neg x := rfl
    rw [hs, i2]
    have hg : A.gt p.1 (e (smulInt neg x)) = (exA (w := w) (M + 1)).gt q.1 (smulInt neg x) := by
      show _ = decide (q.1 > smulInt neg x)
      rcases i1 with ⟨h1, h2⟩ | ⟨h1, h2⟩
      · rw [h1, E.top _ hm, h2, eq_comm, decide_eq_true_eq]
        unfold mg at hm; omega
      · rw [h1, E.gt _ _ h2 hm]
    rw [hg]
    split
    · exact ⟨Or.inr ⟨rfl, hm⟩, rfl⟩
    · exact ⟨i1, rfl⟩

theorem emb_term {t : NT} {y : List Int} (h : tot y ≤ M) : term A t (y.map e) = term (exA (w := w) (M + 1)) t y := by
  have hv : ∀ v ∈ y, mg v ≤ M := fun v hv => le_trans (mg_le_tot hv) h
  have hm := emb_h E hv
  cases t <;> simp only [term, List.length_map]
  · rw [hm]; rfl
  · rw [E.zero, emb_acc E (by have : mg 0 = 0 := rfl; omega)]
    congr 2
    refine E.h _ ?_
    have hsum : ∀ (y : List Int) (s : Int), mg (y.foldl (fun s x => s + x) s) ≤ mg s + tot y := by
      intro y
      induction y with
      | nil => intro s; simp [tot]
      | cons v y ih =>
        intro s
        rw [List.foldl_cons, tot_cons E]
        have := ih (s + v)
        have : mg (s + v) ≤ mg s + mg v := by unfold mg; omega
        omega
    have := hsum y 0
    have : mg 0 = 0 := rfl
    omega
  · obtain ⟨_, h2⟩ := emb_scan E hv
    rw [h2, hm]
    rfl

theorem emb_dec : ∀ {k : Nat} {t : Bin (NT × Nat)} {y : List Int}, tot y ≤ M → dec A k t (y.map e) = dec (exA (w := w) (M + 1)) k t y
  | k, .leaf _ c, y, h => by
    have := emb_term E (t := c.1) h
    cases k <;> exact this
  | 0, .node _ _ _ _, _, _ => rfl
  | k + 1, .node _ c l r, y, h => by
    have ht := tot_halves E y (2 ^ k)
    have hf := tot_f (w := w) (y.take (2 ^ k)) (y.drop (2 ^ k))
    unfold dec
    simp only
    rw [← List.map_take, ← List.map_drop]
    have hl : dec A k l (List.zipWith A.fns.f ((y.take (2 ^ k)).map e) ((y.drop (2 ^ k)).map e)) =
        dec (exA (w := w) (M + 1)) k l (List.zipWith (exA (w := w) (M + 1)).fns.f (y.take (2 ^ k)) (y.drop (2 ^ k))) := by
      rw [emb_f E (by omega), emb_dec (by omega)]; rfl
    split
    · rw [hl]
      congr 1
      funext xl
      have hg := tot_g (y.take (2 ^ k)) (y.drop (2 ^ k)) xl
      rw [emb_g E (by omega), emb_dec (by omega)]
      rfl
    · rw [emb_g0 E (by omega), emb_dec ?_]
      · rfl
      · have hg : ∀ (a b : List Int), tot (List.zipWith (fun x y => x + y) a b) ≤ tot a + tot b := by
          intro a
          induction a with
          | nil => intro b; simp [tot]; exact tot_nonneg b
          | cons x a ih =>
            intro b
            cases b with
            | nil => simp [tot]; exact tot_nonneg (x :: a)
            | cons y b =>
              rw [List.zipWith_cons_cons, tot_cons E, tot_cons E, tot_cons E]
              have := ih b
              have : mg (x + y) ≤ mg x + mg y := by unfold mg; omega
              omega
        have := hg (y.take (2 ^ k)) (y.drop (2 ^ k))
        omega
    · rw [hl]
      congr 1
      funext xl
      rw [emb_gr E _ (by omega), emb_dec ?_]
      · rfl
      · have hg : ∀ (u : BitVec w) (a b : List Int), tot (List.zipWith (fun x y => (ex (w := w)).g x y u) a b) ≤ tot a + tot b := by
          intro u a
          induction a with
          | nil => intro b; simp [tot]; exact tot_nonneg b
          | cons x a ih =>
            intro b
            cases b with
            | nil => simp [tot]; exact tot_nonneg (x :: a)
            | cons y b =>
              rw [List.zipWith_cons_cons, tot_cons E, tot_cons E, tot_cons E]
              have := ih b
              have := mg_g (w := w) x y u
              omega
        have := hg (xl.headD 0) (y.take (2 ^ k)) (y.drop (2 ^ k))
        omega
    · rfl

end

/-- Soft values that are not null. -/
theorem noTie_of : ∀ {k : Nat} {fr : List Bool} {y : List Int}, fr.length = 2 ^ k → (∀ i, fr[i]? = some false → soft (ex (w := w)) k y (sc ex k fr y) i ≠ 0) → noTie w k fr y
  | 0, fr, y, _, h => fun h0 => h 0 h0
  | k + 1, fr, y, hf, h => by
    have hp : 2 ^ (k + 1) = 2 ^ k + 2 ^ k := by rw [Nat.pow_succ]; omega
    simp only [sc] at h
    refine ⟨noTie_of (by rw [List.length_take]; omega) fun i hi => ?_, noTie_of (by rw [List.length_drop]; omega) fun i hi => ?_⟩
    · have hlt : i < 2 ^ k := by
        have := (List.getElem?_eq_some_iff.1 hi).1
        rw [List.length_take] at this; omega
      rw [List.getElem?_take, if_pos hlt] at hi
      have := h i hi
      simp only [soft] at this
      rwa [if_pos hlt, soft_prefix _ _ _ _ _ _ (sc_length _ _ _ _) hlt] at this
    · rw [List.getElem?_drop] at hi
      have := h (2 ^ k + i) hi
      simp only [soft] at this
      rw [if_neg (by omega), List.take_left' (sc_length _ _ _ _), List.drop_left' (sc_length _ _ _ _), Nat.add_sub_cancel_left] at this
      exact this

/-! ## Integers -/

theorem ex_f_le (a b : Int) : mg ((ex (w := w)).f a b) ≤ min (mg a) (mg b) := by
  rw [f_cases]; unfold mg; split <;> omega

theorem emb_int8 : Emb int8 id 63 where
  zero := rfl
  f := by
    intro a b h
    show wrap 8 _ = _
    have h1 := ex_f_le (w := 8) a b
    have : mg ((ex (w := 8)).f a b) ≤ 63 := by unfold mg at *; omega
    refine PolarSCL.wrap_id (by decide) ?_ ?_ <;> unfold mg at this <;> simp only [ex] at this <;> norm_num <;> omega
  g := by
    intro a b u h
    have := mg_g (w := 8) a b u
    unfold mg at this h
    simp only [ex] at this
    show saturate _ (-63) 63 = (if u = 0 then a else -a) + b
    simp only [saturate, id]
    omega
  h := fun _ _ => rfl
  g0 := by
    intro a b h
    unfold mg at h
    show saturate (a + b) (-63) 63 = a + b
    unfold saturate; omega
  acc := fun _ _ _ => rfl
  smul := fun _ _ _ => rfl
  gt := fun _ _ _ _ => rfl
  top := by
    intro a h
    unfold mg at h
    show decide ((127 : Int) > a) = true
    rw [decide_eq_true_eq]; omega

theorem emb_int16 : Emb int16 id 16382 where
  zero := rfl
  f := by
    intro a b h
    show wrap 16 _ = _
    have h1 := ex_f_le (w := 16) a b
    have : mg ((ex (w := 16)).f a b) ≤ 16382 := by unfold mg at *; omega
    refine PolarSCL.wrap_id (by decide) ?_ ?_ <;> unfold mg at this <;> simp only [ex] at this <;> norm_num <;> omega
  g := by
    intro a b u h
    have := mg_g (w := 16) a b u
    unfold mg at this h
    simp only [ex] at this
    show saturate _ (-16382) 16382 = (if u = 0 then a else -a) + b
    simp only [saturate, id]
    omega
  h := fun _ _ => rfl
  g0 := by
    intro a b h
    unfold mg at h
    show saturate (a + b) (-16382) 16382 = a + b
    unfold saturate; omega
  acc := by
    intro a b h
    unfold mg at h
    show wrap 16 (a + b) = a + b
    exact PolarSCL.wrap_id (by decide) (by norm_num; omega) (by norm_num; omega)
  smul := fun _ _ _ => rfl
  gt := fun _ _ _ _ => rfl
  top := by
    intro a h
    unfold mg at h
    show decide ((32767 : Int) > a) = true
    rw [decide_eq_true_eq]; omega

/-! ## Floating-point numbers -/

/-- The multiple `a` of `2^e`. -/
def sc2 (e : Int) (a : Int) : Fl := .fin (a * 2 ^ e)

theorem mg_abs (a : Int) : mg a = |a| := by unfold mg; rw [abs_eq_max_neg]

theorem sc2_lt (e a b : Int) : Fl.lt (sc2 e a) (sc2 e b) = decide (a < b) := by
  unfold sc2
  simp only [Fl.lt]
  have h := two_zpow_pos e
  rw [decide_eq_decide]
  constructor
  · intro h1; exact_mod_cast lt_of_mul_lt_mul_right h1 h.le
  · intro h1; exact mul_lt_mul_of_pos_right (by exact_mod_cast h1) h

theorem sc2_zero (e : Int) : sc2 e 0 = .fin 0 := by simp [sc2]

theorem emb_fl {F : Fmt} {top : ℚ} {e : Int} (h1 : F.emin ≤ e + e) (h1' : F.emin ≤ e) (h2 : F.p + e ≤ F.emax) (htop : 2 ^ (F.p + e) ≤ top) :
    Emb (w := w) (ofFl F top ⟨fFl F, gFl F, hFl w, .fin 0, .fin 1, .fin (-1)⟩) (sc2 e) (2 ^ F.p - 1) := by
  have hp := two_zpow_pos e
  have hof : ∀ a : Int, mg a ≤ 2 ^ F.p - 1 → F.of (a * 2 ^ e) = sc2 e a := fun a ha => BCJR.of_scaled (by rw [← mg_abs]; omega) h1' h2
  have hadd : ∀ a b : Int, mg a + mg b ≤ 2 ^ F.p - 1 → F.add (sc2 e a) (sc2 e b) = sc2 e (a + b) := by
    intro a b h
    show F.of (a * 2 ^ e + b * 2 ^ e) = _
    rw [← add_mul, ← Int.cast_add]
    exact hof _ (by unfold mg at *; omega)
  refine ⟨(sc2_zero e).symm, ?_, ?_, ?_, hadd, hadd, ?_, ?_, ?_⟩
  · intro a b h
    show F.mul (sgnFl (F.mul (sc2 e a) (sc2 e b))) (minFl (sc2 e a).abs (sc2 e b).abs) = _
    have habs : ∀ z : Int, (sc2 e z).abs = sc2 e (mg z) := by
      intro z
      rw [mg_abs]
      simp only [sc2, Fl.abs, abs_mul, abs_of_pos hp, Int.cast_abs]
    have hmin : minFl (sc2 e a).abs (sc2 e b).abs = sc2 e (min (mg a) (mg b)) := by
      rw [habs, habs]
      unfold minFl
      rw [sc2_lt]
      by_cases hc : mg b < mg a
      · rw [if_pos (by simpa using hc)]; congr 1; omega
      · rw [if_neg (by simpa using hc)]; congr 1; omega
    have hmul : F.mul (sc2 e a) (sc2 e b) = F.of ((a * b : Int) * 2 ^ (e + e)) := by
      show F.of _ = _
      rw [zpow_add₀ (by norm_num)]; push_cast; congr 1; ring
    have hsg : sgnFl (F.mul (sc2 e a) (sc2 e b)) = .fin (sgn a * sgn b : Int) := by
      rw [hmul]
      have hpp := two_zpow_pos (e + e)
      have pos : 0 < a * b → sgnFl (F.of ((a * b : Int) * 2 ^ (e + e))) = .fin 1 := by
        intro hc
        refine PolarSC.sgn_of_pos (e := e + e) (PolarSC.of_pos h1 ?_)
        have : (1 : ℚ) ≤ (a * b : Int) := by exact_mod_cast hc
        nlinarith
      have neg : a * b < 0 → sgnFl (F.of ((a * b : Int) * 2 ^ (e + e))) = .fin (-1) := by
        intro hc
        refine PolarSC.sgn_of_neg (e := e + e) (PolarSC.of_neg' h1 ?_)
        have : ((a * b : Int) : ℚ) ≤ -1 := by exact_mod_cast (by omega : a * b ≤ -1)
        nlinarith
      have nul : a * b = 0 → sgnFl (F.of ((a * b : Int) * 2 ^ (e + e))) = .fin 0 := by
        intro hc
        rw [hc, Int.cast_zero, zero_mul]
        have : F.of 0 = .fin 0 := by
          have := hof 0 (by
            have : (1 : Int) ≤ 2 ^ F.p := one_le_pow₀ (by norm_num)
            have h0 : mg 0 = 0 := rfl
            omega)
          rwa [Int.cast_zero, zero_mul, sc2_zero] at this
        rw [this]
        simp [sgnFl, Fl.lt]
      rcases sgn_cases a with ⟨c1, e1⟩ | ⟨c1, e1⟩ | ⟨c1, e1⟩ <;> rcases sgn_cases b with ⟨c2, e2⟩ | ⟨c2, e2⟩ | ⟨c2, e2⟩ <;> rw [e1, e2]
      · rw [pos (by nlinarith)]; norm_num
      · rw [nul (by rw [c2]; ring)]; norm_num
      · rw [neg (by nlinarith)]; norm_num
      · rw [nul (by rw [c1]; ring)]; norm_num
      · rw [nul (by rw [c1]; ring)]; norm_num
      · rw [nul (by rw [c1]; ring)]; norm_num
      · rw [neg (by nlinarith)]; norm_num
      · rw [nul (by rw [c2]; ring)]; norm_num
      · rw [pos (by nlinarith)]; norm_num
    rw [hsg, hmin]
    show F.of ((sgn a * sgn b : Int) * ((min (mg a) (mg b) : Int) * 2 ^ e)) = _
    have hm : ∀ z : Int, sgn z * z = mg z := by
      intro z
      rcases sgn_cases z with ⟨c, e⟩ | ⟨c, e⟩ | ⟨c, e⟩ <;> rw [e] <;> unfold mg <;> omega
    have : (ex (w := w)).f a b = sgn a * sgn b * min (mg a) (mg b) := by simp only [ex, hm]
    have hle := ex_f_le (w := w) a b
    rw [← mul_assoc, ← Int.cast_mul, ← this]
    have := mg_abs a; have := mg_abs b
    refine hof _ ?_
    have ha : 0 ≤ mg a := by unfold mg; omega
    have hb : 0 ≤ mg b := by unfold mg; omega
    omega
  · intro a b u h
    show F.add (if u = 0 then sc2 e a else (sc2 e a).neg) (sc2 e b) = sc2 e ((if u = 0 then a else -a) + b)
    have hn : (sc2 e a).neg = sc2 e (-a) := by simp [sc2, Fl.neg]
    rw [hn]
    split
    · exact hadd a b h
    · exact hadd (-a) b (by unfold mg at *; omega)
  · intro a h
    show (if Fl.lt (sc2 e a) (.fin 0) then _ else _) = _
    rw [← sc2_zero e, sc2_lt]
    simp [hInt]
  · intro s a h
    show F.mul (.fin (if s then -1 else 1)) (sc2 e a) = _
    show F.of ((if s then -1 else 1) * (a * 2 ^ e)) = _
    have : ((if s then -1 else 1 : ℚ)) * (a * 2 ^ e) = (smulInt s a : Int) * 2 ^ e := by
      cases s <;> simp [smulInt]
    rw [this]
    refine hof _ ?_
    unfold smulInt mg at *; split <;> omega
  · intro a b _ _
    exact sc2_lt e b a
  · intro a h
    show Fl.lt (sc2 e a) (.fin top) = true
    simp only [sc2, Fl.lt, decide_eq_true_eq]
    refine lt_of_lt_of_le ?_ htop
    have h3 : (a : ℚ) < 2 ^ F.p := by
      have : a < 2 ^ F.p := by unfold mg at h; omega
      exact_mod_cast this
    rw [zpow_add₀ (by norm_num), zpow_natCast]
    exact mul_lt_mul_of_pos_right h3 hp

theorem emb_flt {e : Int} (h1 : -74 ≤ e) (h2 : e ≤ 103) : Emb flt (sc2 e) (2 ^ 24 - 1) :=
  emb_fl (F := b32) (by show (-149 : Int) ≤ _; omega) (by show (-149 : Int) ≤ _; omega) (by show (24 : Int) + e ≤ 128; omega) (by
    show (2 : ℚ) ^ ((24 : Int) + e) ≤ _
    have h3 : (2 : ℚ) ^ ((24 : Int) + e) ≤ 2 ^ (127 : Int) := zpow_le_zpow_right₀ (by norm_num) (by omega)
    refine le_trans h3 ?_
    norm_num)

theorem emb_dbl {e : Int} (h1 : -537 ≤ e) (h2 : e ≤ 970) : Emb dbl (sc2 e) (2 ^ 53 - 1) :=
  emb_fl (F := b64) (by show (-1074 : Int) ≤ _; omega) (by show (-1074 : Int) ≤ _; omega) (by show (53 : Int) + e ≤ 1024; omega) (by
    show (2 : ℚ) ^ ((53 : Int) + e) ≤ _
    have h3 : (2 : ℚ) ^ ((53 : Int) + e) ≤ 2 ^ (1023 : Int) := zpow_le_zpow_right₀ (by norm_num) (by omega)
    refine le_trans h3 ?_
    have h4 : (1 : ℚ) ≤ 2 - 2 ^ (-52 : Int) := by norm_num
    have h5 : (2 : ℚ) ^ (1023 : Int) = 2 ^ 1023 := zpow_natCast 2 1023
    rw [h5]
    exact le_mul_of_one_le_left (by positivity) h4)

end Verif.PolarFast
