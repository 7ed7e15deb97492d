import Verif.Proof.Chase

/-! # Chase decoder: the object -/

namespace Verif.Chase
open Exec Verif.Float Verif.ML

/-! ## Costs -/

theorem of_mono_nn {F : Fmt} {x y : ℚ} (h0 : 0 ≤ x) (h : x ≤ y) : Fl.lt (F.of y) (F.of x) = false := by
  have hr := rnd_mono F h
  have hx := rnd_nn (F := F) h0
  have hy := rnd_nn (F := F) (h0.trans h)
  unfold Fmt.of
  rw [abs_of_nonneg hx, abs_of_nonneg hy]
  by_cases h1 : 2 ^ F.emax ≤ F.rnd y
  · rw [if_pos h1]
    have : decide (y < 0) = false := by rw [decide_eq_false_iff_not]; linarith
    rw [this]
    split <;> rfl
  · rw [if_neg h1, if_neg (by linarith)]
    simp only [Fl.lt, decide_eq_false_iff_not]
    linarith

theorem add_ge {acc a a0 : Fl} (h1 : NN acc) (h2 : NN a) (h3 : NN a0) (h : Fl.lt a a0 = false) : Fl.lt (b32.add acc a) (b32.add (.fin 0) a0) = false := by
  cases a0 with
  | nan => exact h3.elim
  | inf s =>
    simp only [NN] at h3; subst h3
    cases a with
    | nan => exact h2.elim
    | fin q => cases h
    | inf s =>
      simp only [NN] at h2; subst h2
      cases acc with
      | nan => exact h1.elim
      | fin q => rfl
      | inf s => simp only [NN] at h1; subst h1; rfl
  | fin q0 =>
    simp only [NN] at h3
    cases a with
    | nan => exact h2.elim
    | inf s =>
      simp only [NN] at h2; subst h2
      have : b32.add acc (.inf false) = .inf false := by
        cases acc with
        | nan => exact h1.elim
        | fin q => rfl
        | inf s => simp only [NN] at h1; subst h1; rfl
      rw [this]
      show Fl.lt (.inf false) (b32.of (0 + q0)) = false
      unfold Fmt.of
      split <;> rfl
    | fin q =>
      simp only [NN] at h2
      simp only [Fl.lt, decide_eq_false_iff_not] at h
      cases acc with
      | nan => exact h1.elim
      | inf s =>
        simp only [NN] at h1; subst h1
        show Fl.lt (.inf false) (b32.of (0 + q0)) = false
        unfold Fmt.of
        split <;> rfl
      | fin s =>
        simp only [NN] at h1
        exact of_mono_nn (by linarith) (by linarith)

theorem abs_nn {x : Fl} (h : x ≠ .nan) : NN x.abs := by
  cases x with
  | fin q => exact abs_nonneg q
  | inf s => rfl
  | nan => exact absurd rfl h

theorem fold_nn {y : List Fl} : ∀ (is : List Nat), (∀ i ∈ is, y.getD i .nan ≠ .nan) → ∀ acc, NN acc → NN (is.foldl (fun acc i => b32.add acc (y.getD i .nan).abs) acc)
  | [], _, _, h => h
  | i :: is, hi, acc, h => fold_nn is (fun j hj => hi j (List.mem_cons_of_mem _ hj)) _ (add_nn h (abs_nn (hi i List.mem_cons_self)))

theorem fcost_nn {y : List Fl} {is : List Nat} (h : ∀ i ∈ is, y.getD i .nan ≠ .nan) : NN (fcost y is) := fold_nn is h _ (show (0 : ℚ) ≤ 0 from le_rfl)

theorem nn_lt_zero {x : Fl} (h : NN x) : Fl.lt x (.fin 0) = false := by
  cases x with
  | fin q => simp only [Fl.lt, decide_eq_false_iff_not]; simp only [NN] at h; linarith
  | inf s => simp only [NN] at h; subst h; rfl
  | nan => exact h.elim

theorem fcost_ge {y : List Fl} {is : List Nat} {i0 : Nat} (hne : is ≠ []) (h : ∀ i ∈ is, y.getD i .nan ≠ .nan) (h0 : y.getD i0 .nan ≠ .nan)
    (hge : ∀ i ∈ is, Fl.lt (y.getD i .nan).abs (y.getD i0 .nan).abs = false) : Fl.lt (fcost y is) (fcost y [i0]) = false := by
  obtain ⟨is', i, rfl⟩ : ∃ is' i, is = is' ++ [i] := ⟨is.dropLast, is.getLast hne, (List.dropLast_append_getLast hne).symm⟩
  have e : fcost y (is' ++ [i]) = b32.add (fcost y is') (y.getD i .nan).abs := by unfold fcost; rw [List.foldl_append]; rfl
  rw [e]
  exact add_ge (fcost_nn fun j hj => h j (List.mem_append_left _ hj)) (abs_nn (h i (by simp))) (abs_nn h0) (hge i (by simp))

/-! ## First tests -/

theorem selList_zero (p : Nat) (l : List Nat) : selList p l 0 = [] := by
  unfold selList
  simp

theorem testBit_one (b : Nat) : Nat.testBit 1 b = decide (b = 0) := by
  rw [show (1 : Nat) = 2 ^ 0 from rfl, Nat.testBit_two_pow]
  congr 1
  exact propext eq_comm

theorem selList_one {p : Nat} (hp : 1 ≤ p) (l : List Nat) : selList p l 1 = [l.getD 0 0] := by
  obtain ⟨p, rfl⟩ : ∃ q, p = q + 1 := ⟨p - 1, by omega⟩
  induction p with
  | zero => rfl
  | succ p ih =>
    rw [selList_succ, ih (by omega), testBit_one]
    simp

theorem selList_mem {p : Nat} {l : List Nat} {t i : Nat} (h : i ∈ selList p l t) : ∃ b, b < p ∧ t.testBit b = true ∧ l.getD b 0 = i := by
  unfold selList at h
  obtain ⟨b, hb, rfl⟩ := List.mem_map.mp h
  rw [List.mem_filter, List.mem_range] at hb
  exact ⟨b, hb.1, hb.2, rfl⟩

theorem selList_ne {p : Nat} {l : List Nat} {t : Nat} (h0 : t ≠ 0) (ht : t < 2 ^ p) : selList p l t ≠ [] := by
  intro h
  apply h0
  apply Nat.eq_of_testBit_eq
  intro b
  rw [Nat.zero_testBit]
  by_cases hb : b < p
  · by_contra hc
    have : l.getD b 0 ∈ selList p l t := by
      unfold selList
      exact List.mem_map.mpr ⟨b, List.mem_filter.mpr ⟨List.mem_range.mpr hb, by simpa using hc⟩, rfl⟩
    rw [h] at this
    cases this
  · exact Nat.testBit_lt_two_pow (lt_of_lt_of_le ht (Nat.pow_le_pow_right (by omega) (by omega)))

theorem app_one {p : Nat} (hp : 1 ≤ p) {l : List Nat} {x : List Int} : x.set (l.getD 0 0) (nb (x.getD (l.getD 0 0) 0)) = app p l 1 x := by
  refine ext_getD (by rw [List.length_set, app_length]) fun i hi => ?_
  rw [List.length_set] at hi
  have hs : sel p l 1 i = (l.getD 0 0 == i) := by
    rw [Bool.eq_iff_iff]
    unfold sel
    simp only [List.any_eq_true, List.mem_range, Bool.and_eq_true, beq_iff_eq]
    constructor
    · rintro ⟨b, -, h1, h2⟩
      rw [testBit_one, decide_eq_true_eq] at h1
      subst h1
      exact h2
    · intro h
      exact ⟨0, by omega, by rw [testBit_one]; rfl, h⟩
  rw [app_getD hi, hs, getD_lt _ (by rw [List.length_set]; exact hi), List.getElem_set]
  by_cases e : l.getD 0 0 = i
  · rw [if_pos e, if_pos (by simpa using e), e]
  · rw [if_neg e, if_neg (by simpa using e), getD_lt _ hi]

/-! ## The object -/

/-- What every call keeps. -/
structure Ok (d : Dec) : Prop where
  good : d.c.Good
  cK : d.c.K.toNat = d.K
  cN : d.c.N.toNat = d.N
  N0 : 0 < d.N
  fN : d.flips ≤ d.N
  f31 : d.flips ≤ 31
  sort : ∀ y : List Fl, y.length = d.N → (∀ b ∈ y, b ≠ .nan) → LeastReliable d.flips d.N y (d.sort y)
  bx : d.bestX.length = d.N
  best : d.best < 2 ^ d.flips

theorem mk?_ok {K N : Int} {c : Coder} {fl : Nat} {hamming : Bool} {sort : List Fl → List Nat} {d : Dec} (hK : c.K = K) (hN : c.N = N) (hg : c.Good)
    (hs : ∀ y : List Fl, y.length = N.toNat → (∀ b ∈ y, b ≠ .nan) → LeastReliable fl N.toNat y (sort y)) (h : Dec.mk? K N c fl hamming sort = ok d) : Ok d := by
  unfold Dec.mk? at h
  by_cases h1 : K ≤ 0
  · rw [if_pos h1] at h; cases h
  rw [if_neg h1] at h
  by_cases h2 : N ≤ 0
  · rw [if_pos h2] at h; cases h
  rw [if_neg h2] at h
  by_cases h3 : K > N
  · rw [if_pos h3] at h; cases h
  rw [if_neg h3] at h
  by_cases h4 : fl > N.toNat
  · rw [if_pos h4] at h; cases h
  rw [if_neg h4] at h
  by_cases h5 : fl > 31
  · rw [if_pos h5] at h; cases h
  rw [if_neg h5] at h
  cases h
  exact ⟨hg, by show c.K.toNat = K.toNat; rw [hK], by show c.N.toNat = N.toNat; rw [hN], by show 0 < N.toNat; omega, by show fl ≤ N.toNat; omega, by show fl ≤ 31; omega, hs,
    by simp, Nat.pow_pos (by omega)⟩

/-- The result of a decoding. -/
inductive Res {D : Type} (lt : D → D → Bool) (cost : List Nat → D) (top : D) (d : Dec) (l : List Nat) (h : List Int) (r : Dec × List Int) : Prop
  | plain : r = (d, h) → (d.c.isCw h = true ∨ d.flips = 0) → Res lt cost top d l h r
  | one : 1 ≤ d.flips → d.c.isCw h = false → d.c.isCw (app d.flips l 1 h) = true → r = (d, app d.flips l 1 h) → Res lt cost top d l h r
  | more (e : D) : 1 ≤ d.flips → d.c.isCw h = false → d.c.isCw (app d.flips l 1 h) = false → r = ({ d with best := r.1.best }, app d.flips l r.1.best h) →
      Sel lt (2 ^ d.flips) (fun t => d.c.isCw (app d.flips l t h)) (fun t => cost (selList d.flips l t)) top d.best (e, r.1.best) → Res lt cost top d l h r

theorem hard_length (y : List Fl) : (hard y).length = y.length := by unfold hard; rw [List.length_map]

theorem hard_bits (y : List Fl) : IsBits (hard y) := by
  intro b hb
  unfold hard at hb
  obtain ⟨v, -, rfl⟩ := List.mem_map.mp hb
  split <;> simp

theorem harden_eq {N : Nat} {y : List Fl} {v : List Int} (hy : y.length = N) (hv : v.length = N) : forN N (fun i o => do
      let a ← rd y i
      wr o i (if Fl.lt a (.fin 0) then 1 else 0)) v = ok (hard y) := by
  have e : forN N (fun i o => do
      let a ← rd y i
      wr o i (if Fl.lt a (.fin 0) then (1 : Int) else 0)) v =
      forN N (fun i o => wr o (0 + i) (if Fl.lt (y.getD i .nan) (.fin 0) then (1 : Int) else 0)) v := by
    refine forN_congr fun i s hi => ?_
    rw [rd_lt (by omega), bind_ok, getD_lt _ (by omega), Nat.zero_add]
  rw [e]
  obtain ⟨o, eo, o1, o2⟩ := forN_fill (n := N) (off := 0) (g := fun i => if Fl.lt (y.getD i .nan) (.fin 0) then (1 : Int) else 0) (out := v) (by omega)
  rw [eo]
  congr 1
  apply List.ext_getElem?
  intro i
  rw [o2 i, hard, List.getElem?_map]
  by_cases hi : i < N
  · rw [if_pos (by omega), Nat.sub_zero, getD_lt _ (by omega), List.getElem?_eq_getElem (by omega)]; rfl
  · rw [if_neg (by omega), List.getElem?_eq_none (by omega), List.getElem?_eq_none (by omega)]; rfl

theorem foldl_count (is : List Nat) (n : Nat) : is.foldl (fun acc _ => acc + 1) n = n + is.length := by
  induction is generalizing n with
  | nil => rfl
  | cons a is ih => rw [List.foldl_cons, ih, List.length_cons]; omega

/-- What is common to the two metrics. -/
theorem cw_sat {D : Type} {lt : D → D → Bool} (tr : ∀ a b c, lt a b = true → lt b c = true → lt a c = true) (irr : ∀ a, lt a a = false)
    {d : Dec} (hd : Ok d) {y : List Fl} {v : List Int} (hy : y.length = d.N) (hn : ∀ b ∈ y, b ≠ .nan) (hv : v.length = d.N)
    {add : D → Nat → Exec D} {addp : D → Nat → D} (ha : ∀ a, ∀ i ∈ d.sort y, add a i = ok (addp a i)) {zero top : D}
    (cot : ∀ t, ∀ c r, lt c r = true → lt ((selList d.flips (d.sort y) t).foldl addp zero) r = false → lt c ((selList d.flips (d.sort y) t).foldl addp zero) = true)
    (he : ∀ x, (if d.hamming then search (fun a b => decide (a < b)) 0 (2 ^ 32 - 1) addHam d.c.isCw d.flips (d.sort y) x d.best
      else search Fl.lt (.fin 0) fltMax (addEuc y) d.c.isCw d.flips (d.sort y) x d.best) = search lt zero top add d.c.isCw d.flips (d.sort y) x d.best) :
    (d.sihoCw y v).Sat fun r => Res lt (fun is => is.foldl addp zero) top d (d.sort y) (hard y) r := by
  unfold Dec.sihoCw
  rw [harden_eq hy hv, bind_ok]
  have hs := hd.sort y hy hn
  have hlen := hs.len
  have hN0 := hd.N0
  have hfN := hd.fN
  have hxl : ∀ i ∈ d.sort y, i < (hard y).length := fun i hi => by rw [hard_length, hy]; exact hs.lt i hi
  have hl0 : (d.sort y).getD 0 0 < (hard y).length := hxl _ (by rw [getD_lt _ (by omega)]; exact List.getElem_mem _)
  by_cases hc : d.flips ≠ 0 ∧ !d.c.isCw (hard y)
  · rw [if_pos hc]
    obtain ⟨c1, c2⟩ := hc
    have c2' : d.c.isCw (hard y) = false := by simpa using c2
    have hp1 : 1 ≤ d.flips := by omega
    unfold Dec.repair
    simp only
    rw [rd_lt (by omega), bind_ok, ← getD_lt 0 (by omega), flip1_eq hl0, bind_ok, app_one hp1]
    by_cases c3 : d.c.isCw (app d.flips (d.sort y) 1 (hard y)) = true
    · rw [if_pos c3, bind_ok, sat_ok]
      exact .one hp1 c2' c3 rfl
    · rw [if_neg c3, flip1_eq (by rw [app_length]; exact hl0), bind_ok, app_one hp1, app_app (hard_bits y), he]
      refine (search_sat tr irr hp1 hs.nodup (by omega) (hard_bits y) hxl ha cot d.best).bind ?_
      rintro ⟨x, b⟩ ⟨r1, e, r2⟩
      rw [sat_ok]
      simp only at r1 r2
      subst r1
      exact .more e hp1 c2' (by simpa using c3) rfl r2
  · rw [if_neg hc, sat_ok]
    refine .plain rfl ?_
    by_contra hcon
    push_neg at hcon
    exact hc ⟨hcon.2, by simpa using hcon.1⟩

theorem ys_ok {d : Dec} (hd : Ok d) {y : List Fl} (hy : y.length = d.N) (hn : ∀ b ∈ y, b ≠ .nan) : ∀ i ∈ d.sort y, i < y.length ∧ y.getD i .nan ≠ .nan := by
  intro i hi
  have := (hd.sort y hy hn).lt i hi
  exact ⟨by omega, by rw [getD_lt _ (by omega)]; exact hn _ (List.getElem_mem _)⟩

theorem sel_in {d : Dec} (hd : Ok d) {y : List Fl} (hy : y.length = d.N) (hn : ∀ b ∈ y, b ≠ .nan) {t i : Nat} (h : i ∈ selList d.flips (d.sort y) t) : i ∈ d.sort y := by
  obtain ⟨b, hb, -, rfl⟩ := selList_mem h
  have := (hd.sort y hy hn).len
  have := hd.fN
  rw [getD_lt _ (by omega)]
  exact List.getElem_mem _

theorem soft_sat {d : Dec} (hd : Ok d) (hh : d.hamming = false) {y : List Fl} {v : List Int} (hy : y.length = d.N) (hn : ∀ b ∈ y, b ≠ .nan) (hv : v.length = d.N) :
    (d.sihoCw y v).Sat fun r => Res Fl.lt (fcost y) fltMax d (d.sort y) (hard y) r := by
  refine cw_sat lt_trans' lt_irr hd hy hn hv (add := addEuc y) (addp := fun acc i => b32.add acc (y.getD i .nan).abs) (zero := .fin 0) ?_ ?_ ?_
  · intro a i hi
    unfold addEuc
    have hl := (ys_ok hd hy hn i hi).1
    rw [rd_lt hl, bind_ok, getD_lt _ hl]
  · intro t c r h1 h2
    exact lt_cot _ (nn_ne (fcost_nn fun i hi => (ys_ok hd hy hn i (sel_in hd hy hn hi)).2)) c r h1 h2
  · intro x; rw [hh]; rfl

theorem ham_sat {d : Dec} (hd : Ok d) (hh : d.hamming = true) {y : List Fl} {v : List Int} (hy : y.length = d.N) (hn : ∀ b ∈ y, b ≠ .nan) (hv : v.length = d.N) :
    (d.sihoCw y v).Sat fun r => Res (fun a b => decide (a < b)) List.length (2 ^ 32 - 1) d (d.sort y) (hard y) r := by
  have := cw_sat (lt := fun a b : Nat => decide (a < b)) (top := 2 ^ 32 - 1) (by intro a b c h1 h2; simp only [decide_eq_true_eq] at *; omega) (by intro a; simp)
    hd hy hn hv (add := addHam) (addp := fun acc _ => acc + 1) (zero := 0) (fun _ _ _ => rfl) ?_ ?_
  · have e : (fun is : List Nat => is.foldl (fun acc _ => acc + 1) 0) = List.length := by
      funext is; rw [foldl_count, Nat.zero_add]
    rw [e] at this
    exact this
  · intro t c r h1 h2; simp only [decide_eq_true_eq, decide_eq_false_iff_not] at *; omega
  · intro x; rw [hh]; rfl

theorem Res.len {D : Type} {lt : D → D → Bool} {cost : List Nat → D} {top : D} {d : Dec} {l : List Nat} {h : List Int} {r : Dec × List Int} (hr : Res lt cost top d l h r) :
    r.2.length = h.length ∧ (d.best < 2 ^ d.flips → r.1.best < 2 ^ d.flips) ∧ r.1 = { d with best := r.1.best } := by
  cases hr with
  | plain e _ => subst e; exact ⟨rfl, id, rfl⟩
  | one _ _ _ e => subst e; exact ⟨app_length _ _ _ _, id, rfl⟩
  | more e _ _ _ h1 h2 =>
    refine ⟨by rw [h1]; exact app_length _ _ _ _, fun hb => ?_, by rw [h1]⟩
    cases h2 with
    | none h2 _ => simp only [Prod.mk.injEq] at h2; rw [h2.2]; exact hb
    | some _ h2 _ _ _ _ => exact h2

/-- What a call keeps. -/
def Kept (d d' : Dec) : Prop := Ok d' ∧ d'.K = d.K ∧ d'.N = d.N ∧ d'.c = d.c

theorem Res.kept {D : Type} {lt : D → D → Bool} {cost : List Nat → D} {top : D} {d : Dec} (hd : Ok d) {l : List Nat} {h : List Int} {r : Dec × List Int} (hr : Res lt cost top d l h r) :
    Kept d r.1 := by
  obtain ⟨-, h2, h3⟩ := hr.len
  have h2 := h2 hd.best
  rw [h3]
  exact ⟨⟨hd.good, hd.cK, hd.cN, hd.N0, hd.fN, hd.f31, hd.sort, hd.bx, h2⟩, rfl, rfl, rfl⟩

theorem sihoCw_kept {d : Dec} (hd : Ok d) {y : List Fl} {v : List Int} (hy : y.length = d.N) (hn : ∀ b ∈ y, b ≠ .nan) (hv : v.length = d.N) :
    (d.sihoCw y v).Sat fun r => Kept d r.1 ∧ r.2.length = d.N := by
  cases hh : d.hamming
  · exact (soft_sat hd hh hy hn hv).mono fun r hr => ⟨hr.kept hd, by rw [hr.len.1, hard_length, hy]⟩
  · exact (ham_sat hd hh hy hn hv).mono fun r hr => ⟨hr.kept hd, by rw [hr.len.1, hard_length, hy]⟩

theorem extract_eq {d : Dec} (h : Ok d) {x v : List Int} (hx : x.length = d.N) (hv : v.length = d.K) : forN d.K (fun k o => do
      let p ← rd d.c.infoPos k
      let a ← rd x p
      wr o k a) v = ok (infoOf d.c x) := by
  have hp := h.good.pos
  rw [h.cK] at hp
  have hb : ∀ k (hk : k < d.c.infoPos.length), d.c.infoPos[k] < d.N := fun k hk => by
    rw [← h.cN]; exact h.good.posLt _ (List.getElem_mem hk)
  have e : forN d.K (fun k o => do
      let p ← rd d.c.infoPos k
      let a ← rd x p
      wr o k a) v = forN d.K (fun k o => wr o (0 + k) ((infoOf d.c x).getD k 0)) v := by
    refine forN_congr fun k s hk => ?_
    have hb' := hb k (by omega)
    rw [rd_lt (by omega), bind_ok, rd_lt (by omega), bind_ok, Nat.zero_add]
    congr 1
    rw [getD_lt _ (by rw [infoOf, List.length_map]; omega)]
    simp only [infoOf, List.getElem_map]
    rw [getD_lt _ (by omega)]
  rw [e]
  obtain ⟨o, eo, o1, o2⟩ := forN_fill (n := d.K) (off := 0) (g := fun k => (infoOf d.c x).getD k 0) (out := v) (by omega)
  rw [eo]
  congr 1
  apply List.ext_getElem?
  intro i
  have hil : (infoOf d.c x).length = d.K := by rw [infoOf, List.length_map, hp]
  rw [o2 i]
  by_cases hi : i < d.K
  · rw [if_pos (by omega), Nat.sub_zero, getD_lt _ (by omega), List.getElem?_eq_getElem (by omega)]
  · rw [if_neg (by omega), List.getElem?_eq_none (by omega), List.getElem?_eq_none (by omega)]

theorem siho_of {d d' : Dec} (h : Ok d) {y : List Fl} {x v : List Int} (hs : d.c.sys = true) (hv : v.length = d.K)
    (e : d.sihoCw y d.bestX = ok (d', x)) (hx : x.length = d.N) : d.siho y v = ok ({ d' with bestX := x }, infoOf d.c x) := by
  unfold Dec.siho
  rw [hs, if_neg (by simp), e, bind_ok]
  simp only
  rw [extract_eq h hx hv, bind_ok]

theorem Reach.ok {d : Dec} (h : Reach d) : Ok d := by
  induction h with
  | make h1 h2 h3 h4 h5 => exact mk?_ok h1 h2 h3 h4 h5
  | sihoCw _ hy hn hv e ih => exact (sat_of_ok (sihoCw_kept ih hy hn hv) e).1.1
  | @siho d d' y v v' _ hy hn hv e ih =>
    by_cases hs : d.c.sys = true
    · obtain ⟨⟨d2, x⟩, e2, hk, hx⟩ := sihoCw_kept ih hy hn ih.bx
      rw [siho_of ih hs hv e2 hx] at e
      cases e
      obtain ⟨⟨k1, k2, k3, k4, k5, k6, k7, k8, k9⟩, q1, q2, q3⟩ := hk
      exact ⟨k1, k2, k3, k4, k5, k6, k7, by rw [hx]; exact q2.symm, k9⟩
    · unfold Dec.siho at e
      rw [if_pos (by simpa using hs)] at e
      cases e

/-- From the result of a decoding to the best codeword. -/
theorem Res.best {D : Type} {lt : D → D → Bool} {cost : List Nat → D} {top : D} {d : Dec} (hd : Ok d) {y : List Fl} (hy : y.length = d.N) (hn : ∀ b ∈ y, b ≠ .nan)
    {r : Dec × List Int} (hr : Res lt cost top d (d.sort y) (hard y) r)
    (hz : ∀ t, lt (cost (selList d.flips (d.sort y) t)) (cost []) = false)
    (h1 : ∀ t, t ≠ 0 → t < 2 ^ d.flips → lt (cost (selList d.flips (d.sort y) t)) (cost [(d.sort y).getD 0 0]) = false)
    (hex : ∃ x, Near d.c.isCw (d.tested y) (hard y) x ∧ lt (cost (diff (d.tested y) x (hard y))) top = true) :
    FirstBest (fun a b => lt a b = true) cost d.c.isCw (d.tested y) (hard y) r.2 := by
  have hs := hd.sort y hy hn
  have hlen := hs.len
  have hfN := hd.fN
  have hp : d.flips ≤ (d.sort y).length := by omega
  have hxl : ∀ i ∈ d.sort y, i < (hard y).length := fun i hi => by rw [hard_length, hy]; exact hs.lt i hi
  have hb := hard_bits y
  -- the codewords are the tests
  have key : ∀ t, t < 2 ^ d.flips → d.c.isCw (app d.flips (d.sort y) t (hard y)) = true →
      (∀ t', t' < 2 ^ d.flips → d.c.isCw (app d.flips (d.sort y) t' (hard y)) = true →
        lt (cost (selList d.flips (d.sort y) t')) (cost (selList d.flips (d.sort y) t)) = false ∧
        (t' < t → lt (cost (selList d.flips (d.sort y) t)) (cost (selList d.flips (d.sort y) t')) = true)) →
      FirstBest (fun a b => lt a b = true) cost d.c.isCw (d.tested y) (hard y) (app d.flips (d.sort y) t (hard y)) := by
    intro t ht hc hall
    refine ⟨near_app hp hb hxl hc, fun x' hx' => ?_⟩
    obtain ⟨t', ht', rfl⟩ := near_is_app hs.nodup hp hb hxl hx'
    unfold Dec.tested
    rw [diff_app hs.nodup hp hxl, diff_app hs.nodup hp hxl, rank_app hs.nodup hp ht hxl, rank_app hs.nodup hp ht' hxl]
    obtain ⟨g1, g2⟩ := hall t' ht' hx'.2.2.1
    exact ⟨by show ¬ lt _ _ = true; rw [g1]; simp, g2⟩
  have h0 : app d.flips (d.sort y) 0 (hard y) = hard y := app_test_zero _ _ _
  obtain ⟨x0, hx0, hlt⟩ := hex
  obtain ⟨t0, ht0, rfl⟩ := near_is_app hs.nodup hp hb hxl hx0
  have hc0 := hx0.2.2.1
  unfold Dec.tested at hlt
  rw [diff_app hs.nodup hp hxl] at hlt
  have h2p : 0 < 2 ^ d.flips := Nat.pow_pos (by omega)
  cases hr with
  | plain e hc =>
    subst e
    have hc : d.c.isCw (hard y) = true := by
      rcases hc with hc | hc
      · exact hc
      · have : t0 = 0 := by rw [hc] at ht0; omega
        rw [this, h0] at hc0
        exact hc0
    show FirstBest _ _ _ _ _ (hard y)
    rw [← h0] at hc
    have := key 0 h2p hc fun t' _ _ => ⟨by rw [selList_zero]; exact hz t', fun h => by omega⟩
    rwa [h0] at this
  | one hp1 c0 c1 e =>
    subst e
    have h2 : 1 < 2 ^ d.flips := Nat.one_lt_two_pow (by omega)
    refine key 1 h2 c1 fun t' ht' hc' => ?_
    have : t' ≠ 0 := by rintro rfl; rw [h0, c0] at hc'; cases hc'
    exact ⟨by rw [selList_one hp1]; exact h1 t' this ht', fun h => by omega⟩
  | more e hp1 c0 c1 hr1 hr2 =>
    have ge2 : ∀ t', d.c.isCw (app d.flips (d.sort y) t' (hard y)) = true → 2 ≤ t' := by
      intro t' hc'
      have a0 : t' ≠ 0 := by rintro rfl; rw [h0, c0] at hc'; cases hc'
      have a1 : t' ≠ 1 := by rintro rfl; rw [c1] at hc'; cases hc'
      omega
    have hx2 : r.2 = app d.flips (d.sort y) r.1.best (hard y) := congrArg Prod.snd hr1
    rw [hx2]
    cases hr2 with
    | none _ h' =>
      have := h' t0 (ge2 t0 hc0) ht0 hc0
      rw [hlt] at this
      cases this
    | some s1 s2 s3 s4 s5 s6 =>
      exact key _ s2 s3 fun t' ht' hc' => s6 t' (ge2 t' hc') ht' hc'

end Verif.Chase
