import Verif.Spec.Chase
import Verif.Proof.MLUse

/-! # Chase decoder: the tests -/

namespace Verif.Chase
open Exec Verif.Float Verif.ML

/-- Negation of a bit. -/
def nb (v : Int) : Int := if v = 0 then 1 else 0

/-- Is position `i` flipped by test `t`? -/
def sel (p : Nat) (l : List Nat) (t i : Nat) : Bool := (List.range p).any fun b => t.testBit b && l.getD b 0 == i

/-- The word flipped by test `t`. -/
def app (p : Nat) (l : List Nat) (t : Nat) (x : List Int) : List Int :=
  (List.range x.length).map fun i => if sel p l t i then nb (x.getD i 0) else x.getD i 0

/-- The positions flipped by test `t`. -/
def selList (p : Nat) (l : List Nat) (t : Nat) : List Nat := ((List.range p).filter fun b => t.testBit b).map fun b => l.getD b 0

theorem app_length (p : Nat) (l : List Nat) (t : Nat) (x : List Int) : (app p l t x).length = x.length := by simp [app]

theorem app_getD {p : Nat} {l : List Nat} {t : Nat} {x : List Int} {i : Nat} (hi : i < x.length) :
    (app p l t x).getD i 0 = if sel p l t i then nb (x.getD i 0) else x.getD i 0 := by
  rw [getD_lt _ (by rw [app_length]; exact hi)]
  simp [app]

theorem sel_succ (p : Nat) (l : List Nat) (t i : Nat) : sel (p + 1) l t i = (sel p l t i || (t.testBit p && l.getD p 0 == i)) := by
  unfold sel
  rw [List.range_succ, List.any_append]
  simp

theorem getD_inj {l : List Nat} (hl : l.Nodup) {a b : Nat} (ha : a < l.length) (hb : b < l.length) (h : l.getD a 0 = l.getD b 0) : a = b := by
  rw [getD_lt _ ha, getD_lt _ hb] at h
  exact (List.Nodup.getElem_inj_iff hl).mp h

theorem sel_at {p : Nat} {l : List Nat} (hl : l.Nodup) (hp : p ≤ l.length) {t b : Nat} (hb : b < l.length) : sel p l t (l.getD b 0) = (decide (b < p) && t.testBit b) := by
  rw [Bool.eq_iff_iff]
  unfold sel
  simp only [List.any_eq_true, List.mem_range, Bool.and_eq_true, beq_iff_eq, decide_eq_true_eq]
  constructor
  · rintro ⟨c, hc, ht, e⟩
    obtain rfl := getD_inj hl (by omega) hb e
    exact ⟨hc, ht⟩
  · rintro ⟨h1, h2⟩
    exact ⟨b, h1, h2, rfl⟩

theorem sel_out {p : Nat} {l : List Nat} (hp : p ≤ l.length) {t i : Nat} (hi : i ∉ l.take p) : sel p l t i = false := by
  unfold sel
  rw [List.any_eq_false]
  intro b hb
  rw [List.mem_range] at hb
  simp only [Bool.and_eq_true, beq_iff_eq, not_and]
  rintro - rfl
  apply hi
  rw [getD_lt _ (by omega)]
  exact List.mem_take_iff_getElem.mpr ⟨b, by omega, rfl⟩

theorem flip1_eq {x : List Int} {i : Nat} (hi : i < x.length) : flip1 x i = ok (x.set i (nb (x.getD i 0))) := by
  unfold flip1
  rw [rd_lt hi, bind_ok, wr_lt hi, getD_lt _ hi]
  rfl

theorem app_zero (l : List Nat) (t : Nat) (x : List Int) : app 0 l t x = x := by
  apply List.ext_getElem (by rw [app_length])
  intro i h1 h2
  simp [app, sel, h2]

theorem app_succ_pos {p : Nat} {l : List Nat} (hl : l.Nodup) (hp : p < l.length) {t : Nat} {x : List Int} (hx : l.getD p 0 < x.length) (ht : t.testBit p = true) :
    (app p l t x).set (l.getD p 0) (nb ((app p l t x).getD (l.getD p 0) 0)) = app (p + 1) l t x := by
  apply List.ext_getElem (by rw [List.length_set, app_length, app_length])
  intro i h1 h2
  rw [app_length] at h2
  have e2 : (app (p + 1) l t x)[i]'(by rw [app_length]; exact h2) = (app (p + 1) l t x).getD i 0 := (getD_lt _ (by rw [app_length]; exact h2)).symm
  rw [e2, app_getD h2, List.getElem_set]
  by_cases e : l.getD p 0 = i
  · subst e
    rw [if_pos rfl, app_getD hx, sel_at hl (by omega) hp, sel_at hl (by omega) hp, ht]
    simp
  · rw [if_neg e]
    have e3 : (app p l t x)[i]'(by rw [app_length]; exact h2) = (app p l t x).getD i 0 := (getD_lt _ (by rw [app_length]; exact h2)).symm
    rw [e3, app_getD h2, sel_succ]
    have : (l.getD p 0 == i) = false := by rw [beq_eq_false_iff_ne]; exact e
    rw [this]
    simp

theorem app_succ_neg {p : Nat} {l : List Nat} {t : Nat} {x : List Int} (ht : t.testBit p = false) : app (p + 1) l t x = app p l t x := by
  unfold app
  apply List.map_congr_left
  intro i _
  rw [sel_succ, ht]
  simp

theorem flips_eq {p : Nat} {l : List Nat} (hl : l.Nodup) (hp : p ≤ l.length) {t : Nat} {x : List Int} (hx : ∀ i ∈ l, i < x.length) : flips p l t x = ok (app p l t x) := by
  obtain ⟨r, e, hr⟩ := forN_inv (n := p) (s := x) (f := fun b (x : List Int) => if t.testBit b then do
      let i ← rd l b
      flip1 x i
    else ok x) (fun m r => r = app m l t x) (app_zero l t x).symm (fun m r hm hr => by
      subst hr
      have hlm : l.getD m 0 < x.length := by rw [getD_lt _ (by omega)]; exact hx _ (List.getElem_mem _)
      by_cases ht : t.testBit m = true
      · rw [if_pos ht, rd_lt (by omega), bind_ok, ← getD_lt 0 (by omega), flip1_eq (by rw [app_length]; exact hlm), sat_ok]
        exact app_succ_pos hl (by omega) hlm ht
      · rw [if_neg ht, sat_ok]
        exact (app_succ_neg (by simpa using ht)).symm)
  unfold flips
  rw [e, hr]

theorem selList_succ (p : Nat) (l : List Nat) (t : Nat) : selList (p + 1) l t = selList p l t ++ if t.testBit p then [l.getD p 0] else [] := by
  unfold selList
  rw [List.range_succ, List.filter_append, List.map_append]
  congr 1
  by_cases h : t.testBit p = true
  · rw [if_pos h, List.filter_cons_of_pos (by simpa using h)]; rfl
  · rw [if_neg h, List.filter_cons_of_neg (by simpa using h)]; rfl

theorem flipsD_eq {D : Type} {p : Nat} {l : List Nat} (hl : l.Nodup) (hp : p ≤ l.length) {t : Nat} {x : List Int} (hx : ∀ i ∈ l, i < x.length)
    {add : D → Nat → Exec D} {addp : D → Nat → D} (ha : ∀ a, ∀ i ∈ l, add a i = ok (addp a i)) {zero : D} :
    flipsD p l t add (x, zero) = ok (app p l t x, (selList p l t).foldl addp zero) := by
  obtain ⟨r, e, hr⟩ := forN_inv (n := p) (s := (x, zero)) (f := fun b (r : List Int × D) =>
    if t.testBit b then do
      let i ← rd l b
      let x ← flip1 r.1 i
      let a ← add r.2 i
      ok (x, a)
    else ok r) (fun m r => r = (app m l t x, (selList m l t).foldl addp zero)) (by rw [app_zero]; rfl) (fun m r hm hr => by
      subst hr
      have hlm : l.getD m 0 ∈ l := by rw [getD_lt _ (by omega)]; exact List.getElem_mem _
      by_cases ht : t.testBit m = true
      · rw [if_pos ht, rd_lt (by omega), bind_ok, ← getD_lt 0 (by omega), flip1_eq (by rw [app_length]; exact hx _ hlm), bind_ok, ha _ _ hlm, bind_ok, sat_ok, selList_succ, if_pos ht,
          List.foldl_append]
        rw [← app_succ_pos hl (by omega) (hx _ hlm) ht]
        rfl
      · rw [if_neg ht, sat_ok, selList_succ, if_neg ht, List.append_nil, app_succ_neg (by simpa using ht)])
  unfold flipsD
  rw [e, hr]

theorem nb_nb {v : Int} (h : v = 0 ∨ v = 1) : nb (nb v) = v := by rcases h with rfl | rfl <;> rfl

theorem getD_bits {x : List Int} (h : IsBits x) (i : Nat) : x.getD i 0 = 0 ∨ x.getD i 0 = 1 := by
  by_cases hi : i < x.length
  · rw [getD_lt _ hi]; exact h _ (List.getElem_mem _)
  · rw [List.getD_eq_getElem?_getD, List.getElem?_eq_none (by omega)]; exact .inl rfl

theorem ext_getD {x x' : List Int} (hl : x.length = x'.length) (h : ∀ i, i < x.length → x.getD i 0 = x'.getD i 0) : x = x' := by
  apply List.ext_getElem hl
  intro i h1 h2
  have := h i h1
  rwa [getD_lt _ h1, getD_lt _ h2] at this

theorem app_app {p : Nat} {l : List Nat} {t : Nat} {x : List Int} (hb : IsBits x) : app p l t (app p l t x) = x := by
  refine ext_getD (by rw [app_length, app_length]) fun i hi => ?_
  rw [app_length, app_length] at hi
  rw [app_getD (by rw [app_length]; exact hi), app_getD hi]
  by_cases h : sel p l t i = true
  · rw [if_pos h, if_pos h, nb_nb (getD_bits hb i)]
  · rw [if_neg h, if_neg h]

theorem app_bits {p : Nat} {l : List Nat} {t : Nat} {x : List Int} (hb : IsBits x) : IsBits (app p l t x) := by
  intro b h
  obtain ⟨i, hi, e⟩ := List.getElem_of_mem h
  rw [← getD_lt 0 hi] at e
  rw [app_length] at hi
  rw [app_getD hi] at e
  rw [← e]
  have := getD_bits hb i
  split
  · unfold nb; split <;> simp
  · exact this

theorem app_test_zero (p : Nat) (l : List Nat) (x : List Int) : app p l 0 x = x := by
  refine ext_getD (by rw [app_length]) fun i hi => ?_
  rw [app_length] at hi
  rw [app_getD hi, if_neg]
  simp [sel]

/-! ## Tests and words -/

theorem differ {p : Nat} {l : List Nat} (hl : l.Nodup) (hp : p ≤ l.length) {t : Nat} {h : List Int} (hx : ∀ i ∈ l, i < h.length) {b : Nat} (hb : b < p) :
    decide ((app p l t h).getD (l.getD b 0) 0 ≠ h.getD (l.getD b 0) 0) = t.testBit b := by
  have hm : l.getD b 0 < h.length := by rw [getD_lt _ (by omega)]; exact hx _ (List.getElem_mem _)
  rw [app_getD hm, sel_at hl hp (by omega)]
  have : decide (b < p) = true := by simpa using hb
  rw [this, Bool.true_and]
  by_cases ht : t.testBit b = true
  · rw [if_pos ht, ht, decide_eq_true_eq]
    unfold nb
    split <;> omega
  · rw [if_neg ht]
    simpa using ht

theorem take_map {p : Nat} {l : List Nat} (hp : p ≤ l.length) : l.take p = (List.range p).map fun b => l.getD b 0 := by
  apply List.ext_getElem (by simp; omega)
  intro i h1 h2
  rw [List.getElem_take, List.getElem_map, List.getElem_range, getD_lt _ (by simp at h2; omega)]

theorem diff_app {p : Nat} {l : List Nat} (hl : l.Nodup) (hp : p ≤ l.length) {t : Nat} {h : List Int} (hx : ∀ i ∈ l, i < h.length) :
    diff (l.take p) (app p l t h) h = selList p l t := by
  unfold diff selList
  rw [take_map hp, List.filter_map]
  congr 1
  apply List.filter_congr
  intro b hb
  rw [List.mem_range] at hb
  exact differ hl hp hx hb

theorem rank_app {p : Nat} {l : List Nat} (hl : l.Nodup) (hp : p ≤ l.length) {t : Nat} (ht : t < 2 ^ p) {h : List Int} (hx : ∀ i ∈ l, i < h.length) :
    rank (l.take p) (app p l t h) h = t := by
  unfold rank
  rw [take_map hp, List.map_map]
  refine Eq.trans ?_ (value_bitsOf p t ht)
  congr 1
  unfold bitsOf
  apply List.map_congr_left
  intro b hb
  rw [List.mem_range] at hb
  have := differ hl hp (t := t) hx hb
  simp only [Function.comp_apply]
  rw [← this]
  simp only [decide_eq_true_eq]

theorem near_app {p : Nat} {l : List Nat} (hp : p ≤ l.length) {t : Nat} {h : List Int} (hb : IsBits h) (hx : ∀ i ∈ l, i < h.length) {isCw : List Int → Bool}
    (hc : isCw (app p l t h) = true) : Near isCw (l.take p) h (app p l t h) := by
  refine ⟨app_bits hb, app_length _ _ _ _, hc, fun i hi => ?_⟩
  by_cases hil : i < h.length
  · rw [app_getD hil, sel_out hp hi]; rfl
  · rw [List.getD_eq_getElem?_getD, List.getD_eq_getElem?_getD, List.getElem?_eq_none (by rw [app_length]; omega), List.getElem?_eq_none (by omega)]

theorem near_is_app {p : Nat} {l : List Nat} (hl : l.Nodup) (hp : p ≤ l.length) {h x : List Int} (hb : IsBits h) (hx : ∀ i ∈ l, i < h.length) {isCw : List Int → Bool}
    (hn : Near isCw (l.take p) h x) : ∃ t, t < 2 ^ p ∧ x = app p l t h := by
  obtain ⟨h1, h2, h3, h4⟩ := hn
  let pat : List Int := (l.take p).map fun i => if x.getD i 0 ≠ h.getD i 0 then 1 else 0
  have hpl : pat.length = p := by simp [pat]; omega
  have hpb : IsBits pat := by
    intro b hb
    obtain ⟨i, -, rfl⟩ := List.mem_map.mp hb
    split <;> simp
  obtain ⟨v1, v2⟩ := bitsOf_value pat hpb
  rw [hpl] at v1 v2
  refine ⟨value pat, v2, ext_getD (by rw [app_length, h2]) fun i hi => ?_⟩
  rw [h2] at hi
  rw [app_getD hi]
  by_cases him : i ∈ l.take p
  · obtain ⟨b, hb', e⟩ := List.mem_take_iff_getElem.mp him
    have hbp : b < p := by omega
    have e' : l.getD b 0 = i := by rw [getD_lt _ (by omega)]; exact e
    have ht : (value pat).testBit b = decide (x.getD i 0 ≠ h.getD i 0) := by
      have a1 : (bitsOf p (value pat)).getD b 0 = if (value pat).testBit b then 1 else 0 := by
        rw [getD_lt _ (by rw [bitsOf_length]; exact hbp)]; simp [bitsOf]
      have a2 : pat.getD b 0 = if x.getD i 0 ≠ h.getD i 0 then 1 else 0 := by
        rw [getD_lt _ (by omega)]
        simp only [pat, List.getElem_map, List.getElem_take]
        rw [e]
      rw [v1, a2] at a1
      by_cases hd : x.getD i 0 ≠ h.getD i 0
      · rw [if_pos hd] at a1
        cases hv : (value pat).testBit b
        · rw [hv] at a1; simp at a1
        · simpa using hd
      · rw [if_neg hd] at a1
        cases hv : (value pat).testBit b
        · simpa using hd
        · rw [hv] at a1; simp at a1
    rw [← e', sel_at hl hp (by omega), e', ht]
    have : decide (b < p) = true := by simpa using hbp
    rw [this, Bool.true_and]
    have q1 := getD_bits h1 i
    have q2 := getD_bits hb i
    by_cases hd : x.getD i 0 = h.getD i 0
    · rw [if_neg (by simpa using hd), hd]
    · rw [if_pos (by simpa using hd)]
      unfold nb
      split <;> omega
  · rw [sel_out hp him, h4 i him]; rfl

/-! ## The search -/

/-- The result of the tests `2 .. n-1`. -/
inductive Sel {D : Type} (lt : D → D → Bool) (n : Nat) (C : Nat → Bool) (δ : Nat → D) (top : D) (best : Nat) (q : D × Nat) : Prop
  | none : q = (top, best) → (∀ t, 2 ≤ t → t < n → C t = true → lt (δ t) top = false) → Sel lt n C δ top best q
  | some : 2 ≤ q.2 → q.2 < n → C q.2 = true → q.1 = δ q.2 → lt (δ q.2) top = true →
      (∀ t, 2 ≤ t → t < n → C t = true → lt (δ t) (δ q.2) = false ∧ (t < q.2 → lt (δ q.2) (δ t) = true)) → Sel lt n C δ top best q

theorem Sel.step {D : Type} {lt : D → D → Bool} (tr : ∀ a b c, lt a b = true → lt b c = true → lt a c = true) (irr : ∀ a, lt a a = false)
    {n : Nat} {C : Nat → Bool} {δ : Nat → D} (cot : ∀ t, ∀ c r, lt c r = true → lt (δ t) r = false → lt c (δ t) = true)
    {top : D} {best : Nat} {q : D × Nat} (hn : 2 ≤ n) (h : Sel lt n C δ top best q) :
    Sel lt (n + 1) C δ top best (if lt (δ n) q.1 && C n then (δ n, n) else q) := by
  by_cases hc : (lt (δ n) q.1 && C n) = true
  · rw [if_pos hc]
    rw [Bool.and_eq_true] at hc
    cases h with
    | none h1 h2 =>
      subst h1
      refine .some hn (by simp) hc.2 rfl hc.1 fun t t1 t2 t3 => ?_
      show lt (δ t) (δ n) = false ∧ (t < n → lt (δ n) (δ t) = true)
      by_cases htn : t = n
      · subst htn; exact ⟨irr _, fun h => by omega⟩
      · have := cot t _ _ hc.1 (h2 t t1 (by omega) t3)
        refine ⟨?_, fun _ => this⟩
        by_contra hcon
        have := tr _ _ _ this (by simpa using hcon)
        rw [irr] at this; cases this
    | some h1 h2 h3 h4 h5 h6 =>
      rw [h4] at hc
      refine .some hn (by simp) hc.2 rfl (tr _ _ _ hc.1 h5) fun t t1 t2 t3 => ?_
      show lt (δ t) (δ n) = false ∧ (t < n → lt (δ n) (δ t) = true)
      by_cases htn : t = n
      · subst htn; exact ⟨irr _, fun h => by omega⟩
      · have := cot t _ _ hc.1 (h6 t t1 (by omega) t3).1
        refine ⟨?_, fun _ => this⟩
        by_contra hcon
        have := tr _ _ _ this (by simpa using hcon)
        rw [irr] at this; cases this
  · rw [if_neg hc]
    have hc' : C n = true → lt (δ n) q.1 = false := by
      intro h; rw [h, Bool.and_true] at hc; simpa using hc
    cases h with
    | none h1 h2 =>
      refine .none h1 fun t t1 t2 t3 => ?_
      by_cases htn : t = n
      · subst htn; have := hc' t3; rwa [h1] at this
      · exact h2 t t1 (by omega) t3
    | some h1 h2 h3 h4 h5 h6 =>
      refine .some h1 (by omega) h3 h4 h5 fun t t1 t2 t3 => ?_
      by_cases htn : t = n
      · subst htn; have := hc' t3; rw [h4] at this; exact ⟨this, fun h => by omega⟩
      · exact h6 t t1 (by omega) t3

theorem search_sat {D : Type} {lt : D → D → Bool} (tr : ∀ a b c, lt a b = true → lt b c = true → lt a c = true) (irr : ∀ a, lt a a = false)
    {p : Nat} (hp1 : 1 ≤ p) {l : List Nat} (hl : l.Nodup) (hp : p ≤ l.length) {h : List Int} (hb : IsBits h) (hx : ∀ i ∈ l, i < h.length)
    {add : D → Nat → Exec D} {addp : D → Nat → D} (ha : ∀ a, ∀ i ∈ l, add a i = ok (addp a i)) {zero top : D} {isCw : List Int → Bool}
    (cot : ∀ t, ∀ c r, lt c r = true → lt ((selList p l t).foldl addp zero) r = false → lt c ((selList p l t).foldl addp zero) = true) (best : Nat) :
    (search lt zero top add isCw p l h best).Sat fun r => r.1 = app p l r.2 h ∧
      ∃ e, Sel lt (2 ^ p) (fun t => isCw (app p l t h)) (fun t => (selList p l t).foldl addp zero) top best (e, r.2) := by
  unfold search
  have h2p : 2 ≤ 2 ^ p := by
    calc 2 = 2 ^ 1 := rfl
      _ ≤ 2 ^ p := Nat.pow_le_pow_right (by omega) hp1
  refine (forRange_inv (fun n (s : List Int × D × Nat) => s.1 = h ∧ Sel lt n (fun t => isCw (app p l t h)) (fun t => (selList p l t).foldl addp zero) top best s.2)
    h2p ⟨rfl, .none rfl (by intro t t1 t2; omega)⟩ ?_).bind ?_
  · rintro n s h1 h2 ⟨s1, s2⟩
    unfold test
    rw [s1, flipsD_eq hl hp hx ha, bind_ok]
    simp only
    rw [flips_eq hl hp (by rw [app_length]; exact hx), bind_ok, sat_ok, app_app hb]
    exact ⟨rfl, s2.step tr irr cot h1⟩
  · rintro s ⟨s1, s2⟩
    rw [s1, flips_eq hl hp hx, bind_ok, sat_ok]
    exact ⟨rfl, s.2.1, s2⟩

end Verif.Chase
