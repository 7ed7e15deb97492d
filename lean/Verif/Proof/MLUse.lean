import Verif.Proof.ML

/-! # Maximum likelihood decoders: the objects -/

namespace Verif.ML
open Exec Verif.Float

/-! ## Order of the floats, distances -/

theorem lt_trans' (a b c : Fl) (h1 : Fl.lt a b = true) (h2 : Fl.lt b c = true) : Fl.lt a c = true := by
  cases a with
  | fin x =>
    cases b with
    | fin y =>
      cases c with
      | fin z => simp only [Fl.lt, decide_eq_true_eq] at *; linarith
      | inf s => exact h2
      | nan => cases h2
    | inf s =>
      cases c with
      | fin z => cases s <;> simp [Fl.lt] at h1 h2
      | inf t => cases s <;> cases t <;> simp [Fl.lt] at h1 h2 ⊢
      | nan => cases h2
    | nan => cases h1
  | inf s =>
    cases b with
    | fin y =>
      cases c with
      | fin z => exact h1
      | inf t => cases s <;> cases t <;> simp [Fl.lt] at h1 h2 ⊢
      | nan => cases h2
    | inf t =>
      cases c with
      | fin z => cases s <;> cases t <;> simp [Fl.lt] at h1 h2 ⊢
      | inf r => cases s <;> cases t <;> cases r <;> simp [Fl.lt] at h1 h2 ⊢
      | nan => cases h2
    | nan => cases h1
  | nan => cases h1

theorem lt_irr (a : Fl) : Fl.lt a a = false := by
  cases a with
  | fin x => simp [Fl.lt]
  | inf s => cases s <;> rfl
  | nan => rfl

theorem lt_cot (d : Fl) (hd : d ≠ .nan) (c r : Fl) (h1 : Fl.lt c r = true) (h2 : Fl.lt d r = false) : Fl.lt c d = true := by
  cases d with
  | nan => exact absurd rfl hd
  | fin x =>
    cases c with
    | nan => cases h1
    | fin y =>
      cases r with
      | nan => cases h1
      | fin z => simp only [Fl.lt, decide_eq_true_eq, decide_eq_false_iff_not] at *; linarith
      | inf s => cases s <;> simp [Fl.lt] at h1 h2
    | inf t =>
      cases r with
      | nan => cases h1
      | fin z => exact h1
      | inf s => cases s <;> cases t <;> simp [Fl.lt] at h1 h2 ⊢
  | inf x =>
    cases c with
    | nan => cases h1
    | fin y =>
      cases r with
      | nan => cases h1
      | fin z => cases x <;> simp [Fl.lt] at h1 h2 ⊢
      | inf s => cases s <;> cases x <;> simp [Fl.lt] at h1 h2 ⊢
    | inf t =>
      cases r with
      | nan => cases h1
      | fin z => cases t <;> cases x <;> simp [Fl.lt] at h1 h2 ⊢
      | inf s => cases s <;> cases t <;> cases x <;> simp [Fl.lt] at h1 h2 ⊢

/-- Not a negative number. -/
def NN : Fl → Prop
  | .fin q => 0 ≤ q
  | .inf s => s = false
  | .nan => False

theorem rnd_nn {F : Fmt} {q : ℚ} (h : 0 ≤ q) : 0 ≤ F.rnd q := by
  unfold Fmt.rnd
  rw [if_neg (by linarith)]
  exact mag_nonneg F h

theorem of_nn {F : Fmt} {q : ℚ} (h : 0 ≤ q) : NN (F.of q) := by
  unfold Fmt.of
  split
  · simp only [NN]; rw [decide_eq_false_iff_not]; linarith
  · exact rnd_nn h

theorem add_nn {F : Fmt} {x y : Fl} (hx : NN x) (hy : NN y) : NN (F.add x y) := by
  cases x with
  | fin q =>
    cases y with
    | fin r => exact of_nn (by simp only [NN] at hx hy; linarith)
    | inf s => exact hy
    | nan => exact hy.elim
  | inf s =>
    simp only [NN] at hx; subst hx
    cases y with
    | fin r => rfl
    | inf s => simp only [NN] at hy; subst hy; rfl
    | nan => exact hy.elim
  | nan => exact hx.elim

theorem sq_nn {F : Fmt} {x : Fl} (hx : x ≠ .nan) : NN (F.mul x x) := by
  cases x with
  | fin q => exact of_nn (mul_self_nonneg q)
  | inf s => cases s <;> rfl
  | nan => exact absurd rfl hx

theorem of_ne_nan (F : Fmt) (q : ℚ) : F.of q ≠ .nan := by unfold Fmt.of; split <;> simp

theorem fdist_nn {x : List Int} {y : List Fl} (h : ∀ b ∈ y, b ≠ .nan) : NN (fdist x y) := by
  have key : ∀ (l : List (Int × Fl)), (∀ p ∈ l, p.2 ≠ .nan) → ∀ acc, NN acc → NN (l.foldl (fun acc p =>
      let tmp := b32.add (.fin (if p.1 ≠ 0 then -1 else 1)) p.2.neg
      b32.add acc (b32.mul tmp tmp)) acc) := by
    intro l
    induction l with
    | nil => intro _ acc h; exact h
    | cons p l ih =>
      intro hl acc ha
      rw [List.foldl_cons]
      refine ih (fun q hq => hl q (List.mem_cons_of_mem _ hq)) _ (add_nn ha (sq_nn ?_))
      have := hl p List.mem_cons_self
      cases hp : p.2 with
      | fin q => exact of_ne_nan _ _
      | inf s => simp [Fmt.add, Fl.neg]
      | nan => exact absurd hp this
  exact key _ (fun p hp => h _ (List.of_mem_zip hp).2) _ le_rfl

theorem nn_ne {x : Fl} (h : NN x) : x ≠ .nan := by rintro rfl; exact h

/-! ## Integer inputs -/

/-- The exact square of the distance. -/
def idist (x y : List Int) : Int := (List.zipWith (fun b v => ((if b ≠ 0 then -1 else 1) - v) ^ 2) x y).sum

theorem fdist_int {B : Int} (hB : 0 ≤ B) {x y : List Int} (hx : x.length = y.length) (hy : ∀ v ∈ y, |v| ≤ B) (hN : (y.length : Int) * (B + 1) ^ 2 < 2 ^ 24) :
    fdist x (ofInts y) = .fin (idist x y) ∧ 0 ≤ idist x y ∧ idist x y ≤ (y.length : Int) * (B + 1) ^ 2 := by
  have key : ∀ (y x : List Int), x.length = y.length → (∀ v ∈ y, |v| ≤ B) → ∀ acc : Int, 0 ≤ acc → acc + (y.length : Int) * (B + 1) ^ 2 < 2 ^ 24 →
      (x.zip (ofInts y)).foldl (fun acc p =>
        let tmp := b32.add (.fin (if p.1 ≠ 0 then -1 else 1)) p.2.neg
        b32.add acc (b32.mul tmp tmp)) (.fin (acc : ℚ)) = .fin ((acc + idist x y : Int) : ℚ) ∧ 0 ≤ idist x y ∧ idist x y ≤ (y.length : Int) * (B + 1) ^ 2 := by
    intro y
    induction y with
    | nil =>
      intro x hx _ acc _ _
      rw [List.length_nil, List.length_eq_zero_iff] at hx
      subst hx
      simp [idist]
    | cons v y ih =>
      intro x hx hy acc ha hN
      obtain ⟨b, x, rfl⟩ := List.exists_cons_of_length_eq_add_one (by simpa using hx)
      have hv := hy v List.mem_cons_self
      rw [abs_le] at hv
      have e : idist (b :: x) (v :: y) = ((if b ≠ 0 then -1 else 1) - v) ^ 2 + idist x y := by
        unfold idist; rw [List.zipWith_cons_cons, List.sum_cons]
      generalize hs : ((if b ≠ 0 then -1 else 1) : Int) = s at e
      have hs' : s = 1 ∨ s = -1 := by rw [← hs]; split <;> simp
      have hsb : -(B + 1) ≤ s - v ∧ s - v ≤ B + 1 := by omega
      have hsq : (s - v) ^ 2 ≤ (B + 1) ^ 2 := by nlinarith
      have hsq0 : 0 ≤ (s - v) ^ 2 := by positivity
      have hB2 : 0 ≤ (B + 1) ^ 2 := by positivity
      rw [List.length_cons] at hN ⊢
      push_cast at hN ⊢
      have hylen : (0 : Int) ≤ (y.length : Int) * (B + 1) ^ 2 := by positivity
      obtain ⟨i1, i2, i3⟩ := ih x (by simpa using hx) (fun v hv => hy v (List.mem_cons_of_mem _ hv)) (acc + (s - v) ^ 2) (by omega) (by nlinarith)
      refine ⟨?_, by rw [e]; omega, by rw [e]; nlinarith⟩
      rw [show ofInts (v :: y) = .fin (v : ℚ) :: ofInts y from rfl, List.zip_cons_cons, List.foldl_cons]
      have hBs : B + 1 < 2 ^ 24 := by nlinarith
      have hof : ∀ z : Int, |z| < 2 ^ 24 → b32.of (z : ℚ) = .fin z := fun z hz => of_rep b32 (rep_int b32 z hz (by decide) (by decide))
      have t1 : b32.add (.fin (if b ≠ 0 then -1 else 1)) (Fl.fin (v : ℚ)).neg = .fin ((s - v : Int) : ℚ) := by
        rw [← hof (s - v) (by rw [abs_lt]; omega)]
        simp only [Fl.neg, Fmt.add]
        congr 1
        rw [← hs]
        push_cast
        ring
      have t2 : b32.mul (.fin ((s - v : Int) : ℚ)) (.fin ((s - v : Int) : ℚ)) = .fin (((s - v) ^ 2 : Int) : ℚ) := by
        rw [← hof ((s - v) ^ 2) (by rw [abs_of_nonneg hsq0]; nlinarith)]
        simp only [Fmt.mul]
        congr 1
        push_cast
        ring
      have t3 : b32.add (.fin (acc : ℚ)) (.fin (((s - v) ^ 2 : Int) : ℚ)) = .fin ((acc + (s - v) ^ 2 : Int) : ℚ) := by
        rw [← hof (acc + (s - v) ^ 2) (by rw [abs_of_nonneg (by omega)]; nlinarith)]
        simp only [Fmt.add]
        congr 1
        push_cast
        ring
      simp only
      rw [t1, t2, t3, i1, e]
      congr 1
      push_cast
      ring
  obtain ⟨h1, h2, h3⟩ := key y x hx hy 0 le_rfl (by omega)
  refine ⟨?_, h2, h3⟩
  rw [Int.cast_zero, zero_add] at h1
  exact h1

theorem idist_corr : ∀ (x y : List Int), x.length = y.length → idist x y = y.length + (y.map (· ^ 2)).sum - 2 * corr x y
  | [], [], _ => by simp [idist, corr]
  | b :: x, v :: y, h => by
    have ih := idist_corr x y (by simpa using h)
    have e1 : idist (b :: x) (v :: y) = ((if b ≠ 0 then -1 else 1) - v) ^ 2 + idist x y := by
      unfold idist; rw [List.zipWith_cons_cons, List.sum_cons]
    have e2 : corr (b :: x) (v :: y) = (if b ≠ 0 then -v else v) + corr x y := by
      unfold corr; rw [List.zipWith_cons_cons, List.sum_cons]
    rw [e1, e2, ih, List.map_cons, List.sum_cons, List.length_cons]
    push_cast
    by_cases hb : b = 0
    · rw [if_neg (by simpa using hb), if_neg (by simpa using hb)]; ring
    · rw [if_pos hb, if_pos hb]; ring
  | [], _ :: _, h => by simp at h
  | _ :: _, [], h => by simp at h

/-! ## The object -/

/-- What every call keeps. -/
structure Ok (d : Dec) : Prop where
  sz : 0 < d.sz
  good : d.c.Good
  cK : d.c.K.toNat = d.K
  cN : d.c.N.toNat = d.N
  K0 : 0 < d.K
  N0 : 0 < d.N
  N31 : d.N < 2 ^ 31
  std : d.kind = .std → d.K ≤ 64
  naive : d.kind = .naive → d.N ≤ 64
  bu : d.bestU.length = d.K
  bx : d.bestX.length = d.N
  hy : d.hardY.length = d.N

theorem mk?_ok {kind : Kind} {sz : Nat} {K N : Int} {c : Coder} {hamming : Bool} {d : Dec} (hsz : 0 < sz) (hN : N < 2 ^ 31) (hg : c.Good) (h : Dec.mk? kind sz K N c hamming = ok d) : Ok d := by
  unfold Dec.mk? at h
  by_cases h1 : K ≤ 0
  · rw [if_pos h1] at h; cases h
  rw [if_neg h1] at h
  by_cases h2 : N ≤ 0
  · rw [if_pos h2] at h; cases h
  rw [if_neg h2] at h
  by_cases h3 : K > N
  · rw [if_pos h3] at h; cases h
  rw [if_neg h3] at h
  by_cases h4 : c.K ≠ K
  · rw [if_pos h4] at h; cases h
  rw [if_neg h4] at h
  by_cases h5 : c.N ≠ N
  · rw [if_pos h5] at h; cases h
  rw [if_neg h5] at h
  have e4 : c.K = K := by omega
  have e5 : c.N = N := by omega
  cases kind with
  | std =>
    simp only at h
    by_cases h6 : K > 64
    · rw [if_pos h6] at h; cases h
    rw [if_neg h6] at h
    cases h
    exact ⟨hsz, hg, by show c.K.toNat = K.toNat; rw [e4], by show c.N.toNat = N.toNat; rw [e5], by show 0 < K.toNat; omega, by show 0 < N.toNat; omega,
      by show N.toNat < 2 ^ 31; omega, fun _ => (by show K.toNat ≤ 64; omega), fun hk => (by cases hk), by simp, by simp, by simp⟩
  | naive =>
    simp only at h
    by_cases h6 : N > 64
    · rw [if_pos h6] at h; cases h
    rw [if_neg h6] at h
    cases h
    exact ⟨hsz, hg, by show c.K.toNat = K.toNat; rw [e4], by show c.N.toNat = N.toNat; rw [e5], by show 0 < K.toNat; omega, by show 0 < N.toNat; omega,
      by show N.toNat < 2 ^ 31; omega, fun hk => (by cases hk), fun _ => (by show N.toNat ≤ 64; omega), by simp, by simp, by simp⟩

/-- The candidates. -/
def cands (d : Dec) (i : Nat) : Option (List Int × List Int) :=
  match d.kind with
  | .std => some (bitsOf d.K i, d.c.enc (bitsOf d.K i))
  | .naive => if d.c.isCw (bitsOf d.N i) then some ([], bitsOf d.N i) else none

theorem cand_eq {d : Dec} (h : Ok d) (i : Nat) : d.cand i = ok (cands d i) := by
  unfold Dec.cand cands
  cases hk : d.kind
  · simp only; rw [spread_eq h.sz h.K0 (h.std hk), bind_ok]
  · simp only; rw [spread_eq h.sz h.N0 (h.naive hk), bind_ok]

theorem cands_len {d : Dec} (h : Ok d) {i : Nat} {p : List Int × List Int} (hp : cands d i = some p) : p.2.length = d.N ∧ p.1.length = d.saved := by
  unfold cands at hp
  unfold Dec.saved
  cases hk : d.kind
  · rw [hk] at hp; cases hp
    refine ⟨?_, bitsOf_length _ _⟩
    rw [h.good.enc _ (bitsOf_bits _ _) (by rw [bitsOf_length, h.cK]), h.cN]
  · rw [hk] at hp
    simp only at hp
    split at hp
    · cases hp; exact ⟨bitsOf_length _ _, rfl⟩
    · cases hp

theorem saved_le {d : Dec} (h : Ok d) : d.saved ≤ d.bestU.length := by
  unfold Dec.saved
  rw [h.bu]
  cases d.kind <;> simp

/-- The result of a search. -/
def Found {D : Type} (lt : D → D → Bool) (d : Dec) (δ : List Int → D) (init : D) (v : List Int) (r : Dec × List Int) : Prop :=
  ∃ e, Picked lt d.count d.saved (cands d) δ (init, v, d.bestU) (e, r.2, r.1.bestU)

theorem found_len {D : Type} {lt : D → D → Bool} {d : Dec} (h : Ok d) {δ : List Int → D} {init : D} {v : List Int} (hv : v.length = d.N) {r : Dec × List Int}
    (hr : Found lt d δ init v r) : r.2.length = d.N ∧ r.1.bestU.length = d.K := by
  obtain ⟨e, hp⟩ := hr
  cases hp with
  | none h' _ =>
    simp only [Prod.mk.injEq] at h'
    exact ⟨by rw [h'.2.1]; exact hv, by rw [h'.2.2]; exact h.bu⟩
  | some i p h1 h2 h3 h4 h5 h6 h7 =>
    simp only at h5 h6
    obtain ⟨l1, l2⟩ := cands_len h h2
    have := saved_le h
    refine ⟨by rw [h5]; exact l1, ?_⟩
    rw [h6, List.length_append, List.length_drop, l2, ← h.bu]
    omega

theorem hihoCw_sat {d : Dec} (h : Ok d) {y v : List Int} (hy : y.length = d.N) (hv : v.length = d.N) :
    (d.hihoCw y v).Sat fun r => Found (fun a b => decide (a < b)) d (fun x => ham x y) (2 ^ 32 - 1) v r ∧ r.1 = { d with bestU := r.1.bestU } := by
  unfold Dec.hihoCw
  refine (pick_sat (C := cands d) (δ := fun x => ham x y) ?_ ?_ ?_ (fun i _ => cand_eq h i) (fun i _ p hp => ?_) hv (saved_le h)).bind fun r hr => ?_
  · intro a b c h1 h2; simp only [decide_eq_true_eq] at *; omega
  · intro a; simp
  · intro i _ p _ c r h1 h2; simp only [decide_eq_true_eq, decide_eq_false_iff_not] at *; omega
  · exact ⟨hamDist_eq (cands_len h hp).1 hy, cands_len h hp⟩
  · rw [sat_ok]; exact ⟨⟨r.1, hr⟩, rfl⟩

theorem soft_sat {d : Dec} (h : Ok d) (hh : d.hamming = false) {y : List Fl} {v : List Int} (hy : y.length = d.N) (hv : v.length = d.N) (hn : ∀ b ∈ y, b ≠ .nan) :
    (d.sihoCw y v).Sat fun r => Found Fl.lt d (fun x => fdist x y) fltMax v r ∧ r.1 = { d with bestU := r.1.bestU } := by
  unfold Dec.sihoCw
  rw [hh, if_neg (by simp)]
  refine (pick_sat (C := cands d) (δ := fun x => fdist x y) lt_trans' lt_irr ?_ (fun i _ => cand_eq h i) (fun i _ p hp => ?_) hv (saved_le h)).bind fun r hr => ?_
  · intro i _ p _ c r h1 h2; exact lt_cot _ (nn_ne (fdist_nn hn)) c r h1 h2
  · exact ⟨eucDist_eq (cands_len h hp).1 hy, cands_len h hp⟩
  · rw [sat_ok]; exact ⟨⟨r.1, hr⟩, rfl⟩

theorem harden_eq {d : Dec} (h : Ok d) {y : List Fl} (hy : y.length = d.N) : forN d.N (fun i o => do
      let x ← rd y i
      wr o i (if Fl.lt x (.fin 0) then 1 else 0)) d.hardY = ok (hard y) := by
  have e : forN d.N (fun i o => do
      let x ← rd y i
      wr o i (if Fl.lt x (.fin 0) then (1 : Int) else 0)) d.hardY =
      forN d.N (fun i o => wr o (0 + i) (if Fl.lt (y.getD i .nan) (.fin 0) then (1 : Int) else 0)) d.hardY := by
    refine forN_congr fun i s hi => ?_
    rw [rd_lt (by omega), bind_ok, getD_lt _ (by omega), Nat.zero_add]
  rw [e]
  obtain ⟨o, eo, o1, o2⟩ := forN_fill (n := d.N) (off := 0) (g := fun i => if Fl.lt (y.getD i .nan) (.fin 0) then (1 : Int) else 0) (out := d.hardY) (by rw [h.hy]; omega)
  rw [eo]
  congr 1
  apply List.ext_getElem?
  intro i
  rw [o2 i, hard, List.getElem?_map]
  have := h.hy
  by_cases hi : i < d.N
  · rw [if_pos (by omega), Nat.sub_zero, getD_lt _ (by omega), List.getElem?_eq_getElem (by omega)]; rfl
  · rw [if_neg (by omega), List.getElem?_eq_none (by omega), List.getElem?_eq_none (by omega)]; rfl

theorem sihoCw_hamming {d : Dec} (h : Ok d) (hh : d.hamming = true) {y : List Fl} {v : List Int} (hy : y.length = d.N) :
    d.sihoCw y v = { d with hardY := hard y }.hihoCw (hard y) v := by
  unfold Dec.sihoCw
  rw [hh, if_pos rfl, harden_eq h hy, bind_ok, ← hh]

theorem Ok.hardY {d : Dec} (h : Ok d) {y : List Fl} (hy : y.length = d.N) : Ok { d with hardY := hard y } :=
  ⟨h.sz, h.good, h.cK, h.cN, h.K0, h.N0, h.N31, h.std, h.naive, h.bu, h.bx, by show (hard y).length = d.N; rw [hard, List.length_map, hy]⟩

theorem Ok.upd {d d' : Dec} (h : Ok d) {bu bx : List Int} (hb : bu.length = d.K) (hx : bx.length = d.N) (e : d' = { d with bestU := bu, bestX := bx }) : Ok d' := by
  subst e
  exact ⟨h.sz, h.good, h.cK, h.cN, h.K0, h.N0, h.N31, h.std, h.naive, hb, hx, h.hy⟩

/-- What a decoding of a codeword keeps. -/
def Kept (d d' : Dec) : Prop := Ok d' ∧ d'.kind = d.kind ∧ d'.K = d.K ∧ d'.N = d.N ∧ d'.c = d.c ∧ d'.hamming = d.hamming

theorem hihoCw_kept {d : Dec} (h : Ok d) {y v : List Int} (hy : y.length = d.N) (hv : v.length = d.N) :
    (d.hihoCw y v).Sat fun r => Kept d r.1 ∧ r.2.length = d.N := by
  refine (hihoCw_sat h hy hv).mono fun r ⟨h1, h2⟩ => ?_
  obtain ⟨l1, l2⟩ := found_len h hv h1
  refine ⟨⟨h.upd l2 h.bx h2, ?_⟩, l1⟩
  rw [h2]; exact ⟨rfl, rfl, rfl, rfl, rfl⟩

/-- A search with no hypothesis on the floats keeps the sizes. -/
theorem pick_len {D : Type} {lt : D → D → Bool} {n N k : Nat} {cand : Nat → Exec (Option (List Int × List Int))} {dist : List Int → Exec D}
    {C : Nat → Option (List Int × List Int)} {δ : List Int → D} {r0 : D × List Int × List Int}
    (hc : ∀ i, i < n → cand i = ok (C i)) (hd : ∀ i, i < n → ∀ p, C i = some p → dist p.2 = ok (δ p.2) ∧ p.2.length = N ∧ p.1.length = k)
    (hv : r0.2.1.length = N) (hb : k ≤ r0.2.2.length) :
    (pick lt n N k cand dist r0).Sat fun r => r.2.1.length = N ∧ r.2.2.length = r0.2.2.length := by
  unfold pick
  refine forN_inv (fun _ (r : D × List Int × List Int) => r.2.1.length = N ∧ r.2.2.length = r0.2.2.length) ⟨hv, rfl⟩ ?_
  rintro m r hm ⟨r1, r2⟩
  rw [hc m hm, bind_ok]
  cases hcm : C m with
  | none => simp only; rw [sat_ok]; exact ⟨r1, r2⟩
  | some q =>
    obtain ⟨d1, d2, d3⟩ := hd m hm q hcm
    simp only
    rw [d1, bind_ok]
    by_cases hl : lt (δ q.2) r.1 = true
    · rw [if_pos hl, copyTo_full d2 (by omega), bind_ok, copyTo_full d3 (by omega), bind_ok, sat_ok]
      simp only [List.length_append, List.length_drop]
      omega
    · rw [if_neg hl, sat_ok]; exact ⟨r1, r2⟩

theorem sihoCw_kept {d : Dec} (h : Ok d) {y : List Fl} {v : List Int} (hy : y.length = d.N) (hv : v.length = d.N) :
    (d.sihoCw y v).Sat fun r => Kept d r.1 ∧ r.2.length = d.N := by
  cases hh : d.hamming
  · unfold Dec.sihoCw
    rw [hh, if_neg (by simp)]
    refine (pick_len (C := cands d) (δ := fun x => fdist x y) (fun i _ => cand_eq h i) (fun i _ p hp => ?_) hv (saved_le h)).bind fun r hr => ?_
    · exact ⟨eucDist_eq (cands_len h hp).1 hy, cands_len h hp⟩
    · rw [sat_ok]
      exact ⟨⟨h.upd (bu := r.2.2) (bx := d.bestX) (by rw [hr.2]; exact h.bu) h.bx (by rw [← hh]), rfl, rfl, rfl, rfl, hh.symm⟩, hr.1⟩
  · rw [sihoCw_hamming h hh hy]
    have := hihoCw_kept (h.hardY hy) (y := hard y) (v := v) (by simp [hard, hy]) hv
    exact this

theorem message_std {d : Dec} (h : Ok d) (hk : d.kind = .std) {v : List Int} (hv : v.length = d.K) : d.message v = ok d.bestU := by
  unfold Dec.message
  rw [hk]
  simp only
  rw [copyTo_full h.bu (by omega), List.drop_eq_nil_of_le (by omega), List.append_nil]

theorem message_naive {d : Dec} (h : Ok d) (hk : d.kind = .naive) {v : List Int} (hv : v.length = d.K) : d.message v = ok (infoOf d.c d.bestX) := by
  unfold Dec.message
  rw [hk]
  simp only
  have hp := h.good.pos
  rw [h.cK] at hp
  have hx := h.bx
  have hb : ∀ k (hk : k < d.c.infoPos.length), d.c.infoPos[k] < d.N := fun k hk => by
    rw [← h.cN]; exact h.good.posLt _ (List.getElem_mem hk)
  have e : forN d.K (fun k o => do
      let p ← rd d.c.infoPos k
      let x ← rd d.bestX p
      wr o k x) v = forN d.K (fun k o => wr o (0 + k) ((infoOf d.c d.bestX).getD k 0)) v := by
    refine forN_congr fun k s hk => ?_
    have hb' := hb k (by omega)
    rw [rd_lt (by omega), bind_ok, rd_lt (by omega), bind_ok, Nat.zero_add]
    congr 1
    rw [getD_lt _ (by rw [infoOf, List.length_map]; omega)]
    simp only [infoOf, List.getElem_map]
    rw [getD_lt _ (by omega)]
  rw [e]
  obtain ⟨o, eo, o1, o2⟩ := forN_fill (n := d.K) (off := 0) (g := fun k => (infoOf d.c d.bestX).getD k 0) (out := v) (by omega)
  rw [eo]
  congr 1
  apply List.ext_getElem?
  intro i
  have hil : (infoOf d.c d.bestX).length = d.K := by rw [infoOf, List.length_map, hp]
  rw [o2 i]
  by_cases hi : i < d.K
  · rw [if_pos (by omega), Nat.sub_zero, getD_lt _ (by omega), List.getElem?_eq_getElem (by omega)]
  · rw [if_neg (by omega), List.getElem?_eq_none (by omega), List.getElem?_eq_none (by omega)]

theorem message_sat {d : Dec} (h : Ok d) {v : List Int} (hv : v.length = d.K) :
    d.message v = ok (match d.kind with | .std => d.bestU | .naive => infoOf d.c d.bestX) := by
  cases hk : d.kind
  · exact message_std h hk hv
  · exact message_naive h hk hv

/-- The messages from the codewords. -/
theorem hiho_of {d d' : Dec} (h : Ok d) {y x v : List Int} (hs : d.kind = .naive → d.c.sys = true) (hv : v.length = d.K)
    (e : d.hihoCw y d.bestX = ok (d', x)) (hk : Kept d d') (hx : x.length = d.N) :
    d.hiho y v = ok ({ d' with bestX := x }, match d.kind with | .std => d'.bestU | .naive => infoOf d.c x) := by
  obtain ⟨k1, k2, k3, k4, k5, k6⟩ := hk
  unfold Dec.hiho
  rw [if_neg (by rintro ⟨h1, h2⟩; rw [hs h1] at h2; cases h2), e, bind_ok]
  simp only
  rw [message_sat (d := { d' with bestX := x }) (k1.upd k1.bu (by rw [hx, k4]) rfl) (by rw [hv]; exact k3.symm), bind_ok]
  simp only [k2, k5]

theorem siho_of {d d' : Dec} (h : Ok d) {y : List Fl} {x v : List Int} (hs : d.kind = .naive → d.c.sys = true) (hv : v.length = d.K)
    (e : d.sihoCw y d.bestX = ok (d', x)) (hk : Kept d d') (hx : x.length = d.N) :
    d.siho y v = ok ({ d' with bestX := x }, match d.kind with | .std => d'.bestU | .naive => infoOf d.c x) := by
  obtain ⟨k1, k2, k3, k4, k5, k6⟩ := hk
  unfold Dec.siho
  rw [if_neg (by rintro ⟨h1, h2⟩; rw [hs h1] at h2; cases h2), e, bind_ok]
  simp only
  rw [message_sat (d := { d' with bestX := x }) (k1.upd k1.bu (by rw [hx, k4]) rfl) (by rw [hv]; exact k3.symm), bind_ok]
  simp only [k2, k5]

theorem sat_of_ok {α : Type} {x : Exec α} {P : α → Prop} {a : α} (h : x.Sat P) (e : x = ok a) : P a := by
  obtain ⟨r, e1, p⟩ := h
  rw [e] at e1
  cases e1
  exact p

theorem Reach.ok {d : Dec} (h : Reach d) : Ok d := by
  induction h with
  | make h1 h2 h3 h4 => exact mk?_ok h1 h2 h3 h4
  | hihoCw _ hy hv e ih => exact (sat_of_ok (hihoCw_kept ih hy hv) e).1.1
  | sihoCw _ hy hv e ih => exact (sat_of_ok (sihoCw_kept ih hy hv) e).1.1
  | @hiho d d' y v v' _ hy hv e ih =>
    by_cases hs : d.kind = .naive ∧ !d.c.sys
    · unfold Dec.hiho at e; rw [if_pos hs] at e; cases e
    · obtain ⟨⟨d2, x⟩, e2, hk, hx⟩ := hihoCw_kept ih hy ih.bx
      rw [hiho_of ih (by intro hn; by_contra hc; exact hs ⟨hn, by simpa using hc⟩) hv e2 hk hx] at e
      cases e
      exact hk.1.upd hk.1.bu (by rw [hx, hk.2.2.2.1]) rfl
  | @siho d d' y v v' _ hy hv e ih =>
    by_cases hs : d.kind = .naive ∧ !d.c.sys
    · unfold Dec.siho at e; rw [if_pos hs] at e; cases e
    · obtain ⟨⟨d2, x⟩, e2, hk, hx⟩ := sihoCw_kept ih hy ih.bx
      rw [siho_of ih (by intro hn; by_contra hc; exact hs ⟨hn, by simpa using hc⟩) hv e2 hk hx] at e
      cases e
      exact hk.1.upd hk.1.bu (by rw [hx, hk.2.2.2.1]) rfl

/-! ## What was found -/

theorem rounds_eq {n : Nat} (h : n < 64) : rounds n = 2 ^ n := by
  have h1 : 0 < 2 ^ n := Nat.pow_pos (by omega)
  have h2 : 2 ^ n ≤ 2 ^ 63 := Nat.pow_le_pow_right (by omega) (by omega)
  unfold rounds uMax
  rw [if_neg (show ¬ n = 64 by omega), if_neg (by omega)]
  omega

theorem found_std {D : Type} {lt : D → D → Bool} {d : Dec} (h : Ok d) (hk : d.kind = .std) (hK : d.K < 64) {δ : List Int → D} {init : D} {v : List Int} {r : Dec × List Int}
    (hr : Found lt d δ init v r) (hex : ∃ u, IsBits u ∧ u.length = d.K ∧ lt (δ (d.c.enc u)) init = true) :
    FirstLeast (fun a b => lt a b = true) d.K d.c.enc δ r.1.bestU ∧ r.2 = d.c.enc r.1.bestU := by
  have hcount : d.count = 2 ^ d.K := by unfold Dec.count; rw [hk]; exact rounds_eq hK
  have hcs : ∀ i, cands d i = some (bitsOf d.K i, d.c.enc (bitsOf d.K i)) := fun i => by unfold cands; rw [hk]
  have hsv : d.saved = d.K := by unfold Dec.saved; rw [hk]
  obtain ⟨e, hp⟩ := hr
  cases hp with
  | none _ h' =>
    obtain ⟨u, u1, u2, u3⟩ := hex
    obtain ⟨b1, b2⟩ := bitsOf_value u u1
    rw [u2] at b1 b2
    have := h' (value u) (by rw [hcount]; exact b2) _ (hcs _)
    simp only [b1] at this
    rw [u3] at this
    cases this
  | some i p h1 h2 h3 h4 h5 h6 h7 =>
    rw [hcs] at h2
    cases h2
    simp only at h5 h6 h7
    rw [hsv, List.drop_eq_nil_of_le (by rw [h.bu]), List.append_nil] at h6
    rw [hcount] at h1
    rw [h5, h6]
    refine ⟨⟨bitsOf_bits _ _, bitsOf_length _ _, fun u' u1 u2 => ?_⟩, rfl⟩
    obtain ⟨b1, b2⟩ := bitsOf_value u' u1
    rw [u2] at b1 b2
    obtain ⟨g1, g2⟩ := h7 (value u') (by rw [hcount]; exact b2) _ (hcs _)
    simp only [b1] at g1 g2
    refine ⟨by show ¬ lt _ _ = true; rw [g1]; simp, fun hl => g2 ?_⟩
    rwa [value_bitsOf _ _ h1] at hl

theorem found_naive {D : Type} {lt : D → D → Bool} {d : Dec} (hk : d.kind = .naive) (hN : d.N < 64) {δ : List Int → D} {init : D} {v : List Int} {r : Dec × List Int}
    (hr : Found lt d δ init v r) (hex : ∃ x, IsBits x ∧ x.length = d.N ∧ d.c.isCw x = true ∧ lt (δ x) init = true) :
    FirstLeastCw (fun a b => lt a b = true) d.N d.c.isCw δ r.2 := by
  have hcount : d.count = 2 ^ d.N := by unfold Dec.count; rw [hk]; exact rounds_eq hN
  have hcs : ∀ i, d.c.isCw (bitsOf d.N i) = true → cands d i = some ([], bitsOf d.N i) := fun i hi => by unfold cands; rw [hk]; simp only; rw [if_pos hi]
  obtain ⟨e, hp⟩ := hr
  cases hp with
  | none _ h' =>
    obtain ⟨u, u1, u2, u3, u4⟩ := hex
    obtain ⟨b1, b2⟩ := bitsOf_value u u1
    rw [u2] at b1 b2
    have := h' (value u) (by rw [hcount]; exact b2) _ (hcs _ (by rw [b1]; exact u3))
    simp only [b1] at this
    rw [u4] at this
    cases this
  | some i p h1 h2 h3 h4 h5 h6 h7 =>
    have hi : d.c.isCw (bitsOf d.N i) = true := by
      by_contra hc
      unfold cands at h2
      rw [hk] at h2
      simp only at h2
      rw [if_neg hc] at h2
      cases h2
    rw [hcs i hi] at h2
    cases h2
    simp only at h5 h6 h7
    rw [hcount] at h1
    rw [h5]
    refine ⟨bitsOf_bits _ _, bitsOf_length _ _, hi, fun u' u1 u2 u3 => ?_⟩
    obtain ⟨b1, b2⟩ := bitsOf_value u' u1
    rw [u2] at b1 b2
    obtain ⟨g1, g2⟩ := h7 (value u') (by rw [hcount]; exact b2) _ (hcs _ (by rw [b1]; exact u3))
    simp only [b1] at g1 g2
    refine ⟨by show ¬ lt _ _ = true; rw [g1]; simp, fun hl => g2 ?_⟩
    rwa [value_bitsOf _ _ h1] at hl

theorem FirstLeast.unique {D : Type} {lt : D → D → Prop} {K : Nat} {enc : List Int → List Int} {score : List Int → D} {u u' : List Int}
    (h : FirstLeast lt K enc score u) (h' : FirstLeast lt K enc score u') : u = u' := by
  obtain ⟨a1, a2, a3⟩ := h
  obtain ⟨b1, b2, b3⟩ := h'
  have hv : value u = value u' := by
    rcases Nat.lt_trichotomy (value u) (value u') with hl | hl | hl
    · exact absurd ((b3 u a1 a2).2 hl) (a3 u' b1 b2).1
    · exact hl
    · exact absurd ((a3 u' b1 b2).2 hl) (b3 u a1 a2).1
  rw [← (bitsOf_value u a1).1, ← (bitsOf_value u' b1).1, hv, a2, b2]

theorem FirstLeastCw.unique {D : Type} {lt : D → D → Prop} {N : Nat} {isCw : List Int → Bool} {score : List Int → D} {x x' : List Int}
    (h : FirstLeastCw lt N isCw score x) (h' : FirstLeastCw lt N isCw score x') : x = x' := by
  obtain ⟨a1, a2, a0, a3⟩ := h
  obtain ⟨b1, b2, b0, b3⟩ := h'
  have hv : value x = value x' := by
    rcases Nat.lt_trichotomy (value x) (value x') with hl | hl | hl
    · exact absurd ((b3 x a1 a2 a0).2 hl) (a3 x' b1 b2 b0).1
    · exact hl
    · exact absurd ((a3 x' b1 b2 b0).2 hl) (b3 x a1 a2 a0).1
  rw [← (bitsOf_value x a1).1, ← (bitsOf_value x' b1).1, hv, a2, b2]

/-- From a search to the two calls, standard decoder. -/
theorem std_close {D : Type} {lt : D → D → Bool} {d : Dec} (h : Ok d) (hk : d.kind = .std) (hK : d.K < 64) {δ : List Int → D} {init : D}
    {cw msg : List Int → Exec (Dec × List Int)}
    (hs : ∀ v, v.length = d.N → (cw v).Sat fun r => Found lt d δ init v r ∧ Kept d r.1)
    (hm : ∀ v d' x, v.length = d.K → cw d.bestX = ok (d', x) → Kept d d' → x.length = d.N →
      msg v = ok ({ d' with bestX := x }, match d.kind with | .std => d'.bestU | .naive => infoOf d.c x))
    (hex : ∃ u, IsBits u ∧ u.length = d.K ∧ lt (δ (d.c.enc u)) init = true) :
    ∃ u, FirstLeast (fun a b => lt a b = true) d.K d.c.enc δ u ∧ (∀ v, v.length = d.N → ∃ d', cw v = ok (d', d.c.enc u)) ∧
      ∀ v, v.length = d.K → ∃ d', msg v = ok (d', u) := by
  obtain ⟨⟨d1, x1⟩, e1, f1, k1⟩ := hs d.bestX h.bx
  obtain ⟨g1, g2⟩ := found_std h hk hK f1 hex
  simp only at g1 g2
  refine ⟨d1.bestU, g1, fun v hv => ?_, fun v hv => ?_⟩
  · obtain ⟨⟨d2, x2⟩, e2, f2, k2⟩ := hs v hv
    obtain ⟨q1, q2⟩ := found_std h hk hK f2 hex
    simp only at q1 q2
    exact ⟨d2, by rw [e2, q2, g1.unique q1]⟩
  · have := hm v d1 x1 hv e1 k1 (found_len h h.bx f1).1
    rw [hk] at this
    exact ⟨_, this⟩

theorem naive_close {D : Type} {lt : D → D → Bool} {d : Dec} (h : Ok d) (hk : d.kind = .naive) (hN : d.N < 64) {δ : List Int → D} {init : D}
    {cw msg : List Int → Exec (Dec × List Int)}
    (hs : ∀ v, v.length = d.N → (cw v).Sat fun r => Found lt d δ init v r ∧ Kept d r.1)
    (hm : d.c.sys = true → ∀ v d' x, v.length = d.K → cw d.bestX = ok (d', x) → Kept d d' → x.length = d.N →
      msg v = ok ({ d' with bestX := x }, match d.kind with | .std => d'.bestU | .naive => infoOf d.c x))
    (hex : ∃ x, IsBits x ∧ x.length = d.N ∧ d.c.isCw x = true ∧ lt (δ x) init = true) :
    ∃ x, FirstLeastCw (fun a b => lt a b = true) d.N d.c.isCw δ x ∧ (∀ v, v.length = d.N → ∃ d', cw v = ok (d', x)) ∧
      (d.c.sys = true → ∀ v, v.length = d.K → ∃ d', msg v = ok (d', infoOf d.c x)) := by
  obtain ⟨⟨d1, x1⟩, e1, f1, k1⟩ := hs d.bestX h.bx
  have g1 := found_naive hk hN f1 hex
  simp only at g1
  refine ⟨x1, g1, fun v hv => ?_, fun hsys v hv => ?_⟩
  · obtain ⟨⟨d2, x2⟩, e2, f2, k2⟩ := hs v hv
    have q1 := found_naive hk hN f2 hex
    simp only at q1
    exact ⟨d2, by rw [e2, g1.unique q1]⟩
  · have := hm hsys v d1 x1 hv e1 k1 (found_len h h.bx f1).1
    rw [hk] at this
    exact ⟨_, this⟩

theorem Sat.both {α : Type} {x : Exec α} {P Q : α → Prop} (h : x.Sat P) (h' : x.Sat Q) : x.Sat fun a => P a ∧ Q a := by
  obtain ⟨r, e, p⟩ := h
  exact ⟨r, e, p, sat_of_ok h' e⟩

theorem hiho_hs {d : Dec} (h : Ok d) {y : List Int} (hy : y.length = d.N) (v : List Int) (hv : v.length = d.N) :
    (d.hihoCw y v).Sat fun r => Found (fun a b => decide (a < b)) d (fun x => ham x y) (2 ^ 32 - 1) v r ∧ Kept d r.1 :=
  (Sat.both (hihoCw_sat h hy hv) (hihoCw_kept h hy hv)).mono fun _ hr => ⟨hr.1.1, hr.2.1⟩

theorem soft_hs {d : Dec} (h : Ok d) (hh : d.hamming = false) {y : List Fl} (hy : y.length = d.N) (hn : ∀ b ∈ y, b ≠ .nan) (v : List Int) (hv : v.length = d.N) :
    (d.sihoCw y v).Sat fun r => Found Fl.lt d (fun x => fdist x y) fltMax v r ∧ Kept d r.1 :=
  (Sat.both (soft_sat h hh hy hv hn) (sihoCw_kept h hy hv)).mono fun _ hr => ⟨hr.1.1, hr.2.1⟩

theorem ham_lt {d : Dec} (h : Ok d) {x y : List Int} (hy : y.length = d.N) : decide (ham x y < 2 ^ 32 - 1) = true := by
  have : ham x y ≤ d.N := by
    unfold ham
    refine (List.length_filter_le _ _).trans ?_
    rw [List.length_zip]
    omega
  have := h.N31
  rw [decide_eq_true_eq]
  omega

theorem zeros_bits (n : Nat) : IsBits (List.replicate n 0) := fun b hb => .inl (List.eq_of_mem_replicate hb)

theorem hihoCw_hardY {d d' : Dec} {y v x : List Int} (hd : List Int) (e : d.hihoCw y v = ok (d', x)) :
    { d with hardY := hd }.hihoCw y v = ok ({ d' with hardY := hd }, x) := by
  have e1 : d.hihoCw y v = pick (fun a b => decide (a < b)) d.count d.N d.saved d.cand (fun x => hamDist d.N x y) (2 ^ 32 - 1, v, d.bestU) >>= fun r =>
    ok ({ d with bestU := r.2.2 }, r.2.1) := rfl
  have e2 : { d with hardY := hd }.hihoCw y v = pick (fun a b => decide (a < b)) d.count d.N d.saved d.cand (fun x => hamDist d.N x y) (2 ^ 32 - 1, v, d.bestU) >>= fun r =>
    ok ({ d with bestU := r.2.2, hardY := hd }, r.2.1) := rfl
  rw [e1] at e
  rw [e2]
  cases hp : pick (fun a b => decide (a < b)) d.count d.N d.saved d.cand (fun x => hamDist d.N x y) (2 ^ 32 - 1, v, d.bestU) with
  | ok r => rw [hp, bind_ok] at e; cases e; rfl
  | exc e' => rw [hp] at e; cases e
  | ub => rw [hp] at e; cases e

/-! ## Infinite inputs -/

theorem fdist_inf {x : List Int} {y : List Fl} (hx : x.length = y.length) (h : ∀ b ∈ y, b ≠ .nan) (hi : ∃ s, .inf s ∈ y) : fdist x y = .inf false := by
  let f : Fl → Int × Fl → Fl := fun acc p =>
      let tmp := b32.add (.fin (if p.1 ≠ 0 then -1 else 1)) p.2.neg
      b32.add acc (b32.mul tmp tmp)
  have stay : ∀ (p : Int × Fl), p.2 ≠ .nan → f (.inf false) p = .inf false := by
    intro p hp
    have : NN (b32.mul (b32.add (.fin (if p.1 ≠ 0 then -1 else 1)) p.2.neg) (b32.add (.fin (if p.1 ≠ 0 then -1 else 1)) p.2.neg)) := by
      refine sq_nn ?_
      cases hp' : p.2 with
      | fin q => exact of_ne_nan _ _
      | inf s => simp [Fmt.add, Fl.neg]
      | nan => exact absurd hp' hp
    show b32.add (.inf false) _ = _
    generalize b32.mul _ _ = z at this
    cases z with
    | fin q => rfl
    | inf s => simp only [NN] at this; subst this; rfl
    | nan => exact this.elim
  have key : ∀ (l : List (Int × Fl)), (∀ p ∈ l, p.2 ≠ .nan) → ∀ acc, NN acc → (acc = .inf false ∨ ∃ s, ∃ p ∈ l, p.2 = .inf s) → l.foldl f acc = .inf false := by
    intro l
    induction l with
    | nil =>
      intro _ acc _ h
      rcases h with h | ⟨s, p, hp, _⟩
      · exact h
      · cases hp
    | cons p l ih =>
      intro hl acc ha h
      rw [List.foldl_cons]
      have hp := hl p List.mem_cons_self
      have hsq : NN (b32.mul (b32.add (.fin (if p.1 ≠ 0 then -1 else 1)) p.2.neg) (b32.add (.fin (if p.1 ≠ 0 then -1 else 1)) p.2.neg)) := by
        refine sq_nn ?_
        cases hp' : p.2 with
        | fin q => exact of_ne_nan _ _
        | inf s => simp [Fmt.add, Fl.neg]
        | nan => exact absurd hp' hp
      refine ih (fun q hq => hl q (List.mem_cons_of_mem _ hq)) _ (add_nn ha hsq) ?_
      rcases h with h | ⟨s, q, hq, e⟩
      · left; rw [h]; exact stay p hp
      · rcases List.mem_cons.mp hq with rfl | hq
        · left
          show b32.add acc (b32.mul (b32.add _ q.2.neg) (b32.add _ q.2.neg)) = _
          rw [e]
          have : b32.mul (b32.add (.fin (if q.1 ≠ 0 then -1 else 1)) (Fl.inf s).neg) (b32.add (.fin (if q.1 ≠ 0 then -1 else 1)) (Fl.inf s).neg) = .inf false := by
            cases s <;> rfl
          rw [this]
          cases acc with
          | fin q => rfl
          | inf t => simp only [NN] at ha; subst ha; rfl
          | nan => exact ha.elim
        · exact .inr ⟨s, q, hq, e⟩
  refine key _ (fun p hp => h _ (List.of_mem_zip hp).2) _ le_rfl (.inr ?_)
  obtain ⟨s, hs⟩ := hi
  obtain ⟨i, hi, e⟩ := List.getElem_of_mem hs
  exact ⟨s, (x[i], y[i]), by rw [List.mem_iff_getElem]; exact ⟨i, by rw [List.length_zip]; omega, by rw [List.getElem_zip]⟩, e⟩

end Verif.ML
