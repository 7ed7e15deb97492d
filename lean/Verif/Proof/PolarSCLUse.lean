import Verif.Proof.PolarSCLRecover

/-! # The list decoder: what the user sees -/

namespace Verif.PolarSCL
open Exec Verif.Polar
open Verif.PolarSC (Fns soft Bits place_bits' encodeSys_bits)

variable {R : Type} {w : Nat} {F : Fns R w} {A : Ar R} {m : Nat} {y : List R} {sort : List (Cand R w) → List (Cand R w)}

theorem bits_exists (hw : 0 < w) : ∀ {x : List (BitVec w)}, Bits x → ∃ u, x = bits w u
  | [], _ => ⟨[], rfl⟩
  | a :: x, h => by
    obtain ⟨u, rfl⟩ := bits_exists hw (x := x) fun b hb => h b (by simp [hb])
    rcases h a (by simp) with rfl | rfl
    · exact ⟨false :: u, by simp [bits]⟩
    · exact ⟨true :: u, by simp [bits]⟩

theorem bits_bits (u : List Bool) : Bits (bits w u) := by
  intro b hb
  obtain ⟨c, _, rfl⟩ := List.mem_map.1 hb
  cases c
  · exact Or.inl rfl
  · exact Or.inr rfl

theorem marked_bits (hw : 0 < w) (u : List Bool) : marked (bits w u) = word w u := by
  unfold marked bits word
  rw [List.map_map]
  refine List.map_congr_left fun b _ => ?_
  have := one_ne hw
  cases b <;> simp [hw.ne']

theorem bits_length (u : List Bool) : (bits w u).length = u.length := by simp [bits]

theorem marked_unplace (fr : List Bool) {x : List (BitVec w)} (h : x.length = fr.length) : marked (unplace fr x) = unplace fr (marked x) := (unplace_map _ h).symm

/-- What the CRC is given is the message, with `bit_init` for 1. -/
theorem seen_eq (hw : 0 < w) {sys : Bool} {frozen u : List Bool} (hu : u.length = 2 ^ m) (hf : frozen.length = 2 ^ m) :
    (seen sys frozen m u : List (BitVec w)) = marked (unplace frozen (if sys then polarTransform m (bits w u) else bits w u)) := by
  unfold seen
  cases sys
  · simp only [Bool.false_eq_true, if_false]
    rw [marked_unplace _ (by rw [bits_length, hu, hf]), marked_bits hw]
  · simp only [if_true]
    rw [marked_unplace _ (by rw [polarTransform_length, hf]), bits_transform hu, marked_bits hw, word_transform hu]

theorem fits_null {fr u : List Bool} (h : Fits fr u) : ∀ i : Nat, fr[i]? = some true → u[i]? = some false := by
  intro i hi
  obtain ⟨h1, h2⟩ := List.getElem?_eq_some_iff.1 hi
  have := (List.forall₂_iff_get.1 h).2 i h1 (h.length_eq ▸ h1)
  rw [List.getElem?_eq_getElem (h.length_eq ▸ h1)]
  exact congrArg some (this h2)

theorem null_fits {fr u : List Bool} (hl : u.length = fr.length) (h : ∀ i : Nat, fr[i]? = some true → u[i]? = some false) : Fits fr u := by
  refine List.forall₂_iff_get.2 ⟨hl.symm, fun i h1 h2 e => ?_⟩
  have := h i (List.getElem?_eq_some_iff.2 ⟨h1, e⟩)
  exact (List.getElem?_eq_some_iff.1 this).2

theorem null_bits (hw : 0 < w) {fr u : List Bool} : (∀ i : Nat, fr[i]? = some true → (bits w u)[i]? = some 0#w) ↔ ∀ i : Nat, fr[i]? = some true → u[i]? = some false := by
  refine forall_congr' fun i => imp_congr_right fun _ => ?_
  unfold bits
  rw [List.getElem?_map]
  cases u[i]? with
  | none => simp
  | some b => cases b <;> simp [hw.ne']

/-- The paths are the codewords of bits. -/
theorem codeword_iff (hw : 0 < w) {frozen : List Bool} (hf : frozen.length = 2 ^ m) {x : List (BitVec w)} :
    (IsCodeword m frozen x ∧ Bits x) ↔ ∃ u, u.length = 2 ^ m ∧ Fits frozen u ∧ x = bits w (boolT m u) := by
  constructor
  · rintro ⟨⟨U, hU, hz, rfl⟩, hb⟩
    have hbU : Bits U := by
      have := PolarSC.transform_bits (n := m) (u := polarTransform m U) (polarTransform_length _ _) hb
      rwa [transform_transform m U hU] at this
    obtain ⟨u, rfl⟩ := bits_exists hw hbU
    rw [bits_length] at hU
    exact ⟨u, hU, null_fits (by omega) ((null_bits hw).1 hz), bits_transform hU⟩
  · rintro ⟨u, hu, hz, rfl⟩
    refine ⟨⟨bits w u, by rw [bits_length, hu], (null_bits hw).2 (fits_null hz), bits_transform hu⟩, bits_bits _⟩

theorem corr_pens (hw : 0 < w) : ∀ {x : List Bool} {z : List Int}, x.length = z.length → corr (bits w x) z = tot z - 2 * pens z x
  | [], [], _ => by simp [corr, bits, tot, pens]
  | b :: x, v :: z, h => by
    have := corr_pens hw (x := x) (z := z) (by simpa using h)
    unfold corr bits tot pens at *
    simp only [List.map_cons, List.zipWith_cons_cons, List.sum_cons]
    rw [this]
    have hv := abs_cases v
    have h1 := one_ne hw
    unfold pen
    cases b
    · simp only [Bool.false_eq_true, if_false, ne_eq, not_true_eq_false]; omega
    · simp only [if_true, ne_eq, h1, not_false_eq_true]; omega

theorem maxLik {B : Int} {num : R → Int → Prop} {rep : Bool → R → Int → Prop} (hw : 0 < w) (hA : Strict A) (hsort : SortOk A sort) (E : Exact F A B num rep) : MaxLik F A sort num B := by
  intro d hr hcrc hL y z hn hy hB v vc hv hvc
  have h := hr.ok hw hA hsort
  have hN := h.N
  have hf : d.frozen.length = 2 ^ d.m := h.frozen.trans hN
  have hzl : z.length = 2 ^ d.m := by rw [← hn.length_eq, hy, hN]
  obtain ⟨V, hV, hc⟩ := result_chosen (F := F) (y := y) hA hsort h
  generalize hres : aResult F A sort d y = u at hc
  obtain ⟨mu, hmem, hbest⟩ := hc
  rw [hcrc] at hbest
  have hfit := hV.fits _ hmem
  have hul : u.length = 2 ^ d.m := by rw [← hf]; exact hfit.length_eq.symm
  have hcw := (codeword_iff (w := w) h.w0 hf (x := bits w (boolT d.m u))).2 ⟨u, hul, hfit, rfl⟩
  have hbl : (boolT d.m u).length = z.length := by rw [boolT_length hul, hzl]
  refine ⟨d.m, bits w (boolT d.m u), hN, hcw.1, hcw.2, ?_, ?_, ?_⟩
  · intro x' h1 h2
    obtain ⟨u', hu', hz', rfl⟩ := (codeword_iff h.w0 hf).1 ⟨h1, h2⟩
    obtain ⟨k, hk⟩ := h.L
    obtain ⟨mu', hmem'⟩ := hV.full hk (by unfold infos; rw [← h.K]; exact hL) hz'
    have := (hV.best E hn hzl hB (by omega) hmem hmem').1 (hbest _ hmem')
    dsimp only at this
    rw [costZ_full hzl hul, costZ_full hzl hu'] at this
    rw [corr_pens h.w0 hbl, corr_pens h.w0 (by rw [boolT_length hu', hzl])]
    omega
  · obtain ⟨r, e, _, _, hr2⟩ := siho_ok (F := F) hA hsort h hy hv
    refine ⟨r.1, ?_⟩
    rw [e, hres] at *
    congr 1
    refine Prod.ext rfl ?_
    rw [hr2]
    congr 1
    rw [← bits_transform hul]
    split
    · rfl
    · rw [transform_transform _ _ (by rw [bits_length, hul])]
  · obtain ⟨r, e, _, _, hr2⟩ := sihoCw_ok (F := F) hA hsort h hy hvc
    refine ⟨r.1, ?_⟩
    rw [e, hres] at *
    congr 1
    refine Prod.ext rfl ?_
    rw [hr2]
    split
    · rw [bits_transform hul]
    · rw [word_transform hul, marked_bits h.w0]

theorem recovers (hw : 0 < w) (hA : Strict A) (hsort : SortOk A sort) {Good : List Bool → List R → List (BitVec w) → Prop}
    (hgood : ∀ {m L : Nat} {frozen u : List Bool} {y : List R} {V : List (List Bool × R)}, frozen.length = 2 ^ m → u.length = 2 ^ m → (∀ i : Nat, frozen[i]? = some true → u[i]? = some false) →
      Good frozen y (bits w (boolT m u)) → Lists F A m y L frozen V → Wins A V u)
    (hlen : ∀ {frozen y x}, Good frozen y x → y.length = x.length) : Recovers F A sort Good ∧ RecoversSys F A sort Good := by
  have core : ∀ {d : Dec R w} {u : List Bool} {y : List R}, d.Ok → u.length = 2 ^ d.m → (∀ i : Nat, d.frozen[i]? = some true → u[i]? = some false) → Good d.frozen y (bits w (boolT d.m u)) →
      (∀ check, d.crc = some check → check (seen d.sys d.frozen d.m u) = true) → aResult F A sort d y = u := by
    intro d u y h hu hz hg hc
    have hf : d.frozen.length = 2 ^ d.m := h.frozen.trans h.N
    obtain ⟨V, hV, hch⟩ := result_chosen (F := F) (y := y) hA hsort h
    exact wins_chosen (hgood hf hu hz hg hV) hch hc
  constructor
  · intro d e msg out x y v vc hr hs he hm hml hol hx hg hcrc hv hvc
    have h := hr.ok hw hA hsort
    have hN := h.N
    have hf : d.frozen.length = 2 ^ d.m := h.frozen.trans hN
    rw [C09_encode d.K d.N d.m d.frozen e he (by simpa using hN) msg out (by simpa using hml) (by simpa using hol)] at hx
    cases hx
    have hpl : (place d.frozen msg).length = 2 ^ d.m := by rw [place_length, hf]
    obtain ⟨u, hu⟩ := bits_exists hw (place_bits' (fr := d.frozen) hm)
    have hul : u.length = 2 ^ d.m := by rw [← bits_length (w := w) u, ← hu, hpl]
    have hup : unplace d.frozen (bits w u) = msg := by rw [← hu]; exact unplace_place _ _ (by rw [hml]; exact h.K)
    rw [hu, bits_transform hul] at hg
    have hres := core h hul ((null_bits hw).1 (by rw [← hu]; exact fun i hi => place_frozen hi)) hg (fun check hc => by
      rw [seen_eq hw hul hf, hs]
      simp only [Bool.false_eq_true, if_false]
      rw [hup]; exact hcrc check hc)
    have hyl : y.length = d.N := by rw [hlen hg, bits_length, boolT_length hul, hN]
    constructor
    · obtain ⟨r, e, _, _, hr2⟩ := siho_ok (F := F) hA hsort h hyl hv
      rw [hres, hs] at hr2
      simp only [Bool.false_eq_true, if_false] at hr2
      exact ⟨r.1, by rw [e]; congr 1; exact Prod.ext rfl (by rw [hr2, hup])⟩
    · obtain ⟨r, e, _, _, hr2⟩ := sihoCw_ok (F := F) hA hsort h hyl hvc
      rw [hres, hs] at hr2
      simp only [Bool.false_eq_true, if_false] at hr2
      exact ⟨r.1, by rw [e]; congr 1; exact Prod.ext rfl (by rw [hr2, hu, bits_transform hul, marked_bits hw, word_transform hul])⟩
  · intro d e msg out x y v vc hr hs he hconv hm hml hol hx hg hcrc hv hvc
    have h := hr.ok hw hA hsort
    have hN := h.N
    have hf : d.frozen.length = 2 ^ d.m := h.frozen.trans hN
    obtain ⟨z, z1, z2, z3, rfl⟩ := encodeSys_bits he (n := d.m) (by simpa using hN) (by simpa using hml) (by simpa using hol) hx
    obtain ⟨x', e', _, hu'⟩ := C11_systematic_partial d.K d.N d.m d.frozen e he (by simpa using hN) hconv msg out hm (by simpa using hml) (by simpa using hol)
    rw [hx] at e'
    cases e'
    obtain ⟨u, rfl⟩ := bits_exists hw z2
    rw [bits_length] at z1
    have hg' := hg
    rw [bits_transform z1] at hg'
    have hres := core h z1 ((null_bits hw).1 z3) hg' (fun check hc => by
      rw [seen_eq hw z1 hf, hs]
      simp only [if_true]
      rw [hu']; exact hcrc check hc)
    have hyl : y.length = d.N := by rw [hlen hg, polarTransform_length, hN]
    constructor
    · obtain ⟨r, e, _, _, hr2⟩ := siho_ok (F := F) hA hsort h hyl hv
      rw [hres, hs] at hr2
      simp only [if_true] at hr2
      exact ⟨r.1, by rw [e]; congr 1; exact Prod.ext rfl (by rw [hr2, hu'])⟩
    · obtain ⟨r, e, _, _, hr2⟩ := sihoCw_ok (F := F) hA hsort h hyl hvc
      rw [hres, hs] at hr2
      simp only [if_true] at hr2
      exact ⟨r.1, by rw [e]; congr 1; exact Prod.ext rfl hr2⟩

end Verif.PolarSCL
