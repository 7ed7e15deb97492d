import Verif.Props.PolarMK

/-! # C105–C106: systematic multi-kernel polar encoder, examples and defects -/

namespace Verif.PolarMK
open Exec Finset

variable {w : Nat}

theorem selfInverse_iff (K : Kernel) : selfInverse K = true ↔ Involution K := by
  unfold selfInverse Involution
  simp only [List.all_eq_true, List.mem_range, square]
  constructor
  · intro h i j hi hj
    have := h i hi j hj
    simp only [beq_iff_eq, decide_eq_decide] at this
    exact this
  · intro h i hi j hj
    simp only [beq_iff_eq, decide_eq_decide]
    exact h i j hi hj

theorem palindrome_iff (l : List Nat) :
    ((List.range (l.length / 2)).any fun i => decide (l.getD i 0 ≠ l.getD (l.length - 1 - i) 0)) = false ↔ l.reverse = l := by
  rw [List.any_eq_false]
  simp only [List.mem_range, decide_eq_true_eq, Decidable.not_not]
  constructor
  · intro h
    apply List.ext_getElem (by simp)
    intro i h1 h2
    rw [List.getElem_reverse]
    by_cases hi : i < l.length / 2
    · have := h i hi
      rw [getD_lt 0 h2, getD_lt 0 (by omega)] at this
      exact this.symm
    · by_cases hi' : l.length - 1 - i < l.length / 2
      · have := h _ hi'
        rw [getD_lt 0 (by omega), getD_lt 0 (by omega)] at this
        rw [this]
        congr 1
        omega
      · congr 1
        omega
  · intro h i hi
    have h1 : l.reverse.getD i 0 = l.getD i 0 := by rw [h]
    rw [← h1, getD_lt 0 (by simp; omega), getD_lt 0 (by omega), List.getElem_reverse]

/-- **C105**: `can_be_systematic` never fails on a code with stages, and answers true exactly when the stages all
use the same kernel or read the same in both directions, and every kernel is its own inverse modulo 2. -/
theorem C105_can_be_systematic (c : Code) (hc : Accepted c) :
    ∃ b, c.canBeSystematic = ok b ∧
      (b = true ↔ ((∀ s ∈ c.stages, ∀ s' ∈ c.stages, s = s') ∨ c.stages.reverse = c.stages) ∧
        ∀ K ∈ c.kernels, Involution K) := by
  have hc := hc.codeOk
  have hne := hc.ne
  have hst := hc.stg
  have hk := hc.kern
  obtain ⟨t, l, hl⟩ : ∃ t l, c.stages = t :: l := by
    cases h : c.stages with
    | nil => exact absurd h hne
    | cons t l => exact ⟨t, l, rfl⟩
  have hkpos : 0 < c.kernels.length := by
    have := hst t (by rw [hl]; simp)
    omega
  have hall : c.kernels.all selfInverse = true ↔ ∀ K ∈ c.kernels, Involution K := by
    rw [List.all_eq_true]
    exact ⟨fun h K hK => (selfInverse_iff K).mp (h K hK), fun h K hK => (selfInverse_iff K).mpr (h K hK)⟩
  have hmono : ∃ m, c.isMono = ok m ∧ (m = 0 ↔ ¬ ∀ s ∈ c.stages, ∀ s' ∈ c.stages, s = s') := by
    unfold Code.isMono
    rw [rd_lt (show 0 < c.stages.length by rw [hl]; simp), bind_ok]
    have h0 : c.stages[0]'(by rw [hl]; simp) = t := by simp [hl]
    rw [h0]
    by_cases ha : (c.stages.tail.any fun s => decide (s ≠ t)) = true
    · rw [if_pos ha]
      refine ⟨0, rfl, fun _ h => ?_, fun _ => rfl⟩
      rw [hl] at h ha
      obtain ⟨s, hs, hs'⟩ := List.any_eq_true.mp ha
      simp only [List.tail_cons] at hs
      exact (of_decide_eq_true hs') (h s (by simp [hs]) t (by simp))
    · rw [if_neg ha, rd_lt hkpos, bind_ok]
      refine ⟨_, rfl, fun h => ?_, fun h => ?_⟩
      · exact absurd (List.length_eq_zero_iff.mp h) (hk _ (List.getElem_mem hkpos)).2
      · exfalso
        apply h
        have key : ∀ s ∈ c.stages, s = t := by
          intro s hs
          rw [hl] at hs ha
          rcases List.mem_cons.mp hs with rfl | hs
          · rfl
          · by_contra hne'
            exact ha (List.any_eq_true.mpr ⟨s, by simpa using hs, by simpa using hne'⟩)
        intro s hs s' hs'
        rw [key s hs, key s' hs']
  obtain ⟨m, hm, hm'⟩ := hmono
  unfold Code.canBeSystematic
  rw [hm, bind_ok]
  by_cases h1 : m = 0 ∧ (List.range (c.stages.length / 2)).any
      (fun l => decide (c.stages.getD l 0 ≠ c.stages.getD (c.stages.length - 1 - l) 0)) = true
  · rw [if_pos h1]
    refine ⟨false, rfl, by simp, ?_⟩
    rintro ⟨h2, _⟩
    exfalso
    rcases h2 with h2 | h2
    · exact (hm'.mp h1.1) h2
    · have := (palindrome_iff c.stages).mpr h2
      rw [this] at h1
      simp at h1
  · rw [if_neg h1]
    refine ⟨_, rfl, ?_⟩
    rw [hall]
    constructor
    · intro h
      refine ⟨?_, h⟩
      by_cases h0 : m = 0
      · right
        apply (palindrome_iff c.stages).mp
        by_contra hc'
        exact h1 ⟨h0, by simpa using hc'⟩
      · left
        by_contra hc'
        exact h0 (hm'.mpr hc')
    · exact fun h => h.2

/-- **C105**: the constructor of the systematic encoder accepts exactly the frozen sets of the right size for codes
whose stages read the same in both directions and whose kernels are their own inverses modulo 2. -/
theorem C105_sys_constructor (K N : Int) (c : Code) (hc : Accepted c) (frozen : List Bool) :
    (∃ e : Enc w, Enc.mkSys? w K N c frozen = ok e) ↔
      0 < K ∧ N = frozen.length ∧ K = (frozen.filter (· = false)).length ∧
      c.stages.reverse = c.stages ∧ ∀ K ∈ c.kernels, Involution K := by
  obtain ⟨b, h1, h2⟩ := C105_can_be_systematic c hc
  have h3 := (C105_constructor (w := w) K N c hc frozen).1
  have hrev : (∀ s ∈ c.stages, ∀ s' ∈ c.stages, s = s') → c.stages.reverse = c.stages := by
    intro h
    apply List.ext_getElem (by simp)
    intro i a b
    exact h _ (List.mem_reverse.mp (List.getElem_mem a)) _ (List.getElem_mem b)
  have h4 : b = true ↔ c.stages.reverse = c.stages ∧ ∀ K ∈ c.kernels, Involution K := by
    rw [h2]
    exact ⟨fun h => ⟨h.1.elim hrev id, h.2⟩, fun h => ⟨Or.inr h.1, h.2⟩⟩
  constructor
  · rintro ⟨e, he⟩
    unfold Enc.mkSys? at he
    obtain ⟨e', g1, g2⟩ := BCJR.bind_inv he
    obtain ⟨a1, a2, a3⟩ := h3.mp ⟨e', g1⟩
    rw [h1, bind_ok] at g2
    cases b
    · rw [if_neg (by simp)] at g2; cases g2
    · exact ⟨a1, a2, a3, h4.mp rfl⟩
  · rintro ⟨a1, a2, a3, a4⟩
    obtain ⟨e, he⟩ := h3.mpr ⟨a1, a2, a3⟩
    refine ⟨e, ?_⟩
    unfold Enc.mkSys?
    rw [he, bind_ok, h1, bind_ok, h4.mpr a4, if_pos rfl]

theorem inv_of_involution {Ks : List Kernel} (h : ∀ K ∈ Ks, Involution K ∧ K ≠ []) : Inv (fam Ks) (fam Ks) := by
  induction Ks with
  | nil => exact .nil
  | cons K Ks ih =>
    obtain ⟨h1, h2⟩ := h K (by simp)
    refine Inv.cons (List.length_pos_iff.mpr h2) ?_ (ih fun K' hK' => h K' (by simp [hK']))
    intro a c ha hc
    have := zb_parity K.length fun t => entry K a t && entry K t c
    rw [show decide (((List.range K.length).filter fun t => entry K a t && entry K t c).length % 2 = 1) =
      decide (a = c) from decide_eq_decide.mpr (h1 a c ha hc)] at this
    simp only [zb_and] at this
    rw [← this]
    unfold zb
    simp

theorem sys_inv {c : Code} (hc : Accepted c) (h : c.canBeSystematic = ok true) : Inv (fam c.stageKernels) (fam c.stageKernels) := by
  obtain ⟨b, h1, h2⟩ := C105_can_be_systematic c hc
  rw [h] at h1
  injection h1 with h1
  subst h1
  have h3 := (h2.mp rfl).2
  apply inv_of_involution
  intro K hK
  refine ⟨?_, (hc.codeOk.stage_kern hK).2⟩
  obtain ⟨s, hs, rfl⟩ := List.mem_map.mp hK
  exact h3 _ (hc.codeOk.kernel hs).2

theorem masked_bit (hw : 0 < w) {fr : List Bool} {x : List (BitVec w)} (hx : IsBits x) (hl : x.length = fr.length) {j : Nat}
    (hj : j < fr.length) : zb (bit (masked fr x) j) = zb (bit x j) * (1 + zb (fr.getD j false)) := by
  have h1 : (masked fr x)[j]? = some (if fr.getD j true then 0#w
    else if x.getD j 0#w ≠ 0#w then 1#w else 0#w) := by
    unfold masked
    rw [getElem?_mapRange, if_pos hj]
  have hx' := List.getElem?_eq_getElem (show j < x.length by omega)
  rw [bit_some h1, bit_some hx', getD_lt true hj, getD_lt false hj, getD_lt 0#w (by omega)]
  cases fr[j]
  · simp only [Bool.false_eq_true, if_false]
    rcases hx _ (List.getElem_mem (show j < x.length by omega)) with e | e
    · rw [e]; simp [zb]
    · rw [e]
      have : (1#w : BitVec w) ≠ 0#w := by
        intro h
        have := congrArg (fun v : BitVec w => v.getLsbD 0) h
        simp [hw] at this
      rw [if_pos this]; simp [zb]
  · simp only [if_true]
    have : (1 : ZMod 2) + zb true = 0 := by decide
    rw [this, mul_zero]
    simp [zb]

theorem transform_isBits (Ks : List Kernel) (x : List (BitVec w)) : IsBits (transform Ks x) := by
  intro v hv
  obtain ⟨b, _, rfl⟩ := List.mem_map.mp hv
  unfold ofBit
  split <;> simp

/-- What leaks at position `k`: the frozen positions of the first encoding. -/
theorem sys_value (hw : 0 < w) {Ks : List Kernel} {fr : List Bool} (hI : Inv (fam Ks) (fam Ks)) (hl : fr.length = size Ks)
    (x : List (BitVec w)) {k : Nat} (hk : k < size Ks) :
    zb (bit (transform Ks (masked fr (transform Ks x))) k) = zb (bit x k) +
      ∑ i ∈ range (size Ks), zb (bit x i) * ∑ j ∈ range (size Ks), zb (fr.getD j false && kron Ks i j && kron Ks j k) := by
  rw [zb_bit_transform hw _ _ hk]
  have e1 : ∀ j ∈ range (size Ks), zb (bit (masked fr (transform Ks x)) j) * G (fam Ks) j k =
      (∑ a ∈ range (size Ks), zb (bit x a) * G (fam Ks) a j) * G (fam Ks) j k +
      ∑ a ∈ range (size Ks), zb (bit x a) * (zb (fr.getD j false) * G (fam Ks) a j * G (fam Ks) j k) := by
    intro j hj
    have hj := Finset.mem_range.mp hj
    rw [masked_bit hw (transform_isBits _ _) (by rw [transform_length, hl]) (by omega), zb_bit_transform hw _ _ hj]
    rw [mul_add, mul_one, add_mul]
    congr 1
    rw [Finset.sum_mul, Finset.sum_mul]
    apply Finset.sum_congr rfl
    intro a _
    ring
  rw [Finset.sum_congr rfl e1, Finset.sum_add_distrib]
  congr 1
  · have := hI.undo (fun a => zb (bit x a)) k (by rw [fsize_fam]; exact hk)
    rw [fsize_fam] at this
    exact this
  · rw [Finset.sum_comm]
    apply Finset.sum_congr rfl
    intro i _
    rw [Finset.mul_sum]
    apply Finset.sum_congr rfl
    intro j _
    rw [zb_and, zb_and, zb_kron, zb_kron]

theorem noLeak_iff {Ks : List Kernel} {fr : List Bool} : NoLeak Ks fr ↔
    ∀ i k : Nat, fr[i]? = some false → fr[k]? = some false →
      ∑ j ∈ range (size Ks), zb (fr.getD j false && kron Ks i j && kron Ks j k) = 0 := by
  unfold NoLeak
  refine forall_congr' fun i => forall_congr' fun k => forall_congr' fun _ => forall_congr' fun _ => ?_
  rw [← zb_parity]
  generalize ((List.range (size Ks)).filter _).length = m
  rcases Nat.mod_two_eq_zero_or_one m with h | h <;> simp [h, zb]

/-- **C105**.  After any history of an encoder built for the length of its code, the systematic encoding never
fails and gives a codeword. -/
theorem C105_systematic_codeword (hw : 0 < w) (c : Code) (hc : Accepted c) (e : Enc w)
    (he : Reach c e) (u out : List (BitVec w)) (hu : u.length = e.core.K) (ho : out.length = c.N) :
    ∃ e' x, e.encodeSys u out = ok (e', x) ∧ e'.core = e.core ∧ IsCodeword c.stageKernels e.core.frozen x := by
  have hs := he.st hw hc.codeOk
  obtain ⟨e', h1, h2, _⟩ := hs.encSys hw hc.codeOk hu ho
  refine ⟨e', _, h1, h2, _, ?_, ?_, rfl⟩
  · rw [masked, List.length_map, List.length_range, hs.fr, hc.codeOk.len]
  · intro i hi
    have hlt : i < e.core.frozen.length := (List.getElem?_eq_some_iff.mp hi).1
    unfold masked
    rw [getElem?_mapRange, if_pos hlt, List.getD_eq_getElem?_getD, hi]
    rfl

/-- **C105**.  The systematic encoder of a code that can be systematic carries every binary message unchanged on the
information positions if and only if the information set does not leak: for all information positions `i` and `k`
the number of frozen positions `j` with `G[i][j] = G[j][k] = 1` is even. -/
theorem C105_systematic_iff (hw : 0 < w) (c : Code) (hc : Accepted c) (hsys : c.canBeSystematic = ok true) (e : Enc w)
    (he : Reach c e) (out : List (BitVec w)) (ho : out.length = c.N) :
    (∀ u : List (BitVec w), IsBits u → u.length = e.core.K →
      ∃ e' x, e.encodeSys u out = ok (e', x) ∧ Polar.unplace e.core.frozen x = u) ↔
    NoLeak c.stageKernels e.core.frozen := by
  have hs := he.st hw hc.codeOk
  have hI := sys_inv hc hsys
  have hN := hc.codeOk.len
  have hfl : e.core.frozen.length = size c.stageKernels := by rw [hs.fr, hN]
  rw [noLeak_iff]
  have h10 : (1#w).getLsbD 0 = true := by simp [hw]
  constructor
  · intro h i k hi hk
    have hil : i < e.core.frozen.length := (List.getElem?_eq_some_iff.mp hi).1
    have hkl : k < e.core.frozen.length := (List.getElem?_eq_some_iff.mp hk).1
    -- the message with a single one, on position `i`
    let U : List (BitVec w) := (List.replicate e.core.K 0#w).set (Polar.rank e.core.frozen i) 1#w
    have hr := Polar.rank_lt hi
    rw [hs.k] at hr
    have hU : IsBits U := by
      intro v hv
      rcases List.mem_or_eq_of_mem_set hv with hv | hv
      · exact Or.inl (List.eq_of_mem_replicate hv)
      · exact Or.inr hv
    have hUl : U.length = e.core.K := by simp [U]
    have hmono : ∀ a b : Nat, a ≤ b → Polar.rank e.core.frozen a ≤ Polar.rank e.core.frozen b := by
      intro a b hab
      unfold Polar.rank
      exact (((List.take_sublist_take_left hab)).filter _).length_le
    have hplace : ∀ p, p < e.core.frozen.length → zb (bit (Polar.place e.core.frozen U) p) = if p = i then 1 else 0 := by
      intro p hp
      have hfp := List.getElem?_eq_getElem hp
      cases hb : e.core.frozen[p]
      · rw [hb] at hfp
        rw [bit_some (Polar.place_info hfp)]
        by_cases hpi : p = i
        · subst hpi
          rw [if_pos rfl, List.getD_eq_getElem?_getD, List.getElem?_set_self (by simpa using hr)]
          simp [h10, zb]
        · have hrank : Polar.rank e.core.frozen i ≠ Polar.rank e.core.frozen p := by
            rcases Nat.lt_or_gt_of_ne hpi with hlt | hlt
            · have := hmono (p + 1) i hlt
              rw [Polar.rank_succ hfp] at this
              simp only [Bool.false_eq_true, if_false] at this
              omega
            · have := hmono (i + 1) p hlt
              rw [Polar.rank_succ hi] at this
              simp only [Bool.false_eq_true, if_false] at this
              omega
          rw [if_neg hpi, List.getD_eq_getElem?_getD, List.getElem?_set_ne hrank]
          have hrp := Polar.rank_lt hfp
          rw [hs.k] at hrp
          rw [List.getElem?_replicate, if_pos hrp]
          simp [zb]
      · rw [hb] at hfp
        have hpi : p ≠ i := by
          rintro rfl
          rw [hi] at hfp; simp at hfp
        rw [bit_some (Polar.place_frozen hfp), if_neg hpi]
        simp [zb]
    obtain ⟨e', x, h1, h2⟩ := h U hU hUl
    obtain ⟨e2, g1, _, _⟩ := hs.encSys hw hc.codeOk hUl ho
    rw [g1] at h1
    injection h1 with h1
    injection h1 with _ h1
    have hx := sys_value hw hI hfl (Polar.place e.core.frozen U) (k := k) (by omega)
    rw [h1] at hx
    -- the information positions of `x` carry `U`
    have hxk : bit x k = bit (Polar.place e.core.frozen U) k := by
      have hxl : x.length = e.core.frozen.length := by rw [← h1, transform_length, hfl]
      have key : ∀ (fr : List Bool) (x u : List (BitVec w)), x.length = fr.length → Polar.unplace fr x = u →
          ∀ k : Nat, fr[k]? = some false → x[k]? = some (u.getD (Polar.rank fr k) 0#w) := by
        intro fr
        induction fr with
        | nil => intro x u _ _ k hk; simp at hk
        | cons b fr ih =>
          intro x u hl hu k hk
          cases x with
          | nil => simp at hl
          | cons a x =>
            cases b
            · simp only [Polar.unplace, List.headD_cons, List.tail_cons] at hu
              subst hu
              cases k with
              | zero => simp [Polar.rank]
              | succ k =>
                rw [List.getElem?_cons_succ] at hk ⊢
                rw [ih x _ (by simpa using hl) rfl k hk]
                simp [Polar.rank]
            · simp only [Polar.unplace, List.tail_cons] at hu
              cases k with
              | zero => simp at hk
              | succ k =>
                rw [List.getElem?_cons_succ] at hk ⊢
                rw [ih x u (by simpa using hl) hu k hk]
                simp [Polar.rank]
      rw [bit_some (key _ x U hxl h2 k hk), bit_some (Polar.place_info hk)]
    rw [hxk] at hx
    have hz : ∑ a ∈ range (size c.stageKernels), zb (bit (Polar.place e.core.frozen U) a) *
        ∑ j ∈ range (size c.stageKernels), zb (e.core.frozen.getD j false && kron c.stageKernels a j && kron c.stageKernels j k) = 0 := by
      have := hx
      rw [left_eq_add] at this
      exact this
    rw [Finset.sum_eq_single i] at hz
    · rw [hplace i hil, if_pos rfl, one_mul] at hz
      exact hz
    · intro a ha hai
      have ha := Finset.mem_range.mp ha
      rw [hplace a (by omega), if_neg hai, zero_mul]
    · intro hni
      exact absurd (Finset.mem_range.mpr (by omega)) hni
  · intro h u hub hul
    obtain ⟨e', h1, _, _⟩ := hs.encSys hw hc.codeOk hul ho
    refine ⟨e', _, h1, ?_⟩
    rw [show u = Polar.unplace e.core.frozen (Polar.place e.core.frozen u) from
      (Polar.unplace_place e.core.frozen u (by rw [hul, hs.k])).symm]
    rw [Polar.unplace_place e.core.frozen u (by rw [hul, hs.k])]
    conv => rhs; rw [show u = Polar.unplace e.core.frozen (Polar.place e.core.frozen u) from
      (Polar.unplace_place e.core.frozen u (by rw [hul, hs.k])).symm]
    apply Polar.unplace_congr (by rw [transform_length, hfl]) (by rw [Polar.place_length])
    intro k hk
    have hkl : k < e.core.frozen.length := (List.getElem?_eq_some_iff.mp hk).1
    have hx := sys_value hw hI hfl (Polar.place e.core.frozen u) (k := k) (by omega)
    rw [Finset.sum_eq_zero, add_zero] at hx
    · have hx := zb_inj hx
      have t1 := transform_isBits c.stageKernels (masked e.core.frozen (transform c.stageKernels (Polar.place e.core.frozen u)))
      have t2 := place_isBits (fr := e.core.frozen) hub
      have l1 := List.getElem?_eq_getElem (show k < (transform c.stageKernels (masked e.core.frozen
        (transform c.stageKernels (Polar.place e.core.frozen u)))).length by rw [transform_length]; omega)
      have l2 := List.getElem?_eq_getElem (show k < (Polar.place e.core.frozen u).length by rw [Polar.place_length]; omega)
      rw [bit_some l1, bit_some l2] at hx
      rw [l1, l2]
      congr 1
      have m1 := t1 _ (List.mem_of_getElem? l1)
      have m2 := t2 _ (List.mem_of_getElem? l2)
      rcases m1 with a | a <;> rcases m2 with b | b <;> rw [a, b] at hx ⊢ <;> simp [hw] at hx
    · intro i hi
      have hi := Finset.mem_range.mp hi
      have hfi := List.getElem?_eq_getElem (show i < e.core.frozen.length by omega)
      cases hb : e.core.frozen[i]'(by omega)
      · rw [hb] at hfi
        rw [h i k hfi hk, mul_zero]
      · rw [hb] at hfi
        rw [bit_some (Polar.place_frozen hfi)]
        simp [zb]

/-! ## Examples -/

/-- The kernel of Arıkan. -/
def T2 : Kernel := [[true, false], [true, true]]

/-- A kernel of size 3 that is its own inverse. -/
def I3 : Kernel := [[true, false, false], [true, true, false], [true, false, true]]

/-- A kernel whose determinant is 2. -/
def S3 : Kernel := [[true, true, false], [false, true, true], [true, false, true]]

/-- A code of length 12 of three stages. -/
def c12 : Code := { N := 12, kernels := [T2, I3], stages := [0, 1, 0] }

theorem det_of {K : Kernel} {d : Int} (hs : Square K) (h0 : K ≠ []) (h : determinant K.length K = ok d) : det K = d := by
  rw [determinant_det hs h0] at h
  injection h

theorem det_T2 : det T2 = 1 := det_of (by decide) (by decide) (by decide +kernel)
theorem det_I3 : det I3 = 1 := det_of (by decide) (by decide) (by decide +kernel)
theorem det_S3 : det S3 = 2 := det_of (by decide) (by decide) (by decide +kernel)

theorem c12_ok : Code.mk? [T2, I3] [0, 1, 0] = ok c12 := by decide +kernel

example : Accepted c12 := .multi c12_ok

example : Code.mkMono? 8 T2 3 = ok { N := 8, kernels := [T2], stages := [0, 0, 0] } := by decide +kernel

theorem c12_sys : c12.canBeSystematic = ok true := by decide +kernel

example : ∀ K ∈ c12.stageKernels, det K % 2 = 1 := by
  intro K hK
  simp only [Code.stageKernels, c12, List.map_cons, List.map_nil, List.mem_cons, List.not_mem_nil, or_false] at hK
  rcases hK with rfl | rfl | rfl
  · exact congrArg (· % 2) det_T2
  · exact congrArg (· % 2) det_I3
  · exact congrArg (· % 2) det_T2

/-- Frozen bits for `c12` with the information positions 5, 9 and 11. -/
def fr12 : List Bool := [true, true, true, true, true, false, true, true, true, false, true, false]

/-- An encoder of `c12` exists, and so do its histories. -/
example : ∃ e : Enc 8, Reach c12 e ∧ e.core.frozen = fr12 := by
  obtain ⟨e, he⟩ := (C105_constructor (w := 8) 3 12 c12 (.multi c12_ok) fr12).1.mpr ⟨by decide, rfl, rfl⟩
  obtain ⟨_, h2⟩ := (C105_constructor (w := 8) 3 12 c12 (.multi c12_ok) fr12).2 e he
  exact ⟨e, .mk he, by rw [h2]⟩

example : NoLeak c12.stageKernels fr12 := by
  intro i k hi hk
  have h1 : i < 12 := (List.getElem?_eq_some_iff.mp hi).1
  have h2 : k < 12 := (List.getElem?_eq_some_iff.mp hk).1
  have key : ∀ i < 12, ∀ k < 12, fr12[i]? = some false → fr12[k]? = some false →
      ((List.range (size c12.stageKernels)).filter fun j => fr12.getD j false && kron c12.stageKernels i j &&
        kron c12.stageKernels j k).length % 2 = 0 := by decide +kernel
  exact key i h1 k h2 hi hk

example : transform c12.stageKernels [0#8, 0, 0, 0, 0, 1, 0, 0, 0, 0, 0, 1] = [0#8, 0, 0, 0, 0, 0, 1, 1, 0, 0, 1, 1] := by
  decide +kernel

/-! ## Defects -/

/-- **C106**: the constructor accepts a kernel that is singular modulo 2 (its determinant is 2), and the encoder of
rate 1 gives the null codeword to the messages 000 and 111. -/
theorem C106_singular_kernel_accepted : ∃ c, Code.mk? [S3] [0] = ok c ∧ det S3 = 2 ∧
    ((Enc.mk? 8 3 3 c [false, false, false]).bind fun e => (e.encode [1, 1, 1] [0, 0, 0]).bind fun r => ok r.2) =
      ok [0#8, 0, 0] ∧
    ((Enc.mk? 8 3 3 c [false, false, false]).bind fun e => (e.encode [0, 0, 0] [0, 0, 0]).bind fun r => ok r.2) =
      ok [0#8, 0, 0] :=
  ⟨{ N := 3, kernels := [S3], stages := [0] }, by decide +kernel, det_S3, by decide +kernel, by decide +kernel⟩

example : ∃ c, Code.mk? [S3] [0] = ok c ∧ ∃ K ∈ c.stageKernels, det K % 2 ≠ 1 :=
  ⟨{ N := 3, kernels := [S3], stages := [0] }, by decide +kernel, S3, by simp [Code.stageKernels], by rw [det_S3]; decide⟩

/-- **C106**: the encoder does not compare its length with the length of the code.  For a code of length 4 the encoder
of length 3 is accepted and leaves the last bit as it is. -/
theorem C106_length_not_checked : ∃ c, Code.mk? [T2] [0, 0] = ok c ∧ c.N = 4 ∧
    ((Enc.mk? 8 3 3 c [false, false, false]).bind fun e => (e.encode [1, 1, 1] [0, 0, 0]).bind fun r => ok r.2) =
      ok [0#8, 1, 1] :=
  ⟨{ N := 4, kernels := [T2], stages := [0, 0] }, by decide +kernel, rfl, by decide +kernel⟩

/-- **C106**: the systematic encoder accepts frozen bits for which it is not systematic: with the information positions
0, 2 and 3 the message 001 comes out as 101. -/
theorem C106_not_systematic : ∃ c, Code.mk? [T2] [0, 0] = ok c ∧
    ((Enc.mkSys? 8 3 4 c [false, true, false, false]).bind fun e =>
      (e.encodeSys [0, 0, 1] [0, 0, 0, 0]).bind fun r => ok (e.core.infoPos, r.2)) = ok ([0, 2, 3], [1#8, 1, 0, 1]) :=
  ⟨{ N := 4, kernels := [T2], stages := [0, 0] }, by decide +kernel, by decide +kernel⟩

/-- **C106**: the constructor from a length and a kernel accepts the length 1, with no stage, and `can_be_systematic`
then reads the first stage out of bounds. -/
theorem C106_no_stage_ub : ∃ c, Code.mkMono? 1 T2 0 = ok c ∧ c.canBeSystematic = ub :=
  ⟨{ N := 1, kernels := [T2], stages := [] }, by decide +kernel, by decide +kernel⟩

end Verif.PolarMK
