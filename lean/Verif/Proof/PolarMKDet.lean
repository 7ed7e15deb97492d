import Verif.Proof.PolarMK
import Mathlib.Algebra.Field.ZMod
import Mathlib.LinearAlgebra.Matrix.NonsingularInverse
import Mathlib.LinearAlgebra.Matrix.ToLinearEquiv

/-! # Determinants and invertibility of the kernels -/

namespace Verif.PolarMK
open Exec Finset

/-- A square table of side `L`. -/
def Side (L : Nat) (t : Kernel) : Prop := t.length = L ∧ ∀ r ∈ t, r.length = L

theorem Side.row {L : Nat} {t : Kernel} (h : Side L t) {i : Nat} (hi : i < L) :
    ∃ r, t[i]? = some r ∧ r.length = L := by
  have hi' : i < t.length := by rw [h.1]; exact hi
  exact ⟨t[i], List.getElem?_eq_getElem hi', h.2 _ (List.getElem_mem hi')⟩

theorem rd2_sat {L : Nat} {t : Kernel} (h : Side L t) {i j : Nat} (hi : i < L) (hj : j < L) :
    rd2 t i j = ok (entry t i j) := by
  obtain ⟨r, h1, h2⟩ := h.row hi
  have hi' : i < t.length := by rw [h.1]; exact hi
  have hr : t[i] = r := by rw [List.getElem?_eq_getElem hi'] at h1; simpa using h1
  unfold rd2 entry
  rw [rd_lt hi', bind_ok, hr, rd_lt (by omega), getD_lt [] hi', hr, getD_lt false (by omega)]

theorem wr2_sat {L : Nat} {t : Kernel} (h : Side L t) {i j : Nat} (hi : i < L) (hj : j < L) (v : Bool) :
    (wr2 t i j v).Sat fun t' => Side L t' ∧ ∀ a b, entry t' a b = if a = i ∧ b = j then v else entry t a b := by
  obtain ⟨r, h1, h2⟩ := h.row hi
  have hi' : i < t.length := by rw [h.1]; exact hi
  have hr : t[i] = r := by rw [List.getElem?_eq_getElem hi'] at h1; simpa using h1
  unfold wr2
  rw [rd_lt hi', bind_ok, hr, wr_lt (by omega), bind_ok, wr_lt hi', sat_ok]
  refine ⟨⟨by rw [List.length_set]; exact h.1, ?_⟩, ?_⟩
  · intro r' hr'
    rcases List.mem_or_eq_of_mem_set hr' with hm | hm
    · exact h.2 _ hm
    · rw [hm, List.length_set]; exact h2
  · intro a b
    unfold entry
    by_cases ha : a = i
    · subst ha
      rw [List.getD_eq_getElem?_getD (l := t.set _ _), List.getElem?_set_self hi', Option.getD_some]
      by_cases hb : b = j
      · subst hb
        rw [List.getD_eq_getElem?_getD, List.getElem?_set_self (by omega), if_pos ⟨rfl, rfl⟩]; rfl
      · rw [if_neg (by tauto), List.getD_eq_getElem?_getD, List.getElem?_set_ne (by omega), getD_lt [] hi', hr,
          List.getD_eq_getElem?_getD]
    · rw [if_neg (by tauto), List.getD_eq_getElem?_getD (l := t.set _ _), List.getElem?_set_ne (by omega),
        List.getD_eq_getElem?_getD (l := t)]

/-- Index in the matrix of column `j` of the cofactor without column `q`. -/
def skip (q j : Nat) : Nat := if j < q then j else j + 1

theorem cofactor_sat {L n q : Nat} {mat tmp : Kernel} (hm : Side L mat) (ht : Side L tmp) (hn : 2 ≤ n) (hnL : n ≤ L)
    (hq : q < n) :
    (cofactor mat tmp 0 q n).Sat fun t => Side L t ∧
      ∀ i j, i < n - 1 → j < n - 1 → entry t i j = entry mat (i + 1) (skip q j) := by
  unfold cofactor
  refine Sat.bind (forN_inv (fun row (s : Kernel × Nat × Nat) => Side L s.1 ∧ s.2.1 = row - 1 ∧ s.2.2 = 0 ∧
    ∀ i j, i < row - 1 → j < n - 1 → entry s.1 i j = entry mat (i + 1) (skip q j)) ⟨ht, rfl, rfl, by
      intro i j hi; omega⟩ ?_) ?_
  · rintro row ⟨t, i, j⟩ hrow ⟨h1, h2, h3, h4⟩
    simp only at h1 h2 h3 h4
    subst h3
    by_cases h0 : row = 0
    · subst h0
      refine (forN_inv (fun _ (s : Kernel × Nat × Nat) => s = (t, i, 0)) rfl ?_).mono ?_
      · rintro col s _ rfl
        unfold cofactorStep
        rw [if_neg (by simp), sat_ok]
      · rintro s rfl
        exact ⟨h1, by omega, rfl, by intro a b ha; omega⟩
    · -- columns seen after `col` turns
      refine (forN_inv (fun col (s : Kernel × Nat × Nat) => Side L s.1 ∧
        (∀ a b, a < row - 1 → b < n - 1 → entry s.1 a b = entry mat (a + 1) (skip q b)) ∧
        (∀ b, b < n - 1 → skip q b < col → entry s.1 (row - 1) b = entry mat row (skip q b)) ∧
        (s.2 = (row - 1, if col ≤ q then col else col - 1) ∧ (if col ≤ q then col else col - 1) < n - 1 ∨
          s.2 = (row, 0) ∧ (if col ≤ q then col else col - 1) = n - 1))
        ⟨h1, h4, by intro b _ hb; omega, Or.inl ⟨by simp [h2], by simp; omega⟩⟩ ?_).mono ?_
      · rintro col ⟨t, i, j⟩ hcol ⟨g1, g2, g3, g4⟩
        simp only at g1 g2 g3 g4
        unfold cofactorStep
        by_cases hc : col = q
        · subst hc
          rw [if_neg (by simp), sat_ok]
          refine ⟨g1, g2, ?_, ?_⟩
          · intro b hb hs
            apply g3 b hb
            unfold skip at hs ⊢
            split at hs <;> split <;> omega
          · simp only
            rw [if_pos (Nat.le_refl _)] at g4
            rw [if_neg (by omega), Nat.add_sub_cancel]
            exact g4
        · rw [if_pos ⟨h0, hc⟩]
          have hlt : (if col ≤ q then col else col - 1) < n - 1 := by split <;> omega
          rcases g4 with ⟨g4, g5⟩ | ⟨g4, g5⟩
          swap
          · omega
          injection g4 with g4 g6
          subst g4
          have hsk : skip q j = col := by
            unfold skip
            rw [g6]
            by_cases hcq : col ≤ q
            · rw [if_pos hcq, if_pos (by omega)]
            · rw [if_neg hcq, if_neg (by omega)]; omega
          simp only
          rw [rd2_sat hm (by omega) (by omega), bind_ok]
          refine Sat.bind (wr2_sat g1 (i := row - 1) (j := j) (by omega) (by omega) _) ?_
          rintro t' ⟨k1, k2⟩
          have k3 : ∀ a b, a < row - 1 → b < n - 1 → entry t' a b = entry mat (a + 1) (skip q b) := by
            intro a b ha hb
            rw [k2, if_neg (by omega)]; exact g2 a b ha hb
          have k4 : ∀ b, b < n - 1 → skip q b < col + 1 → entry t' (row - 1) b = entry mat row (skip q b) := by
            intro b hb hs
            rw [k2]
            by_cases hbj : b = j
            · subst hbj; rw [if_pos ⟨rfl, rfl⟩, hsk]
            · rw [if_neg (by omega)]
              apply g3 b hb
              have : skip q b ≠ col := by
                rw [← hsk]
                unfold skip
                split <;> split <;> omega
              omega
          have k5 : (if col + 1 ≤ q then col + 1 else col + 1 - 1) = j + 1 := by
            rw [g6]
            by_cases hcq : col ≤ q
            · rw [if_pos hcq, if_pos (by omega)]
            · rw [if_neg hcq, if_neg (by omega)]; omega
          split
          · next hj =>
            rw [sat_ok]
            refine ⟨k1, k3, k4, Or.inr ⟨?_, by rw [k5]; exact hj⟩⟩
            simp only [Prod.mk.injEq, and_true]; omega
          · next hj =>
            rw [sat_ok]
            refine ⟨k1, k3, k4, Or.inl ⟨?_, by rw [k5]; omega⟩⟩
            simp only [k5]
      · rintro ⟨t, i, j⟩ ⟨g1, g2, g3, g4⟩
        simp only at g1 g2 g3 g4
        rw [if_neg (by omega)] at g4
        rcases g4 with ⟨_, g5⟩ | ⟨g4, _⟩
        · omega
        injection g4 with g4 g6
        subst g4 g6
        refine ⟨g1, by simp, rfl, ?_⟩
        intro a b ha hb
        simp only at ha ⊢
        by_cases har : a = i - 1
        · rw [har, g3 b hb (by unfold skip; split <;> omega)]
          congr 1; omega
        · exact g2 a b (by omega) hb
  · rintro ⟨t, i, j⟩ ⟨h1, _, _, h4⟩
    rw [sat_ok]
    exact ⟨h1, h4⟩

/-- The matrix of the top left corner of a table. -/
def mat (n : Nat) (t : Kernel) : Matrix (Fin n) (Fin n) Int := Matrix.of fun i j => if entry t i j then (1 : Int) else 0

theorem determinant_eq (n : Nat) : ∀ {L : Nat} {t : Kernel}, Side L t → n + 1 ≤ L →
    determinant (n + 1) t = ok (mat (n + 1) t).det := by
  induction n with
  | zero =>
    intro L t h hL
    unfold determinant
    rw [rd2_sat h (by omega) (by omega), bind_ok, Matrix.det_fin_one]
    rfl
  | succ n ih =>
    intro L t h hL
    unfold determinant
    rw [Matrix.det_succ_row_zero]
    obtain ⟨s, hs, h1, h2, h3⟩ := forN_inv (n := n + 2)
      (s := ((0 : Int), (1 : Int), List.replicate t.length (List.replicate t.length false)))
      (f := fun f (s : Int × Int × Kernel) => do
        let tt ← cofactor t s.2.2 0 f (n + 2)
        let b ← rd2 t 0 f
        let d ← determinant (n + 1) tt
        ok (s.1 + s.2.1 * (if b then 1 else 0) * d, -s.2.1, tt))
      (fun f (s : Int × Int × Kernel) => s.2.1 = (-1) ^ f ∧ Side L s.2.2 ∧
        s.1 = ∑ j ∈ (Finset.univ : Finset (Fin (n + 2))).filter (fun j => j.val < f),
          (-1) ^ (j : Nat) * mat (n + 2) t 0 j * ((mat (n + 2) t).submatrix Fin.succ j.succAbove).det)
      ⟨by simp, ⟨by simp [h.1], by
        intro r hr
        rw [List.eq_of_mem_replicate hr, List.length_replicate, h.1]⟩, by simp⟩ (by
      rintro f ⟨D, sg, tmp⟩ hf ⟨g1, g2, g3⟩
      simp only at g1 g2 g3
      refine Sat.bind (cofactor_sat h g2 (by omega) hL hf) ?_
      rintro t' ⟨k1, k2⟩
      rw [rd2_sat h (by omega) (by omega), bind_ok, ih k1 (by omega), bind_ok, sat_ok]
      refine ⟨by simp only [g1]; ring, k1, ?_⟩
      simp only
      have hfilt : (Finset.univ : Finset (Fin (n + 2))).filter (fun j => j.val < f + 1) =
          insert ⟨f, hf⟩ ((Finset.univ : Finset (Fin (n + 2))).filter (fun j => j.val < f)) := by
        ext j
        simp only [Finset.mem_filter, Finset.mem_univ, true_and, Finset.mem_insert, Fin.ext_iff]
        omega
      rw [hfilt, Finset.sum_insert (by simp), g3, g1, add_comm]
      congr 1
      have hsub : mat (n + 1) t' = (mat (n + 2) t).submatrix Fin.succ (Fin.succAbove ⟨f, hf⟩) := by
        ext i j
        simp only [mat, Matrix.of_apply, Matrix.submatrix_apply]
        rw [k2 i j (by have := i.isLt; omega) (by have := j.isLt; omega)]
        congr 2
        unfold skip Fin.succAbove
        by_cases hjf : (j : Nat) < f
        · rw [if_pos hjf, if_pos (by simpa [Fin.lt_def] using hjf)]; simp
        · rw [if_neg hjf, if_neg (by simpa [Fin.lt_def] using hjf)]; simp
      rw [hsub]
      rfl)
    refine Eq.trans (congrArg (fun x => x >>= fun s : Int × Int × Kernel => ok s.1) hs) ?_
    simp only [bind_ok]
    rw [h3]
    congr 1
    have hfilt : (Finset.univ : Finset (Fin (n + 2))).filter (fun j => j.val < n + 2) = Finset.univ := by
      ext j
      simp
    rw [hfilt]

theorem determinant_det {K : Kernel} (hs : Square K) (h0 : K ≠ []) : determinant K.length K = ok (det K) := by
  obtain ⟨n, hn⟩ : ∃ n, K.length = n + 1 := ⟨K.length - 1, by
    have := List.length_pos_iff.mpr h0; omega⟩
  have : ∀ m, K.length = m → determinant K.length K = determinant m K ∧ det K = (mat m K).det := by
    rintro m rfl
    exact ⟨rfl, rfl⟩
  obtain ⟨e1, e2⟩ := this _ hn
  rw [e1, e2]
  exact determinant_eq n ⟨rfl, hs⟩ (by omega)

/-! ## Invertibility modulo 2 -/

/-- The matrix of a kernel modulo 2. -/
def mat2 (K : Kernel) : Matrix (Fin K.length) (Fin K.length) (ZMod 2) := Matrix.of fun i j => zb (entry K i j)

theorem det2 (K : Kernel) : (mat2 K).det = ((det K : Int) : ZMod 2) := by
  unfold det
  have := RingHom.map_det (Int.castRingHom (ZMod 2)) (Matrix.of fun i j : Fin K.length => if entry K i j then (1 : Int) else 0)
  refine Eq.trans ?_ this.symm
  congr 1
  ext i j
  simp only [mat2, Matrix.of_apply, RingHom.mapMatrix_apply, Matrix.map_apply]
  cases entry K i j <;> simp [zb]

theorem odd_iff (K : Kernel) : det K % 2 = 1 ↔ (mat2 K).det ≠ 0 := by
  rw [det2, Ne, ZMod.intCast_zmod_eq_zero_iff_dvd]
  constructor <;> intro h
  · simp only [Nat.cast_ofNat]; omega
  · simp only [Nat.cast_ofNat] at h; omega

/-- An inverse modulo 2 of a kernel whose determinant is odd. -/
theorem inverse_of_odd {K : Kernel} (h : det K % 2 = 1) : ∃ e' : Nat → Nat → ZMod 2, ∀ a c, a < K.length → c < K.length →
    ∑ b ∈ range K.length, zb (entry K a b) * e' b c = if a = c then 1 else 0 := by
  have hu : IsUnit (mat2 K).det := by
    exact isUnit_iff_ne_zero.mpr ((odd_iff K).mp h)
  refine ⟨fun b c => if hb : b < K.length ∧ c < K.length then (mat2 K)⁻¹ ⟨b, hb.1⟩ ⟨c, hb.2⟩ else 0, ?_⟩
  intro a c ha hc
  have := congrFun (congrFun (Matrix.mul_nonsing_inv (mat2 K) hu) ⟨a, ha⟩) ⟨c, hc⟩
  rw [Matrix.mul_apply, Matrix.one_apply] at this
  rw [Finset.sum_range]
  simp only [Fin.mk.injEq] at this
  rw [← this]
  apply Finset.sum_congr rfl
  intro b _
  show _ * dite _ _ _ = _
  rw [dif_pos ⟨b.isLt, hc⟩]
  rfl

/-- The family of inverses. -/
theorem inv_of_odd {Ks : List Kernel} (h : ∀ K ∈ Ks, det K % 2 = 1 ∧ K ≠ []) : ∃ F', Inv (fam Ks) F' := by
  induction Ks with
  | nil => exact ⟨[], .nil⟩
  | cons K Ks ih =>
    obtain ⟨F', hF⟩ := ih fun K' hK' => h K' (by simp [hK'])
    obtain ⟨h1, h2⟩ := h K (by simp)
    obtain ⟨e', he⟩ := inverse_of_odd h1
    exact ⟨_, Inv.cons (List.length_pos_iff.mpr h2) he hF⟩

/-- A nonzero word of the kernel of a kernel whose determinant is even. -/
theorem null_of_even {K : Kernel} (h : det K % 2 ≠ 1) : ∃ z : Nat → Bool, (∃ a, a < K.length ∧ z a = true) ∧
    ∀ b, b < K.length → ∑ a ∈ range K.length, zb (z a) * zb (entry K a b) = 0 := by
  have hd : (mat2 K).det = 0 := by
    by_contra hc; exact h ((odd_iff K).mpr hc)
  obtain ⟨v, hv, hz⟩ := Matrix.exists_vecMul_eq_zero_iff.mpr hd
  have hzb : ∀ x : ZMod 2, zb (decide (x = 1)) = x := by decide
  refine ⟨fun a => if ha : a < K.length then decide (v ⟨a, ha⟩ = 1) else false, ?_, ?_⟩
  · by_contra hc
    apply hv
    funext i
    by_contra hi
    apply hc
    refine ⟨i, i.isLt, ?_⟩
    show dite _ _ _ = _
    rw [dif_pos i.isLt]
    have : ∀ x : ZMod 2, ¬ x = 0 → x = 1 := by decide
    simp only [decide_eq_true_eq]
    exact this _ hi
  · intro b hb
    have := congrFun hz ⟨b, hb⟩
    simp only [Matrix.vecMul, dotProduct, Pi.zero_apply] at this
    rw [Finset.sum_range, ← this]
    apply Finset.sum_congr rfl
    intro a _
    show zb (dite _ _ _) * _ = _
    rw [dif_pos a.isLt, hzb]
    rfl

/-- A nonzero word whose transform is zero. -/
theorem null_of_singular {Ks : List Kernel} (hne : ∀ K ∈ Ks, K ≠ []) (h : ∃ K ∈ Ks, det K % 2 ≠ 1) :
    ∃ z : Nat → Bool, (∃ a, a < size Ks ∧ z a = true) ∧
      ∀ b, b < size Ks → ∑ a ∈ range (size Ks), zb (z a) * G (fam Ks) a b = 0 := by
  induction Ks with
  | nil => simp at h
  | cons K Ks ih =>
    have hk : 0 < K.length := List.length_pos_iff.mpr (hne K (by simp))
    have hsz : size (K :: Ks) = K.length * size Ks := by simp [size]
    have hpos : 0 < size Ks := by
      unfold size
      apply List.prod_pos
      intro n hn
      obtain ⟨K', hK', rfl⟩ := List.mem_map.mp hn
      exact List.length_pos_iff.mpr (hne K' (by simp [hK']))
    have hj : ∀ j r, r < K.length → (K.length * j + r) / K.length = j ∧ (K.length * j + r) % K.length = r := by
      intro j r hr
      exact ⟨by rw [Nat.mul_add_div hk, Nat.div_eq_of_lt hr, Nat.add_zero], by
        rw [Nat.mul_add_mod, Nat.mod_eq_of_lt hr]⟩
    have hG : ∀ j r b, r < K.length → G (fam (K :: Ks)) (K.length * j + r) b =
        zb (entry K r (b % K.length)) * G (fam Ks) j (b / K.length) := by
      intro j r b hr
      obtain ⟨h1, h2⟩ := hj j r hr
      show zb (entry K ((K.length * j + r) % K.length) (b % K.length)) * _ = _
      rw [h2, h1]
      rfl
    by_cases hK : det K % 2 = 1
    · obtain ⟨K', hK', hd⟩ := h
      have hK'' : K' ∈ Ks := by
        rcases List.mem_cons.mp hK' with rfl | hm
        · exact absurd hK hd
        · exact hm
      obtain ⟨z, ⟨a, ha, hza⟩, hz⟩ := ih (fun K hK => hne K (by simp [hK])) ⟨K', hK'', hd⟩
      refine ⟨fun c => decide (c % K.length = 0) && z (c / K.length), ⟨K.length * a, ?_, ?_⟩, ?_⟩
      · rw [hsz]; exact Nat.mul_lt_mul_of_pos_left ha hk
      · simp [Nat.mul_div_cancel_left _ hk, hza]
      · intro b hb
        rw [hsz] at hb ⊢
        rw [sum_mul, Finset.sum_comm]
        apply Finset.sum_eq_zero
        intro r hr
        have hr := Finset.mem_range.mp hr
        have e1 : ∀ j ∈ range (size Ks), zb (decide ((K.length * j + r) % K.length = 0) && z ((K.length * j + r) / K.length)) *
            G (fam (K :: Ks)) (K.length * j + r) b =
            (zb (decide (r = 0)) * zb (entry K r (b % K.length))) * (zb (z j) * G (fam Ks) j (b / K.length)) := by
          intro j _
          obtain ⟨h1, h2⟩ := hj j r hr
          rw [hG j r b hr, h1, h2, zb_and]
          ring
        rw [Finset.sum_congr rfl e1, ← Finset.mul_sum, hz _ (Nat.div_lt_of_lt_mul hb), mul_zero]
    · obtain ⟨z, ⟨a, ha, hza⟩, hz⟩ := null_of_even hK
      refine ⟨fun c => decide (c / K.length = 0) && z (c % K.length), ⟨a, ?_, ?_⟩, ?_⟩
      · rw [hsz]
        calc a < K.length := ha
          _ = K.length * 1 := (Nat.mul_one _).symm
          _ ≤ K.length * size Ks := Nat.mul_le_mul_left _ hpos
      · simp [Nat.div_eq_of_lt ha, Nat.mod_eq_of_lt ha, hza]
      · intro b hb
        rw [hsz] at hb ⊢
        rw [sum_mul]
        apply Finset.sum_eq_zero
        intro j _
        have e1 : ∀ r ∈ range K.length, zb (decide ((K.length * j + r) / K.length = 0) && z ((K.length * j + r) % K.length)) *
            G (fam (K :: Ks)) (K.length * j + r) b =
            (zb (decide (j = 0)) * G (fam Ks) j (b / K.length)) * (zb (z r) * zb (entry K r (b % K.length))) := by
          intro r hr
          have hr := Finset.mem_range.mp hr
          obtain ⟨h1, h2⟩ := hj j r hr
          rw [hG j r b hr, h1, h2, zb_and]
          ring
        rw [Finset.sum_congr rfl e1, ← Finset.mul_sum, hz _ (Nat.mod_lt _ hk), mul_zero]

end Verif.PolarMK
