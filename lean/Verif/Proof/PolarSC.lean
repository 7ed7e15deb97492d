import Verif.Spec.PolarSC
import Verif.Proof.Polar
import Verif.Proof.Reorderer

/-! # Proofs about successive cancellation decoding -/

namespace Verif.PolarSC
open Exec Verif.Polar

variable {R : Type} {w : Nat}

/-! ## The transform, by halves -/

theorem transform_halves {n : Nat} {a b : List (BitVec w)} (ha : a.length = 2 ^ n) (hb : b.length = 2 ^ n) :
    polarTransform (n + 1) (a ++ b) = List.zipWith (· ^^^ ·) (polarTransform n a) (polarTransform n b) ++ polarTransform n b := by
  apply List.ext_getElem?
  intro i
  have hp : 2 ^ (n + 1) = 2 ^ n + 2 ^ n := by rw [Nat.pow_succ]; omega
  have hcl : ∀ j, j < 2 ^ n → comp n (fun j => (a ++ b).getD j 0#w) j = comp n (fun j => a.getD j 0#w) j := by
    intro j hj
    refine comp_congr (fun k hk => ?_) hj
    rw [List.getD_eq_getElem?_getD, List.getD_eq_getElem?_getD, List.getElem?_append_left (by omega)]
  have hch : ∀ j, j < 2 ^ n → comp n (fun j => (a ++ b).getD j 0#w) (2 ^ n + j) = comp n (fun j => b.getD j 0#w) j := by
    intro j hj
    rw [comp_eq, comp_eq, Nat.div_eq_of_lt hj, Nat.mod_eq_of_lt hj, show (2 ^ n + j) / 2 ^ n = 1 by
      rw [Nat.add_div_left _ (by positivity), Nat.div_eq_of_lt hj], show (2 ^ n + j) % 2 ^ n = j by
      rw [Nat.add_mod_left, Nat.mod_eq_of_lt hj]]
    unfold sm
    congr 1
    refine List.map_congr_left fun k hk => ?_
    have : k < 2 ^ n := by simpa using (List.mem_filter.1 hk).1
    simp only
    rw [List.getD_eq_getElem?_getD, List.getD_eq_getElem?_getD, List.getElem?_append_right (by omega)]
    congr 2
    omega
  rw [polarTransform_eq, polarTransform_eq, polarTransform_eq, getElem?_mapRange]
  by_cases hi : i < 2 ^ n
  · rw [if_pos (by omega), List.getElem?_append_left (by simpa using hi), List.getElem?_zipWith, getElem?_mapRange, getElem?_mapRange, if_pos hi, if_pos hi]
    simp only [Option.some.injEq]
    show comp n (st n _) i = _
    rw [← st_comp n n (Nat.le_refl n)]
    unfold st
    rw [if_neg (by simp [Nat.testBit_lt_two_pow hi]), hcl i hi, Nat.add_comm, hch i hi]
  · rw [List.getElem?_append_right (by simpa using hi)]
    simp only [List.length_zipWith, List.length_map, List.length_range, Nat.min_self]
    rw [getElem?_mapRange]
    by_cases hi2 : i < 2 ^ (n + 1)
    · rw [if_pos hi2, if_pos (by omega)]
      simp only [Option.some.injEq]
      show comp n (st n _) i = _
      rw [← st_comp n n (Nat.le_refl n)]
      obtain ⟨j, rfl⟩ : ∃ j, i = 2 ^ n + j := ⟨i - 2 ^ n, by omega⟩
      unfold st
      rw [if_pos, hch j (by omega)]
      · congr 1; omega
      · rw [testBit_two_pow_add (by omega)]; simp
    · rw [if_neg hi2, if_neg (by omega)]

/-! ## Trees -/

/-- Sizes of the vectors and lanes of the leaves. -/
def Shape : Nat → Nat → Bin (Contents R w) → Prop
  | 0, off, .leaf lane c => lane = off ∧ c.lam.length = 1 ∧ c.s.length = 1
  | n + 1, off, .node _ c l r => c.lam.length = 2 ^ (n + 1) ∧ c.s.length = 2 ^ (n + 1) ∧ Shape n off l ∧ Shape n (off + 2 ^ n) r
  | _, _, _ => False

/-- Frozen flags of the leaves. -/
def flags : Bin (Contents R w) → List Bool
  | .leaf _ c => [c.frozen]
  | .node _ _ l r => flags l ++ flags r

/-- Bits of the leaves. -/
def bits : Bin (Contents R w) → List (BitVec w)
  | .leaf _ c => c.s
  | .node _ _ l r => bits l ++ bits r

theorem Shape.flags_length : ∀ {n off : Nat} {t : Bin (Contents R w)}, Shape n off t → (flags t).length = 2 ^ n
  | 0, _, .leaf _ _, _ => rfl
  | n + 1, _, .node _ _ l r, h => by
    have h1 := Shape.flags_length h.2.2.1
    have h2 := Shape.flags_length h.2.2.2
    simp only [flags, List.length_append, h1, h2, Nat.pow_succ]
    omega
  | 0, _, .node _ _ _ _, h => h.elim
  | _ + 1, _, .leaf _ _, h => h.elim

theorem Shape.lam_length : ∀ {n off : Nat} {t : Bin (Contents R w)}, Shape n off t → t.c.lam.length = 2 ^ n
  | 0, _, .leaf _ _, h => h.2.1
  | _ + 1, _, .node _ _ _ _, h => h.1
  | 0, _, .node _ _ _ _, h => h.elim
  | _ + 1, _, .leaf _ _, h => h.elim

theorem Shape.s_length : ∀ {n off : Nat} {t : Bin (Contents R w)}, Shape n off t → t.c.s.length = 2 ^ n
  | 0, _, .leaf _ _, h => h.2.2
  | _ + 1, _, .node _ _ _ _, h => h.2.1
  | 0, _, .node _ _ _ _, h => h.elim
  | _ + 1, _, .leaf _ _, h => h.elim

/-- Lanes of an empty tree. -/
def Lanes : Nat → Nat → Bin Unit → Prop
  | 0, off, .leaf lane _ => lane = off
  | n + 1, off, .node _ _ l r => Lanes n off l ∧ Lanes n (off + 2 ^ n) r
  | _, _, _ => False

theorem createNodes_sat : ∀ (k d lane : Nat) (lanes : List Nat), (∀ i, i < k → lanes[d + i]? = some (lane * 2 ^ (i + 1))) →
    (createNodes k d lane lanes).Sat fun p => Lanes k (lane * 2 ^ k) p.1 ∧ p.2.length = lanes.length ∧ (∀ i, i < k → p.2[d + i]? = some ((lane + 1) * 2 ^ (i + 1))) ∧
      ∀ j, j < d → p.2[j]? = lanes[j]?
  | 0, d, lane, lanes, _ => by
    unfold createNodes
    rw [sat_ok]
    exact ⟨by simp [Lanes], rfl, fun i hi => by omega, fun _ _ => rfl⟩
  | k + 1, d, lane, lanes, h => by
    have h0 := h 0 (by omega)
    have hd : d < lanes.length := by
      obtain ⟨hh, _⟩ := List.getElem?_eq_some_iff.1 h0
      omega
    unfold createNodes
    rw [rd_eq (show lanes[d]? = some (lane * 2) by simpa using h0), bind_ok, wr_lt hd, bind_ok, rd_lt (by simpa using hd), bind_ok, wr_lt (by simpa using hd), bind_ok]
    simp only [List.getElem_set_self, List.set_set]
    refine (createNodes_sat k (d + 1) (lane * 2) _ fun i hi => ?_).bind fun p ⟨p1, p2, p3, p4⟩ => ?_
    · rw [List.getElem?_set_ne (by omega), show d + 1 + i = d + (i + 1) by omega, h (i + 1) (by omega)]
      simp only [Option.some.injEq, Nat.pow_succ]; ring
    refine (createNodes_sat k (d + 1) (lane * 2 + 1) _ fun i hi => p3 i hi).bind fun q ⟨q1, q2, q3, q4⟩ => ?_
    rw [sat_ok]
    refine ⟨⟨by rw [show lane * 2 ^ (k + 1) = lane * 2 * 2 ^ k by rw [Nat.pow_succ]; ring]; exact p1, ?_⟩, by rw [q2, p2, List.length_set], fun i hi => ?_, fun j hj => ?_⟩
    · rw [show lane * 2 ^ (k + 1) + 2 ^ k = (lane * 2 + 1) * 2 ^ k by rw [Nat.pow_succ]; ring]
      exact q1
    · rcases Nat.eq_zero_or_pos i with rfl | hi0
      · rw [Nat.add_zero, q4 d (by omega), p4 d (by omega), List.getElem?_set_self hd]
        simp only [Option.some.injEq]; ring
      · obtain ⟨i', rfl⟩ : ∃ i', i = i' + 1 := ⟨i - 1, by omega⟩
        rw [show d + (i' + 1) = d + 1 + i' by omega, q3 i' (by omega)]
        simp only [Option.some.injEq, Nat.pow_succ]; ring
    · rw [q4 j (by omega), p4 j (by omega), List.getElem?_set_ne (by omega)]

theorem createTree_sat (m : Nat) : (createTree m).Sat (Lanes m 0) := by
  unfold createTree
  simp only
  rw [rd_lt (by simp), bind_ok, List.getElem_replicate]
  refine (createNodes_sat m 1 0 _ fun i hi => ?_).bind fun p ⟨p1, _⟩ => ?_
  · rw [List.getElem?_replicate, if_pos (by omega), Nat.zero_mul]
  · rw [sat_ok]
    rwa [Nat.zero_mul] at p1

theorem allocate_shape (z : R) : ∀ {n off : Nat} {t : Bin Unit}, Lanes n off t → Shape n off (allocate (w := w) z t (2 ^ n))
  | 0, _, .leaf _ _, h => ⟨h, by simp, by simp⟩
  | n + 1, _, .node _ _ _ _, h => by
    have e : 2 ^ (n + 1) / 2 = 2 ^ n := by rw [Nat.pow_succ]; omega
    refine ⟨by simp, by simp, ?_, ?_⟩
    · rw [e]; exact allocate_shape z h.1
    · rw [e]; exact allocate_shape z h.2
  | 0, _, .node _ _ _ _, h => h.elim
  | _ + 1, _, .leaf _ _, h => h.elim

theorem initFrozen_sat {fr : List Bool} : ∀ {n off : Nat} {t : Bin (Contents R w)}, Shape n off t → off + 2 ^ n ≤ fr.length →
    (initFrozen fr t).Sat fun t' => Shape n off t' ∧ flags t' = (fr.drop off).take (2 ^ n)
  | 0, off, .leaf lane c, h, hl => by
    obtain ⟨rfl, h2, h3⟩ := h
    simp only [Nat.pow_zero] at hl
    unfold initFrozen
    rw [rd_lt (by omega), bind_ok, sat_ok]
    refine ⟨⟨rfl, h2, h3⟩, ?_⟩
    simp only [flags, Nat.pow_zero]
    rw [List.drop_eq_getElem_cons (by omega)]
    rfl
  | n + 1, off, .node lane c l r, h, hl => by
    obtain ⟨h1, h2, h3, h4⟩ := h
    have hp : 2 ^ (n + 1) = 2 ^ n + 2 ^ n := by rw [Nat.pow_succ]; omega
    unfold initFrozen
    refine (initFrozen_sat h3 (by omega)).bind fun l' ⟨l1, l2⟩ => ?_
    refine (initFrozen_sat h4 (by omega)).bind fun r' ⟨r1, r2⟩ => ?_
    rw [sat_ok]
    refine ⟨⟨h1, h2, l1, r1⟩, ?_⟩
    simp only [flags, l2, r2]
    rw [hp, List.take_add, List.drop_drop]
  | 0, _, .node _ _ _ _, h, _ => h.elim
  | _ + 1, _, .leaf _ _, h, _ => h.elim

/-! ## Decoding -/

/-- Successive cancellation as a function. -/
def sc (F : Fns R w) : Nat → List Bool → List R → List (BitVec w)
  | 0, fr, y => [if fr[0]? = some false ∧ F.h (y.headD F.zero) ≠ 0 then 1 else 0]
  | n + 1, fr, y =>
    let a := y.take (2 ^ n)
    let b := y.drop (2 ^ n)
    let ul := sc F n (fr.take (2 ^ n)) (List.zipWith F.f a b)
    ul ++ sc F n (fr.drop (2 ^ n)) (zip3 F.g a b (polarTransform n ul))

theorem sc_length (F : Fns R w) : ∀ (n : Nat) (fr : List Bool) (y : List R), (sc F n fr y).length = 2 ^ n
  | 0, _, _ => rfl
  | n + 1, fr, y => by
    simp only [sc, List.length_append, sc_length F n, Nat.pow_succ]; omega

theorem fLoop_eq (F : Fns R w) {lam o : List R} {h : Nat} (hl : lam.length = h + h) (ho : o.length = h) :
    fLoop F lam h o = ok (List.zipWith F.f (lam.take h) (lam.drop h)) := by
  obtain ⟨r, e, r1, r2⟩ : (fLoop F lam h o).Sat fun r => r.length = o.length ∧ ∀ j : Nat, r[j]? = if j < h then (List.zipWith F.f (lam.take h) (lam.drop h))[j]? else o[j]? := by
    unfold fLoop
    have : ∀ i, i < h → ∃ v, (List.zipWith F.f (lam.take h) (lam.drop h))[i]? = some v ∧ ∀ o : List R, (do let a ← rd lam i; let b ← rd lam (h + i); wr o i (F.f a b)) = wr o i v := by
      intro i hi
      refine ⟨F.f lam[i] lam[h + i], ?_, fun o => ?_⟩
      · rw [List.getElem?_zipWith, List.getElem?_take, if_pos hi, List.getElem?_drop, List.getElem?_eq_getElem (by omega), List.getElem?_eq_getElem (by omega)]
      · rw [rd_lt (by omega), bind_ok, rd_lt (by omega), bind_ok]
    refine forN_inv (fun k (r : List R) => r.length = o.length ∧ ∀ j : Nat, r[j]? = if j < k then (List.zipWith F.f (lam.take h) (lam.drop h))[j]? else o[j]?) ⟨rfl, fun j => by simp⟩ ?_
    rintro i r hi ⟨r1, r2⟩
    obtain ⟨v, v1, v2⟩ := this i hi
    rw [v2, wr_lt (by omega), sat_ok]
    refine ⟨by simpa using r1, fun j => ?_⟩
    rw [List.getElem?_set]
    by_cases hij : i = j
    · subst hij; rw [if_pos rfl, if_pos (by omega), if_pos (by omega), v1]
    · rw [if_neg hij, r2 j]
      by_cases hj : j < i
      · rw [if_pos hj, if_pos (by omega)]
      · rw [if_neg hj, if_neg (by omega)]
  rw [e]
  congr 1
  apply List.ext_getElem?
  intro j
  rw [r2 j]
  split
  · rfl
  · rw [List.getElem?_eq_none (by omega), List.getElem?_eq_none (by simp; omega)]

theorem gLoop_eq (F : Fns R w) {lam o : List R} {s : List (BitVec w)} {h : Nat} (hl : lam.length = h + h) (hs : s.length = h) (ho : o.length = h) :
    gLoop F lam s h o = ok (zip3 F.g (lam.take h) (lam.drop h) s) := by
  obtain ⟨r, e, r1, r2⟩ : (gLoop F lam s h o).Sat fun r => r.length = o.length ∧ ∀ j : Nat, r[j]? = if j < h then (zip3 F.g (lam.take h) (lam.drop h) s)[j]? else o[j]? := by
    unfold gLoop
    have : ∀ i, i < h → ∃ v, (zip3 F.g (lam.take h) (lam.drop h) s)[i]? = some v ∧
        ∀ o : List R, (do let a ← rd lam i; let b ← rd lam (h + i); let u ← rd s i; wr o i (F.g a b u)) = wr o i v := by
      intro i hi
      refine ⟨F.g lam[i] lam[h + i] s[i], ?_, fun o => ?_⟩
      · unfold zip3
        rw [List.getElem?_zipWith, List.getElem?_take, if_pos hi, (List.getElem?_zip_eq_some (z := (lam[h + i], s[i]))).2
          ⟨by rw [List.getElem?_drop, List.getElem?_eq_getElem (by omega)], List.getElem?_eq_getElem (by omega)⟩, List.getElem?_eq_getElem (by omega)]
      · rw [rd_lt (by omega), bind_ok, rd_lt (by omega), bind_ok, rd_lt (by omega), bind_ok]
    refine forN_inv (fun k (r : List R) => r.length = o.length ∧ ∀ j : Nat, r[j]? = if j < k then (zip3 F.g (lam.take h) (lam.drop h) s)[j]? else o[j]?) ⟨rfl, fun j => by simp⟩ ?_
    rintro i r hi ⟨r1, r2⟩
    obtain ⟨v, v1, v2⟩ := this i hi
    rw [v2, wr_lt (by omega), sat_ok]
    refine ⟨by simpa using r1, fun j => ?_⟩
    rw [List.getElem?_set]
    by_cases hij : i = j
    · subst hij; rw [if_pos rfl, if_pos (by omega), if_pos (by omega), v1]
    · rw [if_neg hij, r2 j]
      by_cases hj : j < i
      · rw [if_pos hj, if_pos (by omega)]
      · rw [if_neg hj, if_neg (by omega)]
  rw [e]
  congr 1
  apply List.ext_getElem?
  intro j
  rw [r2 j]
  split
  · rfl
  · rw [List.getElem?_eq_none (by omega), List.getElem?_eq_none (by simp [zip3]; omega)]

theorem sLoop_eq {sl sr s : List (BitVec w)} {h : Nat} (hl : sl.length = h) (hr : sr.length = h) (hs : s.length = h + h) :
    sLoop sl sr h s = ok (List.zipWith (· ^^^ ·) sl sr ++ sr) := by
  unfold sLoop
  have e1 : ∀ o : List (BitVec w), forN h (fun i o => do let a ← rd sl i; let b ← rd sr i; wr o i (a ^^^ b)) o =
      forN h (fun i o => wr o (0 + i) (sl.getD i 0 ^^^ sr.getD i 0)) o := by
    intro o
    refine forN_congr fun i s hi => ?_
    rw [rd_lt (by omega), bind_ok, rd_lt (by omega), bind_ok, getD_lt _ (by omega), getD_lt _ (by omega), Nat.zero_add]
  have e2 : ∀ o : List (BitVec w), forN h (fun i o => do let b ← rd sr i; wr o (h + i) b) o = forN h (fun i o => wr o (h + i) (sr.getD i 0)) o := by
    intro o
    refine forN_congr fun i s hi => ?_
    rw [rd_lt (by omega), bind_ok, getD_lt _ (by omega)]
  rw [e1]
  obtain ⟨r, a1, a2, a3⟩ := forN_fill (n := h) (off := 0) (g := fun i => sl.getD i 0 ^^^ sr.getD i 0) (out := s) (by omega)
  rw [a1, bind_ok, e2]
  obtain ⟨q, b1, b2, b3⟩ := forN_fill (n := h) (off := h) (g := fun i => sr.getD i 0) (out := r) (by omega)
  rw [b1]
  congr 1
  apply List.ext_getElem?
  intro j
  rw [b3 j, a3 j]
  by_cases hj : j < h
  · rw [if_neg (by omega), if_pos (by omega), List.getElem?_append_left (by simp; omega), List.getElem?_zipWith, List.getElem?_eq_getElem (by omega), List.getElem?_eq_getElem (by omega)]
    simp only [Nat.sub_zero]
    rw [getD_lt _ (by omega), getD_lt _ (by omega)]
  · rw [List.getElem?_append_right (by simp; omega), List.length_zipWith, hl, hr, Nat.min_self]
    by_cases hj2 : j < h + h
    · rw [if_pos (by omega), getD_lt _ (by omega), List.getElem?_eq_getElem (by omega)]
    · rw [if_neg (by omega), if_neg (by omega), List.getElem?_eq_none (by omega), List.getElem?_eq_none (by omega)]

theorem decodeNode_sat (F : Fns R w) : ∀ {n off : Nat} {t : Bin (Contents R w)} {lam : List R}, Shape n off t → lam.length = 2 ^ n →
    (decodeNode F t lam).Sat fun t' => Shape n off t' ∧ flags t' = flags t ∧ bits t' = sc F n (flags t) lam ∧ t'.c.s = polarTransform n (sc F n (flags t) lam)
  | 0, off, .leaf lane c, lam, h, hl => by
    obtain ⟨h1, h2, h3⟩ := h
    simp only [Nat.pow_zero] at hl
    obtain ⟨x, rfl⟩ := List.length_eq_one_iff.1 hl
    obtain ⟨s, hs⟩ := List.length_eq_one_iff.1 h3
    unfold decodeNode
    rw [rd_lt (by simp), bind_ok, wr_lt (by omega), bind_ok, sat_ok]
    have e : c.s.set 0 (if (!c.frozen) = true ∧ F.h [x][0] ≠ 0 then 1 else 0) = sc F 0 [c.frozen] [x] := by
      rw [hs]
      simp [sc]
    refine ⟨⟨h1, rfl, by simpa using h3⟩, rfl, e, ?_⟩
    show c.s.set 0 _ = polarTransform 0 (sc F 0 [c.frozen] [x])
    rw [e, polarTransform_eq]
    simp [comp, sc]
  | n + 1, off, .node lane c l r, lam, h, hl => by
    obtain ⟨h1, h2, h3, h4⟩ := h
    have hp : 2 ^ (n + 1) = 2 ^ n + 2 ^ n := by rw [Nat.pow_succ]; omega
    have hh : lam.length / 2 = 2 ^ n := by omega
    have hfl := h3.flags_length
    unfold decodeNode
    simp only
    rw [hh, fLoop_eq F (by omega) h3.lam_length, bind_ok]
    refine (decodeNode_sat F h3 (by simp; omega)).bind fun l' ⟨l1, l2, l3, l4⟩ => ?_
    rw [gLoop_eq F (by omega) l1.s_length h4.lam_length, bind_ok]
    refine (decodeNode_sat F h4 (by simp [zip3, l4, polarTransform_length]; omega)).bind fun r' ⟨r1, r2, r3, r4⟩ => ?_
    rw [sLoop_eq l1.s_length r1.s_length (by omega), bind_ok, sat_ok]
    have el : (flags l ++ flags r).take (2 ^ n) = flags l := by rw [← hfl, List.take_left]
    have er : (flags l ++ flags r).drop (2 ^ n) = flags r := by rw [← hfl, List.drop_left]
    have e : sc F (n + 1) (flags (.node lane c l r)) lam = bits l' ++ bits r' := by
      simp only [sc, flags, el, er, l3, r3, l4]
    refine ⟨⟨hl, by simp [l1.s_length, r1.s_length, hp], l1, r1⟩, by simp only [flags, l2, r2], e.symm, ?_⟩
    rw [e, transform_halves (by rw [l3, sc_length]) (by rw [r3, sc_length]), l3, r3, ← l4, ← r4]
    rfl
  | 0, _, .node _ _ _ _, _, h, _ => h.elim
  | _ + 1, _, .leaf _ _, _, h, _ => h.elim

/-! ## The recursion of the specification -/

theorem soft_prefix (F : Fns R w) : ∀ (n : Nat) (y : List R) (u v : List (BitVec w)) (i : Nat), u.length = 2 ^ n → i < 2 ^ n → soft F n y (u ++ v) i = soft F n y u i
  | 0, _, _, _, _, _, _ => rfl
  | n + 1, y, u, v, i, hu, hi => by
    have hp : 2 ^ (n + 1) = 2 ^ n + 2 ^ n := by rw [Nat.pow_succ]; omega
    unfold soft
    by_cases h : i < 2 ^ n
    · rw [if_pos h, if_pos h]
      have e1 := soft_prefix F n (List.zipWith F.f (y.take (2 ^ n)) (y.drop (2 ^ n))) (u.take (2 ^ n)) (u.drop (2 ^ n) ++ v) i (by simp; omega) h
      have e2 := soft_prefix F n (List.zipWith F.f (y.take (2 ^ n)) (y.drop (2 ^ n))) (u.take (2 ^ n)) (u.drop (2 ^ n)) i (by simp; omega) h
      rw [← List.append_assoc, List.take_append_drop] at e1
      rw [List.take_append_drop] at e2
      rw [e1, e2]
    · rw [if_neg h, if_neg h, List.take_append_of_le_length (by omega), List.drop_append_of_le_length (by omega)]
      exact soft_prefix F n _ _ _ _ (by simp; omega) (by omega)

theorem isSC_halves (F : Fns R w) {n : Nat} {fr : List Bool} {y : List R} {ul ur : List (BitVec w)} (hl : ul.length = 2 ^ n) :
    IsSC F (n + 1) fr y (ul ++ ur) ↔ IsSC F n (fr.take (2 ^ n)) (List.zipWith F.f (y.take (2 ^ n)) (y.drop (2 ^ n))) ul ∧
      IsSC F n (fr.drop (2 ^ n)) (zip3 F.g (y.take (2 ^ n)) (y.drop (2 ^ n)) (polarTransform n ul)) ur := by
  have hp : 2 ^ (n + 1) = 2 ^ n + 2 ^ n := by rw [Nat.pow_succ]; omega
  have s1 : ∀ i, i < 2 ^ n → soft F (n + 1) y (ul ++ ur) i = soft F n (List.zipWith F.f (y.take (2 ^ n)) (y.drop (2 ^ n))) ul i := by
    intro i hi
    rw [soft, if_pos hi]
    exact soft_prefix F n _ _ _ _ hl hi
  have s2 : ∀ i, i < 2 ^ n → soft F (n + 1) y (ul ++ ur) (2 ^ n + i) = soft F n (zip3 F.g (y.take (2 ^ n)) (y.drop (2 ^ n)) (polarTransform n ul)) ur i := by
    intro i hi
    rw [soft, if_neg (by omega), ← hl, List.take_left, List.drop_left, hl, Nat.add_sub_cancel_left]
  constructor
  · rintro ⟨h1, h2⟩
    rw [List.length_append] at h1
    refine ⟨⟨hl, fun i hi => ?_⟩, ⟨by omega, fun i hi => ?_⟩⟩
    · have := h2 i (by omega)
      rw [List.getElem?_append_left (by omega), s1 i hi] at this
      rw [this, List.getElem?_take, if_pos hi]
    · have := h2 (2 ^ n + i) (by omega)
      rw [List.getElem?_append_right (by omega), s2 i hi, hl, Nat.add_sub_cancel_left] at this
      rw [this, List.getElem?_drop]
  · rintro ⟨⟨_, h1⟩, ⟨h2, h3⟩⟩
    refine ⟨by rw [List.length_append]; omega, fun i hi => ?_⟩
    by_cases h : i < 2 ^ n
    · have := h1 i h
      rw [List.getElem?_take, if_pos h] at this
      rw [List.getElem?_append_left (by omega), s1 i h, this]
    · obtain ⟨j, rfl⟩ : ∃ j, i = 2 ^ n + j := ⟨i - 2 ^ n, by omega⟩
      have := h3 j (by omega)
      rw [List.getElem?_drop] at this
      rw [List.getElem?_append_right (by omega), s2 j (by omega), hl, Nat.add_sub_cancel_left, this]

theorem sc_isSC (F : Fns R w) : ∀ (n : Nat) (fr : List Bool) (y : List R), IsSC F n fr y (sc F n fr y)
  | 0, fr, y => by
    refine ⟨rfl, fun i hi => ?_⟩
    have : i = 0 := by simpa using hi
    subst this
    rfl
  | n + 1, fr, y => by
    unfold sc
    exact (isSC_halves F (sc_length F _ _ _)).2 ⟨sc_isSC F n _ _, sc_isSC F n _ _⟩

theorem isSC_sc (F : Fns R w) : ∀ {n : Nat} {fr : List Bool} {y : List R} {u : List (BitVec w)}, IsSC F n fr y u → u = sc F n fr y
  | 0, fr, y, u, h => by
    obtain ⟨x, rfl⟩ := List.length_eq_one_iff.1 (show u.length = 1 from h.len)
    have := h.bit 0 (by simp)
    simp only [List.getElem?_cons_zero, Option.some.injEq] at this
    rw [this]
    rfl
  | n + 1, fr, y, u, h => by
    have hp : 2 ^ (n + 1) = 2 ^ n + 2 ^ n := by rw [Nat.pow_succ]; omega
    have hlen := h.len
    have hl : (u.take (2 ^ n)).length = 2 ^ n := by simp; omega
    have h' : IsSC F (n + 1) fr y (u.take (2 ^ n) ++ u.drop (2 ^ n)) := by rwa [List.take_append_drop]
    obtain ⟨a, b⟩ := (isSC_halves F hl).1 h'
    have ea := isSC_sc F a
    have eb := isSC_sc F b
    rw [← List.take_append_drop (2 ^ n) u]
    unfold sc
    simp only
    rw [← ea, ← eb]

/-! ## Soft values that vote for a codeword -/

/-- A relation between soft values and bits that the functions keep. -/
structure Sound (F : Fns R w) (A : R → BitVec w → Prop) : Prop where
  f : ∀ {a b x y}, A a x → A b y → (x = 0 ∨ x = 1) → (y = 0 ∨ y = 1) → A (F.f a b) (x ^^^ y)
  g : ∀ {a b x y}, A a (x ^^^ y) → A b y → (x = 0 ∨ x = 1) → (y = 0 ∨ y = 1) → A (F.g a b x) y
  h : ∀ {a x}, A a x → (x = 0 ∨ x = 1) → (F.h a ≠ 0 ↔ x ≠ 0)
  one : A F.one 0
  mone : A F.mone 1

/-- Votes, position by position. -/
def All (A : R → BitVec w → Prop) (y : List R) (x : List (BitVec w)) : Prop := List.Forall₂ A y x

/-- Words of bits. -/
def Bits (u : List (BitVec w)) : Prop := ∀ x ∈ u, x = 0 ∨ x = 1

theorem bits_xor {a b : List (BitVec w)} (ha : Bits a) (hb : Bits b) : Bits (List.zipWith (· ^^^ ·) a b) := by
  intro x hx
  rw [List.zipWith_eq_zipWith_take_min] at hx
  obtain ⟨i, hi, rfl⟩ := List.getElem_of_mem hx
  simp only [List.getElem_zipWith, List.getElem_take]
  rcases ha _ (List.getElem_mem (l := a) (n := i) (by simp at hi; omega)) with h1 | h1 <;> rcases hb _ (List.getElem_mem (l := b) (n := i) (by simp at hi; omega)) with h2 | h2 <;>
    simp [h1, h2]

theorem bits_append {a b : List (BitVec w)} : Bits (a ++ b) ↔ Bits a ∧ Bits b := by
  unfold Bits
  constructor
  · exact fun h => ⟨fun x hx => h x (List.mem_append_left _ hx), fun x hx => h x (List.mem_append_right _ hx)⟩
  · rintro ⟨h1, h2⟩ x hx
    rcases List.mem_append.1 hx with h | h
    exacts [h1 x h, h2 x h]

theorem transform_bits : ∀ {n : Nat} {u : List (BitVec w)}, u.length = 2 ^ n → Bits u → Bits (polarTransform n u)
  | 0, u, hu, h => by
    obtain ⟨x, rfl⟩ := List.length_eq_one_iff.1 (show u.length = 1 from hu)
    rw [polarTransform_eq]
    simpa [comp] using h
  | n + 1, u, hu, h => by
    have hp : 2 ^ (n + 1) = 2 ^ n + 2 ^ n := by rw [Nat.pow_succ]; omega
    rw [← List.take_append_drop (2 ^ n) u] at h ⊢
    obtain ⟨h1, h2⟩ := bits_append.1 h
    rw [transform_halves (by simp; omega) (by simp; omega)]
    have b1 := transform_bits (n := n) (by simp; omega) h1
    have b2 := transform_bits (n := n) (by simp; omega) h2
    exact bits_append.2 ⟨bits_xor b1 b2, b2⟩

theorem sc_votes {F : Fns R w} {A : R → BitVec w → Prop} (S : Sound F A) : ∀ {n : Nat} {fr : List Bool} {y : List R} {u : List (BitVec w)},
    fr.length = 2 ^ n → u.length = 2 ^ n → Bits u → (∀ i : Nat, fr[i]? = some true → u[i]? = some 0) → List.Forall₂ A y (polarTransform n u) → sc F n fr y = u
  | 0, fr, y, u, hf, hu, hb, hz, hA => by
    obtain ⟨x, rfl⟩ := List.length_eq_one_iff.1 (show u.length = 1 from hu)
    obtain ⟨b, rfl⟩ := List.length_eq_one_iff.1 (show fr.length = 1 from hf)
    have e : polarTransform 0 [x] = [x] := by rw [polarTransform_eq]; simp [comp]
    rw [e] at hA
    cases hA with
    | cons h1 h2 =>
      rename_i a l
      have hx := hb x (by simp)
      have hh := S.h h1 hx
      simp only [sc, List.getElem?_cons_zero, Option.some.injEq, List.headD_cons]
      congr 1
      cases b
      · rcases hx with rfl | rfl
        · rw [if_neg]; rintro ⟨_, h3⟩; exact hh.1 h3 rfl
        · by_cases h10 : (1 : BitVec w) = 0
          · rw [h10]; simp
          · rw [if_pos ⟨rfl, hh.2 h10⟩]
      · have := hz 0 rfl
        simp only [List.getElem?_cons_zero, Option.some.injEq] at this
        rw [this]
        simp
  | n + 1, fr, y, u, hf, hu, hb, hz, hA => by
    have hp : 2 ^ (n + 1) = 2 ^ n + 2 ^ n := by rw [Nat.pow_succ]; omega
    obtain ⟨ul, ur, rfl, hl, hr⟩ : ∃ ul ur, u = ul ++ ur ∧ ul.length = 2 ^ n ∧ ur.length = 2 ^ n :=
      ⟨u.take (2 ^ n), u.drop (2 ^ n), (List.take_append_drop _ _).symm, by simp; omega, by simp; omega⟩
    obtain ⟨hb1, hb2⟩ := bits_append.1 hb
    rw [transform_halves hl hr] at hA
    have hlen := hA.length_eq
    simp only [List.length_append, List.length_zipWith, polarTransform_length, Nat.min_self] at hlen
    have tb1 := transform_bits hl hb1
    have tb2 := transform_bits hr hb2
    have g1 : ∀ i (hi : i < 2 ^ n), ∃ a b x v, y[i]? = some a ∧ y[2 ^ n + i]? = some b ∧ (polarTransform n ul)[i]? = some x ∧ (polarTransform n ur)[i]? = some v ∧
        (x = 0 ∨ x = 1) ∧ (v = 0 ∨ v = 1) ∧ A a (x ^^^ v) ∧ A b v := by
      intro i hi
      have l1 := polarTransform_length n ul
      have l2 := polarTransform_length n ur
      refine ⟨y[i], y[2 ^ n + i], (polarTransform n ul)[i], (polarTransform n ur)[i], List.getElem?_eq_getElem _, List.getElem?_eq_getElem _, List.getElem?_eq_getElem _,
        List.getElem?_eq_getElem _, tb1 _ (List.getElem_mem _), tb2 _ (List.getElem_mem _), ?_, ?_⟩
      · have := (List.forall₂_iff_get.1 hA).2 i (by omega) (by simp; omega)
        simpa [List.getElem_append, hi, polarTransform_length] using this
      · have := (List.forall₂_iff_get.1 hA).2 (2 ^ n + i) (by omega) (by simp; omega)
        simpa [List.getElem_append, polarTransform_length] using this
    have el : sc F n (fr.take (2 ^ n)) (List.zipWith F.f (y.take (2 ^ n)) (y.drop (2 ^ n))) = ul := by
      refine sc_votes S (by simp; omega) hl hb1 (fun i hi => ?_) ?_
      · rw [List.getElem?_take] at hi
        split at hi
        · rename_i h; have := hz i hi; rwa [List.getElem?_append_left (by omega)] at this
        · cases hi
      · refine List.forall₂_iff_get.2 ⟨by simp [polarTransform_length]; omega, fun i h1 h2 => ?_⟩
        rw [polarTransform_length] at h2
        obtain ⟨a, b, x, v, e1, e2, e3, e4, k1, k2, k3, k4⟩ := g1 i h2
        obtain ⟨_, e1⟩ := List.getElem?_eq_some_iff.1 e1
        obtain ⟨_, e2⟩ := List.getElem?_eq_some_iff.1 e2
        obtain ⟨_, e3⟩ := List.getElem?_eq_some_iff.1 e3
        simp only [List.get_eq_getElem, List.getElem_zipWith, List.getElem_take, List.getElem_drop, e1, e2, e3]
        have := S.f k3 k4 (by rcases k1 with rfl | rfl <;> rcases k2 with rfl | rfl <;> simp) k2
        rwa [BitVec.xor_assoc, BitVec.xor_self, BitVec.xor_zero] at this
    unfold sc
    simp only
    rw [el]
    congr 1
    refine sc_votes S (by simp; omega) hr hb2 (fun i hi => ?_) ?_
    · rw [List.getElem?_drop] at hi
      have := hz _ hi
      rwa [List.getElem?_append_right (by omega), hl, Nat.add_sub_cancel_left] at this
    · refine List.forall₂_iff_get.2 ⟨by simp [zip3, polarTransform_length]; omega, fun i h1 h2 => ?_⟩
      rw [polarTransform_length] at h2
      obtain ⟨a, b, x, v, e1, e2, e3, e4, k1, k2, k3, k4⟩ := g1 i h2
      obtain ⟨_, e1⟩ := List.getElem?_eq_some_iff.1 e1
      obtain ⟨_, e2⟩ := List.getElem?_eq_some_iff.1 e2
      obtain ⟨_, e3⟩ := List.getElem?_eq_some_iff.1 e3
      obtain ⟨_, e4⟩ := List.getElem?_eq_some_iff.1 e4
      simp only [zip3, List.get_eq_getElem, List.getElem_zipWith, List.getElem_take, List.getElem_drop, List.getElem_zip, e1, e2, e3, e4]
      exact S.g k3 k4 k1 k2

end Verif.PolarSC
