import Verif.Proof.Interleaver
import Verif.Spec.Interleaver
import Mathlib.Data.Nat.Prime.Basic
import Mathlib.Data.Int.GCD
import Mathlib.Data.Int.ModEq
import Mathlib.Tactic.Ring
import Mathlib.RingTheory.Coprime.Lemmas

/-! # The table generators produce permutations -/

namespace Verif.Interleaver
open Exec

/-- `for i < size: lut[i] = f i` on a buffer of `size` entries. -/
theorem fill_eq {α : Type _} {size : Nat} {f : Nat → α} {lut : List α} (h : lut.length = size) :
    forN size (fun i l => wr l i (f i)) lut = ok ((List.range size).map f) := by
  have := forN_fill (n := size) (off := 0) (g := f) (out := lut) (by omega)
  simp only [Nat.zero_add] at this
  obtain ⟨o, ho, hl, hv⟩ := this
  rw [ho]
  congr 1
  apply eq_mapRange (by omega)
  intro i hi
  rw [hv, if_pos (by omega)]; rfl

theorem iota_eq {size : Nat} {lut : List Nat} (h : lut.length = size) :
    iota size lut = ok (List.range size) := by
  unfold iota
  rw [fill_eq h]; simp

theorem genNO_valid (size : Nat) : ValidGen size (genNO size) := fun _ =>
  ⟨List.range size, List.Perm.refl _, fun _ h => iota_eq h⟩

theorem genRandom_valid (size : Nat) (sh : Nat → List Nat → List Nat) (hsh : ∀ f l, (sh f l).Perm l) :
    ValidGen size (genRandom size sh) := fun f =>
  ⟨sh f (List.range size), hsh f _, fun lut h => by unfold genRandom; rw [iota_eq h]; rfl⟩

theorem genGolden_valid (size : Nat) (sh : Nat → List Nat → List Nat) (hsh : ∀ f l, (sh f l).Perm l) :
    ValidGen size (genGolden size sh) := fun f =>
  ⟨sh f (List.range size), hsh f _, fun lut h => by unfold genGolden; rw [iota_eq h]; rfl⟩

theorem fill_valid {size : Nat} {f : Nat → Nat} (h : IsPermutation size ((List.range size).map f))
    {gen : GenLut} (hg : ∀ g lut, gen g lut = forN size (fun i l => wr l i (f i)) lut) : ValidGen size gen :=
  fun g => ⟨_, h, fun lut hl => by rw [hg, fill_eq hl]⟩

/-! ## Row-column and column-row -/

/-- Column visited at step `k` (outer loop). -/
def colOf (nRows nCols : Nat) (o : ReadOrder) (k : Nat) : Nat :=
  match o with
  | .topLeft | .bottomLeft => k / nRows
  | .topRight | .bottomRight => nCols - 1 - k / nRows

/-- Row visited at step `k` (inner loop). -/
def rowOf (nRows : Nat) (o : ReadOrder) (k : Nat) : Nat :=
  match o with
  | .topLeft | .topRight => k % nRows
  | .bottomLeft | .bottomRight => nRows - 1 - k % nRows

theorem orderedLoops_eq (nRows nCols : Nat) (o : ReadOrder)
    (body : Nat → Nat → Nat → List Nat → Exec (List Nat)) (lut : List Nat) :
    orderedLoops nRows nCols o body lut =
      forN (nCols * nRows) (fun k l => body (colOf nRows nCols o k) (rowOf nRows o k) k l) lut := by
  unfold orderedLoops
  cases o <;> simp only [forDown_eq, colOf, rowOf]
  · rw [forN_nested nCols nRows (fun i j (s : Nat × List Nat) => body i j s.1 s.2 >>= fun l => ok (s.1 + 1, l)),
      forN_count (h := fun k c l => body (k / nRows) (k % nRows) c l)]
    simp only [Nat.zero_add, Exec.bind_assoc']
    cases forN (nCols * nRows) (fun k l => body (k / nRows) (k % nRows) k l) lut <;> rfl
  · rw [forN_nested nCols nRows (fun i j (s : Nat × List Nat) => body (nCols - 1 - i) j s.1 s.2 >>= fun l => ok (s.1 + 1, l)),
      forN_count (h := fun k c l => body (nCols - 1 - k / nRows) (k % nRows) c l)]
    simp only [Nat.zero_add, Exec.bind_assoc']
    cases forN (nCols * nRows) (fun k l => body (nCols - 1 - k / nRows) (k % nRows) k l) lut <;> rfl
  · rw [forN_nested nCols nRows (fun i j (s : Nat × List Nat) => body i (nRows - 1 - j) s.1 s.2 >>= fun l => ok (s.1 + 1, l)),
      forN_count (h := fun k c l => body (k / nRows) (nRows - 1 - k % nRows) c l)]
    simp only [Nat.zero_add, Exec.bind_assoc']
    cases forN (nCols * nRows) (fun k l => body (k / nRows) (nRows - 1 - k % nRows) k l) lut <;> rfl
  · rw [forN_nested nCols nRows (fun i j (s : Nat × List Nat) => body (nCols - 1 - i) (nRows - 1 - j) s.1 s.2 >>= fun l => ok (s.1 + 1, l)),
      forN_count (h := fun k c l => body (nCols - 1 - k / nRows) (nRows - 1 - k % nRows) c l)]
    simp only [Nat.zero_add, Exec.bind_assoc']
    cases forN (nCols * nRows) (fun k l => body (nCols - 1 - k / nRows) (nRows - 1 - k % nRows) k l) lut <;> rfl

theorem divmod_bounds {r c k : Nat} (hk : k < c * r) : k / r < c ∧ k % r < r := by
  have hr : 0 < r := by
    rcases Nat.eq_zero_or_pos r with rfl | h
    · simp at hk
    · exact h
  exact ⟨Nat.div_lt_of_lt_mul (by rwa [Nat.mul_comm]), Nat.mod_lt _ hr⟩

theorem colOf_lt {r c : Nat} (o : ReadOrder) {k : Nat} (hk : k < c * r) : colOf r c o k < c := by
  have := (divmod_bounds hk).1
  generalize he : k / r = q at this
  cases o <;> simp only [colOf, he] <;> omega

theorem rowOf_lt {r c : Nat} (o : ReadOrder) {k : Nat} (hk : k < c * r) : rowOf r o k < r := by
  have := (divmod_bounds hk).2
  generalize he : k % r = q at this
  cases o <;> simp only [rowOf, he] <;> omega

theorem rc_pos_lt {r c : Nat} (o : ReadOrder) {k : Nat} (hk : k < c * r) :
    rowOf r o k * c + colOf r c o k < c * r := by
  have := slice_bound (rowOf_lt o hk) (colOf_lt o hk)
  rwa [Nat.mul_comm c r]

theorem rc_pos_inj {r c : Nat} (o : ReadOrder) {k k' : Nat} (hk : k < c * r) (hk' : k' < c * r)
    (h : rowOf r o k * c + colOf r c o k = rowOf r o k' * c + colOf r c o k') : k = k' := by
  have h1 := colOf_lt o hk
  have h2 := colOf_lt o hk'
  have hc : colOf r c o k = colOf r c o k' := by
    have := congrArg (· % c) h
    simpa [Nat.mul_add_mod', Nat.mod_eq_of_lt h1, Nat.mod_eq_of_lt h2] using this
  have hr : rowOf r o k = rowOf r o k' := by
    rw [hc] at h
    exact Nat.eq_of_mul_eq_mul_right (by omega) (Nat.add_right_cancel h)
  have b1 := divmod_bounds hk
  have b2 := divmod_bounds hk'
  have e1 := Nat.div_add_mod k r
  have e2 := Nat.div_add_mod k' r
  have hd : k / r = k' / r := by
    obtain ⟨b1, -⟩ := b1
    obtain ⟨b2, -⟩ := b2
    clear e1 e2
    cases o <;> simp only [colOf] at hc <;>
      (generalize k / r = q at *; generalize k' / r = q' at *; omega)
  have hm : k % r = k' % r := by
    obtain ⟨-, b1⟩ := b1
    obtain ⟨-, b2⟩ := b2
    clear e1 e2 hd
    cases o <;> simp only [rowOf] at hr <;>
      (generalize k % r = q at *; generalize k' % r = q' at *; omega)
  rw [← e1, ← e2, hd, hm]

theorem genRowColumn_valid (r c : Nat) (o : ReadOrder) : ValidGen (r * c) (genRowColumn r c o) := by
  rw [Nat.mul_comm r c]
  refine fill_valid (f := fun k => rowOf r o k * c + colOf r c o k) ?_ ?_
  · exact isPermutation_map (fun k hk => rc_pos_lt o hk) (fun a b ha hb h => rc_pos_inj o ha hb h)
  · intro g lut
    unfold genRowColumn
    rw [orderedLoops_eq]

theorem scatter_valid {size : Nat} {pos : Nat → Nat} (hlt : ∀ k, k < size → pos k < size)
    (hinj : ∀ a b, a < size → b < size → pos a = pos b → a = b) {gen : GenLut}
    (hg : ∀ g lut, gen g lut = forN size (fun k l => wr l (pos k) k) lut) : ValidGen size gen := by
  intro f
  have hsurj : ∀ j, j < size → ∃ k, k < size ∧ pos k = j := by
    intro j hj
    obtain ⟨i, hi, h⟩ := (isPermutation_map hlt hinj).surj hj
    exact ⟨i, by simpa using hi, by simpa using h⟩
  have main : ∀ lut : List Nat, lut.length = size → ∃ o, gen f lut = ok o ∧ o.length = size ∧
      ∀ k, k < size → o[pos k]? = some k := by
    intro lut hl
    obtain ⟨o, ho, h1, h2, -⟩ := forN_scatter (pos := pos) (g := id) (out := lut) (n := size)
      (fun k hk => by have := hlt k hk; omega) hinj
    exact ⟨o, by rw [hg]; exact ho, by omega, h2⟩
  obtain ⟨t, ht, hl, hp⟩ := main (List.replicate size 0) (by simp)
  refine ⟨t, isPermutation_of_scatter hl hp, fun lut hlut => ?_⟩
  obtain ⟨o, ho, hl', hp'⟩ := main lut hlut
  rw [ho]
  congr 1
  apply List.ext_getElem?
  intro j
  by_cases hj : j < size
  · obtain ⟨k, hk, rfl⟩ := hsurj j hj
    rw [hp k hk, hp' k hk]
  · rw [List.getElem?_eq_none (by omega), List.getElem?_eq_none (by omega)]

theorem genColumnRow_valid (r c : Nat) (o : ReadOrder) : ValidGen (r * c) (genColumnRow r c o) := by
  rw [Nat.mul_comm r c]
  refine scatter_valid (pos := fun k => rowOf r o k * c + colOf r c o k) (fun k hk => rc_pos_lt o hk)
    (fun a b ha hb h => rc_pos_inj o ha hb h) ?_
  intro g lut
  unfold genColumnRow
  rw [orderedLoops_eq]

/-! ## Random columns -/

theorem range_split (n m : Nat) :
    List.range ((n + 1) * m) = List.range (n * m) ++ (List.range m).map (fun c => c + n * m) := by
  rw [Nat.succ_mul, List.range_add]
  congr 1
  apply List.map_congr_left
  intro a _
  omega

theorem genRandomColumn_valid (nCols colSize : Nat) (sh : Nat → Nat → List Nat → List Nat)
    (hsh : ∀ f c l, (sh f c l).Perm l) : ValidGen (nCols * colSize) (genRandomColumn nCols colSize sh) := by
  intro f
  let colT : Nat → List Nat := fun c => sh f c ((List.range colSize).map (fun i => i + c * colSize))
  let tab : Nat → List Nat := fun n => ((List.range n).map colT).flatten
  have hcl : ∀ c, (colT c).length = colSize := fun c => by
    have := (hsh f c ((List.range colSize).map (fun i => i + c * colSize))).length_eq
    simpa using this
  have htab : ∀ n, tab (n + 1) = tab n ++ colT n := by
    intro n; simp [tab, List.range_succ]
  have hperm : ∀ n, IsPermutation (n * colSize) (tab n) := by
    intro n
    induction n with
    | zero => simp [tab, IsPermutation]
    | succ n ih =>
      unfold IsPermutation at *
      rw [htab, range_split]
      exact ih.append (hsh f n _)
  have htl : ∀ n, (tab n).length = n * colSize := fun n => (hperm n).length
  refine ⟨tab nCols, hperm nCols, fun lut hlut => ?_⟩
  unfold genRandomColumn
  have inv : (forN nCols (fun column (s : List Nat × List Nat) => do
      let tmp ← forN colSize (fun c t => wr t c (c + column * colSize)) s.1
      let tmp := sh f column tmp
      let lut ← forN colSize (fun c l => rd tmp c >>= fun v => wr l (c + column * colSize) v) s.2
      ok (tmp, lut)) (List.replicate colSize 0, lut)).Sat (fun s => s.1.length = colSize ∧
        s.2.length = nCols * colSize ∧ ∀ j, j < nCols * colSize → s.2[j]? = (tab nCols)[j]?) := by
    refine forN_inv (fun n (s : List Nat × List Nat) => s.1.length = colSize ∧
        s.2.length = nCols * colSize ∧ ∀ j, j < n * colSize → s.2[j]? = (tab n)[j]?) ?_ ?_
    · exact ⟨by simp, hlut, fun j hj => by omega⟩
    · rintro n ⟨tmp, l⟩ hn ⟨h1, h2, h3⟩
      simp only at h1 h2 h3 ⊢
      rw [fill_eq h1, bind_ok]
      have hsl := slice_le (size := colSize) hn
      have hc := copyTo_sat (src := colT n) (so := 0) (n := colSize) (dst := l) (d := n * colSize)
        (by rw [hcl]; omega) (by omega)
      unfold copyTo at hc
      simp only [Nat.zero_add, Nat.add_comm (n * colSize)] at hc
      refine hc.bind ?_
      rintro o ⟨ho1, ho2⟩
      rw [sat_ok]
      refine ⟨hcl n, by simp only; omega, fun j hj => ?_⟩
      simp only
      rw [Nat.succ_mul] at hj
      rw [ho2, htab]
      by_cases h : j < n * colSize
      · rw [if_neg (by omega), h3 j h, List.getElem?_append_left (by rw [htl]; exact h)]
      · rw [if_pos (by omega), List.getElem?_append_right (by rw [htl]; omega), htl]
  obtain ⟨⟨a, b⟩, he, h1, h2, h3⟩ := inv
  rw [he, bind_ok]
  congr 1
  apply List.ext_getElem?
  intro j
  by_cases hj : j < nCols * colSize
  · exact h3 j hj
  · have := htl nCols
    rw [List.getElem?_eq_none (by simp only at h2 ⊢; omega), List.getElem?_eq_none (by omega)]

/-! ## LTE -/

/-- Arithmetic facts used by the quadratic permutation polynomial argument. -/
def lteOk (r : Nat × Nat × Nat) : Bool :=
  decide (0 < r.1) && decide (Nat.gcd r.2.1 r.1 = 1) && decide (r.2.2 ^ 13 % r.1 = 0)

theorem lteTable_ok : ∀ r ∈ lteTable, lteOk r = true := by decide +kernel

theorem piLTE_eq (i f1 f2 K : Nat) : piLTE i f1 f2 K = ((f1 + f2 * i) * i) % K := by
  unfold piLTE
  rw [Nat.mul_mod, Nat.mod_mod, ← Nat.mul_mod]

theorem lte_inj {K f1 f2 : Nat} (hg : Nat.gcd f1 K = 1) (hd : f2 ^ 13 % K = 0) {i j : Nat}
    (hi : i < K) (hj : j < K) (h : piLTE i f1 f2 K = piLTE j f1 f2 K) : i = j := by
  rw [piLTE_eq, piLTE_eq] at h
  have hdvd : (K : Int) ∣ ((f1 + f2 * (i + j : Nat) : Nat) : Int) * ((i : Int) - j) := by
    have h' : (((f1 + f2 * i) * i : Nat) : Int) % K = (((f1 + f2 * j) * j : Nat) : Int) % K := by
      exact_mod_cast h
    have hd := Int.ModEq.dvd (show (((f1 + f2 * j) * j : Nat) : Int) ≡ (((f1 + f2 * i) * i : Nat) : Int) [ZMOD K] from h'.symm)
    have e : ((f1 + f2 * (i + j : Nat) : Nat) : Int) * ((i : Int) - j) =
      (((f1 + f2 * i) * i : Nat) : Int) - (((f1 + f2 * j) * j : Nat) : Int) := by push_cast; ring
    rw [e]; exact hd
  have hcop : Nat.Coprime K (f1 + f2 * (i + j)) := by
    rw [Nat.coprime_iff_gcd_eq_one]
    by_contra hne
    obtain ⟨p, hp, hpd⟩ := Nat.exists_prime_and_dvd hne
    have hpK : p ∣ K := hpd.trans (Nat.gcd_dvd_left _ _)
    have hps : p ∣ f1 + f2 * (i + j) := hpd.trans (Nat.gcd_dvd_right _ _)
    have hp2 : p ∣ f2 := hp.dvd_of_dvd_pow (hpK.trans (Nat.dvd_of_mod_eq_zero hd))
    have hp1 : p ∣ f1 := (Nat.dvd_add_left (Dvd.dvd.mul_right hp2 _)).mp hps
    have : p ∣ Nat.gcd f1 K := Nat.dvd_gcd hp1 hpK
    rw [hg] at this
    exact hp.one_lt.ne' (Nat.dvd_one.mp this)
  have hij : (K : Int) ∣ (i : Int) - j := 
    (Nat.isCoprime_iff_coprime.mpr hcop).dvd_of_dvd_mul_left hdvd
  have := Int.eq_zero_of_abs_lt_dvd hij (by rw [abs_lt]; constructor <;> omega)
  omega

theorem genLTE_valid {size : Nat} (h : size ∈ lteTable.map (·.1)) : ValidGen size (genLTE size) := by
  obtain ⟨r, hr, rfl⟩ := List.mem_map.mp h
  have hsome : (lteTable.find? (fun x => x.1 == r.1)).isSome := by
    rw [List.find?_isSome]; exact ⟨r, hr, by simp⟩
  obtain ⟨⟨K, f1, f2⟩, hx⟩ := Option.isSome_iff_exists.mp hsome
  have hmem := List.mem_of_find?_eq_some hx
  have hK : K = r.1 := by simpa using List.find?_some hx
  have hok := lteTable_ok _ hmem
  simp only [lteOk, Bool.and_eq_true, decide_eq_true_eq] at hok
  obtain ⟨⟨hpos, hg⟩, hd⟩ := hok
  rw [hK] at hpos hg hd
  refine fill_valid (f := fun i => piLTE i f1 f2 r.1) ?_ ?_
  · refine isPermutation_map (fun i _ => ?_) (fun a b ha hb e => lte_inj hg hd ha hb e)
    rw [piLTE_eq]; exact Nat.mod_lt _ hpos
  · intro g lut
    unfold genLTE; rw [hx]

theorem genLTE_throws {size : Nat} (h : size ∉ lteTable.map (·.1)) (f : Nat) (lut : List Nat) :
    genLTE size f lut = exc .runtimeError := by
  have : lteTable.find? (fun r => r.1 == size) = none := by
    rw [List.find?_eq_none]
    intro r hr he
    exact h (List.mem_map.mpr ⟨r, hr, by simpa using he⟩)
  unfold genLTE; rw [this]

/-! ## CCSDS, DVB-RCS1, DVB-RCS2: finite tables checked by the kernel row by row -/

theorem ccsds_ok : ∀ r ∈ ccsdsTable, maskTree (fun i => piCCSDS i r.2.1 r.2.2) r.1 14 0 = 2 ^ r.1 - 1 := by
  decide +kernel

theorem rcs1_ok : ∀ r ∈ rcs1Table,
    maskTree (piRCS1 r.1 r.2.1 r.2.2.1 r.2.2.2.1 r.2.2.2.2) r.1 11 0 = 2 ^ r.1 - 1 := by
  decide +kernel

theorem rcs2_ok : ∀ r ∈ rcs2Table, r.1 ≠ 1777 →
    maskTree (piRCS2 r.1 r.2.1 r.2.2.1 r.2.2.2.1 r.2.2.2.2.1 r.2.2.2.2.2) r.1 11 0 = 2 ^ r.1 - 1 := by
  decide +kernel

theorem find_row {β : Type} {l : List (Nat × β)} {size : Nat} (h : size ∈ l.map (·.1)) :
    ∃ b, l.find? (fun x => x.1 == size) = some (size, b) ∧ (size, b) ∈ l := by
  obtain ⟨r, hr, rfl⟩ := List.mem_map.mp h
  have hsome : (l.find? (fun x => x.1 == r.1)).isSome := by
    rw [List.find?_isSome]; exact ⟨r, hr, by simp⟩
  obtain ⟨⟨K, b⟩, hx⟩ := Option.isSome_iff_exists.mp hsome
  have hmem := List.mem_of_find?_eq_some hx
  have hK : K = r.1 := by simpa using List.find?_some hx
  subst hK
  exact ⟨b, hx, hmem⟩

theorem find_none {β : Type} {l : List (Nat × β)} {size : Nat} (h : size ∉ l.map (·.1)) :
    l.find? (fun x => x.1 == size) = none := by
  rw [List.find?_eq_none]
  intro r hr he
  exact h (List.mem_map.mpr ⟨r, hr, by simpa using he⟩)

theorem genCCSDS_valid {size : Nat} (h : size ∈ ccsdsTable.map (·.1)) : ValidGen size (genCCSDS size) := by
  obtain ⟨⟨k1, k2⟩, hx, hmem⟩ := find_row h
  refine fill_valid (f := fun i => piCCSDS i k1 k2) (isPermutation_of_mask (ccsds_ok _ hmem)) ?_
  intro g lut
  unfold genCCSDS; rw [hx]

theorem genRCS1_valid {size : Nat} (h : size ∈ rcs1Table.map (·.1)) : ValidGen size (genRCS1 size) := by
  obtain ⟨⟨p0, p1, p2, p3⟩, hx, hmem⟩ := find_row h
  refine fill_valid (f := fun i => piRCS1 size p0 p1 p2 p3 i) (isPermutation_of_mask (rcs1_ok _ hmem)) ?_
  intro g lut
  unfold genRCS1; rw [hx]

theorem genRCS2_valid {size : Nat} (h : size ∈ rcs2Table.map (·.1)) (hne : size ≠ 1777) :
    ValidGen size (genRCS2 size) := by
  obtain ⟨⟨p, q0, q1, q2, q3⟩, hx, hmem⟩ := find_row h
  refine fill_valid (f := fun i => piRCS2 size p q0 q1 q2 q3 i) (isPermutation_of_mask (rcs2_ok _ hmem hne)) ?_
  intro g lut
  unfold genRCS2; rw [hx]

/-! ## User tables -/

theorem readUserTable_sat {size : Nat} {vals : Nat → Nat} (t : List Nat)
    (h : readUserTable size vals = ok t) : IsPermutation size t ∧ t = (List.range size).map vals := by
  have key : ∀ n, ∀ t, forN n (fun i (t : List Nat) =>
      let val := vals i
      if val < size then
        if t.contains val then exc .runtimeError else ok (t ++ [val])
      else exc .runtimeError) [] = ok t →
      t = (List.range n).map vals ∧ t.Nodup ∧ ∀ v ∈ t, v < size := by
    intro n
    induction n with
    | zero => intro t h; cases h; simp
    | succ n ih =>
      intro t h
      rw [forN_succ] at h
      cases hs : forN n (fun i (t : List Nat) =>
        let val := vals i
        if val < size then
          if t.contains val then exc .runtimeError else ok (t ++ [val])
        else exc .runtimeError) [] with
      | exc e => rw [hs] at h; cases h
      | ub => rw [hs] at h; cases h
      | ok s =>
        rw [hs, bind_ok] at h
        obtain ⟨e1, e2, e3⟩ := ih s hs
        simp only at h
        split at h
        · rename_i hlt
          split at h
          · cases h
          · rename_i hc
            cases h
            refine ⟨?_, ?_, ?_⟩
            · rw [List.range_succ, List.map_append, ← e1]; rfl
            · rw [List.nodup_append]
              refine ⟨e2, by simp, ?_⟩
              intro a ha b hb
              simp at hb
              subst hb
              rintro rfl
              exact hc (by simpa using ha)
            · intro v hv
              rcases List.mem_append.mp hv with h | h
              · exact e3 v h
              · simp at h; subst h; exact hlt
        · cases h
  obtain ⟨h1, h2, h3⟩ := key size t h
  exact ⟨isPermutation_of_nodup (by rw [h1]; simp) h3 h2, h1⟩

theorem readUserTable_accepts {size : Nat} {vals : Nat → Nat}
    (h : IsPermutation size ((List.range size).map vals)) :
    readUserTable size vals = ok ((List.range size).map vals) := by
  have hlt : ∀ i, i < size → vals i < size := fun i hi =>
    h.mem_iff.mp (List.mem_map.mpr ⟨i, List.mem_range.mpr hi, rfl⟩)
  have hinj : ∀ i j, i < size → j < size → vals i = vals j → i = j := by
    intro i j hi hj e
    exact h.inj (i := i) (j := j) (by simpa using hi) (by simpa using hj) (by simpa using e)
  have key : (readUserTable size vals).Sat fun t => t = (List.range size).map vals := by
    unfold readUserTable
    refine forN_inv (fun n (t : List Nat) => t = (List.range n).map vals) (by simp) ?_
    rintro i t hi rfl
    simp only
    rw [if_pos (hlt i hi), if_neg, sat_ok]
    · rw [List.range_succ, List.map_append]; rfl
    · simp only [List.contains_eq_mem, List.mem_map, List.mem_range, decide_eq_true_eq]
      rintro ⟨j, hj, e⟩
      have := hinj j i (by omega) hi e
      omega
  obtain ⟨t, ht, rfl⟩ := key
  exact ht

theorem readUserTable_rejects {size : Nat} {vals : Nat → Nat}
    (h : ¬ IsPermutation size ((List.range size).map vals)) :
    readUserTable size vals = exc .runtimeError := by
  cases hr : readUserTable size vals with
  | ok t => obtain ⟨h1, h2⟩ := readUserTable_sat t hr; exact absurd (h2 ▸ h1) h
  | exc e =>
    congr 1
    have : ∀ n s, forN n (fun i (t : List Nat) =>
        let val := vals i
        if val < size then
          if t.contains val then exc .runtimeError else ok (t ++ [val])
        else exc .runtimeError) s ≠ ub ∧ ∀ e, forN n (fun i (t : List Nat) =>
        let val := vals i
        if val < size then
          if t.contains val then exc .runtimeError else ok (t ++ [val])
        else exc .runtimeError) s = exc e → e = .runtimeError := by
      intro n
      induction n with
      | zero => intro s; exact ⟨by simp, by simp⟩
      | succ n ih =>
        intro s
        rw [forN_succ]
        obtain ⟨i1, i2⟩ := ih s
        cases hs : forN n (fun i (t : List Nat) =>
          let val := vals i
          if val < size then
            if t.contains val then exc .runtimeError else ok (t ++ [val])
          else exc .runtimeError) s with
        | ub => exact absurd hs i1
        | exc e => rw [bind_exc]; exact ⟨by simp, fun e' h => by cases h; exact i2 _ hs⟩
        | ok a =>
          rw [bind_ok]; simp only
          constructor
          · split
            · split <;> simp
            · simp
          · intro e h
            split at h
            · split at h
              · cases h; rfl
              · cases h
            · cases h; rfl
    exact (this size []).2 e hr
  | ub =>
    exfalso
    have : ∀ n s, forN n (fun i (t : List Nat) =>
        let val := vals i
        if val < size then
          if t.contains val then exc .runtimeError else ok (t ++ [val])
        else exc .runtimeError) s ≠ ub := by
      intro n
      induction n with
      | zero => intro s; simp
      | succ n ih =>
        intro s
        rw [forN_succ]
        cases hs : forN n (fun i (t : List Nat) =>
          let val := vals i
          if val < size then
            if t.contains val then exc .runtimeError else ok (t ++ [val])
          else exc .runtimeError) s with
        | ub => exact absurd hs (ih s)
        | exc e => simp
        | ok a =>
          rw [bind_ok]; simp only
          split
          · split <;> simp
          · simp
    exact this size [] hr

/-- The `itl`-th table listed by a file. -/
def fileTable (size : Nat) (vals : Nat → Nat) (itl : Nat) : List Nat :=
  (List.range size).map (fun i => vals (1 + itl * size + i))

theorem readUser_iff {size : Nat} {nItl : Int} {vals : Nat → Nat} {ts : List (List Nat)} {u : Bool} :
    readUser size nItl vals = ok (ts, u) ↔
      0 < nItl ∧ vals 0 = size ∧ (∀ k, k < nItl.toNat → IsPermutation size (fileTable size vals k)) ∧
      ts = (List.range nItl.toNat).map (fileTable size vals) ∧ u = decide (nItl > 1) := by
  have loop : ∀ n ts, forN n (fun itl (ts : List (List Nat)) => do
        let t ← readUserTable size (fun i => vals (1 + itl * size + i))
        ok (ts ++ [t])) [] = ok ts ↔
      (∀ k, k < n → IsPermutation size (fileTable size vals k)) ∧ ts = (List.range n).map (fileTable size vals) := by
    intro n
    induction n with
    | zero => intro ts; simp [eq_comm]
    | succ n ih =>
      intro ts
      rw [forN_succ]
      constructor
      · intro h
        cases hs : forN n (fun itl (ts : List (List Nat)) => do
          let t ← readUserTable size (fun i => vals (1 + itl * size + i))
          ok (ts ++ [t])) [] with
        | exc e => rw [hs] at h; cases h
        | ub => rw [hs] at h; cases h
        | ok s =>
          rw [hs, bind_ok] at h
          obtain ⟨e1, e2⟩ := (ih s).mp hs
          cases ht : readUserTable size (fun i => vals (1 + n * size + i)) with
          | exc e => rw [ht] at h; cases h
          | ub => rw [ht] at h; cases h
          | ok t =>
            rw [ht, bind_ok] at h
            cases h
            obtain ⟨p1, p2⟩ := readUserTable_sat t ht
            refine ⟨fun k hk => ?_, ?_⟩
            · rcases Nat.lt_succ_iff_lt_or_eq.mp hk with h | rfl
              · exact e1 k h
              · unfold fileTable; rw [← p2]; exact p1
            · rw [List.range_succ, List.map_append, ← e2, p2]; rfl
      · rintro ⟨h1, rfl⟩
        rw [(ih _).mpr ⟨fun k hk => h1 k (by omega), rfl⟩, bind_ok,
          readUserTable_accepts (h1 n (Nat.lt_succ_self n)), bind_ok, List.range_succ, List.map_append]
        rfl
  unfold readUser
  by_cases hp : nItl > 0
  · rw [if_pos hp]
    by_cases h0 : vals 0 = size
    · simp only [if_pos h0]
      cases hl : forN nItl.toNat (fun itl (ts : List (List Nat)) => do
        let t ← readUserTable size (fun i => vals (1 + itl * size + i))
        ok (ts ++ [t])) [] with
      | ok s =>
        have := (loop _ s).mp hl
        simp only [bind_ok, Exec.ok.injEq, Prod.mk.injEq]
        constructor
        · rintro ⟨rfl, rfl⟩; exact ⟨hp, h0, this.1, this.2, rfl⟩
        · rintro ⟨_, _, _, rfl, rfl⟩; exact ⟨this.2, rfl⟩
      | exc e =>
        simp only [bind_exc, reduceCtorEq, false_iff]
        rintro ⟨_, _, h3, rfl, _⟩
        have := (loop _ _).mpr ⟨h3, rfl⟩
        rw [hl] at this; cases this
      | ub =>
        simp only [bind_ub, reduceCtorEq, false_iff]
        rintro ⟨_, _, h3, rfl, _⟩
        have := (loop _ _).mpr ⟨h3, rfl⟩
        rw [hl] at this; cases this
    · rw [if_neg h0]
      simp only [reduceCtorEq, false_iff]
      rintro ⟨_, h, _⟩; exact h0 h
  · rw [if_neg hp]
    simp only [reduceCtorEq, false_iff]
    rintro ⟨h, _⟩; exact hp h

theorem genUser_valid {size : Nat} {ts : List (List Nat)} (hne : ts ≠ [])
    (h : ∀ t ∈ ts, IsPermutation size t) (c0 : Nat) :
    ValidGen size (fun f => genUser ts (c0 + f)) := by
  intro f
  have hpos : 0 < ts.length := List.length_pos_iff.mpr hne
  have hlt : (c0 + f) % ts.length < ts.length := Nat.mod_lt _ hpos
  have hp := h _ (List.getElem_mem hlt)
  refine ⟨_, hp, fun lut hl => ?_⟩
  show (rd ts ((c0 + f) % ts.length) >>= fun t => copyTo t 0 t.length lut 0) = _
  rw [rd_lt hlt, bind_ok]
  have hl' := hp.length
  obtain ⟨o, ho, h1, h2⟩ := copyTo_sat (src := ts[(c0 + f) % ts.length]) (so := 0)
    (n := ts[(c0 + f) % ts.length].length) (dst := lut) (d := 0) (by omega) (by omega)
  rw [ho]; congr 1
  apply List.ext_getElem?
  intro j
  rw [h2]
  by_cases hj : j < size
  · rw [if_pos (by omega)]; simp
  · rw [if_neg (by omega), List.getElem?_eq_none (by omega), List.getElem?_eq_none (by omega)]

end Verif.Interleaver
