import Verif.Proof.InterleaverHistory

/-!
# C01, C02, C03: interleavers
-/

namespace Verif.Interleaver
open Exec

/-! ## C01 -/

/-- **C01**.  Whatever the size, the mode, the history of `set_n_frames`/`refresh` calls, the wave shape
and the data, `deinterleave(interleave(x)) = x` and `interleave(deinterleave(x)) = x`; both calls return
normally (no exception, no out-of-bounds access). -/
theorem C01_round_trip {α : Type} {size : Nat} (hs : 0 < size) (uniform : Bool) (gen : GenLut)
    (hgen : ValidGen size gen) (ops : List Op) (hops : OpsValid size ops) (npw nf frameId : Nat)
    (x out1 out2 : List α) (hx : x.length = npw * size) (ho1 : out1.length = npw * size)
    (ho2 : out2.length = npw * size) :
    ∃ c, history size uniform gen ops = ok c ∧
      (∃ y, interleave c npw nf frameId x out1 = ok y ∧ y.length = npw * size ∧
        deinterleave c npw nf frameId y out2 = ok x) ∧
      (∃ z, deinterleave c npw nf frameId x out1 = ok z ∧ z.length = npw * size ∧
        interleave c npw nf frameId z out2 = ok x) := by
  obtain ⟨c, hc, hsz, hn, -, hini, T, hT⟩ := history_holds (uniform := uniform) hs hgen hops
  subst hsz
  refine ⟨c, hc, ?_, ?_⟩
  · obtain ⟨y, hy, hyl, hyv⟩ := interleave_sat hT hini hn (nf := nf) (frameId := frameId) hx ho1
    obtain ⟨w, hw, hwl, hwv⟩ := deinterleave_sat hT hini hn (nf := nf) (frameId := frameId) hyl ho2
    refine ⟨y, hy, hyl, ?_⟩
    rw [hw]; congr 1
    refine ext_frames hwl hx fun f hf i hi => ?_
    have ht := tableOf_lt hn nf frameId f
    obtain ⟨-, h2, h3⟩ := hT.bwd ht hi
    rw [hwv f hf i hi, hyv f hf _ h2, h3]
  · obtain ⟨y, hy, hyl, hyv⟩ := deinterleave_sat hT hini hn (nf := nf) (frameId := frameId) hx ho1
    obtain ⟨w, hw, hwl, hwv⟩ := interleave_sat hT hini hn (nf := nf) (frameId := frameId) hyl ho2
    refine ⟨y, hy, hyl, ?_⟩
    rw [hw]; congr 1
    refine ext_frames hwl hx fun f hf i hi => ?_
    have ht := tableOf_lt hn nf frameId f
    rw [hwv f hf i hi, hyv f hf _ (hT.fwd ht hi).2, invOf_spec (hT.perm _ ht) hi]

/-- **C01** (what interleaving does).  After any history, the published table of every frame is a
permutation, and output `i` of frame `f` is input `pi[i]` of the same frame, where `pi` is the table number
`(frameId + f) mod n_frames` in uniform mode and the common table otherwise. -/
theorem C01_pointwise {α : Type} {size : Nat} (hs : 0 < size) (uniform : Bool) (gen : GenLut)
    (hgen : ValidGen size gen) (ops : List Op) (hops : OpsValid size ops) (npw frameId : Nat)
    (x out : List α) (hx : x.length = npw * size) (ho : out.length = npw * size) :
    ∃ c, history size uniform gen ops = ok c ∧ 0 < c.nFrames ∧ c.pi.length = c.nFrames * size ∧
      (∀ f, f < c.nFrames → IsPermutation size ((c.pi.drop (f * size)).take size)) ∧
      ∃ y, interleave c npw c.nFrames frameId x out = ok y ∧ y.length = npw * size ∧
        ∀ f, f < npw → ∀ i, i < size → ∀ p,
          c.pi[(if uniform then (frameId + f) % c.nFrames else 0) * size + i]? = some p →
          y[f * size + i]? = x[f * size + p]? := by
  obtain ⟨c, hc, hsz, hn, hu, hini, T, hT⟩ := history_holds (uniform := uniform) hs hgen hops
  subst hsz hu
  refine ⟨c, hc, hn, hT.lenPi, fun f hf => ?_, ?_⟩
  · rw [hT.slice hf]; exact hT.perm f hf
  · obtain ⟨y, hy, hyl, hyv⟩ := interleave_sat hT hini hn (nf := c.nFrames) (frameId := frameId) hx ho
    refine ⟨y, hy, hyl, fun f hf i hi p hp => ?_⟩
    rw [hyv f hf i hi]
    have ht := tableOf_lt hn c.nFrames frameId f
    rw [← tableOf_eq hn] at hp
    rw [(hT.fwd ht hi).1] at hp
    cases hp; rfl

/-- Hypotheses of C01 are met: an identity core of size 3, grown to 2 frames. -/
example : ∃ y, (do
    let c ← history 3 true (genRowColumn 3 1 .bottomLeft) [.setNFrames 2 (genRowColumn 3 1 .topLeft)]
    interleave c 2 2 0 [10, 11, 12, 20, 21, 22] (List.replicate 6 0)) = ok y ∧
    ValidGen 3 (genRowColumn 3 1 .bottomLeft) ∧
    OpsValid 3 [.setNFrames 2 (genRowColumn 3 1 .topLeft)] :=
  ⟨_, rfl, genRowColumn_valid 3 1 _, genRowColumn_valid 3 1 _, trivial⟩

/-- **C01, vectorised layout**.  With the frames interlaced in memory (`interleave_reordering`), in
non-uniform mode and when the wave is exactly one SIMD register, the same permutation is applied to every
frame and the round trip holds. -/
theorem C01_reordering_simd {α : Type} {size : Nat} (hs : 0 < size) (gen : GenLut)
    (hgen : ValidGen size gen) (ops : List Op) (hops : OpsValid size ops) (npw nf frameId : Nat)
    (x out1 out2 : List α) (hx : x.length = npw * size) (ho1 : out1.length = npw * size)
    (ho2 : out2.length = npw * size) :
    ∃ c, history size false gen ops = ok c ∧
      ∃ y, interleaveReordering c npw nf npw frameId x out1 = ok y ∧ y.length = npw * size ∧
        (∀ f, f < npw → ∀ i, i < size → ∀ p, c.pi[i]? = some p → y[i * npw + f]? = x[p * npw + f]?) ∧
        deinterleaveReordering c npw nf npw frameId y out2 = ok x := by
  obtain ⟨c, hc, hsz, hn, hu, hini, T, hT⟩ := history_holds (uniform := false) hs hgen hops
  subst hsz
  refine ⟨c, hc, ?_⟩
  unfold interleaveReordering deinterleaveReordering Core.getLut Core.getLutInv interleaveReorderingRaw
  simp only [hini, if_true, bind_ok, hu]
  exact reordering_round_trip hT hn hx ho1 ho2

/-- **C01, vectorised layout, general wave**: when the wave is the whole batch. -/
theorem C01_reordering_single_wave {α : Type} {size : Nat} (hs : 0 < size) (gen : GenLut)
    (hgen : ValidGen size gen) (ops : List Op) (hops : OpsValid size ops) (npw nElReg frameId : Nat)
    (x out1 out2 : List α) (hx : x.length = npw * size) (ho1 : out1.length = npw * size)
    (ho2 : out2.length = npw * size) :
    ∃ c, history size false gen ops = ok c ∧
      ∃ y, interleaveReordering c npw npw nElReg frameId x out1 = ok y ∧ y.length = npw * size ∧
        (∀ f, f < npw → ∀ i, i < size → ∀ p, c.pi[i]? = some p → y[i * npw + f]? = x[p * npw + f]?) ∧
        deinterleaveReordering c npw npw nElReg frameId y out2 = ok x := by
  obtain ⟨c, hc, hsz, hn, hu, hini, T, hT⟩ := history_holds (uniform := false) hs hgen hops
  subst hsz
  refine ⟨c, hc, ?_⟩
  unfold interleaveReordering deinterleaveReordering Core.getLut Core.getLutInv interleaveReorderingRaw
  simp only [hini, if_true, bind_ok, hu]
  by_cases h : npw = nElReg
  · subst h
    simp only [if_true]
    exact reordering_round_trip hT hn hx ho1 ho2
  · simp only [h, if_false, if_true]
    exact reordering_round_trip hT hn hx ho1 ho2

/-- **Finding** (negation of the vectorised layout claim in general): with 4 frames processed by waves of 2
and a SIMD width of 8, the reordering task on one wave (6 = 2 frames x 3 elements) reads and writes with a
stride of 4 instead of 2, past the end of the wave. -/
theorem C01_reordering_waves_ub :
    (do
      let c ← history 3 false (genNO 3) []
      interleaveReordering c 2 4 8 0 [0, 1, 2, 3, 4, 5] (List.replicate 6 0)) = (ub : Exec (List Nat)) := by
  decide +kernel

/-! ## C02 -/

/-- **C02** identity. -/
theorem C02_no (size : Nat) : ValidGen size (genNO size) := genNO_valid size

/-- **C02** row-column, any shape, any read order. -/
theorem C02_row_column (nRows nCols : Nat) (o : ReadOrder) :
    ValidGen (nRows * nCols) (genRowColumn nRows nCols o) := genRowColumn_valid nRows nCols o

/-- **C02** column-row, any shape, any read order. -/
theorem C02_column_row (nRows nCols : Nat) (o : ReadOrder) :
    ValidGen (nRows * nCols) (genColumnRow nRows nCols o) := genColumnRow_valid nRows nCols o

/-- The row-column and column-row tables of the same shape are inverse of each other. -/
theorem C02_row_column_inverse (nRows nCols : Nat) (o : ReadOrder) (f : Nat) :
    ∃ t u, genRowColumn nRows nCols o f (List.replicate (nRows * nCols) 0) = ok t ∧
      genColumnRow nRows nCols o f (List.replicate (nRows * nCols) 0) = ok u ∧
      ∀ k, k < nRows * nCols → ∃ p, t[k]? = some p ∧ u[p]? = some k :=
  rc_inverse nRows nCols o f

/-- **C02** random, whatever the shuffle does. -/
theorem C02_random (size : Nat) (shuffle : Nat → List Nat → List Nat)
    (h : ∀ f l, (shuffle f l).Perm l) : ValidGen size (genRandom size shuffle) := genRandom_valid size _ h

/-- **C02** golden, whatever order the floating-point sort produces. -/
theorem C02_golden (size : Nat) (sort : Nat → List Nat → List Nat)
    (h : ∀ f l, (sort f l).Perm l) : ValidGen size (genGolden size sort) := genGolden_valid size _ h

/-- **C02** random columns, whatever the shuffles do. -/
theorem C02_random_column (nCols colSize : Nat) (shuffle : Nat → Nat → List Nat → List Nat)
    (h : ∀ f c l, (shuffle f c l).Perm l) :
    ValidGen (nCols * colSize) (genRandomColumn nCols colSize shuffle) := genRandomColumn_valid _ _ _ h

/-- A random-column table keeps every element inside its own column. -/
theorem C02_random_column_stays (nCols colSize : Nat) (shuffle : Nat → Nat → List Nat → List Nat)
    (h : ∀ f c l, (shuffle f c l).Perm l) (f : Nat) (t : List Nat)
    (ht : genRandomColumn nCols colSize shuffle f (List.replicate (nCols * colSize) 0) = ok t) :
    ∀ i p : Nat, t[i]? = some p → p / colSize = i / colSize :=
  randomColumn_stays nCols colSize shuffle h f t ht

example : ∃ sh : Nat → List Nat → List Nat, (∀ f l, (sh f l).Perm l) ∧ sh 0 [1, 2] ≠ [1, 2] :=
  ⟨fun _ l => l.reverse, fun _ l => l.reverse_perm, by decide⟩

/-- **C02** LTE: every size of the standard's table; any other size throws. -/
theorem C02_lte (size : Nat) :
    (size ∈ lteTable.map (·.1) → ValidGen size (genLTE size)) ∧
    (size ∉ lteTable.map (·.1) → ∀ f lut, genLTE size f lut = exc .runtimeError) :=
  ⟨genLTE_valid, genLTE_throws⟩

/-- **C02** CCSDS: every size of the standard's table; any other size throws. -/
theorem C02_ccsds (size : Nat) :
    (size ∈ ccsdsTable.map (·.1) → ValidGen size (genCCSDS size)) ∧
    (size ∉ ccsdsTable.map (·.1) → ∀ f lut, genCCSDS size f lut = exc .runtimeError) :=
  ⟨genCCSDS_valid, fun h f lut => by unfold genCCSDS; rw [find_none h]⟩

/-- **C02** DVB-RCS1: every size of the standard's table; any other size throws. -/
theorem C02_rcs1 (size : Nat) :
    (size ∈ rcs1Table.map (·.1) → ValidGen size (genRCS1 size)) ∧
    (size ∉ rcs1Table.map (·.1) → ∀ f lut, genRCS1 size f lut = exc .runtimeError) :=
  ⟨genRCS1_valid, fun h f lut => by unfold genRCS1; rw [find_none h]⟩

/-- **C02** DVB-RCS2: every accepted size but 1777; any size outside the table throws. -/
theorem C02_rcs2_partial (size : Nat) :
    (size ∈ rcs2Table.map (·.1) → size ≠ 1777 → ValidGen size (genRCS2 size)) ∧
    (size ∉ rcs2Table.map (·.1) → ∀ f lut, genRCS2 size f lut = exc .runtimeError) :=
  ⟨genRCS2_valid, fun h f lut => by unfold genRCS2; rw [find_none h]⟩

/-- **Finding** (C02 is false for DVB-RCS2 size 1777): the accepted size 1777 yields a table in which two
different positions hold the same value, so it is not a permutation. -/
theorem C02_rcs2_1777_not_permutation :
    1777 ∈ rcs2Table.map (·.1) ∧ ¬ ValidGen 1777 (genRCS2 1777) := by
  refine ⟨by decide, fun h => ?_⟩
  obtain ⟨t, hp, ht⟩ := h 0
  have hlen : (List.replicate 1777 0).length = 1777 := List.length_replicate
  have hg : genRCS2 1777 0 (List.replicate 1777 0) = ok ((List.range 1777).map (piRCS2 1777 59 3 8 5 1)) := by
    show forN 1777 (fun i l => wr l i (piRCS2 1777 59 3 8 5 1 i)) (List.replicate 1777 0) = _
    exact fill_eq hlen
  have heq := (ht _ hlen).symm.trans hg
  have ht' : t = (List.range 1777).map (piRCS2 1777 59 3 8 5 1) := Exec.ok.inj heq
  have hm := hp.mem_iff.mpr rcs2_1777_missing.1
  rw [ht'] at hm
  obtain ⟨i, hi, h'⟩ := List.mem_map.mp hm
  exact rcs2_1777_missing.2 i (List.mem_range.mp hi) h'

example : 40 ∈ lteTable.map (·.1) ∧ 6144 ∈ lteTable.map (·.1) ∧ 41 ∉ lteTable.map (·.1) ∧
    8920 ∈ ccsdsTable.map (·.1) ∧ 864 ∈ rcs1Table.map (·.1) ∧ 1752 ∈ rcs2Table.map (·.1) := by decide

/-! ## C03 -/

/-- The `itl`-th table listed by a file whose entries after the two header numbers are
`vals 1, vals 2, ...`. -/
def listed (size : Nat) (vals : Nat → Nat) (itl : Nat) : List Nat :=
  (List.range size).map (fun i => vals (1 + itl * size + i))

/-- **C03**.  Reading an interleaver file succeeds exactly when it declares at least one table, declares the
expected size, and every listed table is a permutation; the tables obtained are then exactly the listed
ones. -/
theorem C03_accepts_iff (size : Nat) (nItl : Int) (vals : Nat → Nat) :
    ((∃ r, readUser size nItl vals = ok r) ↔
      0 < nItl ∧ vals 0 = size ∧ ∀ k, k < nItl.toNat → IsPermutation size (listed size vals k)) ∧
    (∀ ts u, readUser size nItl vals = ok (ts, u) →
      ts = (List.range nItl.toNat).map (listed size vals) ∧ (u = true ↔ 1 < nItl)) := by
  constructor
  · constructor
    · rintro ⟨⟨ts, u⟩, h⟩
      obtain ⟨h1, h2, h3, -⟩ := readUser_iff.mp h
      exact ⟨h1, h2, h3⟩
    · rintro ⟨h1, h2, h3⟩
      exact ⟨_, readUser_iff.mpr ⟨h1, h2, h3, rfl, rfl⟩⟩
  · intro ts u h
    obtain ⟨-, -, -, h4, h5⟩ := readUser_iff.mp h
    exact ⟨h4, by rw [h5]; simp⟩

/-- **C03**.  A rejected file is rejected with an exception: never undefined behaviour. -/
theorem C03_rejects (size : Nat) (nItl : Int) (vals : Nat → Nat)
    (h : ¬ (0 < nItl ∧ vals 0 = size ∧ ∀ k, k < nItl.toNat → IsPermutation size (listed size vals k))) :
    readUser size nItl vals = exc .runtimeError := readUser_rejects h

/-- **C02/C03** user tables: whatever the number of `gen_lut` calls already made, the tables served are
permutations. -/
theorem C02_user (size : Nat) (nItl : Int) (vals : Nat → Nat) (ts : List (List Nat)) (u : Bool)
    (h : readUser size nItl vals = ok (ts, u)) (c0 : Nat) :
    ValidGen size (fun f => genUser ts (c0 + f)) := by
  obtain ⟨h1, h2, h3, h4, -⟩ := readUser_iff.mp h
  refine genUser_valid ?_ ?_ c0
  · rw [h4]
    have : 0 < nItl.toNat := by omega
    intro e
    have := congrArg List.length e
    simp at this
    omega
  · intro t ht
    rw [h4] at ht
    obtain ⟨k, hk, rfl⟩ := List.mem_map.mp ht
    exact h3 k (List.mem_range.mp hk)

example : readUser 3 2 (fun i => [3, 2, 0, 1, 0, 2, 1].getD i 0) = ok ([[2, 0, 1], [0, 2, 1]], true) ∧
    readUser 3 1 (fun i => [3, 2, 2, 1].getD i 0) = exc .runtimeError ∧
    readUser 3 1 (fun i => [3, 2, 3, 1].getD i 0) = exc .runtimeError := by decide

end Verif.Interleaver
