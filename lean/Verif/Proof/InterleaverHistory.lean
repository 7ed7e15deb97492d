import Verif.Proof.InterleaverGen

/-! # Histories of interleaver cores, and further facts on their tables -/

namespace Verif.Interleaver
open Exec

theorem ValidGen.choose {size : Nat} {gen : GenLut} (h : ValidGen size gen) :
    ∃ T : Nat → List Nat, (∀ f, ∀ buf : List Nat, buf.length = size → gen f buf = ok (T f)) ∧
      ∀ f, IsPermutation size (T f) := by
  choose T h1 h2 using h
  exact ⟨T, h2, h1⟩

/-- What every state of a history satisfies. -/
def Good (size : Nat) (uniform : Bool) (c : Core) : Prop :=
  c.size = size ∧ 0 < c.nFrames ∧ c.uniform = uniform ∧ c.initialized = true ∧ ∃ T, Holds c T

theorem refresh_initialized {c c' : Core} {gen : GenLut} (h : c.refresh gen = ok c') :
    c'.initialized = c.initialized := by
  unfold Core.refresh at h
  cases h1 : genSlice gen c.size 0 0 c.pi with
  | exc e => rw [h1] at h; cases h
  | ub => rw [h1] at h; cases h
  | ok pi =>
    rw [h1, bind_ok] at h
    cases h2 : invSlice c.size 0 pi c.piInv with
    | exc e => rw [h2] at h; cases h
    | ub => rw [h2] at h; cases h
    | ok inv =>
      rw [h2, bind_ok] at h
      split at h
      · generalize forRange 1 c.nFrames _ _ = x at h
        cases x <;> cases h
        rfl
      · generalize forRange 1 c.nFrames _ _ = x at h
        cases x <;> cases h
        rfl

theorem step_good {size : Nat} {u : Bool} {c : Core} (hc : Good size u c) {op : Op}
    (hop : OpsValid size [op]) : (c.step op).Sat (Good size u) := by
  obtain ⟨h1, h2, h3, h4, T0, h5⟩ := hc
  subst h1
  cases op with
  | setNFrames n gen =>
    obtain ⟨T, hg, hT⟩ := ValidGen.choose hop.1
    unfold Core.step
    by_cases hn : n = 0
    · simp only [hn, if_true, sat_ok]
      exact ⟨rfl, h2, h3, h4, T0, h5⟩
    · simp only [hn, if_false]
      unfold Core.setNFrames
      rw [if_neg hn]
      by_cases hne : c.nFrames ≠ n
      · rw [if_pos hne]
        have hlp := h5.lenPi
        have hli := h5.lenInv
        refine (init_holds (T := T) (by simp only; omega) ?_ ?_ (by simpa using hg)
          (by simpa using hT)).mono ?_
        · simp only [resize_length]
          rw [hlp, Nat.mul_comm, Nat.mul_comm c.nFrames, Nat.mul_div_cancel _ h2]
        · simp only [resize_length]
          rw [hli, Nat.mul_comm, Nat.mul_comm c.nFrames, Nat.mul_div_cancel _ h2]
        · rintro c' ⟨g1, g2, g3, g4, g5⟩
          simp only at g1 g2 g3
          exact ⟨g1, by omega, by rw [g3, h3], g4, _, g5⟩
      · rw [if_neg hne, sat_ok]
        exact ⟨rfl, h2, h3, h4, T0, h5⟩
  | refresh gen =>
    obtain ⟨T, hg, hT⟩ := ValidGen.choose hop.1
    unfold Core.step
    simp only
    obtain ⟨c', hc', g1, g2, g3, g4⟩ := refresh_holds h2 h5.lenPi h5.lenInv hg hT
    exact ⟨c', hc', g1, by omega, by rw [g3, h3], by rw [refresh_initialized hc', h4], _, g4⟩

theorem steps_good {size : Nat} {u : Bool} (ops : List Op) {c : Core} (hc : Good size u c)
    (hops : OpsValid size ops) : (ops.foldlM Core.step c).Sat (Good size u) := by
  induction ops generalizing c with
  | nil => simpa using hc
  | cons op ops ih =>
    rw [List.foldlM_cons]
    have h1 : OpsValid size [op] ∧ OpsValid size ops := by
      cases op <;> exact ⟨⟨hops.1, trivial⟩, hops.2⟩
    exact (step_good hc h1.1).bind fun c' hc' => ih hc' h1.2

theorem history_holds {size : Nat} {uniform : Bool} {gen : GenLut} {ops : List Op} (hs : 0 < size)
    (hgen : ValidGen size gen) (hops : OpsValid size ops) :
    ∃ c, history size uniform gen ops = ok c ∧ c.size = size ∧ 0 < c.nFrames ∧ c.uniform = uniform ∧
      c.initialized = true ∧ ∃ T, Holds c T := by
  have : (history size uniform gen ops).Sat (Good size uniform) := by
    unfold history Core.mk?
    rw [if_neg (by omega), bind_ok]
    obtain ⟨T, hg, hT⟩ := ValidGen.choose hgen
    refine (init_holds (T := T) (by simp) (by simp) (by simp) (by simpa using hg)
      (by simpa using hT)).bind ?_
    rintro c ⟨h1, h2, h3, h4, h5⟩
    simp only [Int.toNat_natCast] at h1 h2 h3
    exact steps_good ops ⟨h1, by omega, h3, h4, _, h5⟩ hops
  obtain ⟨c, hc, h⟩ := this
  exact ⟨c, hc, h⟩

theorem Holds.slice {c : Core} {T : Nat → List Nat} (h : Holds c T) {f : Nat} (hf : f < c.nFrames) :
    (c.pi.drop (f * c.size)).take c.size = T f := by
  have hl := (h.perm f hf).length
  have hb := slice_le (size := c.size) hf
  have hp := h.lenPi
  apply List.ext_getElem?
  intro i
  rw [List.getElem?_take]
  by_cases hi : i < c.size
  · rw [if_pos hi, List.getElem?_drop, h.pi f hf i hi]
  · rw [if_neg hi, List.getElem?_eq_none (by omega)]

theorem tableOf_eq {c : Core} (hn : 0 < c.nFrames) (frameId f : Nat) :
    tableOf c c.nFrames frameId f = if c.uniform then (frameId + f) % c.nFrames else 0 := by
  induction f with
  | zero => simp [tableOf]
  | succ f ih =>
    unfold tableOf
    split
    · rename_i hu
      rw [ih, if_pos hu]
      rw [Nat.mod_mod, Nat.mod_add_mod]; rfl
    · rfl

/-- The body of the reordering tasks with stride `npw`. -/
theorem reordering_sat {α : Type _} {size npw : Nat} {lut : List Nat} {t : Nat → Nat} {inV outV : List α}
    (hlut : ∀ i, i < size → lut[i]? = some (t i)) (ht : ∀ i, i < size → t i < size)
    (hin : inV.length = npw * size) (hout : outV.length = npw * size) :
    (forN size (fun i out => do
        let p ← rd lut i
        forN npw (fun f (out : List α) => do
          let v ← rd inV (p * npw + f)
          wr out (i * npw + f) v) out) outV).Sat fun o => o.length = npw * size ∧
      ∀ i, i < size → ∀ f, f < npw → o[i * npw + f]? = inV[t i * npw + f]? := by
  rw [Nat.mul_comm npw size] at *
  refine forN_inv (fun k (o : List α) => o.length = size * npw ∧
      ∀ i, i < k → ∀ f, f < npw → o[i * npw + f]? = inV[t i * npw + f]?) ?_ ?_
  · exact ⟨hout, fun i hi => absurd hi (Nat.not_lt_zero i)⟩
  · rintro i o hi ⟨hl, ho⟩
    rw [rd_eq (hlut i hi), bind_ok]
    have b1 := slice_le (size := npw) hi
    have b2 := slice_le (size := npw) (ht i hi)
    have := copyTo_sat (src := inV) (so := t i * npw) (n := npw) (dst := o) (d := i * npw) (by omega) (by omega)
    unfold copyTo at this
    refine this.mono ?_
    rintro o' ⟨h1, h2⟩
    refine ⟨by omega, fun g hg f hf => ?_⟩
    rcases Nat.lt_succ_iff_lt_or_eq.mp hg with hlt | rfl
    · have := slice_bound (size := npw) hlt hf
      rw [h2, if_neg (by omega), ho g hlt f hf]
    · rw [h2, if_pos (by omega)]; congr 1; omega

theorem reordering_round_trip {α : Type _} {c : Core} {T : Nat → List Nat} (hT : Holds c T)
    (hn : 0 < c.nFrames) {npw : Nat} {x out1 out2 : List α}
    (hx : x.length = npw * c.size) (ho1 : out1.length = npw * c.size) (ho2 : out2.length = npw * c.size) :
    ∃ y, forN c.size (fun i out => do
        let p ← rd c.pi i
        forN npw (fun f (out : List α) => do
          let v ← rd x (p * npw + f)
          wr out (i * npw + f) v) out) out1 = ok y ∧ y.length = npw * c.size ∧
      (∀ f, f < npw → ∀ i, i < c.size → ∀ p, c.pi[i]? = some p → y[i * npw + f]? = x[p * npw + f]?) ∧
      forN c.size (fun i out => do
        let p ← rd c.piInv i
        forN npw (fun f (out : List α) => do
          let v ← rd y (p * npw + f)
          wr out (i * npw + f) v) out) out2 = ok x := by
  have hfwd : ∀ i, i < c.size → c.pi[i]? = some ((T 0).getD i 0) := fun i hi => by
    have := (hT.fwd hn hi).1; rwa [Nat.zero_mul, Nat.zero_add] at this
  have hbwd : ∀ i, i < c.size → c.piInv[i]? = some (invOf (T 0) i) := fun i hi => by
    have := (hT.bwd hn hi).1; rwa [Nat.zero_mul, Nat.zero_add] at this
  obtain ⟨y, hy, hyl, hyv⟩ := reordering_sat hfwd (fun i hi => (hT.fwd hn hi).2) hx ho1
  obtain ⟨w, hw, hwl, hwv⟩ := reordering_sat hbwd (fun i hi => (hT.bwd hn hi).2.1) hyl ho2
  refine ⟨y, hy, hyl, ?_, ?_⟩
  · intro f hf i hi p hp
    rw [hyv i hi f hf]
    rw [hfwd i hi] at hp
    cases hp; rfl
  · rw [hw]; congr 1
    rw [Nat.mul_comm] at hwl hx
    refine ext_frames hwl hx fun i hi f hf => ?_
    obtain ⟨-, h2, h3⟩ := hT.bwd hn hi
    rw [hwv i hi f hf, hyv _ h2 f hf, h3]

theorem rc_inverse (r c : Nat) (o : ReadOrder) (f : Nat) :
    ∃ t u, genRowColumn r c o f (List.replicate (r * c) 0) = ok t ∧
      genColumnRow r c o f (List.replicate (r * c) 0) = ok u ∧
      ∀ k, k < r * c → ∃ p, t[k]? = some p ∧ u[p]? = some k := by
  rw [Nat.mul_comm r c]
  obtain ⟨u, hu, h1, h2, -⟩ := forN_scatter (pos := fun k => rowOf r o k * c + colOf r c o k) (g := id)
    (out := List.replicate (c * r) 0) (n := c * r)
    (fun k hk => by simpa using rc_pos_lt o hk) (fun a b ha hb h => rc_pos_inj o ha hb h)
  refine ⟨(List.range (c * r)).map (fun k => rowOf r o k * c + colOf r c o k), u, ?_, ?_, ?_⟩
  · unfold genRowColumn
    rw [orderedLoops_eq, fill_eq (by simp)]
  · unfold genColumnRow
    rw [orderedLoops_eq]; exact hu
  · intro k hk
    exact ⟨_, by rw [getElem?_mapRange, if_pos hk], h2 k hk⟩

theorem randomColumn_stays (nCols colSize : Nat) (sh : Nat → Nat → List Nat → List Nat)
    (hsh : ∀ f c l, (sh f c l).Perm l) (f : Nat) (t : List Nat)
    (ht : genRandomColumn nCols colSize sh f (List.replicate (nCols * colSize) 0) = ok t) :
    ∀ i p : Nat, t[i]? = some p → p / colSize = i / colSize := by
  unfold genRandomColumn at ht
  have inv : (forN nCols (fun column (s : List Nat × List Nat) => do
      let tmp ← forN colSize (fun c t => wr t c (c + column * colSize)) s.1
      let tmp := sh f column tmp
      let lut ← forN colSize (fun c l => rd tmp c >>= fun v => wr l (c + column * colSize) v) s.2
      ok (tmp, lut)) (List.replicate colSize 0, List.replicate (nCols * colSize) 0)).Sat (fun s =>
        s.1.length = colSize ∧ s.2.length = nCols * colSize ∧
        ∀ i p : Nat, i < nCols * colSize → s.2[i]? = some p → p / colSize = i / colSize) := by
    refine forN_inv (fun n (s : List Nat × List Nat) => s.1.length = colSize ∧
        s.2.length = nCols * colSize ∧
        ∀ i p : Nat, i < n * colSize → s.2[i]? = some p → p / colSize = i / colSize) ?_ ?_
    · exact ⟨by simp, by simp, fun i p hi => by omega⟩
    · rintro n ⟨tmp, l⟩ hn ⟨h1, h2, h3⟩
      simp only at h1 h2 h3 ⊢
      rw [fill_eq h1, bind_ok]
      have hp := hsh f n ((List.range colSize).map (fun c => c + n * colSize))
      have hl := hp.length_eq
      simp at hl
      have hsl := slice_le (size := colSize) hn
      have hc := copyTo_sat (src := sh f n ((List.range colSize).map (fun c => c + n * colSize))) (so := 0)
        (n := colSize) (dst := l) (d := n * colSize) (by omega) (by omega)
      unfold copyTo at hc
      simp only [Nat.zero_add, Nat.add_comm (n * colSize)] at hc
      refine hc.bind ?_
      rintro o ⟨ho1, ho2⟩
      rw [sat_ok]
      refine ⟨hl, by simp only; omega, fun i p hi hv => ?_⟩
      simp only at hv
      rw [Nat.succ_mul] at hi
      rw [ho2] at hv
      by_cases h : i < n * colSize
      · rw [if_neg (by omega)] at hv
        exact h3 i p h hv
      · rw [if_pos (by omega)] at hv
        have hm := hp.mem_iff.mp (List.mem_of_getElem? hv)
        obtain ⟨c, hc, rfl⟩ := List.mem_map.mp hm
        have hc := List.mem_range.mp hc
        have e1 : c + n * colSize = colSize * n + c := by rw [Nat.mul_comm]; omega
        have e2 : i = colSize * n + (i - n * colSize) := by rw [Nat.mul_comm]; omega
        rw [e1, e2, Nat.mul_add_div (by omega), Nat.mul_add_div (by omega), Nat.div_eq_of_lt hc,
          Nat.div_eq_of_lt (by omega)]
  obtain ⟨⟨a, b⟩, he, h1, h2, h3⟩ := inv
  rw [he, bind_ok] at ht
  cases ht
  intro i p hip
  have : i < nCols * colSize := by
    obtain ⟨h, _⟩ := List.getElem?_eq_some_iff.mp hip
    exact h2 ▸ h
  exact h3 i p this hip

theorem rcs2_1777_missing : 4 < 1777 ∧ ∀ i, i < 1777 → piRCS2 1777 59 3 8 5 1 i ≠ 4 := by
  decide +kernel

theorem readUserTable_outcome (size : Nat) (vals : Nat → Nat) :
    (∃ t, readUserTable size vals = ok t) ∨ readUserTable size vals = exc .runtimeError := by
  by_cases h : IsPermutation size ((List.range size).map vals)
  · exact Or.inl ⟨_, readUserTable_accepts h⟩
  · exact Or.inr (readUserTable_rejects h)

theorem readUser_outcome (size : Nat) (nItl : Int) (vals : Nat → Nat) :
    (∃ r, readUser size nItl vals = ok r) ∨ readUser size nItl vals = exc .runtimeError := by
  have loop : ∀ n, (∃ ts, forN n (fun itl (ts : List (List Nat)) => do
        let t ← readUserTable size (fun i => vals (1 + itl * size + i))
        ok (ts ++ [t])) [] = ok ts) ∨ forN n (fun itl (ts : List (List Nat)) => do
        let t ← readUserTable size (fun i => vals (1 + itl * size + i))
        ok (ts ++ [t])) [] = exc .runtimeError := by
    intro n
    induction n with
    | zero => exact Or.inl ⟨_, rfl⟩
    | succ n ih =>
      rw [forN_succ]
      rcases ih with ⟨ts, h⟩ | h
      · rw [h, bind_ok]
        rcases readUserTable_outcome size (fun i => vals (1 + n * size + i)) with ⟨t, ht⟩ | ht
        · rw [ht]; exact Or.inl ⟨_, rfl⟩
        · rw [ht]; exact Or.inr rfl
      · rw [h]; exact Or.inr rfl
  unfold readUser
  split
  · split
    · rcases loop nItl.toNat with ⟨ts, h⟩ | h
      · simp only [h, bind_ok]; exact Or.inl ⟨_, rfl⟩
      · simp only [h, bind_exc]; exact Or.inr trivial
    · exact Or.inr rfl
  · exact Or.inr rfl

theorem readUser_rejects {size : Nat} {nItl : Int} {vals : Nat → Nat}
    (h : ¬ (0 < nItl ∧ vals 0 = size ∧ ∀ k, k < nItl.toNat → IsPermutation size (fileTable size vals k))) :
    readUser size nItl vals = exc .runtimeError := by
  rcases readUser_outcome size nItl vals with ⟨⟨ts, u⟩, hr⟩ | hr
  · obtain ⟨h1, h2, h3, -⟩ := readUser_iff.mp hr
    exact absurd ⟨h1, h2, h3⟩ h
  · exact hr

end Verif.Interleaver
