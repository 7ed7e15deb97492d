import Mathlib.Logic.Function.Basic
import Mathlib.Data.Finset.Card
import Mathlib.Tactic.ByContra
import Verif.Proof.Sparse
import Verif.Spec.Peeling

/-! # The loops of the peeling decoder -/

namespace Verif.Peeling
open Exec Verif.Sparse Verif.Distance

theorem sat_of {α : Type} {x : Exec α} {P : α → Prop} {a : α} (h : x.Sat P) (e : x = ok a) : P a := by
  obtain ⟨r, e1, p⟩ := h
  rw [e] at e1
  cases e1
  exact p

/-- The matrix with other connections. -/
def on (A : Conns) (S : Finset (Nat × Nat)) : Conns := ⟨A.rows, A.cols, S⟩

theorem orThrow_rm {s : Mat} {A : Conns} (h : Represents s A) {r c : Nat} (hr : r < A.rows) (hc : c < A.cols) :
    (orThrow (rm s r c)).Sat fun t => Represents t { A with set := A.set.erase (r, c) } := by
  obtain ⟨t, et, ht⟩ := (rm_eq h r c).2 (by simp [shouldThrow, hr, hc])
  exact ⟨t, by rw [orThrow, et]; rfl, ht⟩

theorem forward_sat {A : Conns} {i s : Nat} (hi : i < A.rows) : ∀ (n : Nat) {L : Mat} {S : Finset (Nat × Nat)} {CN : List Nat},
    Represents L (on A S) → CN.length = A.cols → (∀ row, L.r2c[i]? = some row → row.length ≤ n) →
    (forward i s n L CN).Sat fun r => Represents r.1 (on A (S.filter fun p => p.1 ≠ i)) ∧ r.2.length = A.cols ∧
      ∀ c, c < A.cols → r.2.getD c 0 = if (i, c) ∈ S then CN.getD c 0 ^^^ s else CN.getD c 0 := by
  intro n
  induction n with
  | zero =>
    intro L S CN hL hC hn
    have hl : i < L.r2c.length := by rw [hL.r2c_length]; exact hi
    have hr := hL.row i hl
    have h0 := hn _ (List.getElem?_eq_getElem hl)
    have h0 : L.r2c[i] = [] := List.eq_nil_of_length_eq_zero (by omega)
    rw [h0] at hr
    unfold forward
    rw [rd_lt hl, bind_ok, h0, if_pos List.length_nil]
    have hS : ∀ c, (i, c) ∉ S := fun c hc => by simpa using (hr.2 c).2 hc
    refine sat_ok.2 ⟨?_, hC, fun c _ => by rw [if_neg (hS c)]⟩
    have : S.filter (fun p => p.1 ≠ i) = S := by
      apply Finset.filter_true_of_mem
      intro p hp hpi
      exact hS p.2 (by rw [← hpi]; exact hp)
    rw [this]
    exact hL
  | succ n ih =>
    intro L S CN hL hC hn
    have hl : i < L.r2c.length := by rw [hL.r2c_length]; exact hi
    have hr := hL.row i hl
    have h0 := hn _ (List.getElem?_eq_getElem hl)
    unfold forward
    rw [rd_lt hl, bind_ok]
    cases hrow : L.r2c[i] with
    | nil =>
      rw [hrow] at hr
      have hS : ∀ c, (i, c) ∉ S := fun c hc => by simpa using (hr.2 c).2 hc
      refine sat_ok.2 ⟨?_, hC, fun c _ => by rw [if_neg (hS c)]⟩
      have : S.filter (fun p => p.1 ≠ i) = S := by
        apply Finset.filter_true_of_mem
        intro p hp hpi
        exact hS p.2 (by rw [← hpi]; exact hp)
      rw [this]
      exact hL
    | cons c row =>
      rw [hrow] at hr h0
      have hc : (i, c) ∈ S := (hr.2 c).1 (List.mem_cons_self)
      have hcc : c < A.cols := (hL.range _ hc).2
      have hcl : c < CN.length := by omega
      show ((rd CN c) >>= _).Sat _
      rw [rd_lt hcl, bind_ok, wr_lt hcl, bind_ok]
      refine Sat.bind (orThrow_rm hL hi hcc) fun t ht => ?_
      have ht' : Represents t (on A (S.erase (i, c))) := ht
      have hl' : i < t.r2c.length := by rw [ht'.r2c_length]; exact hi
      have hr' := ht'.row i hl'
      have hlen : t.r2c[i].length ≤ n := by
        have hsub : (c :: t.r2c[i]).Subperm (c :: row) := by
          apply List.Nodup.subperm
          · refine List.nodup_cons.2 ⟨?_, hr'.1⟩
            intro hcm
            have := (hr'.2 c).1 hcm
            simp [on] at this
          · intro j hj
            rcases List.mem_cons.1 hj with rfl | hj
            · exact List.mem_cons_self
            · have := (hr'.2 j).1 hj
              simp only [on, Finset.mem_erase] at this
              exact (hr.2 j).2 this.2
        have := hsub.length_le
        simp only [List.length_cons] at this h0
        omega
      refine (ih ht' (by rw [List.length_set]; exact hC) ?_).mono fun r hr => ?_
      · intro row' e
        rw [List.getElem?_eq_getElem hl'] at e
        cases e
        exact hlen
      · obtain ⟨a1, a2, a3⟩ := hr
        refine ⟨?_, a2, fun c' hc' => ?_⟩
        · have : (S.erase (i, c)).filter (fun p => p.1 ≠ i) = S.filter (fun p => p.1 ≠ i) := by
            ext p
            simp only [Finset.mem_filter, Finset.mem_erase]
            constructor
            · rintro ⟨⟨_, h1⟩, h2⟩; exact ⟨h1, h2⟩
            · rintro ⟨h1, h2⟩
              exact ⟨⟨fun e => h2 (by rw [e]), h1⟩, h2⟩
          rw [← this]
          exact a1
        · rw [a3 c' hc']
          by_cases e : c' = c
          · subst e
            rw [if_neg (by simp), if_pos hc, getD_lt 0 (by rw [List.length_set]; omega), List.getElem_set_self,
              getD_lt 0 (by omega)]
          · have : (i, c') ∈ S.erase (i, c) ↔ (i, c') ∈ S := by simp [e]
            have hg : (CN.set c (CN[c] ^^^ s)).getD c' 0 = CN.getD c' 0 := by
              rw [getD_lt 0 (by rw [List.length_set]; omega), List.getElem_set_ne (by omega), getD_lt 0 (by omega)]
            rw [hg]
            by_cases hs : (i, c') ∈ S
            · rw [if_pos hs, if_pos (this.2 hs)]
            · rw [if_neg hs, if_neg (fun h => hs (this.1 h))]

/-- What is left of the row is at most the fuel. -/
theorem fuel {A : Conns} {L : Mat} {i : Nat} (h : i < L.r2c.length) : ∀ row, L.r2c[i]? = some row → row.length ≤ L.r2c[i].length := by
  intro row e
  rw [List.getElem?_eq_getElem h] at e
  cases e
  exact le_refl _

theorem resolve_sat {A : Conns} {i v : Nat} {st : St} {S : Finset (Nat × Nat)} (hL : Represents st.L (on A S)) (hv : v < A.rows)
    (hi : i < A.cols) (hV : st.VN.length = A.rows) (hC : st.CN.length = A.cols) :
    (resolve i v st).Sat fun st' => Represents st'.L (on A (S.filter fun p => p.1 ≠ v)) ∧ st'.VN = st.VN.set v (st.CN.getD i 0) ∧
      st'.CN.length = A.cols ∧
      ∀ c, c < A.cols → st'.CN.getD c 0 = if c = i then 0 else if (v, c) ∈ S then st.CN.getD c 0 ^^^ st.CN.getD i 0 else st.CN.getD c 0 := by
  unfold resolve
  have hi' : i < st.CN.length := by omega
  rw [rd_lt hi', bind_ok, wr_lt (by omega), bind_ok, wr_lt hi', bind_ok]
  refine Sat.bind (orThrow_rm hL hv hi) fun t ht => ?_
  have ht' : Represents t (on A (S.erase (v, i))) := ht
  have hl' : v < t.r2c.length := by rw [ht'.r2c_length]; exact hv
  rw [rd_lt hl', bind_ok]
  refine Sat.bind (forward_sat (s := st.CN[i]) hv _ ht' (CN := st.CN.set i 0) (by rw [List.length_set]; exact hC) (fuel (A := A) hl')) ?_
  rintro r ⟨a1, a2, a3⟩
  rw [sat_ok]
  refine ⟨?_, by rw [getD_lt 0 hi'], a2, fun c hc => ?_⟩
  · have : (S.erase (v, i)).filter (fun p => p.1 ≠ v) = S.filter (fun p => p.1 ≠ v) := by
      ext p
      simp only [Finset.mem_filter, Finset.mem_erase]
      constructor
      · rintro ⟨⟨_, h1⟩, h2⟩; exact ⟨h1, h2⟩
      · rintro ⟨h1, h2⟩
        exact ⟨⟨fun e => h2 (by rw [e]), h1⟩, h2⟩
    rw [← this]
    exact a1
  · show r.2.getD c 0 = _
    rw [a3 c hc]
    by_cases e : c = i
    · subst e
      rw [if_neg (by simp), if_pos rfl, getD_lt 0 (by rw [List.length_set]; omega), List.getElem_set_self]
    · have hg : (st.CN.set i 0).getD c 0 = st.CN.getD c 0 := by
        rw [getD_lt 0 (by rw [List.length_set]; omega), List.getElem_set_ne (by omega), getD_lt 0 (by omega)]
      rw [hg, if_neg e]
      have hm : (v, c) ∈ S.erase (v, i) ↔ (v, c) ∈ S := by simp [e]
      by_cases hs : (v, c) ∈ S
      · rw [if_pos hs, if_pos (hm.2 hs), getD_lt 0 hi']
      · rw [if_neg hs, if_neg (fun h => hs (hm.1 h))]

/-! ## The state for any symbols -/

/-- The sizes are right. -/
structure Wk (A : Conns) (st : St) : Prop where
  rep : ∃ S, Represents st.L (on A S)
  vn : st.VN.length = A.rows
  cn : st.CN.length = A.cols

theorem check_wk {A : Conns} {i : Nat} {r : St × Bool × Bool} (h : Wk A r.1) (hi : i < A.cols) : (check i r).Sat fun r' => Wk A r'.1 := by
  obtain ⟨⟨S, hL⟩, hV, hC⟩ := h
  have hl : i < r.1.L.c2r.length := by rw [hL.c2r_length]; exact hi
  have hc := hL.col i hl
  unfold check
  rw [rd_lt hl, bind_ok]
  split
  · rename_i v hv
    have hm := (hc.2 v).1 (by rw [hv]; simp)
    refine Sat.bind (resolve_sat hL (hL.range _ hm).1 hi hV hC) fun st' hs => ?_
    rw [sat_ok]
    exact ⟨⟨_, hs.1⟩, by rw [hs.2.1, List.length_set]; exact hV, hs.2.2.1⟩
  · exact sat_ok.2 ⟨⟨S, hL⟩, hV, hC⟩

theorem sweep_wk {A : Conns} {st : St} (h : Wk A st) : (sweep st).Sat fun r => Wk A r.1 := by
  unfold sweep
  obtain ⟨S, hL⟩ := h.rep
  rw [hL.nCols]
  exact forN_inv (fun _ (r : St × Bool × Bool) => Wk A r.1) h fun i r hi hr => check_wk hr hi

theorem iterate_wk {A : Conns} (syndrome : Bool) (depth : Nat) : ∀ (n : Nat) {st : St} {cur : Nat} {done : Bool}, Wk A st →
    (iterate syndrome depth n st cur done).Sat fun r => Wk A r.1 := by
  intro n
  induction n with
  | zero => intro st cur done h; exact sat_ok.2 h
  | succ n ih =>
    intro st cur done h
    unfold iterate
    refine Sat.bind (sweep_wk h) fun r hr => ?_
    split
    · split
      · exact sat_ok.2 hr
      · exact ih hr
    · exact ih hr

theorem known_wk {A : Conns} {unk : Nat} {VN : List Nat} (hV : VN.length = A.rows) {i : Nat} {r : Mat × List Nat}
    (h : (∃ S, Represents r.1 (on A S)) ∧ r.2.length = A.cols) (hi : i < A.rows) :
    (known unk VN i r).Sat fun r' => (∃ S, Represents r'.1 (on A S)) ∧ r'.2.length = A.cols := by
  obtain ⟨⟨S, hL⟩, hC⟩ := h
  unfold known
  rw [rd_lt (by omega), bind_ok]
  split
  · exact sat_ok.2 ⟨⟨S, hL⟩, hC⟩
  · have hl : i < r.1.r2c.length := by rw [hL.r2c_length]; exact hi
    rw [rd_lt hl, bind_ok]
    exact (forward_sat hi _ hL hC (fuel (A := A) hl)).mono fun r' hr => ⟨⟨_, hr.1⟩, hr.2.1⟩

/-! ## The state for words -/

/-- Parity of the known ones of a check. -/
def par (A : Conns) (f : Nat → Nat) (c : Nat) : Nat :=
  ((Finset.range A.rows).filter fun v => (v, c) ∈ A.set ∧ f v = 1).card % 2

/-- The connections that are left are those of the unknown variables, and each check contains the parity of its known
variables. -/
structure Lk (A : Conns) (unk : Nat) (f : Nat → Nat) (L : Mat) (CN : List Nat) : Prop where
  rep : Represents L (on A (A.set.filter fun p => f p.1 = unk))
  cn : CN.length = A.cols
  val : ∀ c, c < A.cols → CN.getD c 0 = par A f c

theorem par_lt (A : Conns) (f : Nat → Nat) (c : Nat) : par A f c = 0 ∨ par A f c = 1 := by
  unfold par; omega

theorem xor_par (n : Nat) : (n % 2) ^^^ 1 = (n + 1) % 2 := by
  rcases Nat.mod_two_eq_zero_or_one n with h | h
  · rw [h]
    have : (n + 1) % 2 = 1 := by omega
    rw [this]; rfl
  · rw [h]
    have : (n + 1) % 2 = 0 := by omega
    rw [this]; rfl

theorem par_update {A : Conns} {f : Nat → Nat} {v s c : Nat} (hv : v < A.rows) (hf : f v ≠ 1) (hs : s = 0 ∨ s = 1) :
    par A (Function.update f v s) c = if (v, c) ∈ A.set then par A f c ^^^ s else par A f c := by
  unfold par
  rcases hs with rfl | rfl
  · rw [Nat.xor_zero, ite_self]
    congr 2
    apply Finset.filter_congr
    intro u _
    by_cases e : u = v
    · subst e; simp [hf]
    · rw [Function.update_of_ne e]
  · by_cases hc : (v, c) ∈ A.set
    · rw [if_pos hc, xor_par]
      congr 1
      have : (Finset.range A.rows).filter (fun u => (u, c) ∈ A.set ∧ Function.update f v 1 u = 1)
          = insert v ((Finset.range A.rows).filter fun u => (u, c) ∈ A.set ∧ f u = 1) := by
        ext u
        simp only [Finset.mem_filter, Finset.mem_range, Finset.mem_insert]
        by_cases e : u = v
        · subst e; simp [hv, hc]
        · rw [Function.update_of_ne e]; simp [e]
      rw [this, Finset.card_insert_of_notMem (by simp [hf])]
    · rw [if_neg hc]
      congr 2
      apply Finset.filter_congr
      intro u _
      by_cases e : u = v
      · subst e; simp [hc]
      · rw [Function.update_of_ne e]

theorem filter_update {A : Conns} {f : Nat → Nat} {unk v s : Nat} (hs : s ≠ unk) :
    (A.set.filter fun p => f p.1 = unk).filter (fun p => p.1 ≠ v) = A.set.filter fun p => Function.update f v s p.1 = unk := by
  ext p
  simp only [Finset.mem_filter]
  by_cases e : p.1 = v
  · rw [e]; simp [hs]
  · rw [Function.update_of_ne e]; simp [e]

theorem rep_update {A : Conns} {f : Nat → Nat} {unk v s : Nat} {L : Mat} (hs : s ≠ unk)
    (h : Represents L (on A ((A.set.filter fun p => f p.1 = unk).filter fun p => p.1 ≠ v))) :
    Represents L (on A (A.set.filter fun p => Function.update f v s p.1 = unk)) := by
  rw [← filter_update hs]
  exact h

theorem known_lk {A : Conns} {unk : Nat} {VN : List Nat} (hV : VN.length = A.rows) (hw : ∀ s ∈ VN, s = 0 ∨ s = 1 ∨ s = unk)
    (hu : unk ≠ 1) {i : Nat} {r : Mat × List Nat} (h : Lk A unk (fun v => if v < i then VN.getD v unk else unk) r.1 r.2) (hi : i < A.rows) :
    (known unk VN i r).Sat fun r' => Lk A unk (fun v => if v < i + 1 then VN.getD v unk else unk) r'.1 r'.2 := by
  have hf : (fun v => if v < i + 1 then VN.getD v unk else unk) =
      Function.update (fun v => if v < i then VN.getD v unk else unk) i (VN.getD i unk) := by
    funext v
    by_cases e : v = i
    · subst e; simp
    · rw [Function.update_of_ne e]
      by_cases h : v < i
      · rw [if_pos h, if_pos (by omega)]
      · rw [if_neg h, if_neg (by omega)]
  have hi' : i < VN.length := by omega
  unfold known
  rw [rd_lt hi', bind_ok, hf, getD_lt unk hi']
  split
  · rename_i e
    rw [e]
    rw [sat_ok]
    have : Function.update (fun v => if v < i then VN.getD v unk else unk) i unk = fun v => if v < i then VN.getD v unk else unk := by
      rw [Function.update_eq_self_iff]; simp
    rw [this]
    exact h
  · rename_i e
    have hs : VN[i] = 0 ∨ VN[i] = 1 := by
      rcases hw _ (List.getElem_mem hi') with h | h | h
      · exact .inl h
      · exact .inr h
      · exact (e h).elim
    have hl : i < r.1.r2c.length := by rw [h.rep.r2c_length]; exact hi
    rw [rd_lt hl, bind_ok]
    refine (forward_sat hi _ h.rep h.cn (fuel (A := A) hl)).mono fun r' hr => ?_
    obtain ⟨a1, a2, a3⟩ := hr
    have a1 := rep_update (f := fun v => if v < i then VN.getD v unk else unk) e a1
    refine ⟨a1, a2, fun c hc => ?_⟩
    rw [a3 c hc, par_update hi (by simp [hu]) hs, h.val c hc]
    simp

/-- The state of the iterations for a word. -/
structure Inv (A : Conns) (unk : Nat) (st : St) : Prop where
  lk : Lk A unk (fun v => st.VN.getD v unk) st.L st.CN
  vn : st.VN.length = A.rows
  word : ∀ s ∈ st.VN, s = 0 ∨ s = 1 ∨ s = unk

/-- The word after a check: the only unknown variable of a check is the parity of the others. -/
def Stepped (A : Conns) (unk i : Nat) (V V' : List Nat) : Prop :=
  (∃ v, v < A.rows ∧ (v, i) ∈ A.set ∧ ¬ Known unk V v ∧ (∀ u, (u, i) ∈ A.set → u ≠ v → Known unk V u) ∧
    V' = V.set v (par A (fun u => V.getD u unk) i))

theorem getD_set' {V : List Nat} {v s unk : Nat} (h : v < V.length) :
    (fun u => (V.set v s).getD u unk) = Function.update (fun u => V.getD u unk) v s := by
  funext u
  by_cases e : u = v
  · subst e; simp [h]
  · rw [Function.update_of_ne e, List.getD_eq_getElem?_getD, List.getElem?_set_ne (by omega), List.getD_eq_getElem?_getD]

theorem check_inv {A : Conns} {unk : Nat} (h0 : unk ≠ 0) (h1 : unk ≠ 1) (hA : ∀ p ∈ A.set, p.1 < A.rows ∧ p.2 < A.cols) {i : Nat}
    {r : St × Bool × Bool} (h : Inv A unk r.1) (hi : i < A.cols) :
    (check i r).Sat fun r' => Inv A unk r'.1 ∧
      ((Stepped A unk i r.1.VN r'.1.VN ∧ r'.2 = (false, r.2.2)) ∨
       (r'.1 = r.1 ∧ (∀ v, (v, i) ∈ A.set → Known unk r.1.VN v) ∧ r'.2 = r.2) ∨
       (r'.1 = r.1 ∧ (∃ u v, u ≠ v ∧ (u, i) ∈ A.set ∧ (v, i) ∈ A.set ∧ ¬ Known unk r.1.VN u ∧ ¬ Known unk r.1.VN v) ∧ r'.2 = (r.2.1, false))) := by
  have hL := h.lk.rep
  have hl : i < r.1.L.c2r.length := by rw [hL.c2r_length]; exact hi
  obtain ⟨hn, hc⟩ := hL.col i hl
  have hc' : ∀ v, v ∈ r.1.L.c2r[i] ↔ (v, i) ∈ A.set ∧ ¬ Known unk r.1.VN v := by
    intro v
    rw [hc v]
    simp [on, Known]
  unfold check
  rw [rd_lt hl, bind_ok]
  split
  · rename_i v hv
    rw [hv] at hc'
    have hm := (hc' v).1 (by simp)
    have hvr := (hA _ hm.1).1
    refine Sat.bind (resolve_sat hL hvr hi h.vn h.lk.cn) fun st' hs => ?_
    obtain ⟨a1, a2, a3, a4⟩ := hs
    rw [sat_ok]
    rw [h.lk.val i hi] at a2 a4
    have hsb := par_lt A (fun v => r.1.VN.getD v unk) i
    have hne : par A (fun v => r.1.VN.getD v unk) i ≠ unk := by omega
    have a1 := rep_update (f := fun u => r.1.VN.getD u unk) hne a1
    refine ⟨⟨⟨?_, a3, fun c hcc => ?_⟩, by rw [a2, List.length_set]; exact h.vn, ?_⟩, .inl ⟨⟨v, hvr, hm.1, hm.2, ?_, a2⟩, rfl⟩⟩
    · show Represents st'.L (on A (A.set.filter fun p => (fun u => st'.VN.getD u unk) p.1 = unk))
      rw [a2, getD_set' (by rw [h.vn]; exact hvr)]
      exact a1
    · show _ = par A (fun u => st'.VN.getD u unk) c
      have hfv : r.1.VN.getD v unk ≠ 1 := by
        have := hm.2
        unfold Known at this
        omega
      rw [a4 c hcc, a2, getD_set' (by rw [h.vn]; exact hvr), par_update hvr hfv hsb]
      by_cases e : c = i
      · subst e
        rw [if_pos rfl, if_pos hm.1, Nat.xor_self]
      · rw [if_neg e]
        have hun : r.1.VN.getD v unk = unk := not_not.1 hm.2
        have : (v, c) ∈ A.set.filter (fun p => r.1.VN.getD p.1 unk = unk) ↔ (v, c) ∈ A.set := by
          rw [Finset.mem_filter]
          exact ⟨fun h => h.1, fun h => ⟨h, hun⟩⟩
        by_cases hs : (v, c) ∈ A.set
        · rw [if_pos hs, if_pos (this.2 hs), h.lk.val c hcc]
        · rw [if_neg hs, if_neg (fun h => hs (this.1 h)), h.lk.val c hcc]
    · intro s hs
      rw [a2] at hs
      rcases List.mem_or_eq_of_mem_set hs with hs | rfl
      · exact h.word s hs
      · omega
    · intro u hu huv
      by_contra hk
      have := (hc' u).2 ⟨hu, hk⟩
      simp at this
      exact huv this
  · rename_i hne
    rw [sat_ok]
    refine ⟨h, ?_⟩
    cases hcol : r.1.L.c2r[i] with
    | nil =>
      rw [hcol] at hc'
      refine .inr (.inl ⟨rfl, fun v hv => ?_, by simp⟩)
      by_contra hk
      simpa using (hc' v).2 ⟨hv, hk⟩
    | cons u l =>
      cases l with
      | nil => exact (hne u hcol).elim
      | cons v l =>
        rw [hcol] at hc' hn
        refine .inr (.inr ⟨rfl, ⟨u, v, ?_, ((hc' u).1 (by simp)).1, ((hc' v).1 (by simp)).1, ((hc' u).1 (by simp)).2, ((hc' v).1 (by simp)).2⟩, by simp⟩)
        intro e
        subst e
        simp at hn

end Verif.Peeling
