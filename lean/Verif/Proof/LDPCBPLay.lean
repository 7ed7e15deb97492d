import Verif.Proof.LDPCBP

namespace Verif.LDPCBP
open Exec Verif.Sparse Verif.Float

variable {R : Type}

/-! ## One check -/

theorem zipIdx_take_succ {α : Type} {l : List α} {n : Nat} (h : n < l.length) :
    (l.take (n + 1)).zipIdx = (l.take n).zipIdx ++ [(l[n], n)] := by
  rw [← List.take_concat_get' l n h, List.zipIdx_append]
  congr 1
  simp
  omega

theorem chkIn_sat {H : Mat} (h : Good H) (o : Ops R) (r : Rule R) {c : Nat} {msgs contr : List R} {s : LayF R}
    (hm : RepC H msgs s.m) (hc : contr.length = H.colsMax) :
    (chkIn o r (vars H c) (coff H c) ((List.range H.nRows).map s.L) msgs contr).Sat fun q =>
      q.1 = ((vars H c).map (layTo o s c)).zipIdx.foldl (fun s p => r.inp s p.2 p.1) r.start ∧ q.2.length = H.colsMax ∧
      ∀ j (hj : j < (vars H c).length), q.2[j]? = some (layTo o s c (vars H c)[j]) := by
  unfold chkIn
  have hmax := h.cmax c
  refine Sat.mono (forN_inv (fun n (q : r.σ × List R) =>
    q.1 = (((vars H c).map (layTo o s c)).take n).zipIdx.foldl (fun s p => r.inp s p.2 p.1) r.start ∧ q.2.length = H.colsMax ∧
      ∀ j (hj : j < (vars H c).length), j < n → q.2[j]? = some (layTo o s c (vars H c)[j]))
    ⟨rfl, hc, fun j _ hj => absurd hj (by omega)⟩ ?_) ?_
  · rintro v ⟨st, contr1⟩ hv ⟨e1, e2, e3⟩
    dsimp only at e1 e2 e3 ⊢
    have hx : rd ((List.range H.nRows).map s.L) (vars H c)[v] = ok (s.L (vars H c)[v]) := by
      refine rd_some ?_
      rw [getElem?_mapRange, if_pos (h.lt c _ (List.getElem_mem hv)).1]
    rw [rd_lt hv, bind_ok, hx, bind_ok, rd_some (hm.2 c v hv), bind_ok, wr_lt (by omega), bind_ok]
    refine sat_ok.2 ⟨?_, by rw [List.length_set]; exact e2, ?_⟩
    · dsimp only
      rw [zipIdx_take_succ (by simpa using hv), List.foldl_append, ← e1, List.getElem_map]
      rfl
    · intro j hj hlt
      dsimp only
      by_cases e : j = v
      · subst e; rw [List.getElem?_set_self (by omega)]; rfl
      · rw [List.getElem?_set_ne (by omega)]
        exact e3 j hj (by omega)
  · rintro q ⟨e1, e2, e3⟩
    refine ⟨?_, e2, fun j hj => e3 j hj hj⟩
    rw [List.take_of_length_le (by simp)] at e1
    exact e1

theorem map_range_congr {α : Type} {f g : Nat → α} {n : Nat} (h : ∀ v, v < n → f v = g v) : (List.range n).map f = (List.range n).map g :=
  List.map_congr_left fun v hv => h v (List.mem_range.1 hv)

/-! ## Horizontal scheduling -/

theorem horChk_sat {H : Mat} (h : Good H) (o : Ops R) (r : Rule R) {c : Nat} (hc : c < H.nCols) {t : LSt R} {s : LayF R}
    (h1 : t.p = coff H c) (h2 : t.var = (List.range H.nRows).map s.L) (h3 : RepC H t.msgs s.m) (h4 : t.contr.length = H.colsMax) :
    (horChk o r H c t).Sat fun t' => t'.p = coff H (c + 1) ∧ t'.var = (List.range H.nRows).map (horAt o r H s c).L ∧
      RepC H t'.msgs (horAt o r H s c).m ∧ t'.contr.length = H.colsMax := by
  obtain ⟨p, var, msgs, contr⟩ := t
  dsimp only at h1 h2 h3 h4
  subst h1 h2
  unfold horChk
  dsimp only
  rw [rd_c2r h hc, bind_ok]
  refine Sat.bind (chkIn_sat h o r h3 h4) ?_
  rintro ⟨st, contr1⟩ ⟨e1, e2, e3⟩
  dsimp only at e1 e2 e3 ⊢
  refine Sat.bind (forN_inv (fun n (w : List R × List R) => w.1.length = H.nConn ∧ w.2.length = H.nRows ∧
    (∀ c' j (hj : j < (vars H c').length), w.1[coff H c' + j]? =
      some (if c' = c ∧ j < n then (horAt o r H s c).m c' (vars H c')[j] else s.m c' (vars H c')[j])) ∧
    (∀ v, v < H.nRows → w.2[v]? = some (if v ∈ (vars H c).take n then (horAt o r H s c).L v else s.L v))) ?_ ?_) ?_
  · refine ⟨h3.1, by simp, ?_, ?_⟩
    · intro c' j hj
      rw [if_neg (by omega)]
      exact h3.2 c' j hj
    · intro v hv
      rw [getElem?_mapRange, if_pos hv]
      simp
  · rintro j ⟨ms, vs⟩ hj ⟨f1, f2, f3, f4⟩
    dsimp only at f1 f2 f3 f4 ⊢
    have hm := List.getElem_mem hj
    have hlt := (h.lt c _ hm).1
    have hval : r.out (r.mid st) j (layTo o s c (vars H c)[j]) = fromChk r H c (layTo o s c) (vars H c)[j] := by
      unfold fromChk Rule.eval
      rw [(h.nodup c).idxOf_getElem j hj, ← e1]
    rw [rd_some (e3 j hj), bind_ok, hval, wr_lt (by rw [f1]; exact coff_lt h hc hj), bind_ok, rd_lt hj, bind_ok, wr_lt (by omega), bind_ok]
    refine sat_ok.2 ⟨by rw [List.length_set]; exact f1, by rw [List.length_set]; exact f2, ?_, ?_⟩
    · intro c' j' hj'
      dsimp only
      by_cases e : c' = c ∧ j' = j
      · obtain ⟨rfl, rfl⟩ := e
        rw [List.getElem?_set_self (by rw [f1]; exact coff_lt h hc hj), if_pos ⟨rfl, by omega⟩]
        show _ = some (if _ then _ else _)
        rw [if_pos ⟨rfl, hm⟩]
      · rw [List.getElem?_set_ne, f3 c' j' hj']
        · by_cases e' : c' = c ∧ j' < j
          · rw [if_pos e', if_pos ⟨e'.1, by omega⟩]
          · rw [if_neg e', if_neg]
            rintro ⟨k1, k2⟩
            have : j' ≠ j := fun k => e ⟨k1, k⟩
            exact e' ⟨k1, by omega⟩
        · intro k
          have := psum_inj (f := fun c => (vars H c).length) (v := c) (w := c') hj hj' k
          exact e ⟨this.1.symm, this.2.symm⟩
    · intro v hv
      dsimp only
      by_cases e : v = (vars H c)[j]
      · subst e
        rw [List.getElem?_set_self (by omega), if_pos]
        · show _ = some (if _ then _ else _)
          rw [if_pos hm]
        · rw [List.mem_take_iff_getElem]
          exact ⟨j, by omega, rfl⟩
      · rw [List.getElem?_set_ne (fun e' => e e'.symm), f4 v hv]
        have : v ∈ (vars H c).take (j + 1) ↔ v ∈ (vars H c).take j := by
          rw [← List.take_concat_get' _ j hj, List.mem_append]
          simp [e]
        simp only [this]
  · rintro ⟨ms, vs⟩ ⟨f1, f2, f3, f4⟩
    dsimp only at f1 f2 f3 f4 ⊢
    refine sat_ok.2 ⟨?_, ?_, ⟨f1, ?_⟩, e2⟩
    · dsimp only; unfold coff; rw [psum_succ]
    · refine eq_mapRange f2 fun v hv => ?_
      rw [f4 v hv, List.take_length]
      congr 1
      split
      · rfl
      · rename_i hn
        show _ = if _ then _ else _
        rw [if_neg hn]
    · intro c' j hj
      dsimp only
      rw [f3 c' j hj]
      congr 1
      split
      · rfl
      · rename_i hn
        show _ = if _ then _ else _
        rw [if_neg]
        rintro ⟨k1, k2⟩
        subst k1
        exact hn ⟨rfl, hj⟩

theorem foldl_range_succ {σ : Type} (f : σ → Nat → σ) (s : σ) (n : Nat) :
    (List.range (n + 1)).foldl f s = f ((List.range n).foldl f s) n := by
  rw [List.range_succ, List.foldl_append]
  rfl

theorem horIte_sat {H : Mat} (h : Good H) (o : Ops R) (r : Rule R) {msgs contr : List R} {s : LayF R}
    (h3 : RepC H msgs s.m) (h4 : contr.length = H.colsMax) :
    (horIte o r H ((List.range H.nRows).map s.L) msgs contr).Sat fun t =>
      t.var = (List.range H.nRows).map (horSweep o r H s).L ∧ RepC H t.msgs (horSweep o r H s).m ∧ t.contr.length = H.colsMax := by
  unfold horIte horSweep
  refine Sat.mono (forN_inv (fun n (t : LSt R) => t.p = coff H n ∧
    t.var = (List.range H.nRows).map ((List.range n).foldl (horAt o r H) s).L ∧
    RepC H t.msgs ((List.range n).foldl (horAt o r H) s).m ∧ t.contr.length = H.colsMax) ⟨rfl, rfl, h3, h4⟩ ?_) fun t ht => ht.2
  rintro c t hc ⟨e1, e2, e3, e4⟩
  rw [foldl_range_succ]
  exact horChk_sat h o r hc e1 e2 e3 e4

/-! ## Vertical scheduling -/

theorem vOut_eq {v : Nat} {col : List Nat} (hn : col.Nodup) (hv : v ∈ col) : vOut v col = some (col.idxOf v) := by
  have key : ∀ n, n ≤ col.length → (List.range n).foldl (fun s j => if col[j]? = some v then some j else s) none =
      if col.idxOf v < n then some (col.idxOf v) else none := by
    intro n
    induction n with
    | zero => intro _; rfl
    | succ n ih =>
      intro hn'
      rw [foldl_range_succ, ih (by omega)]
      have hi := List.idxOf_lt_length_of_mem hv
      by_cases e : col[n]? = some v
      · rw [if_pos e]
        obtain ⟨h1, h2⟩ := List.getElem?_eq_some_iff.1 e
        have : col.idxOf v = n := by rw [← h2]; exact hn.idxOf_getElem n h1
        rw [if_pos (by omega), this]
      · rw [if_neg e]
        have : col.idxOf v ≠ n := by
          intro e'
          apply e
          rw [← e', List.getElem?_eq_getElem hi, List.getElem_idxOf]
        by_cases h' : col.idxOf v < n
        · rw [if_pos h', if_pos (by omega)]
        · rw [if_neg h', if_neg (by omega)]
  have := key _ (le_refl _)
  unfold vOut
  rw [this, if_pos (List.idxOf_lt_length_of_mem hv)]

/-- The offsets of the messages of the checks. -/
def RepO (H : Mat) (offs : List Nat) : Prop := ∀ c, c < H.nCols → offs[c]? = some (coff H c)

theorem buildOffs_sat {H : Mat} (h : Good H) : (buildOffs H).Sat (RepO H) := by
  unfold buildOffs
  refine Sat.bind (forN_inv (fun n (s : Nat × List Nat) => s.1 = coff H n ∧ s.2.length = H.nCols ∧
    ∀ c, c < n → s.2[c]? = some (coff H c)) ⟨rfl, by simp, fun c hc => absurd hc (by omega)⟩ ?_) ?_
  · rintro c ⟨p, l⟩ hc ⟨e1, e2, e3⟩
    dsimp only at e1 e2 e3 ⊢
    subst e1
    rw [wr_lt (by omega), bind_ok, rd_c2r h hc, bind_ok]
    refine sat_ok.2 ⟨?_, by rw [List.length_set]; exact e2, ?_⟩
    · unfold coff; rw [psum_succ]
    · intro c' hc'
      dsimp only
      by_cases e : c' = c
      · subst e; rw [List.getElem?_set_self (by omega)]
      · rw [List.getElem?_set_ne (by omega)]
        exact e3 c' (by omega)
  · rintro ⟨p, l⟩ ⟨_, _, e3⟩
    exact sat_ok.2 e3

theorem verChk_sat {H : Mat} (h : Good H) (o : Ops R) (r : Rule R) {offs : List Nat} (ho : RepO H offs) {L : Nat → R} {v c : Nat}
    (hc : c < (rowOf H v).length) {t : R × List R × List R} {a : R × (Nat → Nat → R)}
    (h1 : t.1 = a.1) (h2 : RepC H t.2.1 a.2) (h3 : t.2.2.length = H.colsMax) :
    (verChk o r H offs ((List.range H.nRows).map L) v (rowOf H v) c t).Sat fun t' =>
      t'.1 = (verEdge o r H L v a (rowOf H v)[c]).1 ∧ RepC H t'.2.1 (verEdge o r H L v a (rowOf H v)[c]).2 ∧
      t'.2.2.length = H.colsMax := by
  obtain ⟨acc, msgs, contr⟩ := t
  obtain ⟨acc', m⟩ := a
  dsimp only at h1 h2 h3
  subst h1
  have hv : v ∈ vars H (rowOf H v)[c] := (h.row v _).1 (List.getElem_mem hc)
  unfold verChk
  dsimp only
  rw [rd_lt hc, bind_ok]
  generalize (rowOf H v)[c] = cc at hv ⊢
  have hcc := (h.lt cc v hv).2
  have hi := List.idxOf_lt_length_of_mem hv
  rw [rd_some (ho cc hcc), bind_ok, rd_c2r h hcc, bind_ok]
  refine Sat.bind (chkIn_sat (s := ⟨L, m⟩) h o r h2 h3) ?_
  rintro ⟨st, contr1⟩ ⟨e1, e2, e3⟩
  dsimp only at e1 e2 e3 ⊢
  rw [vOut_eq (h.nodup cc) hv]
  dsimp only
  have hm := h2.2 cc _ hi
  have hx := e3 _ hi
  rw [List.getElem_idxOf] at hm hx
  have hval : r.out (r.mid st) ((vars H cc).idxOf v) (layTo o ⟨L, m⟩ cc v) = fromChk r H cc (layTo o ⟨L, m⟩ cc) v := by
    unfold fromChk Rule.eval
    rw [← e1]
  have hlt := coff_lt h hcc hi
  rw [rd_some hm, bind_ok, rd_some hx, bind_ok, hval, wr_lt (by rw [h2.1]; exact hlt), bind_ok]
  refine sat_ok.2 ⟨rfl, ⟨by rw [List.length_set]; exact h2.1, ?_⟩, e2⟩
  intro c' j hj
  dsimp only [verEdge]
  by_cases e : c' = cc ∧ j = (vars H cc).idxOf v
  · obtain ⟨rfl, rfl⟩ := e
    rw [List.getElem?_set_self (by rw [h2.1]; exact hlt), List.getElem_idxOf, if_pos ⟨rfl, rfl⟩]
  · rw [List.getElem?_set_ne, h2.2 c' j hj, if_neg]
    · rintro ⟨rfl, k2⟩
      apply e
      refine ⟨rfl, ?_⟩
      rw [← k2]
      exact ((h.nodup c').idxOf_getElem j hj).symm
    · intro k
      have := psum_inj (f := fun c => (vars H c).length) (v := cc) (w := c') hi hj k
      exact e ⟨this.1.symm, this.2.symm⟩

theorem verVar_sat {H : Mat} (h : Good H) (o : Ops R) (r : Rule R) {offs : List Nat} (ho : RepO H offs) {v : Nat} (hv : v < H.nRows)
    {t : LSt R} {s : LayF R} (h2 : t.var = (List.range H.nRows).map s.L) (h3 : RepC H t.msgs s.m) (h4 : t.contr.length = H.colsMax) :
    (verVar o r H offs v t).Sat fun t' => t'.var = (List.range H.nRows).map (verAt o r H s v).L ∧
      RepC H t'.msgs (verAt o r H s v).m ∧ t'.contr.length = H.colsMax := by
  obtain ⟨p, var, msgs, contr⟩ := t
  dsimp only at h2 h3 h4
  subst h2
  unfold verVar
  dsimp only
  rw [rd_r2c h hv, bind_ok]
  refine Sat.bind (forN_inv (fun n (t : R × List R × List R) =>
    t.1 = (((rowOf H v).take n).foldl (verEdge o r H s.L v) (o.zero, s.m)).1 ∧
    RepC H t.2.1 (((rowOf H v).take n).foldl (verEdge o r H s.L v) (o.zero, s.m)).2 ∧ t.2.2.length = H.colsMax) ⟨rfl, h3, h4⟩ ?_) ?_
  · rintro c t hc ⟨e1, e2, e3⟩
    rw [← List.take_concat_get' _ c hc, List.foldl_append]
    exact verChk_sat h o r ho hc e1 e2 e3
  · rintro ⟨acc, ms, co⟩ ⟨e1, e2, e3⟩
    rw [List.take_length] at e1 e2
    dsimp only at e1 e2 e3 ⊢
    have hx : rd ((List.range H.nRows).map s.L) v = ok (s.L v) := rd_some (by rw [getElem?_mapRange, if_pos hv])
    rw [hx, bind_ok, wr_lt (by simpa using hv), bind_ok]
    refine sat_ok.2 ⟨?_, e2, e3⟩
    dsimp only
    refine eq_mapRange (by simp) fun w hw => ?_
    show _ = some (if _ then _ else _)
    by_cases e : w = v
    · subst e
      rw [List.getElem?_set_self (by simpa using hw), if_pos rfl, e1]
    · rw [List.getElem?_set_ne (fun k => e k.symm), if_neg e, getElem?_mapRange, if_pos hw]

theorem verIte_sat {H : Mat} (h : Good H) (o : Ops R) (r : Rule R) {offs : List Nat} (ho : RepO H offs) {msgs contr : List R} {s : LayF R}
    (h3 : RepC H msgs s.m) (h4 : contr.length = H.colsMax) :
    (verIte o r H offs ((List.range H.nRows).map s.L) msgs contr).Sat fun t =>
      t.var = (List.range H.nRows).map (verSweep o r H s).L ∧ RepC H t.msgs (verSweep o r H s).m ∧ t.contr.length = H.colsMax := by
  unfold verIte verSweep
  refine forN_inv (fun n (t : LSt R) =>
    t.var = (List.range H.nRows).map ((List.range n).foldl (verAt o r H) s).L ∧
    RepC H t.msgs ((List.range n).foldl (verAt o r H) s).m ∧ t.contr.length = H.colsMax) ⟨rfl, h3, h4⟩ ?_
  rintro v t hv ⟨e2, e3, e4⟩
  rw [foldl_range_succ]
  exact verVar_sat h o r ho hv e2 e3 e4

/-! ## The layered decoders -/

/-- What every call on a layered decoder keeps. -/
structure LOk (A : Conns) (d : Layer R) : Prop where
  rep : Represents d.cfg.H A
  var : d.var.length = d.cfg.H.nRows
  msgs : d.msgs.length = d.cfg.H.nConn
  contr : d.contr.length = d.cfg.H.colsMax
  offs : d.sched = .vertical → RepO d.cfg.H d.offs
  N : d.cfg.N = d.cfg.H.nRows
  nIte : 0 < d.cfg.nIte
  depth : 0 < d.cfg.depth
  cur : d.cur < d.cfg.depth
  K : d.cfg.info.length = d.cfg.K
  info : ∀ p ∈ d.cfg.info, p < d.cfg.H.nRows

theorem layIte_sat {A : Conns} {d : Layer R} (hd : LOk A d) (o : Ops R) (r : Rule R) {s : LayF R}
    (h2 : d.var = (List.range d.cfg.H.nRows).map s.L) (h3 : RepC d.cfg.H d.msgs s.m) :
    (layIte o r d).Sat fun t => t.var = (List.range d.cfg.H.nRows).map (sweepOf o r d.cfg.H d.sched s).L ∧
      RepC d.cfg.H t.msgs (sweepOf o r d.cfg.H d.sched s).m ∧ t.contr.length = d.cfg.H.colsMax := by
  unfold layIte
  rw [h2]
  cases e : d.sched with
  | horizontal => exact horIte_sat (good hd.rep) o r h3 hd.contr
  | vertical => exact verIte_sat (good hd.rep) o r (hd.offs e) h3 hd.contr

theorem layLoop_sat {A : Conns} {o : Ops R} {r : Rule R} {y : Nat → R} (g : Cfg) (a : Bool) (sc : Sched) (k : Nat) :
    ∀ n i (d : Layer R) (b : Bool), LOk A d → d.cfg = g → d.auto = a → d.sched = sc → i + n = g.nIte →
      d.var = (List.range g.H.nRows).map (lay o r g.H sc y i).L → RepC g.H d.msgs (lay o r g.H sc y i).m →
      (g.syndrome = true → RunInv (fun n => Valid o A (layPost o r g.H sc y n)) g.depth k i d.cur) →
      (g.syndrome = true → ∀ j, 1 ≤ j → j ≤ i → ¬ Run (fun n => Valid o A (layPost o r g.H sc y n)) g.depth k j) →
      (b = true → i = 0) →
      (Layer.loop o r n d b).Sat fun q => LOk A q.1 ∧ q.1.cfg = g ∧ q.1.auto = a ∧ q.1.sched = sc ∧ ∃ N,
        StopsAt g.syndrome (Run (fun n => Valid o A (layPost o r g.H sc y n)) g.depth k) g.nIte N ∧
        q.1.var = (List.range g.H.nRows).map (layPost o r g.H sc y N) ∧
        (q.2 = true ↔ g.syndrome = true ∧ Run (fun n => Valid o A (layPost o r g.H sc y n)) g.depth k N) ∧
        (q.2 = true → Valid o A (layPost o r g.H sc y N)) := by
  intro n
  induction n with
  | zero =>
    rintro i d b hd rfl rfl rfl hi hv hm _ hb hf
    have hp := hd.nIte
    have hf' : b = false := by
      cases b with
      | false => rfl
      | true => have := hf rfl; omega
    subst hf'
    refine sat_ok.2 ⟨hd, rfl, rfl, rfl, d.cfg.nIte,
      ⟨by omega, le_refl _, fun hs j h1 h2 => hb hs j h1 (by omega), fun h => absurd h (by omega)⟩, ?_, ?_, by simp⟩
    · rw [show d.cfg.nIte = i by omega]; exact hv
    · simp only [Bool.false_eq_true, false_iff]
      rintro ⟨h1, h2⟩
      exact hb h1 _ (by omega) (by omega) h2
  | succ n ih =>
    rintro i d b hd rfl rfl rfl hi hv hm hr hb hf
    unfold Layer.loop
    refine Sat.bind (layIte_sat hd o r hv hm) ?_
    rintro t ⟨t1, t2, t3⟩
    rw [t1]
    have hok : ∀ cur (w : List R), cur < d.cfg.depth → w.length = d.cfg.H.nRows →
        LOk A { d with cur := cur, var := w, msgs := t.msgs, contr := t.contr } := fun cur w hc hw =>
      ⟨hd.rep, hw, t2.1, t3, hd.offs, hd.N, hd.nIte, hd.depth, hc, hd.K, hd.info⟩
    by_cases hs : d.cfg.syndrome = true
    · obtain ⟨cur', v, ec, hcur, ht, hfalse⟩ := check_eq o hd.rep (layPost o r d.cfg.H d.sched y) hs (hr hs)
      have ec' : d.cfg.check o d.cur (List.map (sweepOf o r d.cfg.H d.sched (lay o r d.cfg.H d.sched y i)).L (List.range d.cfg.H.nRows)) =
          ok (cur', v) := ec
      rw [ec', bind_ok]
      dsimp only
      cases v with
      | true =>
        rw [if_pos rfl]
        obtain ⟨h1, h2, h3⟩ := ht rfl
        refine sat_ok.2 ⟨hok _ _ hcur (by simp), rfl, rfl, rfl, i + 1,
          ⟨by omega, by omega, fun hs j h1 h2 => hb hs j h1 (by omega), fun _ => ⟨hs, h2⟩⟩, rfl, ?_, fun _ => h3⟩
        simp only [true_iff]
        exact ⟨hs, h2⟩
      | false =>
        rw [if_neg (by simp)]
        obtain ⟨h1, h2⟩ := hfalse rfl
        refine ih (i + 1) _ false (hok _ _ hcur (by simp)) rfl rfl rfl (by omega) rfl t2 (fun _ => h1) ?_ (by simp)
        intro h j h3 h4
        by_cases e : j = i + 1
        · subst e; exact h2
        · exact hb h j h3 (by omega)
    · have hs' : d.cfg.syndrome = false := by simpa using hs
      have ec : d.cfg.check o d.cur (List.map (sweepOf o r d.cfg.H d.sched (lay o r d.cfg.H d.sched y i)).L (List.range d.cfg.H.nRows)) =
          ok (d.cur, false) := by unfold Cfg.check; rw [if_neg hs]
      rw [ec, bind_ok]
      dsimp only
      rw [if_neg (by simp)]
      exact ih (i + 1) _ false (hok _ _ hd.cur (by simp)) rfl rfl rfl (by omega) rfl t2 (fun h => absurd h hs) (fun h => absurd h hs) (by simp)

theorem load_eq {H : Mat} (o : Ops R) {Y var : List R} (hY : Y.length = H.nRows) (hv : var = List.replicate H.nRows o.zero) :
    load o Y var = ok ((List.range H.nRows).map (layStart o (llr o Y)).L) := by
  subst hv
  have : (load o Y (List.replicate H.nRows o.zero)).Sat fun W => W = (List.range H.nRows).map (layStart o (llr o Y)).L := by
    unfold load
    refine Sat.mono (forN_inv (fun m (W : List R) => W.length = H.nRows ∧ ∀ k, k < H.nRows →
      W[k]? = some (if k < m then (layStart o (llr o Y)).L k else o.zero)) ⟨by simp, fun k h => ?_⟩ ?_) ?_
    · rw [List.getElem?_replicate, if_pos h, if_neg (by omega)]
    · rintro k W hk ⟨e1, e2⟩
      rw [List.length_replicate] at hk
      have hx := e2 k hk
      rw [if_neg (by omega)] at hx
      rw [rd_some hx, bind_ok, rd_lt (by omega), bind_ok, wr_lt (by omega)]
      refine sat_ok.2 ⟨by rw [List.length_set]; exact e1, ?_⟩
      intro j hj
      by_cases e : j = k
      · subst e
        rw [List.getElem?_set_self (by omega), if_pos (by omega)]
        unfold layStart llr
        dsimp only
        rw [getD_lt]
      · rw [List.getElem?_set_ne (by omega), e2 j hj]
        by_cases h' : j < k
        · rw [if_pos h', if_pos (by omega)]
        · rw [if_neg h', if_neg (by omega)]
    · rintro W ⟨e1, e2⟩
      refine eq_mapRange e1 fun k hk => ?_
      rw [e2 k hk, List.length_replicate, if_pos hk]
  obtain ⟨W, e, rfl⟩ := this
  exact e

theorem repC_zero {H : Mat} (h : Good H) (o : Ops R) : RepC H (List.replicate H.nConn o.zero) fun _ _ => o.zero := by
  refine ⟨by simp, fun c j hj => ?_⟩
  have := coff_lt h (h.lt c _ (List.getElem_mem hj)).2 hj
  rw [List.getElem?_replicate, if_pos this]

/-- Nothing is kept of the previous codewords. -/
def Layer.Clean (o : Ops R) (d : Layer R) : Prop :=
  d.var = List.replicate d.cfg.H.nRows o.zero ∧ d.msgs = List.replicate d.cfg.H.nConn o.zero

theorem lay_decode {A : Conns} {o : Ops R} {r : Rule R} {Y : List R} {d : Layer R} (hd : LOk A d) (hz : d.Clean o)
    (hY : Y.length = d.cfg.N) :
    (d.decode o r Y).Sat fun q => LOk A q.1 ∧ q.1.cfg = d.cfg ∧ q.1.auto = d.auto ∧ q.1.sched = d.sched ∧ ∃ N,
      StopsAt d.cfg.syndrome (Run (fun n => Valid o A (layPost o r d.cfg.H d.sched (llr o Y) n)) d.cfg.depth d.cur) d.cfg.nIte N ∧
      q.1.var = (List.range d.cfg.H.nRows).map (layPost o r d.cfg.H d.sched (llr o Y) N) ∧
      (q.2 = false ↔ d.sched = .vertical ∨ d.cfg.syndrome = false ∨
        Run (fun n => Valid o A (layPost o r d.cfg.H d.sched (llr o Y) n)) d.cfg.depth d.cur N) ∧
      (Run (fun n => Valid o A (layPost o r d.cfg.H d.sched (llr o Y) n)) d.cfg.depth d.cur N →
        Valid o A (layPost o r d.cfg.H d.sched (llr o Y) N)) := by
  unfold Layer.decode
  rw [load_eq o (hY.trans hd.N) hz.1, bind_ok]
  refine Sat.bind (layLoop_sat (A := A) (o := o) (r := r) (y := llr o Y) d.cfg d.auto d.sched d.cur d.cfg.nIte 0
    { d with var := (List.range d.cfg.H.nRows).map (layStart o (llr o Y)).L } true
    ⟨hd.rep, by simp, hd.msgs, hd.contr, hd.offs, hd.N, hd.nIte, hd.depth, hd.cur, hd.K, hd.info⟩ rfl rfl rfl (by omega) rfl
    (by dsimp only; rw [hz.2]; exact repC_zero (good hd.rep) o) (fun _ => RunInv.zero hd.cur) (fun _ j h1 h2 => absurd h1 (by omega))
    (fun _ => rfl)) ?_
  rintro ⟨d', b⟩ ⟨h1, h2, h3, h3', N, h4, h5, h6, h7⟩
  have hdp := hd.depth
  refine sat_ok.2 ⟨h1, h2, h3, h3', N, h4, h5, ?_, fun hr => hr.2 N h4.pos (le_refl _) (by omega)⟩
  dsimp only at h6 ⊢
  cases hsc : d.sched with
  | vertical => simp [layStatus]
  | horizontal =>
    rw [hsc] at h6
    cases hs : d.cfg.syndrome with
    | false => simp [layStatus]
    | true =>
      rw [hs] at h6
      simp only [layStatus, Bool.and_true, Bool.not_eq_false', reduceCtorEq, Bool.true_eq_false, false_or]
      rw [h6]
      simp

theorem layLoop_ok {A : Conns} {o : Ops R} {r : Rule R} (g : Cfg) (a : Bool) (sc : Sched) :
    ∀ n (d : Layer R) (b : Bool), LOk A d → d.cfg = g → d.auto = a → d.sched = sc →
      (Layer.loop o r n d b).Sat fun q => LOk A q.1 ∧ q.1.cfg = g ∧ q.1.auto = a ∧ q.1.sched = sc := by
  have hrep : ∀ (H : Mat), Good H → ∀ l : List R, l.length = H.nConn → ∃ m, RepC H l m := by
    intro H h l hl
    refine ⟨fun c v => l.getD (coff H c + (vars H c).idxOf v) o.zero, hl, fun c j hj => ?_⟩
    have := coff_lt h (h.lt c _ (List.getElem_mem hj)).2 hj
    dsimp only
    rw [(h.nodup c).idxOf_getElem j hj, getD_lt _ (by omega), List.getElem?_eq_getElem (by omega)]
  have hvar : ∀ (n : Nat) (l : List R), l.length = n → ∃ L, l = (List.range n).map L := by
    intro n l hl
    refine ⟨fun v => l.getD v o.zero, eq_mapRange hl fun i hi => ?_⟩
    rw [getD_lt _ (by omega), List.getElem?_eq_getElem (by omega)]
  intro n
  induction n with
  | zero =>
    rintro d b hd rfl rfl rfl
    exact sat_ok.2 ⟨hd, rfl, rfl, rfl⟩
  | succ n ih =>
    rintro d b hd rfl rfl rfl
    obtain ⟨m, hm⟩ := hrep _ (good hd.rep) _ hd.msgs
    obtain ⟨L, hL⟩ := hvar _ _ hd.var
    unfold Layer.loop
    refine Sat.bind (layIte_sat (s := ⟨L, m⟩) hd o r hL hm) ?_
    rintro t ⟨t1, t2, t3⟩
    rw [t1]
    have hdp := hd.depth
    have hok : ∀ cur (w : List R), cur < d.cfg.depth → w.length = d.cfg.H.nRows →
        LOk A { d with cur := cur, var := w, msgs := t.msgs, contr := t.contr } := fun cur w hc hw =>
      ⟨hd.rep, hw, t2.1, t3, hd.offs, hd.N, hd.nIte, hd.depth, hc, hd.K, hd.info⟩
    obtain ⟨b1, e, _⟩ := valid_iff o hd.rep (sweepOf o r d.cfg.H d.sched ⟨L, m⟩).L
    have hc : ∃ cur' v, cur' < d.cfg.depth ∧ d.cfg.check o d.cur (List.map (sweepOf o r d.cfg.H d.sched ⟨L, m⟩).L
        (List.range d.cfg.H.nRows)) = ok (cur', v) := by
      unfold Cfg.check
      by_cases hs' : d.cfg.syndrome = true
      · rw [if_pos hs', e, bind_ok]
        refine ⟨_, _, ?_, rfl⟩
        split
        · exact Nat.mod_lt _ hdp
        · exact hdp
      · rw [if_neg hs']
        exact ⟨_, _, hd.cur, rfl⟩
    obtain ⟨cur', v, hcur, ec⟩ := hc
    rw [ec, bind_ok]
    cases v with
    | true =>
      rw [if_pos rfl]
      exact sat_ok.2 ⟨hok _ _ hcur (by simp), rfl, rfl, rfl⟩
    | false =>
      rw [if_neg (by simp)]
      exact ih _ _ (hok _ _ hcur (by simp)) rfl rfl rfl

theorem lay_mk {A : Conns} {o : Ops R} {sc : Sched} {K N nIte depth : Int} {H : Mat} {info : List Nat} {syn : Bool} {d : Layer R}
    (hA : Represents H A) (hi : ∀ p ∈ info, p < A.rows) (h : Layer.mk? o sc K N nIte H info syn depth = ok d) :
    LOk A d ∧ d.Clean o ∧ d.cfg = ⟨K.toNat, N.toNat, nIte.toNat, H, syn, depth.toNat, info⟩ ∧ d.cur = 0 ∧ d.auto = true ∧
      d.sched = sc ∧ N = A.rows := by
  unfold Layer.mk? at h
  obtain ⟨g, hg, h⟩ := bind_ok_inv h
  obtain ⟨tr, ht, h⟩ := bind_ok_inv h
  obtain ⟨⟨h1, h2, h3, h4, h5, h6, h7⟩, rfl⟩ := cfg_iff.1 hg
  cases h
  have hN : N.toNat = H.nRows := by omega
  refine ⟨⟨hA, ?_, ?_, ?_, ?_, hN, ?_, ?_, ?_, h6, ?_⟩, ⟨?_, ?_⟩, rfl, rfl, rfl, rfl, by rw [h5, hA.nRows]⟩
  · simp [Layer.reset]; omega
  · simp [Layer.reset]
  · simp [Layer.reset]
  · intro e
    change sc = .vertical at e
    subst e
    obtain ⟨tr', ht', hr⟩ := buildOffs_sat (good hA)
    change buildOffs H = ok tr at ht
    rw [ht] at ht'
    cases ht'
    exact hr
  · show 0 < nIte.toNat; omega
  · show 0 < depth.toNat; omega
  · show 0 < depth.toNat; omega
  · intro p hp
    show p < H.nRows
    rw [hA.nRows]
    exact hi p hp
  · simp [Layer.reset, hN]
  · simp [Layer.reset]

theorem LOk.reset {A : Conns} {d : Layer R} (o : Ops R) (hd : LOk A d) : LOk A (d.reset o) ∧ (d.reset o).Clean o :=
  ⟨⟨hd.rep, by simp [Layer.reset, hd.var], by simp [Layer.reset, hd.msgs], hd.contr, hd.offs, hd.N, hd.nIte, hd.depth, hd.cur, hd.K,
    hd.info⟩, by simp [Layer.reset, hd.var], by simp [Layer.reset, hd.msgs]⟩

theorem LOk.finish {A : Conns} {d : Layer R} (o : Ops R) (hd : LOk A d) :
    LOk A (d.finish o) ∧ (d.finish o).cfg = d.cfg ∧ (d.finish o).sched = d.sched ∧ (d.auto = true → (d.finish o).Clean o) := by
  unfold Layer.finish
  cases h : d.auto with
  | true => exact ⟨(hd.reset o).1, rfl, rfl, fun _ => (hd.reset o).2⟩
  | false => exact ⟨hd, rfl, rfl, by simp⟩

theorem load_length {o : Ops R} {Y var w : List R} (h : load o Y var = ok w) : w.length = var.length := by
  unfold load at h
  have key : ∀ n W, forN n (fun v var => rd var v >>= fun x => rd Y v >>= fun y => wr var v (o.add x y)) var = ok W →
      W.length = var.length := by
    intro n
    induction n with
    | zero => intro W h; cases h; rfl
    | succ n ih =>
      intro W h
      rw [forN_succ] at h
      obtain ⟨W1, h1, h⟩ := bind_ok_inv h
      obtain ⟨x, _, h⟩ := bind_ok_inv h
      obtain ⟨y, _, h⟩ := bind_ok_inv h
      rw [← ih W1 h1]
      by_cases hn : n < W1.length
      · rw [wr_lt hn] at h; cases h; simp
      · rw [wr_ge (by omega)] at h; cases h
  exact key _ _ h

theorem copyTo_length {src dst w : List R} {so n k : Nat} (h : copyTo src so n dst k = ok w) : w.length = dst.length := by
  unfold copyTo at h
  induction n generalizing w with
  | zero => cases h; rfl
  | succ n ih =>
    rw [forN_succ] at h
    obtain ⟨W1, h1, h⟩ := bind_ok_inv h
    obtain ⟨x, _, h⟩ := bind_ok_inv h
    rw [← ih h1]
    by_cases hn : k + n < W1.length
    · rw [wr_lt hn] at h; cases h; simp
    · rw [wr_ge (by omega)] at h; cases h

theorem lay_hist {A : Conns} {o : Ops R} {r : Rule R} {d0 : Layer R} (h0 : LOk A d0) (hz : d0.Clean o)
    {b : Bool} {d : Layer R} (h : Layer.Hist o r d0 b d) :
    LOk A d ∧ d.cfg = d0.cfg ∧ d.sched = d0.sched ∧ (b = true → d.Clean o) := by
  have hdec : ∀ {d : Layer R} {Y : List R} {q : Layer R × Bool}, LOk A d → d.decode o r Y = ok q →
      LOk A q.1 ∧ q.1.cfg = d.cfg ∧ q.1.auto = d.auto ∧ q.1.sched = d.sched := by
    intro d Y q hd e
    unfold Layer.decode at e
    obtain ⟨w, e0, e⟩ := bind_ok_inv e
    obtain ⟨q1, e1, e2⟩ := bind_ok_inv e
    obtain ⟨q2, e3, h1, h2, h3, h4⟩ := layLoop_ok (A := A) (o := o) (r := r) d.cfg d.auto d.sched d.cfg.nIte { d with var := w } true
      ⟨hd.rep, (load_length e0).trans hd.var, hd.msgs, hd.contr, hd.offs, hd.N, hd.nIte, hd.depth, hd.cur, hd.K, hd.info⟩ rfl rfl rfl
    rw [e1] at e3
    cases e3
    cases e2
    exact ⟨h1, h2, h3, h4⟩
  have hfin : ∀ {d d1 : Layer R}, LOk A d1 → d1.cfg = d.cfg → d1.auto = d.auto → d1.sched = d.sched → d.cfg = d0.cfg → d.sched = d0.sched →
      LOk A (d1.finish o) ∧ (d1.finish o).cfg = d0.cfg ∧ (d1.finish o).sched = d0.sched ∧ (d.auto = true → (d1.finish o).Clean o) := by
    intro d d1 h1 h2 h3 h4 h5 h6
    obtain ⟨k1, k2, k3, k4⟩ := h1.finish o
    exact ⟨k1, by rw [k2, h2, h5], by rw [k3, h4, h6], fun ha => k4 (by rw [h3]; exact ha)⟩
  induction h with
  | init => exact ⟨h0, rfl, rfl, fun _ => hz⟩
  | setAuto a _ ih =>
    obtain ⟨i1, i2, i3, i4⟩ := ih
    exact ⟨⟨i1.rep, i1.var, i1.msgs, i1.contr, i1.offs, i1.N, i1.nIte, i1.depth, i1.cur, i1.K, i1.info⟩, i2, i3, i4⟩
  | reset _ ih =>
    obtain ⟨i1, i2, i3, i4⟩ := ih
    exact ⟨(i1.reset o).1, i2, i3, fun _ => (i1.reset o).2⟩
  | siho _ hY _ e ih =>
    obtain ⟨i1, i2, i3, i4⟩ := ih
    unfold Layer.siho at e
    obtain ⟨q1, e1, e⟩ := bind_ok_inv e
    obtain ⟨V1, e2, e⟩ := bind_ok_inv e
    cases e
    obtain ⟨k1, k2, k3, k4⟩ := hdec i1 e1
    exact hfin k1 k2 k3 k4 i2 i3
  | sihoCw _ hY _ e ih =>
    obtain ⟨i1, i2, i3, i4⟩ := ih
    unfold Layer.sihoCw at e
    obtain ⟨q1, e1, e⟩ := bind_ok_inv e
    obtain ⟨V1, e2, e⟩ := bind_ok_inv e
    cases e
    obtain ⟨k1, k2, k3, k4⟩ := hdec i1 e1
    exact hfin k1 k2 k3 k4 i2 i3
  | siso _ hY hY2 e ih =>
    obtain ⟨i1, i2, i3, i4⟩ := ih
    unfold Layer.siso at e
    obtain ⟨q1, e1, e⟩ := bind_ok_inv e
    obtain ⟨V1, e2, e⟩ := bind_ok_inv e
    obtain ⟨w, e3, e⟩ := bind_ok_inv e
    cases e
    obtain ⟨k1, k2, k3, k4⟩ := hdec i1 e1
    have hw := copyTo_length e3
    refine hfin (d1 := { q1.1 with var := w }) ⟨k1.rep, hw.trans k1.var, k1.msgs, k1.contr, k1.offs, k1.N, k1.nIte, k1.depth, k1.cur, k1.K, k1.info⟩
      k2 k3 k4 i2 i3

end Verif.LDPCBP
