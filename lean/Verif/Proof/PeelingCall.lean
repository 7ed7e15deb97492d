import Verif.Proof.PeelingUse

/-! # The calls of the peeling decoder -/

namespace Verif.Peeling
open Exec Verif.Sparse Verif.Distance

theorem on_self (A : Conns) : on A A.set = A := rfl

theorem copyTo_all {α : Type} {src dst : List α} {n : Nat} (hs : src.length = n) (hd : dst.length = n) : copyTo src 0 n dst 0 = ok src := by
  obtain ⟨r, e, r1, r2⟩ := copyTo_sat (src := src) (so := 0) (n := n) (dst := dst) (d := 0) (by omega) (by omega)
  rw [e]
  congr 1
  apply List.ext_getElem?
  intro i
  rw [r2 i]
  by_cases hi : i < n
  · rw [if_pos (by omega)]; simp
  · rw [if_neg (by omega), List.getElem?_eq_none (by omega), List.getElem?_eq_none (by omega)]

/-- What the calls keep. -/
structure Good (A : Conns) (d : Dec) : Prop where
  rep : Represents d.H A
  n : d.N = A.rows
  vn : d.VN.length = A.rows
  cn : d.CN.length = A.cols
  info : d.info.length = d.K
  lt : ∀ p ∈ d.info, p < A.rows
  ite : 0 < d.nIte

/-- `d'` differs from `d` only by what a call modifies. -/
def Kept (d d' : Dec) : Prop := ∃ cur VN CN, d' = { d with cur, VN, CN } ∧ VN.length = d.VN.length ∧ CN.length = d.CN.length

theorem Good.kept {A : Conns} {d d' : Dec} (h : Good A d) (k : Kept d d') : Good A d' := by
  obtain ⟨cur, VN, CN, rfl, h1, h2⟩ := k
  exact ⟨h.rep, h.n, h1.trans h.vn, h2.trans h.cn, h.info, h.lt, h.ite⟩

theorem decode_wk {A : Conns} {d : Dec} (hr : Represents d.H A) (hv : d.VN.length = A.rows) (hc : d.CN.length = A.cols) :
    d.decode.Sat fun q => Kept d q.1 := by
  unfold Dec.decode
  rw [hr.nRows]
  refine Sat.bind (forN_inv (fun _ (r : Mat × List Nat) => (∃ S, Represents r.1 (on A S)) ∧ r.2.length = A.cols) ?_
    fun i r hi h => known_wk hv h hi) fun r h => ?_
  · exact ⟨⟨A.set, hr⟩, by rw [List.length_replicate]; exact hc⟩
  · refine Sat.bind (iterate_wk (A := A) d.syndrome d.depth d.nIte (st := ⟨r.1, d.VN, r.2⟩) ⟨h.1, hv, h.2⟩) fun q hq => ?_
    rw [sat_ok]
    exact ⟨_, _, _, rfl, hq.vn.trans hv.symm, hq.cn.trans hc.symm⟩

/-- What a call computes, without early stop. -/
def core (unk : Nat) (H : Mat) (cols n : Nat) (y : List Nat) : Exec (St × Bool) :=
  forN H.nRows (known unk y) (H, List.replicate cols 0) >>= fun r => plain n ⟨r.1, y, r.2⟩ false

theorem init_inv {A : Conns} {unk : Nat} (h1 : unk ≠ 1) {H : Mat} (hr : Represents H A) {y : List Nat} (hy : IsWord unk A y) :
    (forN H.nRows (known unk y) (H, List.replicate A.cols 0)).Sat fun r => Inv A unk ⟨r.1, y, r.2⟩ := by
  rw [hr.nRows]
  refine (forN_inv (fun i (r : Mat × List Nat) => Lk A unk (fun v => if v < i then y.getD v unk else unk) r.1 r.2) ?_
    fun i r hi h => known_lk hy.1 hy.2 h1 h hi).mono fun r h => ?_
  · refine ⟨?_, List.length_replicate, fun c hc => ?_⟩
    · have : A.set.filter (fun p => (if p.1 < 0 then y.getD p.1 unk else unk) = unk) = A.set := by
        apply Finset.filter_true_of_mem
        intro p _
        rw [if_neg (by omega)]
      show Represents H (on A (A.set.filter (fun p => (if p.1 < 0 then y.getD p.1 unk else unk) = unk)))
      rw [this]
      exact hr
    · rw [getD_lt 0 (by rw [List.length_replicate]; exact hc), List.getElem_replicate]
      symm
      rw [even_par]
      have : (Finset.range A.rows).filter (fun v => (v, c) ∈ A.set ∧ (if v < 0 then y.getD v unk else unk) = 1) = ∅ := by
        apply Finset.filter_false_of_mem
        intro v _ h
        rw [if_neg (by omega)] at h
        exact h1 h.2
      rw [this]
      simp
  · have e : (fun v => if v < A.rows then y.getD v unk else unk) = fun v => y.getD v unk := by
      funext v
      by_cases hv : v < A.rows
      · rw [if_pos hv]
      · rw [if_neg hv, List.getD_eq_getElem?_getD, List.getElem?_eq_none (by rw [hy.1]; omega)]; rfl
    rw [e] at h
    exact ⟨h, hy.1, hy.2⟩

theorem narrow {ty : BTy} (h : Narrow ty) : unkSym ty ≠ 0 ∧ unkSym ty ≠ 1 := by
  cases ty with
  | i64 => exact (h rfl).elim
  | _ => decide

theorem decode_ran {A : Conns} {d : Dec} (hr : Represents d.H A) (hc : d.CN.length = A.cols) (hn : Narrow d.ty) (hy : IsWord (unkSym d.ty) A d.VN) :
    d.decode.Sat fun q => Kept d q.1 ∧ ∃ st, st.VN = q.1.VN ∧ core (unkSym d.ty) d.H A.cols d.nIte d.VN = ok (st, q.2) ∧
      Ran A (unkSym d.ty) d.nIte d.VN (st, q.2) := by
  obtain ⟨h0, h1⟩ := narrow hn
  have hA : InRange A := hr.range
  obtain ⟨r, er, hi⟩ := init_inv h1 hr hy
  obtain ⟨q, eq, hq⟩ := iterate_plain h0 h1 hA d.syndrome d.depth d.nIte 0 false hi
  have hrn := sat_of (plain_ran h0 h1 hA d.nIte false hi) hq
  unfold Dec.decode core
  rw [hc, er, bind_ok, eq, bind_ok, sat_ok, bind_ok]
  refine ⟨⟨_, _, _, rfl, ?_, ?_⟩, q.1, rfl, hq, hrn⟩
  · rw [hrn.inv.vn, hy.1]
  · rw [hrn.inv.lk.cn, hc]

theorem store_eq {A : Conns} {d : Dec} (h : Good A d) {v : List Nat} (hv : v.length = d.K) :
    d.store v = ok (d.info.map fun p => d.VN.getD p 0) := by
  have e : d.store v = forN d.K (fun i v => wr v (0 + i) (d.VN.getD (d.info.getD i 0) 0)) v := by
    unfold Dec.store
    apply forN_congr
    intro i s hi
    have hi' : i < d.info.length := by rw [h.info]; exact hi
    have hp : d.info[i] < d.VN.length := by rw [h.vn]; exact h.lt _ (List.getElem_mem _)
    rw [rd_lt hi', bind_ok, rd_lt hp, bind_ok, getD_lt 0 hi', getD_lt 0 hp, Nat.zero_add]
  obtain ⟨o, eo, o1, o2⟩ := forN_fill (n := d.K) (off := 0) (g := fun i => d.VN.getD (d.info.getD i 0) 0) (out := v) (by omega)
  rw [e, eo]
  congr 1
  apply List.ext_getElem?
  intro i
  rw [o2 i]
  by_cases hi : i < d.K
  · have hi' : i < d.info.length := by rw [h.info]; exact hi
    rw [if_pos (by omega), List.getElem?_map, List.getElem?_eq_getElem hi', Nat.sub_zero, getD_lt 0 hi']
    rfl
  · rw [if_neg (by omega), List.getElem?_eq_none (by omega), List.getElem?_eq_none (by rw [List.length_map, h.info]; omega)]

theorem storeCw_eq {d : Dec} {v : List Nat} (hv : v.length = d.VN.length) : d.storeCw v = ok d.VN := copyTo_all rfl hv

theorem hard_kept {A : Conns} {lanes tau : Nat} {d : Dec} (h : Good A d) {y : List Soft} (hy : y.length = d.N) :
    (hardDecideUnk tau (unkSym d.ty) lanes y d.N d.VN).Sat fun VN => VN.length = A.rows := by
  obtain ⟨o, h1, h2, -⟩ := vecMap_sat (g := fun a : Soft => if a.unknown tau then unkSym d.ty else if a.sign then 1 else 0)
    (h := fun a : Soft => if a.neg then 1 else 0) (x := y) (L := lanes) (size := d.N) (out := d.VN) (by omega) (by rw [h.vn, h.n])
  exact ⟨o, h1, h2.trans h.vn⟩

theorem with_kept {d d' : Dec} {VN : List Nat} (hl : VN.length = d.VN.length) (k : Kept { d with VN } d') : Kept d d' := by
  obtain ⟨cur, V, CN, rfl, h1, h2⟩ := k
  exact ⟨cur, V, CN, rfl, h1.trans hl, h2⟩

theorem mk_good {A : Conns} {ty : BTy} {K N nIte depth : Int} {H : Mat} {info : List Nat} {syndrome : Bool} {d : Dec} (hr : Represents H A)
    (hl : ∀ p ∈ info, p < A.rows) (e : Dec.mk? ty K N nIte H info syndrome depth = ok d) : Good A d := by
  unfold Dec.mk? at e
  split at e; · cases e
  split at e; · cases e
  split at e; · cases e
  split at e; · cases e
  split at e; · cases e
  split at e; · cases e
  split at e; · cases e
  rename_i a1 a2 a3 a4 a5 a6 a7
  cases e
  have hN : N.toNat = A.rows := by rw [← hr.nRows]; omega
  refine ⟨hr, hN, by rw [List.length_replicate]; exact hN, by rw [List.length_replicate, hr.nCols], ?_, hl, by show 0 < nIte.toNat; omega⟩
  simp only [Bool.not_eq_true, Bool.not_eq_false', checkLUT, Bool.and_eq_true, Bool.or_eq_true, decide_eq_true_eq] at a7
  show info.length = K.toNat
  simp at a7
  omega

theorem Reach.good {A : Conns} {d : Dec} (h : Reach A d) : Good A d := by
  have run : ∀ {d d' : Dec} {VN : List Nat} {f : Dec → Exec (List Nat)} {r : Res}, Good A d → VN.length = A.rows →
      (do let r ← Dec.decode { d with VN }
          let v ← f r.1
          ok (r.1, res r.2 v)) = ok (d', r) → Good A d' := by
    intro d d' VN f r h hv e
    obtain ⟨q, eq, hq⟩ := decode_wk (d := { d with VN }) h.rep hv h.cn
    rw [eq, bind_ok] at e
    cases hf : f q.1 with
    | ok v =>
      rw [hf, bind_ok] at e
      cases e
      exact h.kept (with_kept (hv.trans h.vn.symm) hq)
    | exc x => rw [hf, bind_exc] at e; cases e
    | ub => rw [hf, bind_ub] at e; cases e
  induction h with
  | make hr hl e => exact mk_good hr hl e
  | @hiho d d' y v r _ hy hv e ih =>
    unfold Dec.hiho at e
    rw [copyTo_all hy (by rw [ih.vn, ih.n]), bind_ok] at e
    exact run (f := fun d => d.store v) ih (by rw [hy, ih.n]) e
  | @hihoCw d d' y v r _ hy hv e ih =>
    unfold Dec.hihoCw at e
    rw [copyTo_all hy (by rw [ih.vn, ih.n]), bind_ok] at e
    exact run (f := fun d => d.storeCw v) ih (by rw [hy, ih.n]) e
  | @siho lanes tau d d' y v r _ hy hv e ih =>
    unfold Dec.siho at e
    obtain ⟨V, eV, hV⟩ := hard_kept ih hy
    rw [eV, bind_ok] at e
    exact run (f := fun d => d.store v) ih hV e
  | @sihoCw lanes tau d d' y v r _ hy hv e ih =>
    unfold Dec.sihoCw at e
    obtain ⟨V, eV, hV⟩ := hard_kept ih hy
    rw [eV, bind_ok] at e
    exact run (f := fun d => d.storeCw v) ih hV e

/-- What a call gives. -/
structure Out (A : Conns) (d : Dec) (y : List Nat) (b : Bool) (x : List Nat) : Prop where
  ran : ∃ st, st.VN = x ∧ core (unkSym d.ty) d.H A.cols d.nIte y = ok (st, b) ∧ Ran A (unkSym d.ty) d.nIte y (st, b)

theorem decode_out {A : Conns} {d : Dec} (h : Good A d) (hn : Narrow d.ty) {y : List Nat} (hy : IsWord (unkSym d.ty) A y) :
    (Dec.decode { d with VN := y }).Sat fun q => Kept d q.1 ∧ Out A d y q.2 q.1.VN :=
  (decode_ran (d := { d with VN := y }) h.rep h.cn hn hy).mono fun _ hq => ⟨with_kept (hy.1.trans h.vn.symm) hq.1, ⟨hq.2⟩⟩

theorem hihoCw_out {A : Conns} {d : Dec} (h : Good A d) (hn : Narrow d.ty) {y v : List Nat} (hy : IsWord (unkSym d.ty) A y) (hv : v.length = d.N) :
    ∃ d' b x, Out A d y b x ∧ Kept d d' ∧ d.hihoCw y v = ok (d', res b x) := by
  obtain ⟨q, eq, hk, ho⟩ := decode_out h hn hy
  refine ⟨q.1, q.2, q.1.VN, ho, hk, ?_⟩
  unfold Dec.hihoCw
  rw [copyTo_all (by rw [hy.1, h.n]) (by rw [h.vn, h.n]), bind_ok, eq, bind_ok,
    storeCw_eq (by rw [(h.kept hk).vn, hv, h.n]), bind_ok]

theorem hiho_out {A : Conns} {d : Dec} (h : Good A d) (hn : Narrow d.ty) {y v : List Nat} (hy : IsWord (unkSym d.ty) A y) (hv : v.length = d.K) :
    ∃ d' b x, Out A d y b x ∧ Kept d d' ∧ d.hiho y v = ok (d', res b (d.info.map fun p => x.getD p 0)) := by
  obtain ⟨q, eq, hk, ho⟩ := decode_out h hn hy
  refine ⟨q.1, q.2, q.1.VN, ho, hk, ?_⟩
  have hK : q.1.K = d.K ∧ q.1.info = d.info := by obtain ⟨_, _, _, e, _⟩ := hk; rw [e]; exact ⟨rfl, rfl⟩
  unfold Dec.hiho
  rw [copyTo_all (by rw [hy.1, h.n]) (by rw [h.vn, h.n]), bind_ok, eq, bind_ok,
    store_eq (h.kept hk) (by rw [hK.1]; exact hv), bind_ok, hK.2]

theorem Out.unique {A : Conns} {d d' : Dec} {y : List Nat} {b b' : Bool} {x x' : List Nat} (h : Out A d y b x) (h' : Out A d' y b' x')
    (e1 : d.ty = d'.ty) (e2 : d.H = d'.H) (e3 : d.nIte = d'.nIte) : b = b' ∧ x = x' := by
  obtain ⟨st, rfl, a, -⟩ := h.ran
  obtain ⟨st', rfl, a', -⟩ := h'.ran
  rw [e1, e2, e3, a'] at a
  cases a
  exact ⟨rfl, rfl⟩

theorem symbols_eq {tau unk lanes n : Nat} {y : List Soft} {out : List Nat} (hy : y.length = n) (ho : out.length = n) (hL : lanes ∣ n) :
    hardDecideUnk tau unk lanes y n out = ok (symbols tau unk y) := by
  obtain ⟨o, h1, h2, h3⟩ := vecMap_sat (g := fun a : Soft => if a.unknown tau then unk else if a.sign then 1 else 0)
    (h := fun a : Soft => if a.neg then 1 else 0) (x := y) (L := lanes) (size := n) (out := out) (by omega) (by omega)
  rw [Nat.div_mul_cancel hL] at h3
  refine (show hardDecideUnk tau unk lanes y n out = ok o from h1).trans ?_
  congr 1
  apply List.ext_getElem?
  intro i
  rw [h3 i]
  unfold symbols
  by_cases hi : i < n
  · rw [if_pos hi, List.getElem?_map]
    congr 1
    funext a
    unfold Soft.unknown Soft.neg
    by_cases e : a.mag ≤ tau
    · simp [e]
    · have : a.mag ≠ 0 := by omega
      simp [e, this]
  · rw [if_neg hi, if_neg hi, List.getElem?_eq_none (by omega), List.getElem?_eq_none (by rw [List.length_map]; omega)]

theorem symbols_word {tau unk : Nat} {A : Conns} {y : List Soft} (hy : y.length = A.rows) : IsWord unk A (symbols tau unk y) := by
  refine ⟨by unfold symbols; rw [List.length_map]; exact hy, fun s hs => ?_⟩
  unfold symbols at hs
  obtain ⟨a, -, rfl⟩ := List.mem_map.1 hs
  split
  · exact .inr (.inr rfl)
  · split <;> simp

end Verif.Peeling
