import Verif.Proof.PolarSCLView
import Verif.Proof.PolarSCUse

/-! # The list decoder as an object -/

namespace Verif.PolarSCL
open Exec Verif.Polar
open Verif.PolarSC (Fns cnt unplace_append unplace_length put_length put_put put_nil put_one put_all cnt_append unplace_take_succ)

variable {R : Type} {w : Nat} {F : Fns R w} {A : Ar R} {m : Nat} {y : List R}

/-! ## Codewords -/

/-- The transformation on booleans. -/
def boolT : Nat → List Bool → List Bool
  | 0, u => u
  | n + 1, u => List.zipWith xor (boolT n (u.take (2 ^ n))) (boolT n (u.drop (2 ^ n))) ++ boolT n (u.drop (2 ^ n))

theorem boolT_length : ∀ {n : Nat} {u : List Bool}, u.length = 2 ^ n → (boolT n u).length = 2 ^ n
  | 0, _, h => h
  | n + 1, u, h => by
    have hp : 2 ^ (n + 1) = 2 ^ n + 2 ^ n := by rw [Nat.pow_succ]; omega
    unfold boolT
    rw [List.length_append, List.length_zipWith, boolT_length (by simp; omega), boolT_length (by simp; omega)]
    omega

theorem transform_map (c : BitVec w) : ∀ {n : Nat} {u : List Bool}, u.length = 2 ^ n → polarTransform n (u.map fun b => if b then c else 0) = (boolT n u).map fun b => if b then c else 0
  | 0, u, h => by
    obtain ⟨a, rfl⟩ := List.length_eq_one_iff.1 h
    cases a <;> simp [boolT, polarTransform, xorAll, Below]
  | n + 1, u, h => by
    have hp : 2 ^ (n + 1) = 2 ^ n + 2 ^ n := by rw [Nat.pow_succ]; omega
    have e1 : (u.take (2 ^ n)).length = 2 ^ n := by simp; omega
    have e2 : (u.drop (2 ^ n)).length = 2 ^ n := by simp; omega
    have h1 := transform_map c e1
    have h2 := transform_map c e2
    unfold boolT
    conv_lhs => rw [← List.take_append_drop (2 ^ n) u, List.map_append]
    rw [PolarSC.transform_halves (by rw [List.length_map, e1]) (by rw [List.length_map, e2]), h1, h2, List.map_append]
    congr 1
    rw [List.zipWith_map, List.map_zipWith]
    congr 1
    funext a b
    cases a <;> cases b <;> simp

theorem word_transform {n : Nat} {u : List Bool} (h : u.length = 2 ^ n) : polarTransform n (word w u) = word w (boolT n u) := transform_map _ h

theorem bits_transform {n : Nat} {u : List Bool} (h : u.length = 2 ^ n) : polarTransform n (bits w u) = bits w (boolT n u) := transform_map _ h

theorem word_bit (hw : 0 < w) (b : Bool) : (if (if b then bitInit w else 0) ≠ 0 then (1 : BitVec w) else 0) = if b then 1 else 0 := by
  have hb : ¬ bitInit w = 0#w := bitInit_ne hw
  cases b <;> simp [hb]

theorem word_bits (hw : 0 < w) (u : List Bool) : (word w u).map (fun x => if x ≠ 0 then (1 : BitVec w) else 0) = bits w u := by
  unfold word bits
  rw [List.map_map]
  refine List.map_congr_left fun b _ => ?_
  exact word_bit hw b

theorem unplace_map (f : BitVec w → BitVec w) : ∀ {fr : List Bool} {x : List (BitVec w)}, x.length = fr.length → unplace fr (x.map f) = (unplace fr x).map f
  | [], _, _ => rfl
  | true :: fr, a :: x, h => by
    simp only [List.map_cons, unplace, List.tail_cons]
    exact unplace_map f (by simpa using h)
  | false :: fr, a :: x, h => by
    simp only [List.map_cons, unplace, List.tail_cons, List.headD_cons]
    rw [unplace_map f (by simpa using h)]
  | _ :: _, [], h => by simp at h

/-! ## The reading of the bits -/

/-- The word that the decoder reads: the leaves or the root. -/
def readWord (w : Nat) (sys : Bool) (m : Nat) (u : List Bool) : List (BitVec w) := if sys then polarTransform m (word w u) else word w u

theorem readWord_length (sys : Bool) {u : List Bool} (hu : u.length = 2 ^ m) : (readWord w sys m u).length = 2 ^ m := by
  unfold readWord
  split
  · exact polarTransform_length _ _
  · rw [word_length, hu]

theorem read_eq {d : Dec R w} (hm : d.m = m) {p : Nat} {u : List Bool} (hu : u.length = 2 ^ m) (h : TInv F m y u (d.trees p)) {i : Nat} (hi : i < 2 ^ m) :
    readBit d p i = ok ((readWord w d.sys m u)[i]'(by rw [readWord_length d.sys hu]; exact hi)) := by
  subst hm
  unfold readBit
  generalize d.sys = sys
  cases sys
  · rw [if_neg (by simp), h.leaf i u[i] (List.getElem?_eq_getElem (by omega))]
    simp only [readWord, word]
    rw [rd_lt (by simp)]
    simp
  · rw [if_pos rfl, h.rootS hu, rd_lt (by rw [polarTransform_length]; exact hi)]
    rfl

theorem uTest_eq {d : Dec R w} (hm : d.m = m) (hN : d.N = 2 ^ m) (hf : d.frozen.length = 2 ^ m) {p : Nat} {u : List Bool} (hu : u.length = 2 ^ m) (h : TInv F m y u (d.trees p)) :
    uTest d p = ok (seen d.sys d.frozen m u) := by
  have hr := readWord_length (w := w) d.sys hu
  unfold uTest
  obtain ⟨r, e, hr2⟩ := forN_inv (n := d.N) (s := ([] : List (BitVec w))) (f := fun i r => do
      let b ← rd d.frozen i
      if b then ok r
      else do
        let x ← readBit d p i
        ok (r ++ [x])) (fun i r => r = unplace (d.frozen.take i) ((readWord w d.sys m u).take i)) (by simp [unplace]) (by
    rintro i r hi rfl
    rw [rd_lt (by omega), bind_ok, unplace_take_succ (by omega) (by omega)]
    cases d.frozen[i]
    · rw [if_neg (by simp), read_eq hm hu h (by omega)]
      exact sat_ok.2 rfl
    · rw [if_pos rfl]
      exact sat_ok.2 (by simp))
  rw [e, hr2, List.take_of_length_le (by omega), List.take_of_length_le (by omega)]
  rfl

theorem select_ok {d : Dec R w} {s : St R} (hm : d.m = m) (hN : d.N = 2 ^ m) (hf : d.frozen.length = 2 ^ m) (h : Ref y (PT F m y (2 ^ m)) d s) :
    (selectBest A d).Sat fun d' => Same d d' ∧ d'.trees = d.trees ∧ d'.active = [aPick A d.sys d.crc d.frozen m s] := by
  have fold : ∀ (l : List Nat) (b : Nat), (∀ p ∈ l, p ∈ s.active) → (b ∈ s.active) → l.foldl (fun b p => if A.lt (d.met p) (d.met b) then p else b) b =
      l.foldl (fun b p => if A.lt (s.met p) (s.met b) then p else b) b := by
    intro l
    induction l with
    | nil => intros; rfl
    | cons x l ih =>
      intro b hl hb
      rw [List.foldl_cons, List.foldl_cons, h.met x (hl x (by simp)), h.met b hb]
      exact ih _ (fun p hp => hl p (by simp [hp])) (by split; exacts [hl x (by simp), hb])
  have fin : ∀ l : List Nat, (∀ p ∈ l, p ∈ s.active) → l.foldl (fun b p => if A.lt (d.met p) (d.met b) then p else b) (l.headD 0) =
      l.foldl (fun b p => if A.lt (s.met p) (s.met b) then p else b) (l.headD 0) := by
    intro l hl
    cases l with
    | nil => rfl
    | cons b l => exact fold _ _ hl (hl b (by simp))
  unfold selectBest aPick aPass
  cases hc : d.crc with
  | none =>
    refine sat_ok.2 ⟨⟨rfl, rfl, rfl, rfl, rfl, rfl, rfl⟩, rfl, ?_⟩
    unfold select
    dsimp only
    rw [h.active, fin _ (fun _ h => h)]
  | some check =>
    dsimp only
    refine (forEach_inv (l := d.active) (s := d.active) (f := fun p a => do
      let u ← uTest d p
      ok (if check u then a else a.filter (· ≠ p)))
      (fun done a => a = d.active.filter fun p => p ∉ done ∨ check (seen d.sys d.frozen m (s.u p)) = true) (by simp) ?_).bind ?_
    · rintro done p rest a hl rfl
      have hp : p ∈ s.active := by rw [← h.active, hl]; simp
      obtain ⟨hu, hT⟩ := h.tree p hp
      rw [uTest_eq hm hN hf hu hT, bind_ok]
      refine sat_ok.2 ?_
      split
      · rename_i hck
        refine List.filter_congr fun x hx => ?_
        by_cases e : x = p
        · subst e; simp [hck]
        · simp [e]
      · rename_i hck
        rw [List.filter_filter]
        refine List.filter_congr fun x hx => ?_
        by_cases e : x = p
        · subst e; simp [hck]
        · simp [e]
    · rintro a rfl
      refine sat_ok.2 ⟨⟨rfl, rfl, rfl, rfl, rfl, hc.symm, rfl⟩, rfl, ?_⟩
      have e : (d.active.filter fun p => decide (p ∉ d.active ∨ check (seen d.sys d.frozen m (s.u p)) = true)) = s.active.filter fun p => check (seen d.sys d.frozen m (s.u p)) := by
        rw [h.active]
        refine List.filter_congr fun x hx => ?_
        simp [hx]
      rw [e]
      unfold select
      dsimp only
      rw [fin _ (fun p hp => (List.mem_filter.1 hp).1)]

/-- The result of the decoder. -/
def aResult (F : Fns R w) (A : Ar R) (sort : List (Cand R w) → List (Cand R w)) (d : Dec R w) (y : List R) : List Bool :=
  (aRun F A d.m y d.L sort d.frozen (start A)).u (aPick A d.sys d.crc d.frozen d.m (aRun F A d.m y d.L sort d.frozen (start A)))

theorem run_ok (hA : Strict A) {sort : List (Cand R w) → List (Cand R w)} (hsort : SortOk A sort) {d : Dec R w} (h : d.Ok) (hy : y.length = d.N) :
    (d.run F A sort y).Sat fun d' => d'.Ok ∧ Same d d' ∧ ∃ p, d'.active = [p] ∧ (aResult F A sort d y).length = 2 ^ d.m ∧ TInv F d.m y (aResult F A sort d y) (d'.trees p) := by
  unfold Dec.run
  refine (load_ok (F := F) h hy).bind fun d1 ⟨g1, g2⟩ => ?_
  unfold Dec.decode
  have hf1 : d1.frozen.length = 2 ^ d.m := by rw [g2.frozen, h.frozen, h.N]
  refine (decodeLoop_ok h.w0 h.m0 (fun l => (hsort l).1) g2.m (g2.N.trans h.N) (by rw [hy, h.N]) hf1 g1).bind fun d2 ⟨k1, k2⟩ => ?_
  have hs := g2.trans k2
  refine (select_ok (A := A) hs.m (hs.N.trans h.N) (by rw [hs.frozen, h.frozen, h.N]) k1).mono fun d3 ⟨j1, j2, j3⟩ => ?_
  have hs3 := hs.trans j1
  rw [g2.L, g2.frozen] at k1 j3
  rw [hs.sys, hs.crc, hs.frozen] at j3
  have hp := (pick_spec hA d.sys d.crc d.frozen d.m (run_view (F := F) (m := d.m) (y := y) h.w0 h.L hsort d.frozen).2).1
  obtain ⟨t1, t2⟩ := k1.tree _ hp
  refine ⟨⟨h.w0, by rw [hs3.m]; exact h.m0, by rw [hs3.N, hs3.m, h.N], by rw [hs3.L]; exact h.L, by rw [hs3.frozen, hs3.N, h.frozen], by rw [hs3.K, hs3.frozen, h.K], fun p => ?_⟩, hs3, _, j3, t1, ?_⟩
  · rw [hs3.m, j2]
    have := k1.size p
    rwa [hs.m] at this
  · rw [j2]; exact t2

/-! ## The outputs -/

theorem store_eq {d : Dec R w} (h : d.Ok) {p : Nat} (hp : d.active = [p]) {u : List Bool} (hu : u.length = 2 ^ d.m) (hT : TInv F d.m y u (d.trees p)) {v : List (BitVec w)} (hv : v.length = d.K) :
    d.store v = ok (unplace d.frozen (if d.sys then polarTransform d.m (bits w u) else bits w u)) := by
  have hK := h.K
  have hN := h.N
  have hf := h.frozen
  have hr := readWord_length (w := w) d.sys hu
  have hcl : ∀ i, cnt (d.frozen.take i) ≤ cnt d.frozen := by
    intro i
    have := cnt_append (d.frozen.take i) (d.frozen.drop i)
    rw [List.take_append_drop] at this
    omega
  have e0 : (readWord w d.sys d.m u).map (fun x => if x ≠ 0 then (1 : BitVec w) else 0) = if d.sys then polarTransform d.m (bits w u) else bits w u := by
    unfold readWord
    split
    · rw [word_transform hu, bits_transform hu, word_bits h.w0]
    · rw [word_bits h.w0]
  rw [← e0]
  generalize hX : (readWord w d.sys d.m u).map (fun x => if x ≠ 0 then (1 : BitVec w) else 0) = X
  have hXl : X.length = 2 ^ d.m := by rw [← hX, List.length_map, hr]
  unfold Dec.store
  rw [hp]
  dsimp only [List.headD_cons]
  have : (forN d.N (fun i (q : List (BitVec w) × Nat) => do
    let b ← rd d.frozen i
    if b then ok q
    else do
      let x ← readBit d p i
      let v ← wr q.1 q.2 (if x ≠ 0 then 1 else 0)
      ok (v, q.2 + 1)) (v, 0)).Sat fun q => q = (PolarSC.put v 0 (unplace (d.frozen.take d.N) (X.take d.N)), cnt (d.frozen.take d.N)) := by
    refine forN_inv (fun i q => q = (PolarSC.put v 0 (unplace (d.frozen.take i) (X.take i)), cnt (d.frozen.take i))) (by simp [unplace, put_nil, cnt]) ?_
    rintro i q hi rfl
    rw [rd_lt (by omega), bind_ok, unplace_take_succ (by omega) (by omega), List.take_succ_eq_append_getElem (by omega), cnt_append]
    have hc1 := hcl (i + 1)
    rw [List.take_succ_eq_append_getElem (by omega), cnt_append] at hc1
    have hXi : X[i]'(by omega) = if (readWord w d.sys d.m u)[i]'(by omega) ≠ 0 then 1 else 0 := by subst hX; rw [List.getElem_map]
    cases hb : d.frozen[i]
    · rw [hb] at hc1
      simp only [cnt, List.filter_cons, decide_true, if_true, List.filter_nil, List.length_singleton] at hc1
      rw [if_neg (by simp), read_eq rfl hu hT (by omega), bind_ok, ← hXi, wr_lt (by simp only; rw [put_length] <;> (try rw [unplace_length]) <;> (unfold cnt at *; omega)), bind_ok, sat_ok]
      rw [put_one (by rw [put_length] <;> (try rw [unplace_length]) <;> (unfold cnt at *; omega))]
      have := put_put (v := v) (k := 0) (x := unplace (d.frozen.take i) (X.take i)) (y := [X[i]'(by omega)]) (by rw [unplace_length, List.length_singleton]; unfold cnt at *; omega)
      rw [unplace_length, Nat.zero_add] at this
      rw [this]
      simp [cnt]
    · rw [if_pos rfl, sat_ok]
      simp [cnt]
  obtain ⟨q, e, rfl⟩ := this
  rw [e, bind_ok]
  simp only
  rw [List.take_of_length_le (by omega), List.take_of_length_le (by omega), put_all (by rw [unplace_length, hv, hK]; rfl)]

theorem storeCw_eq {d : Dec R w} (h : d.Ok) {p : Nat} (hp : d.active = [p]) {u : List Bool} (hu : u.length = 2 ^ d.m) (hT : TInv F d.m y u (d.trees p)) {v : List (BitVec w)} (hv : v.length = d.N) :
    d.storeCw v = ok (if d.sys then polarTransform d.m (bits w u) else polarTransform d.m (word w u)) := by
  have hN := h.N
  have hl : (polarTransform d.m (word w u)).length = 2 ^ d.m := polarTransform_length _ _
  unfold Dec.storeCw
  rw [hp, List.headD_cons, hT.rootS hu]
  split
  · have e1 : forN d.N (fun i v => do let x ← rd (polarTransform d.m (word w u)) i; wr v i (if x ≠ 0 then 1 else 0)) v =
        copyTo (polarTransform d.m (bits w u)) 0 d.N v 0 := by
      unfold copyTo
      refine forN_congr fun i s hi => ?_
      rw [rd_lt (by omega), bind_ok, Nat.zero_add, rd_lt (by rw [polarTransform_length]; omega), bind_ok]
      congr 1
      have e : ∀ i : Nat, ((polarTransform d.m (word w u)).map (fun x => if x ≠ 0 then (1 : BitVec w) else 0))[i]? = (polarTransform d.m (bits w u))[i]? := by
        intro i
        rw [word_transform hu, bits_transform hu, word_bits h.w0]
      have e2 := e i
      rw [List.getElem?_eq_getElem (by rw [List.length_map]; omega), List.getElem?_eq_getElem (by rw [polarTransform_length]; omega), List.getElem_map] at e2
      exact Option.some.inj e2
    rw [e1]
    obtain ⟨o', h1, h2, h3⟩ := copyTo_sat (src := polarTransform d.m (bits w u)) (so := 0) (n := d.N) (dst := v) (d := 0) (by rw [polarTransform_length]; omega) (by omega)
    rw [h1]
    congr 1
    refine List.ext_getElem? fun j => ?_
    rw [h3]
    split
    · simp
    · rw [List.getElem?_eq_none (by omega), List.getElem?_eq_none (by rw [polarTransform_length]; omega)]
  · obtain ⟨o', h1, h2, h3⟩ := copyTo_sat (src := polarTransform d.m (word w u)) (so := 0) (n := d.N) (dst := v) (d := 0) (by omega) (by omega)
    rw [h1]
    congr 1
    refine List.ext_getElem? fun j => ?_
    rw [h3]
    split
    · simp
    · rw [List.getElem?_eq_none (by omega), List.getElem?_eq_none (by omega)]

theorem siho_ok (hA : Strict A) {sort : List (Cand R w) → List (Cand R w)} (hsort : SortOk A sort) {d : Dec R w} (h : d.Ok) (hy : y.length = d.N) {v : List (BitVec w)} (hv : v.length = d.K) :
    (d.siho F A sort y v).Sat fun r => r.1.Ok ∧ Same d r.1 ∧
      r.2 = unplace d.frozen (if d.sys then polarTransform d.m (bits w (aResult F A sort d y)) else bits w (aResult F A sort d y)) := by
  unfold Dec.siho
  refine (run_ok (F := F) hA hsort h hy).bind fun d' ⟨h1, h2, p, h3, h4, h5⟩ => ?_
  rw [← h2.m] at h4 h5
  rw [store_eq h1 h3 h4 h5 (by rw [hv, h2.K]), bind_ok]
  exact sat_ok.2 ⟨h1, h2, by rw [h2.m, h2.sys, h2.frozen]⟩

theorem sihoCw_ok (hA : Strict A) {sort : List (Cand R w) → List (Cand R w)} (hsort : SortOk A sort) {d : Dec R w} (h : d.Ok) (hy : y.length = d.N) {v : List (BitVec w)} (hv : v.length = d.N) :
    (d.sihoCw F A sort y v).Sat fun r => r.1.Ok ∧ Same d r.1 ∧
      r.2 = if d.sys then polarTransform d.m (bits w (aResult F A sort d y)) else polarTransform d.m (word w (aResult F A sort d y)) := by
  unfold Dec.sihoCw
  refine (run_ok (F := F) hA hsort h hy).bind fun d' ⟨h1, h2, p, h3, h4, h5⟩ => ?_
  rw [← h2.m] at h4 h5
  rw [storeCw_eq h1 h3 h4 h5 (by rw [hv, h2.N]), bind_ok]
  exact sat_ok.2 ⟨h1, h2, by rw [h2.m, h2.sys]⟩

theorem result_chosen (hA : Strict A) {sort : List (Cand R w) → List (Cand R w)} (hsort : SortOk A sort) {d : Dec R w} (h : d.Ok) :
    ∃ V, Lists F A d.m y d.L d.frozen V ∧ Chosen A d.crc d.sys d.frozen d.m V (aResult F A sort d y) := by
  obtain ⟨h1, h2⟩ := run_view (F := F) (m := d.m) (y := y) h.w0 h.L hsort d.frozen
  obtain ⟨p1, p2⟩ := pick_spec hA d.sys d.crc d.frozen d.m h2
  refine ⟨_, h1, _, List.mem_map_of_mem (f := vw _) p1, ?_⟩
  unfold aPass at p2
  split
  · rename_i hc
    rw [hc] at p2
    intro q hq
    obtain ⟨p, hp, rfl⟩ := List.mem_map.1 hq
    rw [hc]
    exact (p2 p hp).2
  · rename_i check hc
    intro q hq hck
    obtain ⟨p, hp, rfl⟩ := List.mem_map.1 hq
    rw [hc] at p2
    have := p2 p (List.mem_filter.2 ⟨hp, hck⟩)
    unfold aResult
    rw [hc]
    exact ⟨(List.mem_filter.1 this.1).2, this.2⟩

/-! ## Histories -/

theorem mk?_iff {K N L : Int} {frozen : List Bool} {sys : Bool} {crc : Option (List (BitVec w) → Bool)} {crcSize : Nat} {d : Dec R w} :
    Dec.mk? F A K N L frozen sys crc crcSize = ok d ↔ (0 < K ∧ (∃ n : Nat, N = ((2 ^ n : Nat) : Int)) ∧ (∃ k : Nat, L = ((2 ^ k : Nat) : Int)) ∧ N = frozen.length ∧ K = (frozen.filter (· = false)).length ∧
      (crc.isSome = true → (crcSize : Int) ≤ K)) ∧ d = ⟨K.toNat, N.toNat, Nat.log2 N.toNat, L.toNat, sys, crc, frozen, [0],
    fun _ => ⟨fun d _ => List.replicate (N.toNat / 2 ^ d) F.zero, fun d _ => List.replicate (N.toNat / 2 ^ d) 0⟩, fun _ => A.init⟩ := by
  constructor
  · intro h
    unfold Dec.mk? at h
    by_cases h1 : K ≤ 0
    · rw [if_pos h1] at h; cases h
    rw [if_neg h1] at h
    by_cases h2 : N ≤ 0
    · rw [if_pos h2] at h; cases h
    rw [if_neg h2] at h
    by_cases h3 : K > N
    · rw [if_pos h3] at h; cases h
    rw [if_neg h3] at h
    by_cases h3 : L < 0
    · rw [if_pos h3] at h; cases h
    rw [if_neg h3] at h
    by_cases h4 : (!Reorderer.isPow2 N.toNat) = true
    · rw [if_pos h4] at h; cases h
    rw [if_neg h4] at h
    by_cases h5 : N ≠ frozen.length
    · rw [if_pos h5] at h; cases h
    rw [if_neg h5] at h
    by_cases h7 : L = 0 ∨ (!Reorderer.isPow2 L.toNat) = true
    · rw [if_pos h7] at h; cases h
    rw [if_neg h7] at h
    by_cases h6 : K ≠ (frozen.filter (· = false)).length
    · rw [if_pos h6] at h; cases h
    rw [if_neg h6] at h
    by_cases h8 : crc.isSome ∧ K < crcSize
    · rw [if_pos h8] at h; cases h
    rw [if_neg h8] at h
    obtain ⟨n, hn⟩ := Reorderer.isPow2_iff.1 (by simpa using h4)
    obtain ⟨k, hk⟩ := Reorderer.isPow2_iff.1 (by simpa using (not_or.1 h7).2)
    injection h with h
    exact ⟨⟨by omega, ⟨n, by omega⟩, ⟨k, by omega⟩, by omega, by simpa using h6, fun hc => by by_contra hlt; exact h8 ⟨hc, by omega⟩⟩, h.symm⟩
  · rintro ⟨⟨h1, ⟨n, h2⟩, ⟨k, h3⟩, h4, h5, h6⟩, rfl⟩
    have hN := Nat.two_pow_pos n
    have hL := Nat.two_pow_pos k
    have hle : (frozen.filter (· = false)).length ≤ frozen.length := List.length_filter_le _ _
    unfold Dec.mk?
    rw [if_neg (by omega), if_neg (by omega), if_neg (by omega), if_neg (by omega), if_neg, if_neg (by omega), if_neg, if_neg (by omega), if_neg]
    · rintro ⟨a, b⟩
      have := h6 a
      omega
    · rintro (e | e)
      · omega
      · have := Reorderer.isPow2_iff.2 ⟨k, (by omega : L.toNat = 2 ^ k)⟩
        simp [this] at e
    · intro e
      have := Reorderer.isPow2_iff.2 ⟨n, (by omega : N.toNat = 2 ^ n)⟩
      simp [this] at e

theorem mk?_ok (hw : 0 < w) {K N L : Int} {frozen : List Bool} {sys : Bool} {crc : Option (List (BitVec w) → Bool)} {crcSize : Nat} {d : Dec R w} (hN : 2 ≤ N) (h : Dec.mk? F A K N L frozen sys crc crcSize = ok d) :
    d.Ok := by
  obtain ⟨⟨h1, ⟨n, h2⟩, ⟨k, h3⟩, h4, h5, h6⟩, rfl⟩ := mk?_iff.1 h
  have e : N.toNat = 2 ^ n := by omega
  have el : Nat.log2 N.toNat = n := by rw [e, Nat.log2_two_pow]
  refine ⟨hw, ?_, ?_, ⟨k, ?_⟩, ?_, ?_, ?_⟩
  · dsimp only
    rw [el]
    rcases Nat.eq_zero_or_pos n with rfl | h
    · norm_num at h2; omega
    · exact h
  · dsimp only
    rw [el, e]
  · dsimp only
    have := Nat.two_pow_pos k
    omega
  · dsimp only; omega
  · dsimp only; omega
  · intro p d hd l
    dsimp only at hd ⊢
    rw [el] at hd ⊢
    rw [List.length_replicate, List.length_replicate, e, Nat.pow_div hd (by omega)]
    exact ⟨rfl, rfl⟩

theorem setFrozen_ok {d : Dec R w} (h : d.Ok) {fb : List Bool} (hl : fb.length = d.N) (hc : (fb.filter (· = false)).length = d.K) :
    d.setFrozen fb = ok { d with frozen := fb } := by
  unfold Dec.setFrozen
  rw [if_neg (by simpa using h.frozen), if_neg (by simpa using h.K)]
  have hf := h.frozen
  obtain ⟨fr, e1, f1, f2⟩ := copyTo_sat (src := fb) (so := 0) (n := fb.length) (dst := d.frozen) (d := 0) (by omega) (by omega)
  have e : fr = fb := by
    apply List.ext_getElem?
    intro i
    rw [f2 i]
    by_cases hi : i < fb.length
    · rw [if_pos (by omega)]; simp
    · rw [if_neg (by omega), List.getElem?_eq_none (by omega), List.getElem?_eq_none (by omega)]
  rw [e1, e, bind_ok]

theorem Reach.ok (hw : 0 < w) (hA : Strict A) {sort : List (Cand R w) → List (Cand R w)} (hsort : SortOk A sort) {d : Dec R w} (h : Reach F A sort d) : d.Ok := by
  induction h with
  | make h1 h2 => exact mk?_ok hw h1 h2
  | frozen _ h1 h2 h3 ih =>
    rw [setFrozen_ok ih h1 h2] at h3
    injection h3 with h3
    subst h3
    exact ⟨ih.w0, ih.m0, ih.N, ih.L, h1, h2.symm, ih.size⟩
  | siho _ h1 h2 h3 ih =>
    obtain ⟨r, e, h4, _⟩ := siho_ok (F := F) hA hsort ih h1 h2
    rw [h3] at e
    injection e with e
    subst e
    exact h4
  | sihoCw _ h1 h2 h3 ih =>
    obtain ⟨r, e, h4, _⟩ := sihoCw_ok (F := F) hA hsort ih h1 h2
    rw [h3] at e
    injection e with e
    subst e
    exact h4

theorem result_same {sort : List (Cand R w) → List (Cand R w)} {d e : Dec R w} (hN : d.N = e.N) (hd : d.Ok) (he : e.Ok) (hL : d.L = e.L) (hs : d.sys = e.sys) (hc : d.crc = e.crc) (hf : d.frozen = e.frozen) :
    d.m = e.m ∧ aResult F A sort d y = aResult F A sort e y := by
  have hm : d.m = e.m := Nat.pow_right_injective (le_refl 2) (by dsimp only; rw [← hd.N, ← he.N, hN])
  exact ⟨hm, by unfold aResult; rw [hm, hL, hs, hc, hf]⟩

end Verif.PolarSCL
