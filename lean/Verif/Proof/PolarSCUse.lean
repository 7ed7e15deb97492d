import Verif.Proof.PolarSC

/-! # The successive cancellation decoder as an object -/

namespace Verif.PolarSC
open Exec Verif.Polar

variable {R : Type} {w : Nat}

/-- Number of information bits. -/
def cnt (fr : List Bool) : Nat := (fr.filter (· = false)).length

theorem cnt_append (a b : List Bool) : cnt (a ++ b) = cnt a + cnt b := by unfold cnt; rw [List.filter_append, List.length_append]

theorem unplace_append : ∀ {fa fb : List Bool} {a b : List (BitVec w)}, a.length = fa.length → unplace (fa ++ fb) (a ++ b) = unplace fa a ++ unplace fb b
  | [], _, a, _, h => by
    rw [List.length_nil, List.length_eq_zero_iff] at h
    rw [h]; simp [unplace]
  | true :: fa, fb, x :: a, b, h => by
    simp only [List.cons_append, unplace, List.tail_cons]
    exact unplace_append (by simpa using h)
  | false :: fa, fb, x :: a, b, h => by
    simp only [List.cons_append, unplace, List.tail_cons, List.headD_cons]
    rw [unplace_append (by simpa using h)]
  | _ :: _, _, [], _, h => by simp at h

theorem unplace_length : ∀ (fr : List Bool) (x : List (BitVec w)), (unplace fr x).length = cnt fr
  | [], _ => rfl
  | true :: fr, x => by simp only [unplace, cnt]; rw [unplace_length fr]; simp [cnt]
  | false :: fr, x => by simp only [unplace, cnt, List.length_cons]; rw [unplace_length fr]; simp [cnt]

/-- What a part of the message is written as. -/
def put (v : List (BitVec w)) (k : Nat) (x : List (BitVec w)) : List (BitVec w) := v.take k ++ x ++ v.drop (k + x.length)

theorem put_length {v x : List (BitVec w)} {k : Nat} (h : k + x.length ≤ v.length) : (put v k x).length = v.length := by
  simp [put]; omega

theorem put_put {v x y : List (BitVec w)} {k : Nat} (h : k + x.length + y.length ≤ v.length) : put (put v k x) (k + x.length) y = put v k (x ++ y) := by
  have e : (v.take k ++ x).length = k + x.length := by simp; omega
  unfold put
  rw [List.take_append_of_le_length (by omega), List.take_of_length_le (by omega), List.drop_append, List.drop_eq_nil_of_le (by omega), e,
    List.drop_drop]
  simp only [List.nil_append, List.append_assoc, List.length_append]
  congr 4
  omega

theorem put_nil {v : List (BitVec w)} {k : Nat} : put v k [] = v := by simp [put]

theorem put_one {v : List (BitVec w)} {k : Nat} {x : BitVec w} (h : k < v.length) : v.set k x = put v k [x] := by
  unfold put
  rw [List.set_eq_take_append_cons_drop, if_pos h]
  simp

theorem put_all {v x : List (BitVec w)} (h : v.length = x.length) : put v 0 x = x := by simp [put, h]

theorem Shape.bits_length : ∀ {n off : Nat} {t : Bin (Contents R w)}, Shape n off t → (bits t).length = 2 ^ n
  | 0, _, .leaf _ _, h => h.2.2
  | n + 1, _, .node _ _ l r, h => by
    have h1 := Shape.bits_length h.2.2.1
    have h2 := Shape.bits_length h.2.2.2
    simp only [bits, List.length_append, h1, h2, Nat.pow_succ]
    omega
  | 0, _, .node _ _ _ _, h => h.elim
  | _ + 1, _, .leaf _ _, h => h.elim

theorem storeNode_sat {fr : List Bool} : ∀ {n off : Nat} {t : Bin (Contents R w)} {v : List (BitVec w)} {k : Nat}, Shape n off t → off + 2 ^ n ≤ fr.length →
    k + cnt ((fr.drop off).take (2 ^ n)) ≤ v.length →
    storeNode fr t (v, k) = ok (put v k (unplace ((fr.drop off).take (2 ^ n)) (bits t)), k + cnt ((fr.drop off).take (2 ^ n)))
  | 0, off, .leaf lane c, v, k, h, hl, hk => by
    obtain ⟨rfl, h2, h3⟩ := h
    simp only [Nat.pow_zero] at hl
    obtain ⟨x, hx⟩ := List.length_eq_one_iff.1 h3
    have e : (fr.drop lane).take (2 ^ 0) = [fr[lane]] := by
      rw [List.drop_eq_getElem_cons (by omega)]
      rfl
    unfold storeNode
    rw [rd_lt (by omega), bind_ok, e]
    rw [e] at hk
    cases hf : fr[lane]
    · rw [hf] at hk
      have hk' : k < v.length := by simp [cnt] at hk; omega
      simp only [bits, hx]
      rw [if_neg (by simp), rd_lt (by simp), bind_ok, wr_lt hk', bind_ok]
      simp only [List.getElem_cons_zero]
      rw [put_one hk']
      rfl
    · rw [if_pos rfl]
      simp [unplace, cnt, put_nil]
  | n + 1, off, .node lane c l r, v, k, h, hl, hk => by
    obtain ⟨h1, h2, h3, h4⟩ := h
    have hp : 2 ^ (n + 1) = 2 ^ n + 2 ^ n := by rw [Nat.pow_succ]; omega
    have e : (fr.drop off).take (2 ^ (n + 1)) = (fr.drop off).take (2 ^ n) ++ (fr.drop (off + 2 ^ n)).take (2 ^ n) := by
      rw [hp, List.take_add, List.drop_drop]
    rw [e, cnt_append] at hk
    unfold storeNode
    rw [storeNode_sat h3 (by omega) (by omega), bind_ok, storeNode_sat h4 (by omega)]
    · rw [e, cnt_append]
      simp only [bits]
      have hw : ((fr.drop off).take (2 ^ n)).length = 2 ^ n := by simp; omega
      rw [unplace_append (by rw [h3.bits_length, hw])]
      have := put_put (v := v) (k := k) (x := unplace ((fr.drop off).take (2 ^ n)) (bits l)) (y := unplace ((fr.drop (off + 2 ^ n)).take (2 ^ n)) (bits r))
        (by rw [unplace_length, unplace_length]; omega)
      rw [unplace_length] at this
      rw [this, Nat.add_assoc]
    · rw [put_length (by rw [unplace_length]; omega)]; omega
  | 0, _, .node _ _ _ _, _, _, h, _, _ => h.elim
  | _ + 1, _, .leaf _ _, _, _, h, _, _ => h.elim

/-! ## The object -/

/-- What every call keeps. -/
structure Ok (n : Nat) (d : Dec R w) : Prop where
  N : d.N = 2 ^ n
  frozen : d.frozen.length = 2 ^ n
  K : d.K = cnt d.frozen
  shape : Shape n 0 d.tree
  flags : flags d.tree = d.frozen
  yN : d.yN.length = 2 ^ n

theorem isPow2_pow (n : Nat) : Reorderer.isPow2 (2 ^ n) = true := Reorderer.isPow2_iff.2 ⟨n, rfl⟩

theorem mk?_sat (F : Fns R w) {K N : Int} {frozen : List Bool} {n : Nat} (hK : 0 < K) (hN : N = ((2 ^ n : Nat) : Int)) (hf : frozen.length = 2 ^ n) (hc : K = cnt frozen) :
    (Dec.mk? F K N frozen).Sat fun d => Ok n d ∧ d.frozen = frozen := by
  have hle : cnt frozen ≤ frozen.length := List.length_filter_le _ _
  have hpos : 0 < 2 ^ n := by positivity
  have hN1 : 0 < N := by rw [hN]; exact_mod_cast hpos
  have hN2 : N = frozen.length := by rw [hN, hf]
  have hNt : N.toNat = 2 ^ n := by rw [hN]; rfl
  unfold Dec.mk?
  rw [if_neg (by omega), if_neg (by omega), if_neg (by omega), if_neg (by rw [hNt, isPow2_pow]; simp), if_neg (by omega), if_neg (by unfold cnt at hc; omega), hNt, Nat.log2_two_pow]
  refine (createTree_sat n).bind fun t ht => ?_
  refine (initFrozen_sat (allocate_shape F.zero ht) (by omega)).bind fun t' ⟨t1, t2⟩ => ?_
  rw [sat_ok]
  refine ⟨⟨rfl, hf, by show K.toNat = cnt frozen; omega, t1, ?_, by simp⟩, rfl⟩
  rw [t2, List.drop_zero, List.take_of_length_le (by omega)]

theorem mk?_ok {F : Fns R w} {K N : Int} {frozen : List Bool} {d : Dec R w} (h : Dec.mk? F K N frozen = ok d) :
    0 < K ∧ ∃ n, N = ((2 ^ n : Nat) : Int) ∧ frozen.length = 2 ^ n ∧ K = cnt frozen := by
  unfold Dec.mk? at h
  by_cases h1 : K ≤ 0
  · rw [if_pos h1] at h; cases h
  rw [if_neg h1] at h
  by_cases h2 : N ≤ 0
  · rw [if_pos h2] at h; cases h
  rw [if_neg h2] at h
  by_cases h3 : K > N
  · rw [if_pos h3] at h; cases h
  rw [if_neg h3] at h
  by_cases h4 : (!Reorderer.isPow2 N.toNat) = true
  · rw [if_pos h4] at h; cases h
  rw [if_neg h4] at h
  by_cases h5 : N ≠ frozen.length
  · rw [if_pos h5] at h; cases h
  rw [if_neg h5] at h
  by_cases h6 : K ≠ (frozen.filter (· = false)).length
  · rw [if_pos h6] at h; cases h
  obtain ⟨n, hn⟩ := Reorderer.isPow2_iff.1 (by simpa using h4)
  exact ⟨by omega, n, by omega, by omega, by simpa [cnt] using h6⟩

theorem setFrozen_sat {n : Nat} {d : Dec R w} (h : Ok n d) {fb : List Bool} (hl : fb.length = 2 ^ n) (hc : d.K = cnt fb) :
    (d.setFrozen fb).Sat fun d' => Ok n d' ∧ d'.frozen = fb ∧ d'.K = d.K ∧ d'.N = d.N := by
  unfold Dec.setFrozen
  rw [if_neg (by rw [h.N]; simpa using hl), if_neg (by unfold cnt at hc; simpa using hc)]
  have hf := h.frozen
  refine (copyTo_sat (by omega) (by omega)).bind fun fr ⟨f1, f2⟩ => ?_
  have e : fr = fb := by
    apply List.ext_getElem?
    intro i
    rw [f2 i]
    by_cases hi : i < fb.length
    · rw [if_pos (by omega)]; simp
    · rw [if_neg (by omega), List.getElem?_eq_none (by omega), List.getElem?_eq_none (by omega)]
  subst e
  refine (initFrozen_sat h.shape (by omega)).bind fun t ⟨t1, t2⟩ => ?_
  rw [sat_ok]
  refine ⟨⟨h.N, hl, hc, t1, ?_, h.yN⟩, rfl, rfl, rfl⟩
  rw [t2, List.drop_zero, List.take_of_length_le (by omega)]

theorem setFrozen_ok {n : Nat} {d d' : Dec R w} (h : Ok n d) {fb : List Bool} (hd : d.setFrozen fb = ok d') : fb.length = 2 ^ n ∧ d.K = cnt fb := by
  unfold Dec.setFrozen at hd
  by_cases h1 : fb.length ≠ d.N
  · rw [if_pos h1] at hd; cases hd
  rw [if_neg h1] at hd
  by_cases h2 : d.K ≠ (fb.filter (· = false)).length
  · rw [if_pos h2] at hd; cases hd
  rw [h.N] at h1
  exact ⟨by omega, by simpa [cnt] using h2⟩

theorem load_eq {α : Type} {N : Nat} {y o : List α} (hy : y.length = N) (ho : o.length = N) : forN N (fun i o => do let x ← rd y i; wr o i x) o = ok y := by
  have e : forN N (fun i o => do let x ← rd y i; wr o i x) o = copyTo y 0 N o 0 := by
    unfold copyTo
    refine forN_congr fun i s hi => ?_
    rw [Nat.zero_add]
  rw [e]
  obtain ⟨r, e1, r1, r2⟩ := copyTo_sat (src := y) (so := 0) (n := N) (dst := o) (d := 0) (by omega) (by omega)
  rw [e1]
  congr 1
  apply List.ext_getElem?
  intro i
  rw [r2 i]
  by_cases hi : i < N
  · rw [if_pos (by omega)]; simp
  · rw [if_neg (by omega), List.getElem?_eq_none (by omega), List.getElem?_eq_none (by omega)]

/-- The decoded tree. -/
structure Ran (F : Fns R w) (n : Nat) (d d' : Dec R w) (y : List R) : Prop where
  inv : Ok n d'
  frozen : d'.frozen = d.frozen
  bits : bits d'.tree = sc F n d.frozen y
  s : d'.tree.c.s = polarTransform n (sc F n d.frozen y)
  K : d'.K = d.K
  N : d'.N = d.N

theorem run_sat (F : Fns R w) {n : Nat} {d : Dec R w} (h : Ok n d) {y : List R} (hy : y.length = 2 ^ n) : (d.run F y).Sat fun d' => Ran F n d d' y := by
  unfold Dec.run
  have hN := h.N
  rw [load_eq (N := d.N) (by omega) (by rw [h.shape.lam_length, hN]), bind_ok]
  refine (decodeNode_sat F h.shape hy).bind fun t ⟨t1, t2, t3, t4⟩ => ?_
  rw [sat_ok]
  rw [h.flags] at t2 t3 t4
  exact ⟨⟨h.N, h.frozen, h.K, t1, t2, h.yN⟩, rfl, t3, t4, rfl, rfl⟩

theorem store_eq {n : Nat} {d : Dec R w} (h : Ok n d) {v : List (BitVec w)} (hv : v.length = d.K) : d.store v = ok (unplace d.frozen (bits d.tree)) := by
  have e : (d.frozen.drop 0).take (2 ^ n) = d.frozen := by rw [List.drop_zero, List.take_of_length_le (by rw [h.frozen])]
  have hK := h.K
  unfold Dec.store
  rw [storeNode_sat h.shape (by rw [h.frozen]; omega) (by rw [e]; omega), bind_ok, e, put_all (by rw [unplace_length]; omega)]

theorem storeCw_eq {n : Nat} {d : Dec R w} (h : Ok n d) {v : List (BitVec w)} (hv : v.length = d.N) : d.storeCw v = ok d.tree.c.s := by
  unfold Dec.storeCw
  have hN := h.N
  have hs := h.shape.s_length
  obtain ⟨r, e1, r1, r2⟩ := copyTo_sat (src := d.tree.c.s) (so := 0) (n := d.N) (dst := v) (d := 0) (by omega) (by omega)
  rw [e1]
  congr 1
  apply List.ext_getElem?
  intro i
  rw [r2 i]
  by_cases hi : i < d.N
  · rw [if_pos (by omega)]; simp
  · rw [if_neg (by omega), List.getElem?_eq_none (by omega), List.getElem?_eq_none (by omega)]

theorem unplace_take_succ {fr : List Bool} {x : List (BitVec w)} (h : x.length = fr.length) {i : Nat} (hi : i < fr.length) :
    unplace (fr.take (i + 1)) (x.take (i + 1)) = unplace (fr.take i) (x.take i) ++ if fr[i] then [] else [x[i]] := by
  rw [List.take_succ_eq_append_getElem hi, List.take_succ_eq_append_getElem (by omega), unplace_append (by simp; omega)]
  congr 1
  cases fr[i] <;> simp [unplace]

theorem storeSys_eq {n : Nat} {d : Dec R w} (h : Ok n d) {v : List (BitVec w)} (hv : v.length = d.K) : d.storeSys v = ok (unplace d.frozen d.tree.c.s) := by
  have hK := h.K
  have hN := h.N
  have hf := h.frozen
  have hs := h.shape.s_length
  unfold Dec.storeSys
  have hcl : ∀ i, cnt (d.frozen.take i) ≤ cnt d.frozen := by
    intro i
    have := cnt_append (d.frozen.take i) (d.frozen.drop i)
    rw [List.take_append_drop] at this
    omega
  have : (forN d.N (fun i (p : List (BitVec w) × Nat) => do
    let b ← rd d.frozen i
    if b then ok p
    else do
      let x ← rd d.tree.c.s i
      let v ← wr p.1 p.2 x
      ok (v, p.2 + 1)) (v, 0)).Sat fun p => p = (put v 0 (unplace (d.frozen.take d.N) (d.tree.c.s.take d.N)), cnt (d.frozen.take d.N)) := by
    refine forN_inv (fun i p => p = (put v 0 (unplace (d.frozen.take i) (d.tree.c.s.take i)), cnt (d.frozen.take i))) (by simp [unplace, put_nil, cnt]) ?_
    rintro i p hi rfl
    rw [rd_lt (by omega), bind_ok, unplace_take_succ (by omega) (by omega), List.take_succ_eq_append_getElem (by omega), cnt_append]
    have hc1 := hcl (i + 1)
    rw [List.take_succ_eq_append_getElem (by omega), cnt_append] at hc1
    cases hb : d.frozen[i]
    · rw [hb] at hc1
      simp only [cnt, List.filter_cons, decide_true, if_true, List.filter_nil, List.length_singleton] at hc1
      rw [if_neg (by simp), rd_lt (by omega), bind_ok, wr_lt (by simp only; rw [put_length] <;> (try rw [unplace_length]) <;> (unfold cnt at *; omega)), bind_ok, sat_ok]
      rw [put_one (by rw [put_length] <;> (try rw [unplace_length]) <;> (unfold cnt at *; omega))]
      have := put_put (v := v) (k := 0) (x := unplace (d.frozen.take i) (d.tree.c.s.take i)) (y := [d.tree.c.s[i]]) (by rw [unplace_length, List.length_singleton]; unfold cnt at *; omega)
      rw [unplace_length, Nat.zero_add] at this
      rw [this]
      simp [cnt]
    · rw [if_pos rfl, sat_ok]
      simp [cnt]
  obtain ⟨p, e, rfl⟩ := this
  rw [e, bind_ok]
  simp only
  rw [List.take_of_length_le (by omega), List.take_of_length_le (by omega), put_all (by rw [unplace_length]; omega)]

theorem harden_sat (F : Fns R w) {n : Nat} {d : Dec R w} (h : Ok n d) {y : List (BitVec w)} (hy : y.length = 2 ^ n) :
    (d.harden F y).Sat fun d' => d' = { d with yN := y.map fun x => if x ≠ 0 then F.mone else F.one } := by
  unfold Dec.harden
  have hN := h.N
  have hyn := h.yN
  have e : forN d.N (fun i o => do let x ← rd y i; wr o i (if x ≠ 0 then F.mone else F.one)) d.yN =
      forN d.N (fun i o => wr o (0 + i) (if y.getD i 0 ≠ 0 then F.mone else F.one)) d.yN := by
    refine forN_congr fun i s hi => ?_
    rw [rd_lt (by omega), bind_ok, getD_lt _ (by omega), Nat.zero_add]
  rw [e]
  refine (forN_fill (by omega)).bind fun o ⟨o1, o2⟩ => ?_
  rw [sat_ok]
  congr 1
  apply List.ext_getElem?
  intro i
  rw [o2 i, List.getElem?_map]
  by_cases hi : i < d.N
  · rw [if_pos (by omega), Nat.sub_zero, getD_lt _ (by omega), List.getElem?_eq_getElem (by omega)]; rfl
  · rw [if_neg (by omega), List.getElem?_eq_none (by omega), List.getElem?_eq_none (by omega)]; rfl

/-! ## The tasks -/

/-- What a decoding gives. -/
def out (k : Kind) (n : Nat) (fr : List Bool) (u : List (BitVec w)) : List (BitVec w) :=
  match k with
  | .plain => unplace fr u
  | .sys => unplace fr (polarTransform n u)

theorem siho_sat (F : Fns R w) {n : Nat} {d : Dec R w} (h : Ok n d) (k : Kind) {y : List R} (hy : y.length = d.N) {v : List (BitVec w)} (hv : v.length = d.K) :
    (d.siho F k y v).Sat fun r => Ok n r.1 ∧ r.1.frozen = d.frozen ∧ r.1.K = d.K ∧ r.2 = out k n d.frozen (sc F n d.frozen y) := by
  unfold Dec.siho
  refine (run_sat F h (by rw [hy, h.N])).bind fun d' r => ?_
  cases k
  · simp only
    rw [store_eq r.inv (by rw [hv, r.K]), bind_ok, sat_ok]
    exact ⟨r.inv, r.frozen, r.K, by simp only [out]; rw [r.frozen, r.bits]⟩
  · simp only
    rw [storeSys_eq r.inv (by rw [hv, r.K]), bind_ok, sat_ok]
    exact ⟨r.inv, r.frozen, r.K, by simp only [out]; rw [r.frozen, r.s]⟩

theorem sihoCw_sat (F : Fns R w) {n : Nat} {d : Dec R w} (h : Ok n d) {y : List R} (hy : y.length = d.N) {v : List (BitVec w)} (hv : v.length = d.N) :
    (d.sihoCw F y v).Sat fun r => Ok n r.1 ∧ r.1.frozen = d.frozen ∧ r.1.K = d.K ∧ r.2 = polarTransform n (sc F n d.frozen y) := by
  unfold Dec.sihoCw
  refine (run_sat F h (by rw [hy, h.N])).bind fun d' r => ?_
  rw [storeCw_eq r.inv (by rw [hv, r.N]), bind_ok, sat_ok]
  exact ⟨r.inv, r.frozen, r.K, r.s⟩

/-- The soft inputs of hard ones. -/
def hard (F : Fns R w) (y : List (BitVec w)) : List R := y.map fun x => if x ≠ 0 then F.mone else F.one

theorem hiho_sat (F : Fns R w) {n : Nat} {d : Dec R w} (h : Ok n d) (k : Kind) {y : List (BitVec w)} (hy : y.length = d.N) {v : List (BitVec w)} (hv : v.length = d.K) :
    (d.hiho F k y v).Sat fun r => Ok n r.1 ∧ r.1.frozen = d.frozen ∧ r.1.K = d.K ∧ r.2 = out k n d.frozen (sc F n d.frozen (hard F y)) := by
  unfold Dec.hiho
  refine (harden_sat F h (by rw [hy, h.N])).bind fun d' e => ?_
  subst e
  have hl : (hard F y).length = d.N := by rw [hard, List.length_map, hy]
  exact siho_sat F (d := { d with yN := hard F y }) ⟨h.N, h.frozen, h.K, h.shape, h.flags, hl.trans h.N⟩ k hl hv

theorem hihoCw_sat (F : Fns R w) {n : Nat} {d : Dec R w} (h : Ok n d) {y : List (BitVec w)} (hy : y.length = d.N) {v : List (BitVec w)} (hv : v.length = d.N) :
    (d.hihoCw F y v).Sat fun r => Ok n r.1 ∧ r.1.frozen = d.frozen ∧ r.1.K = d.K ∧ r.2 = polarTransform n (sc F n d.frozen (hard F y)) := by
  unfold Dec.hihoCw
  refine (harden_sat F h (by rw [hy, h.N])).bind fun d' e => ?_
  subst e
  have hl : (hard F y).length = d.N := by rw [hard, List.length_map, hy]
  exact sihoCw_sat F (d := { d with yN := hard F y }) ⟨h.N, h.frozen, h.K, h.shape, h.flags, hl.trans h.N⟩ hl hv

theorem Sat.of_ok {α : Type} {x : Exec α} {P : α → Prop} {a : α} (h : x.Sat P) (e : x = ok a) : P a := by
  obtain ⟨r, e1, p⟩ := h
  rw [e] at e1
  cases e1
  exact p

theorem Reach.ok {F : Fns R w} {d : Dec R w} (h : Reach F d) : ∃ n, Ok n d := by
  induction h with
  | make h =>
    obtain ⟨h1, n, h2, h3, h4⟩ := mk?_ok h
    exact ⟨n, (Sat.of_ok (mk?_sat F h1 h2 h3 h4) h).1⟩
  | frozen _ h ih =>
    obtain ⟨n, ho⟩ := ih
    obtain ⟨h1, h2⟩ := setFrozen_ok ho h
    exact ⟨n, (Sat.of_ok (setFrozen_sat ho h1 h2) h).1⟩
  | siho _ hy hv h ih => obtain ⟨n, ho⟩ := ih; exact ⟨n, (Sat.of_ok (siho_sat F ho _ hy hv) h).1⟩
  | sihoCw _ hy hv h ih => obtain ⟨n, ho⟩ := ih; exact ⟨n, (Sat.of_ok (sihoCw_sat F ho hy hv) h).1⟩
  | hiho _ hy hv h ih => obtain ⟨n, ho⟩ := ih; exact ⟨n, (Sat.of_ok (hiho_sat F ho _ hy hv) h).1⟩
  | hihoCw _ hy hv h ih => obtain ⟨n, ho⟩ := ih; exact ⟨n, (Sat.of_ok (hihoCw_sat F ho hy hv) h).1⟩

end Verif.PolarSC
