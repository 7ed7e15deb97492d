import Verif.Proof.TurboProduct

/-! # C103, C104: the turbo product encoder -/

namespace Verif.TurboProduct
open Exec Verif.BCH Verif.Interleaver

theorem BchEnc.comp {e : Enc} {g : List Nat} (h : BchEnc e g) : ∃ E, CompOk e g E := by
  obtain ⟨w, M, t, p, gen, K, N, h1, h2, h3, h4, rfl⟩ := h
  exact compOk h1 h2 h3 h4

/-- The constructor accepts two encoders and an interleaver exactly when the messages are not empty, the interleaver has the size of
the product of the codes, extended or not, and the encoder of the rows (of the columns) has as many frames as there are rows
(columns). -/
theorem C103_constructor (er ec : Enc) (nfr nfc nf : Nat) (core : Core) :
    (∃ e, PEnc.mk? er nfr ec nfc core nf = ok e) ↔ 0 < er.K * ec.K ∧ er.K * ec.K ≤ core.size ∧
      ((core.size = (er.N + 1) * (ec.N + 1) ∧ nfc = er.N + 1 ∧ nfr = ec.N + 1) ∨
        (core.size ≠ (er.N + 1) * (ec.N + 1) ∧ core.size = er.N * ec.N ∧ nfc = er.N ∧ nfr = ec.N)) := by
  constructor
  · rintro ⟨e, h⟩
    obtain ⟨h1, h2, h3, h4, h5, h6⟩ := mk_inv h
    refine ⟨by omega, h2, ?_⟩
    by_cases hx : core.size = (er.N + 1) * (ec.N + 1)
    · have he : e.ext = true := by rw [h6]; exact decide_eq_true hx
      rw [he] at h4 h5
      exact .inl ⟨hx, h4, h5⟩
    · have he : e.ext = false := by rw [h6]; exact decide_eq_false hx
      rw [he] at h3 h4 h5
      exact .inr ⟨hx, by rw [h3, Nat.mul_comm]; rfl, h4, h5⟩
  · rintro ⟨h1, h2, h⟩
    unfold PEnc.mk?
    rw [if_neg (by omega), if_neg (by omega), if_neg (by omega)]
    rcases h with ⟨h3, h4, h5⟩ | ⟨h3, h4, h5, h6⟩
    · simp only [h3, decide_true, h4, h5]
      exact ⟨_, by simp; rfl⟩
    · simp only [h3, decide_false, h5, h6]
      rw [if_neg (by simp [h4])]
      exact ⟨_, by simp; rfl⟩

/-- Encoding succeeds for any history, gives a word of the product code, and message bit `(k, l)` is found in row `r_c + k` and column
`r_r + l`, after the parity bits of the two codes. -/
theorem C103_encode (er ec : Enc) (gr gc : List Nat) (hr : BchEnc er gr) (hc : BchEnc ec gc) (o : ReadOrder) (ho : FromTop o) (e : PEnc)
    (he : Reach er ec o e) (f : Nat) (u x : List Nat) (hu : u.length = er.K * ec.K) (hub : IsBin u) (hx : x.length = e.N) :
    ∃ e' c, e.encode f u x = ok (e', c) ∧ IsProduct e.ext gr er.N gc ec.N c ∧
      ∀ k l, k < ec.K → l < er.K → c[(ec.N - ec.K + k) * size e.ext er.N + (er.N - er.K + l)]? = u[k * er.K + l]? := by
  obtain ⟨ER, cr⟩ := hr.comp
  obtain ⟨EC, cc⟩ := hc.comp
  have hok := reach_ok he
  have sr := cr.lin.sum
  have sc := cc.lin.sum
  obtain ⟨⟨e', c⟩, h1, h2, h3⟩ := encode_mat hok ho cr cc (f := f) (u := u) (x := x) (b := fn u) (fun i hi => fn_get hub (by omega)) hx
  obtain ⟨p1, p2⟩ := product_of_mat cr cc (u := fun k l => fn u (k * er.K + l)) (by rw [h2, hok.hN]) h3
  refine ⟨e', c, h1, p1, fun k l hk hl => ?_⟩
  have e1 : ec.N - ec.K = ec.r := by omega
  have e2 : er.N - er.K = er.r := by omega
  rw [e1, e2, p2 k l hk hl]
  refine (fn_get hub ?_).symm
  rw [hu, Nat.mul_comm er.K ec.K]
  exact Interleaver.slice_bound hk hl

/-- Two words of the product code with the same message bits are equal; so the message determines the word, and the history of the
encoder has no effect on it. -/
theorem C103_unique (er ec : Enc) (gr gc : List Nat) (hr : BchEnc er gr) (hc : BchEnc ec gc) (ext : Bool) (c d : List Nat)
    (h1 : IsProduct ext gr er.N gc ec.N c) (h2 : IsProduct ext gr er.N gc ec.N d) (h : ∀ k l, k < ec.K → l < er.K →
      c[(ec.N - ec.K + k) * size ext er.N + (er.N - er.K + l)]? = d[(ec.N - ec.K + k) * size ext er.N + (er.N - er.K + l)]?) : c = d := by
  obtain ⟨ER, cr⟩ := hr.comp
  obtain ⟨EC, cc⟩ := hc.comp
  have sr := cr.lin.sum
  have sc := cc.lin.sum
  have l1 := h1.len
  have l2 := h2.len
  apply List.ext_getElem?
  intro p
  by_cases hp : p < size ext ec.N * size ext er.N
  · have b := divmod_bounds hp
    have e1 : p = p / size ext er.N * size ext er.N + p % size ext er.N := (Nat.div_add_mod' p (size ext er.N)).symm
    have e2 := product_mat cr cc h1 _ _ b.1 b.2
    have e3 := product_mat cr cc h2 _ _ b.1 b.2
    rw [← e1] at e2 e3
    rw [e2, e3]
    congr 2
    refine (cc.lin.ext ext).2.1 _ _ (fun k hk => ?_) _
    refine (cr.lin.ext ext).2.1 _ _ (fun l hl => ?_) _
    have := h k l hk hl
    rw [show ec.N - ec.K = ec.r by omega, show er.N - er.K = er.r by omega] at this
    unfold fn
    rw [List.getD_eq_getElem?_getD, List.getD_eq_getElem?_getD, this]
  · rw [List.getElem?_eq_none (by omega), List.getElem?_eq_none (by omega)]

/-- Every word of the product code is the encoding of a message. -/
theorem C103_all_words (er ec : Enc) (gr gc : List Nat) (hr : BchEnc er gr) (hc : BchEnc ec gc) (o : ReadOrder) (ho : FromTop o) (e : PEnc)
    (he : Reach er ec o e) (f : Nat) (c x : List Nat) (hcw : IsProduct e.ext gr er.N gc ec.N c) (hx : x.length = e.N) :
    ∃ u e', u.length = er.K * ec.K ∧ IsBin u ∧ e.encode f u x = ok (e', c) := by
  have hr' := hr
  have hc' := hc
  obtain ⟨ER, cr⟩ := hr.comp
  obtain ⟨EC, cc⟩ := hc.comp
  have sr := cr.lin.sum
  have sc := cc.lin.sum
  have hK := cr.posK
  let g : Nat → Bool := fun i => fn c ((ec.r + i / er.K) * size e.ext er.N + (er.r + i % er.K))
  obtain ⟨e', d, h1, h2, h3⟩ := C103_encode er ec gr gc hr hc o ho e he f (bits (er.K * ec.K) g) x (bits_len _ _) (bits_bin _ _) hx
  refine ⟨bits (er.K * ec.K) g, e', bits_len _ _, bits_bin _ _, ?_⟩
  rw [h1]
  congr 2
  refine C103_unique er ec gr gc hr' hc' e.ext d c h2 hcw fun k l hk hl => ?_
  have hb := Interleaver.slice_bound hk hl
  rw [Nat.mul_comm ec.K] at hb
  rw [h3 k l hk hl, bits_get hb]
  have e1 : (k * er.K + l) / er.K = k := by rw [Nat.mul_comm, Nat.mul_add_div (by omega), Nat.div_eq_of_lt hl, Nat.add_zero]
  have e2 : (k * er.K + l) % er.K = l := by rw [Nat.mul_add_mod', Nat.mod_eq_of_lt hl]
  simp only [g, e1, e2]
  have b1 : ec.r + k < size e.ext ec.N := by unfold size; omega
  have b2 : er.r + l < size e.ext er.N := by unfold size; omega
  rw [show ec.N - ec.K = ec.r by omega, show er.N - er.K = er.r by omega]
  have hq := product_mat cr cc hcw _ _ b1 b2
  generalize extE e.ext ec.N EC _ (ec.r + k) = q at hq
  unfold fn
  rw [List.getD_eq_getElem?_getD, hq, Option.getD_some]
  cases q <;> simp

/-- Encoding is linear, whatever the histories. -/
theorem C103_linear (er ec : Enc) (gr gc : List Nat) (hr : BchEnc er gr) (hc : BchEnc ec gc) (o : ReadOrder) (ho : FromTop o) (e e1 e2 e1' e2' : PEnc)
    (he : Reach er ec o e) (he1 : Reach er ec o e1) (he2 : Reach er ec o e2) (hx1 : e1.ext = e.ext) (hx2 : e2.ext = e.ext) (f f1 f2 : Nat) (u v x y z c d : List Nat)
    (hu : u.length = er.K * ec.K) (hub : IsBin u) (hv : v.length = er.K * ec.K) (hvb : IsBin v) (hx : x.length = e.N) (hy : y.length = e.N) (hz : z.length = e.N)
    (h1 : e1.encode f1 u x = ok (e1', c)) (h2 : e2.encode f2 v y = ok (e2', d)) :
    ∃ e', e.encode f (List.zipWith (· ^^^ ·) u v) z = ok (e', List.zipWith (· ^^^ ·) c d) := by
  obtain ⟨ER, cr⟩ := hr.comp
  obtain ⟨EC, cc⟩ := hc.comp
  have hok := reach_ok he
  have k1 := reach_ok he1
  have k2 := reach_ok he2
  have n1 : e1.N = e.N := by rw [k1.hN, hok.hN, hx1]
  have n2 : e2.N = e.N := by rw [k2.hN, hok.hN, hx2]
  obtain ⟨g2, g3⟩ := Turbo.sat_of (encode_mat k1 ho cr cc (f := f1) (u := u) (x := x) (b := fn u) (fun i hi => fn_get hub (by omega)) (by omega)) h1
  obtain ⟨i2, i3⟩ := Turbo.sat_of (encode_mat k2 ho cr cc (f := f2) (u := v) (x := y) (b := fn v) (fun i hi => fn_get hvb (by omega)) (by omega)) h2
  obtain ⟨⟨e', w⟩, j1, j2, j3⟩ := encode_mat hok ho cr cc (f := f) (u := List.zipWith (· ^^^ ·) u v) (x := z) (b := fun i => xor (fn u i) (fn v i)) (fun i hi => by
    rw [List.getElem?_zipWith, fn_get hub (by omega), fn_get hvb (by omega)]
    cases fn u i <;> cases fn v i <;> rfl) hz
  simp only at g2 g3 i2 i3 j2 j3
  refine ⟨e', ?_⟩
  rw [j1]
  congr 2
  apply List.ext_getElem?
  intro p
  have hN := hok.hN
  by_cases hp : p < size e.ext ec.N * size e.ext er.N
  · have b := divmod_bounds hp
    have e0 : p = p / size e.ext er.N * size e.ext er.N + p % size e.ext er.N := (Nat.div_add_mod' p (size e.ext er.N)).symm
    rw [hx1] at g3
    rw [hx2] at i3
    have q1 := g3 _ _ b.1 b.2
    have q2 := i3 _ _ b.1 b.2
    have q3 := j3 _ _ b.1 b.2
    rw [← e0] at q1 q2 q3
    rw [q3, List.getElem?_zipWith, q1, q2]
    obtain ⟨r1, r2, r3⟩ := cr.lin.ext e.ext
    obtain ⟨c1, c2, c3⟩ := cc.lin.ext e.ext
    have : ∀ k, extE e.ext er.N ER (fun l => xor (fn u (k * er.K + l)) (fn v (k * er.K + l))) (p % size e.ext er.N) =
        xor (extE e.ext er.N ER (fun l => fn u (k * er.K + l)) (p % size e.ext er.N)) (extE e.ext er.N ER (fun l => fn v (k * er.K + l)) (p % size e.ext er.N)) :=
      fun k => r1 _ _ _ b.2
    simp only [this]
    rw [c1 _ _ _ b.1]
    generalize extE e.ext ec.N EC _ _ = q
    generalize extE e.ext ec.N EC _ _ = q'
    cases q <;> cases q' <;> rfl
  · rw [List.getElem?_eq_none (by omega), List.getElem?_eq_none (by simp; omega)]

/-- The generator of the Hamming code of 7 bits. -/
def gen74 : Gen := ⟨⟨7, 3, [1, 2, 4, 3, 6, 7, 5, 0], [-1, 0, 1, 3, 2, 6, 4, 5], [1, 1, 0, 1]⟩, 1, [1, 1, 0, 1]⟩

/-- Its encoder. -/
def enc74 : Enc := ⟨4, 7, 3, [1, 1, 0, 1], [3, 4, 5, 6]⟩

theorem enc74_bch : BchEnc enc74 [1, 1, 0, 1] :=
  ⟨32, 7, 1, [], gen74, 4, 7, by decide +kernel, by decide, Galois.selectPoly_primitive (m := 3) (by omega) (by omega), by decide +kernel, rfl⟩

/-- The shortened code of 6 bits. -/
def enc63 : Enc := ⟨3, 6, 3, [1, 1, 0, 1], [3, 4, 5]⟩

theorem enc63_bch : BchEnc enc63 [1, 1, 0, 1] :=
  ⟨32, 7, 1, [], gen74, 3, 6, by decide +kernel, by decide, Galois.selectPoly_primitive (m := 3) (by omega) (by omega), by decide +kernel, rfl⟩

/-- An extended product code with columns of another length than the rows, after a call and a change of the number of frames. -/
example : ∃ e, Reach enc74 enc63 .topRight e ∧ e.ext = true ∧ e.N = 56 ∧ FromTop .topRight ∧ BchEnc enc74 [1, 1, 0, 1] ∧ BchEnc enc63 [1, 1, 0, 1] := by
  have hv := genRowColumn_valid 7 8 .topRight
  obtain ⟨core, hcore, hs, -⟩ := history_holds (size := 7 * 8) (uniform := false) (ops := [.setNFrames 3 (genRowColumn 7 8 .topRight)]) (by omega) hv ⟨hv, trivial⟩
  obtain ⟨e, he⟩ := (C103_constructor enc74 enc63 7 8 3 core).mpr ⟨by decide, by rw [hs]; decide, .inl ⟨by rw [hs]; decide, rfl, rfl⟩⟩
  obtain ⟨-, -, -, -, -, h6⟩ := mk_inv he
  have hx : e.ext = true := by rw [h6]; simp only [hs]; decide
  have hR : Reach enc74 enc63 .topRight e := .make (rows := 7) (cols := 8) (ops := [.setNFrames 3 (genRowColumn 7 8 .topRight)])
    (fun op h => by simp only [List.mem_singleton] at h; subst h; rfl) hcore he (by unfold PEnc.par; rw [hx, h6]; rfl)
  obtain ⟨e', c, h1, -⟩ := C103_encode enc74 enc63 _ _ enc74_bch enc63_bch .topRight (.inr rfl) e hR 2 (List.replicate 12 1) (List.replicate e.N 0) rfl
    (fun v hv => .inr (List.eq_of_mem_replicate hv)) (by simp)
  obtain ⟨xi, -, rfl⟩ := encode_state h1
  exact ⟨_, .encode hR h1, hx, by simp only; rw [h6]; exact hs, .inr rfl, enc74_bch, enc63_bch⟩

/-- What it computes. -/
example : ((history (7 * 8 : Nat) false (genRowColumn 7 8 .topRight) []).bind fun core => (PEnc.mk? enc74 7 enc63 8 core 3).bind fun e =>
    (e.encode 2 (List.replicate 12 1) (List.replicate 56 0)).bind fun r => (r.1.encode 1 [1,0,1,1, 0,0,0,1, 1,1,0,1] r.2).bind fun q => ok q.2) = ok
      [1,0,0,0,1,1,0,1, 0,0,1,0,1,1,1,0, 1,0,1,1,1,0,0,0, 1,0,0,1,0,1,1,0, 1,0,1,0,0,0,1,1, 0,0,0,1,1,0,1,1, 0,0,1,1,0,1,0,1] := by
  decide +kernel

/-! ## C104: what is not checked -/

/-- The generator of the repetition code of 3 bits. -/
def gen31 : Gen := ⟨⟨3, 2, [1, 2, 3, 0], [-1, 0, 1, 2], [1, 1, 1]⟩, 1, [1, 1, 1]⟩

/-- Its encoder. -/
def enc31 : Enc := ⟨1, 3, 2, [1, 1, 1], [2]⟩

theorem enc31_bch : BchEnc enc31 [1, 1, 1] :=
  ⟨32, 3, 1, [], gen31, 1, 3, by decide +kernel, by decide, Galois.selectPoly_primitive (m := 2) (by omega) (by omega), by decide +kernel, rfl⟩

/-- The core built, when it is built. -/
def coreOf : Exec Core → Core
  | .ok c => c
  | _ => ⟨0, 0, false, false, [], []⟩

/-- With a row-column interleaver that reads the columns from the bottom, accepted as well, the message is lost: the encodings of the two
messages of one bit are the same. -/
theorem C104_read_order : ∃ core e, history (3 * 3 : Nat) false (genRowColumn 3 3 .bottomLeft) [] = ok core ∧ PEnc.mk? enc31 3 enc31 3 core 1 = ok e ∧
    Reach enc31 enc31 .bottomLeft e ∧
    ∀ b, b = 0 ∨ b = 1 → ∃ e', e.encode 0 [b] (List.replicate 9 0) = ok (e', List.replicate 9 0) := by
  let core := coreOf (history (3 * 3 : Nat) false (genRowColumn 3 3 .bottomLeft) [])
  have h1 : history (3 * 3 : Nat) false (genRowColumn 3 3 .bottomLeft) [] = ok core := by decide +kernel
  have hs : core.size = 9 := by decide +kernel
  obtain ⟨e, he⟩ := (C103_constructor enc31 enc31 3 3 1 core).mpr ⟨by decide, by rw [hs]; decide, .inr ⟨by rw [hs]; decide, by rw [hs]; decide, rfl, rfl⟩⟩
  have hx : ∀ b, b = 0 ∨ b = 1 → (PEnc.mk? enc31 3 enc31 3 core 1).bind (fun e => (e.encode 0 [b] (List.replicate 9 0)).bind fun r => ok (r.2, e.par, e.er.N)) =
      ok (List.replicate 9 0, 0, 3) := by
    rintro b (rfl | rfl) <;> decide +kernel
  rw [he] at hx
  have hy : ∀ b, b = 0 ∨ b = 1 → (∃ e', e.encode 0 [b] (List.replicate 9 0) = ok (e', List.replicate 9 0)) ∧ e.par = 0 ∧ e.er.N = 3 := by
    intro b hb
    have := hx b hb
    change (e.encode 0 [b] (List.replicate 9 0)).bind _ = _ at this
    obtain ⟨⟨e', c⟩, h2, h3⟩ := BCJR.bind_inv this
    injection h3 with h3
    simp only [Prod.mk.injEq] at h3
    exact ⟨⟨e', by rw [h2, h3.1]⟩, h3.2⟩
  have h0 := (hy 0 (.inl rfl)).2
  exact ⟨core, e, h1, he, .make (rows := 3) (cols := 3) (ops := []) (by simp) h1 he (by rw [h0.1, h0.2]), fun b hb => (hy b hb).1⟩

/-- The encoder announces that the message is at the first positions, whatever the codes; here bit 1 of the message is 0 and bit 1 of the
word is 1. -/
theorem C104_info_bits_pos : ∃ e e' c, Reach enc63 enc63 .topLeft e ∧ e.encode 0 [1,0,0,1,1,0,1,0,1] (List.replicate 36 0) = ok (e', c) ∧
    e.infoPos[1]? = some 1 ∧ c[1]? = some 1 := by
  let core := coreOf (history (6 * 6 : Nat) false (genRowColumn 6 6 .topLeft) [])
  have h1 : history (6 * 6 : Nat) false (genRowColumn 6 6 .topLeft) [] = ok core := by decide +kernel
  have hs : core.size = 36 := by decide +kernel
  obtain ⟨e, he⟩ := (C103_constructor enc63 enc63 6 6 1 core).mpr ⟨by decide, by rw [hs]; decide, .inr ⟨by rw [hs]; decide, by rw [hs]; decide, rfl, rfl⟩⟩
  have hx : (PEnc.mk? enc63 6 enc63 6 core 1).bind (fun e => (e.encode 0 [1,0,0,1,1,0,1,0,1] (List.replicate 36 0)).bind fun r => ok (e.infoPos[1]?, r.2[1]?, e.par, e.er.N)) =
      ok (some 1, some 1, 0, 6) := by decide +kernel
  rw [he] at hx
  change (e.encode 0 [1,0,0,1,1,0,1,0,1] (List.replicate 36 0)).bind _ = _ at hx
  obtain ⟨⟨e', c⟩, h2, h3⟩ := BCJR.bind_inv hx
  injection h3 with h3
  simp only [Prod.mk.injEq] at h3
  exact ⟨e, e', c, .make (rows := 6) (cols := 6) (ops := []) (by simp) h1 he (by rw [h3.2.2.1, h3.2.2.2]), h2, h3.1, h3.2.1⟩

end Verif.TurboProduct
