import Verif.Proof.RS
import Verif.Props.Galois

/-! # C16, C18, C19, C43: BCH and Reed–Solomon codes -/

namespace Verif.BCH
open Exec Polynomial Verif.Galois

/-! ## C18: generators -/

/-- Every field of the constructor (with a primitive polynomial) and every `t ≥ 1` gives a generator; its
polynomial is binary, monic, not constant. -/
theorem C18_bch_exists (w : Nat) (N t : Int) (p : List Nat) (gf : GF) (hgf : GF.mk? w N p = ok gf) (hw : gf.m < w)
    (hprim : Primitive gf.m (fieldPoly gf.m gf.p)) (ht : 1 ≤ t) :
    ∃ b, bchGen w N t p = ok b ∧ b.gf = gf ∧ b.t = t.toNat ∧ IsBin b.g ∧ 2 ≤ b.g.length ∧
      b.g[b.g.length - 1]? = some 1 := by
  obtain ⟨b, h1, h2, h3, h4⟩ := bchGen_sat hgf (good_of_mk hgf hw hprim) ht
  exact ⟨b, h1, h2, h3, h4.bin, h4.pos, h4.lead⟩

/-- The generator polynomial divides exactly the polynomials that vanish at `α, α², …, α^(2t)` (powers taken below
the order of `α`): it is their least common minimal polynomial. -/
theorem C18_bch_roots (w : Nat) (N t : Int) (p : List Nat) (b : Gen) (h : bchGen w N t p = ok b) (hw : b.gf.m < w)
    (hprim : Primitive b.gf.m (fieldPoly b.gf.m b.gf.p)) (f : (ZMod 2)[X]) :
    bitPoly b.g ∣ f ↔ ∀ j, 1 ≤ j → j ≤ 2 * b.t → j < b.gf.N → RootAt (fieldPoly b.gf.m b.gf.p) f j := by
  obtain ⟨_, hg⟩ := isGen_of_bchGen h hw hprim
  rw [hg.dvd]
  exact ⟨fun hh j h1 h2 h3 => hh j h1 (by omega) h3, fun hh j h1 h2 h3 => hh j h1 (by omega) h3⟩

/-- `t < 1` is rejected. -/
theorem C18_bch_rejects (w : Nat) (N t : Int) (p : List Nat) (gf : GF) (hgf : GF.mk? w N p = ok gf) (ht : t < 1) :
    bchGen w N t p = exc .invalidArgument := by
  unfold bchGen; rw [hgf, bind_ok, if_pos ht]

/-- Every field size and every `t ≥ 1` gives a Reed–Solomon generator. -/
theorem C18_rs_exists (N t : Int) (gf : GF) (hgf : GF.mk? 32 N [] = ok gf) (ht : 1 ≤ t) :
    ∃ b, rsGen N t = ok b ∧ b.gf = gf ∧ b.t = t.toNat ∧ b.g.length = 2 * t.toNat + 1 := by
  obtain ⟨b, h1, h2, h3, h4⟩ := rsGen_sat hgf (good_default hgf) ht
  exact ⟨b, h1, h2, h3, h4.len⟩

/-- The Reed–Solomon generator, stored as exponents, is `(X - α)(X - α²)…(X - α^(2t))`. -/
theorem C18_rs_roots (N t : Int) (b : RsGen) (h : rsGen N t = ok b) :
    b.g.length = 2 * b.t + 1 ∧ (∀ v ∈ b.g, v = -1 ∨ 0 ≤ v ∧ v < b.gf.N) ∧
    ∑ i ∈ Finset.range (2 * b.t + 1), C (power b.gf (b.g.getD i 0)) * X ^ i =
      ∏ i ∈ Finset.range (2 * b.t), (X - C (AdjoinRoot.root (fieldPoly b.gf.m b.gf.p) ^ (i + 1))) := by
  obtain ⟨G, hg⟩ := isRsGen_of_rsGen h
  obtain ⟨ix, q1, _, _, q4, q5⟩ := hg.vals
  refine ⟨hg.len, fun v hv => ?_, ?_⟩
  · obtain ⟨i, hi, rfl⟩ := List.mem_iff_getElem.mp hv
    rw [hg.len] at hi
    have := q1 i hi
    rw [List.getElem?_eq_some_iff] at this
    obtain ⟨_, e⟩ := this
    rw [e]
    rcases q4 i hi with h1 | ⟨k, h1, h2⟩
    · exact Or.inl h1
    · right; omega
  · refine Eq.trans ?_ q5
    unfold S
    apply Finset.sum_congr rfl
    intro i hi
    rw [List.getD_eq_getElem?_getD, q1 i (Finset.mem_range.mp hi)]
    rfl

example : bchGen 32 15 2 [] = ok ⟨⟨15, 4, [1, 2, 4, 8, 3, 6, 12, 11, 5, 10, 7, 14, 15, 13, 9, 0],
    [-1, 0, 1, 4, 2, 8, 5, 10, 3, 14, 9, 7, 6, 13, 11, 12], [1, 1, 0, 0, 1]⟩, 2, [1, 0, 0, 0, 1, 0, 1, 1, 1]⟩ := by
  decide +kernel

example : rsGen 7 1 = ok ⟨⟨7, 3, [1, 2, 4, 3, 6, 7, 5, 0], [-1, 0, 1, 3, 2, 6, 4, 5], [1, 1, 0, 1]⟩, 1, [3, 4, 0]⟩ := by
  decide +kernel

/-! ## C16: BCH encoder -/

/-- The encoder is built exactly when `0 < K ≤ N` and `N - K` is the degree of the generator; the positions it
announces are those of the information bits. -/
theorem C16_accepted (K N : Int) (gen : Gen) : (∃ e, Enc.mk? K N gen = ok e) ↔
    0 < K ∧ K ≤ N ∧ N - K = (gen.g.length : Int) - 1 := by
  constructor
  · rintro ⟨e, h⟩
    obtain ⟨h1, h2, h3, _⟩ := mk_enc h
    exact ⟨h1, h2, h3⟩
  · rintro ⟨h1, h2, h3⟩
    unfold Enc.mk?
    rw [if_neg (by omega), if_neg (by omega), if_neg (by omega), if_neg (by omega)]
    exact ⟨_, rfl⟩

/-- Encoding `K` bits gives `N` bits with the message at the announced positions, and the word is a multiple of the
generator polynomial, whatever the output buffer held. -/
theorem C16_encode (w : Nat) (M t : Int) (p : List Nat) (gen : Gen) (hgen : bchGen w M t p = ok gen) (hw : gen.gf.m < w)
    (hprim : Primitive gen.gf.m (fieldPoly gen.gf.m gen.gf.p)) (K N : Int) (e : Enc) (h : Enc.mk? K N gen = ok e)
    (u x : List Nat) (hu : u.length = K.toNat) (hub : IsBin u) (hx : x.length = N.toNat) :
    ∃ c, encode e u x = ok c ∧ c.length = N.toNat ∧ IsBin c ∧
      (∀ i, i < K.toNat → ∃ q, e.infoPos[i]? = some q ∧ c[q]? = u[i]?) ∧ bitPoly gen.g ∣ bitPoly c := by
  obtain ⟨_, hg⟩ := isGen_of_bchGen hgen hw hprim
  obtain ⟨h1, h2, h3, he⟩ := mk_enc h
  have hK : e.K = K.toNat := by rw [he]
  have hN : e.N = N.toNat := by rw [he]
  obtain ⟨c, hc, q1, q2, q3, q4⟩ := encode_sat h hg (u := u) (x := x) (by omega) hub (by omega)
  refine ⟨c, hc, by omega, q2, fun i hi => ⟨e.r + i, ?_, q3 i (by omega)⟩, q4⟩
  rw [he]
  simp only
  rw [getElem?_mapRange, if_pos hi]

/-- Encoding is linear: the encoding of a sum of messages is the sum of their encodings. -/
theorem C16_linear (w : Nat) (M t : Int) (p : List Nat) (gen : Gen) (hgen : bchGen w M t p = ok gen) (hw : gen.gf.m < w)
    (hprim : Primitive gen.gf.m (fieldPoly gen.gf.m gen.gf.p)) (K N : Int) (e : Enc) (h : Enc.mk? K N gen = ok e)
    (u v x y z cu cv : List Nat) (hu : u.length = K.toNat) (hub : IsBin u) (hv : v.length = K.toNat) (hvb : IsBin v)
    (hx : x.length = N.toNat) (hy : y.length = N.toNat) (hz : z.length = N.toNat)
    (hcu : encode e u x = ok cu) (hcv : encode e v y = ok cv) :
    encode e (List.zipWith (· ^^^ ·) u v) z = ok (List.zipWith (· ^^^ ·) cu cv) := by
  obtain ⟨_, hg⟩ := isGen_of_bchGen hgen hw hprim
  obtain ⟨h1, h2, h3, he⟩ := mk_enc h
  have hK : e.K = K.toNat := by rw [he]
  have hN : e.N = N.toNat := by rw [he]
  have hr : e.r = gen.g.length - 1 := by rw [he]
  have hpos := hg.pos
  obtain ⟨a, ha, a1, a2, a3, a4⟩ := encode_sat h hg (u := u) (x := x) (by omega) hub (by omega)
  obtain ⟨b, hb, b1, b2, b3, b4⟩ := encode_sat h hg (u := v) (x := y) (by omega) hvb (by omega)
  obtain ⟨c, hc, c1, c2, c3, c4⟩ := encode_sat h hg (u := List.zipWith (· ^^^ ·) u v) (x := z)
    (by simp; omega) (isBin_xor hub hvb) (by omega)
  rw [hcu] at ha
  rw [hcv] at hb
  injection ha with ha
  injection hb with hb
  subst ha
  subst hb
  rw [hc]
  congr 1
  refine codeword_unique hg hr (K := e.K) (by omega) (by simp; omega) c2 (isBin_xor a2 b2) ?_ c4 ?_
  · intro i hi
    rw [c3 i hi, List.getElem?_zipWith, List.getElem?_zipWith, a3 i hi, b3 i hi]
  · rw [bitPoly_xor (by omega) a2 b2]
    exact dvd_add a4 b4

/-- The codeword test accepts exactly the multiples of the generator polynomial. -/
theorem C16_is_codeword (w : Nat) (M t : Int) (p : List Nat) (gen : Gen) (hgen : bchGen w M t p = ok gen)
    (hw : gen.gf.m < w) (hprim : Primitive gen.gf.m (fieldPoly gen.gf.m gen.gf.p)) (K N : Int) (e : Enc)
    (h : Enc.mk? K N gen = ok e) (x bb : List Nat) (hx : x.length = N.toNat) (hxb : IsBin x)
    (hbb : bb.length = gen.g.length - 1) :
    ∃ b, isCodeword e x bb = ok b ∧ (b = true ↔ bitPoly gen.g ∣ bitPoly x) := by
  obtain ⟨_, hg⟩ := isGen_of_bchGen hgen hw hprim
  obtain ⟨h1, h2, h3, he⟩ := mk_enc h
  have hr : e.r = gen.g.length - 1 := by rw [he]
  have hN : e.N = N.toNat := by rw [he]
  exact isCodeword_sat h hg (by omega) hxb (by omega)

/-- The test in terms of syndromes: a word is accepted exactly when its value at each of `α, …, α^(2t)` is zero. -/
theorem C16_is_codeword_syndromes (w : Nat) (M t : Int) (p : List Nat) (gen : Gen) (hgen : bchGen w M t p = ok gen)
    (hw : gen.gf.m < w) (hprim : Primitive gen.gf.m (fieldPoly gen.gf.m gen.gf.p)) (ht : 2 * gen.t < gen.gf.N)
    (K N : Int) (e : Enc) (h : Enc.mk? K N gen = ok e) (x bb : List Nat) (hx : x.length = N.toNat) (hxb : IsBin x)
    (hbb : bb.length = gen.g.length - 1) :
    ∃ b, isCodeword e x bb = ok b ∧ (b = true ↔ ∀ j, 1 ≤ j → j ≤ 2 * gen.t → syndrome gen.gf x j = 0) := by
  obtain ⟨b, hb, hiff⟩ := C16_is_codeword w M t p gen hgen hw hprim K N e h x bb hx hxb hbb
  refine ⟨b, hb, hiff.trans ?_⟩
  obtain ⟨G, _⟩ := isGen_of_bchGen hgen hw hprim
  rw [C18_bch_roots w M t p gen hgen hw hprim]
  have hm : 0 < gen.gf.m := by have := G.hm; omega
  constructor
  · intro hh j h1 h2
    have := hh j h1 h2 (by omega)
    rw [rootAt_iff, aeval_bitPoly hm hxb] at this
    exact this
  · intro hh j h1 h2 _
    rw [rootAt_iff, aeval_bitPoly hm hxb]
    exact hh j h1 h2

/-- The generator used in the examples. -/
def gen15 : Gen := ⟨⟨15, 4, [1, 2, 4, 8, 3, 6, 12, 11, 5, 10, 7, 14, 15, 13, 9, 0],
    [-1, 0, 1, 4, 2, 8, 5, 10, 3, 14, 9, 7, 6, 13, 11, 12], [1, 1, 0, 0, 1]⟩, 2, [1, 0, 0, 0, 1, 0, 1, 1, 1]⟩

example : ∃ e, bchGen 32 15 2 [] = ok gen15 ∧ gen15.gf.m < 32 ∧
    Primitive gen15.gf.m (fieldPoly gen15.gf.m gen15.gf.p) ∧ 2 * gen15.t < gen15.gf.N ∧ Enc.mk? 7 15 gen15 = ok e ∧
    encode e [1, 0, 1, 1, 0, 0, 1] (List.replicate 15 7) = ok [0, 1, 0, 0, 0, 0, 1, 1, 1, 0, 1, 1, 0, 0, 1] ∧
    isCodeword e [0, 1, 0, 0, 0, 0, 1, 1, 1, 0, 1, 1, 0, 0, 1] (List.replicate 8 0) = ok true ∧
    isCodeword e [0, 1, 0, 0, 0, 1, 1, 1, 1, 0, 1, 1, 0, 0, 1] (List.replicate 8 0) = ok false :=
  ⟨⟨7, 15, 8, [1, 0, 0, 0, 1, 0, 1, 1, 1], [8, 9, 10, 11, 12, 13, 14]⟩, by decide +kernel, by decide,
    selectPoly_primitive (m := 4) (by omega) (by omega), by decide, by decide +kernel, by decide +kernel,
    by decide +kernel, by decide +kernel⟩

/-- A shortened code: `(11, 3)` with the same generator. -/
example : ∃ e, Enc.mk? 3 11 gen15 = ok e := ⟨_, rfl⟩

/-! ## C19: Reed–Solomon encoder -/

/-- Full-length Reed–Solomon encoding: the message bits come after the `2t` parity symbols, the parity is made of
bits, and the word of symbols vanishes at `α, …, α^(2t)`, whatever the output buffer held. -/
theorem C19_encode (w : Nat) (M t : Int) (gen : RsGen) (hgen : rsGen M t = ok gen) (K N : Int) (e : RsEnc)
    (h : RsEnc.mk? w K N gen = ok e) (hfull : N = gen.gf.N) (hw : gen.gf.m < w) (u x : List Int)
    (hu : u.length = K.toNat * gen.gf.m) (hx : x.length = N.toNat * gen.gf.m) :
    ∃ c, rsEncode w e u x = ok c ∧ c.length = N.toNat * gen.gf.m ∧
      (∀ i, i < K.toNat * gen.gf.m → c[2 * gen.t * gen.gf.m + i]? = u[i]?) ∧
      (∀ i, i < 2 * gen.t * gen.gf.m → c[i]? = some 0 ∨ c[i]? = some 1) ∧
      ∀ j, 1 ≤ j → j ≤ 2 * gen.t → syndrome gen.gf ((List.range N.toNat).map (symbolAt gen.gf.m c)) j = 0 := by
  obtain ⟨G, hg⟩ := isRsGen_of_rsGen hgen
  obtain ⟨h1, h2, h3, h4, he⟩ := mk_rsEnc h (by have := G.hm; omega)
  have hK : e.K = K.toNat := by rw [he]
  have hN : e.N = N.toNat := by rw [he]
  have hgf : e.gf = gen.gf := by rw [he]
  have hr : e.r = 2 * gen.t := by rw [he]; simp only; have := hg.len; omega
  obtain ⟨c, hc, q1, q2, q3, q4⟩ := rsEncode_sat h G hg (by rw [hN, hgf, hfull]; rfl) (by rw [hgf]; exact hw)
    (u := u) (x := x) (by rw [hK, hgf]; exact hu) (by rw [hN, hgf]; exact hx)
  rw [hgf, hr] at q2 q3
  rw [hgf] at q1 q4
  rw [hN] at q1 q4
  rw [hK] at q2
  exact ⟨c, hc, q1, q2, q3, q4⟩

/-- The full-length Reed–Solomon codeword test accepts exactly the words whose symbols vanish at `α, …, α^(2t)`. -/
theorem C19_is_codeword (w : Nat) (M t : Int) (gen : RsGen) (hgen : rsGen M t = ok gen) (K N : Int) (e : RsEnc)
    (h : RsEnc.mk? w K N gen = ok e) (hfull : N = gen.gf.N) (hw : gen.gf.m < w) (x : List Int)
    (hx : x.length = N.toNat * gen.gf.m) :
    ∃ b, rsIsCodeword w e x = ok b ∧ (b = true ↔
      ∀ j, 1 ≤ j → j ≤ 2 * gen.t → syndrome gen.gf ((List.range N.toNat).map (symbolAt gen.gf.m x)) j = 0) := by
  obtain ⟨G, hg⟩ := isRsGen_of_rsGen hgen
  obtain ⟨h1, h2, h3, h4, he⟩ := mk_rsEnc h (by have := G.hm; omega)
  have hN : e.N = N.toNat := by rw [he]
  have hgf : e.gf = gen.gf := by rw [he]
  have := rsIsCodeword_sat h G hg (by rw [hN, hgf, hfull]; rfl) (by rw [hgf]; exact hw)
    (x := x) (by rw [hN, hgf]; exact hx)
  rw [hgf, hN] at this
  exact this

/-- The generator used in the examples. -/
def gen7 : RsGen := ⟨⟨7, 3, [1, 2, 4, 3, 6, 7, 5, 0], [-1, 0, 1, 3, 2, 6, 4, 5], [1, 1, 0, 1]⟩, 1, [3, 4, 0]⟩

/-- The full-length encoder of the examples. -/
def enc7 : RsEnc := ⟨5, 7, gen7.gf, 2, [3, 4, 0], [2, 3, 4, 5, 6, 7, 8, 9, 10, 11, 12, 13, 14, 15, 16]⟩

example : rsGen 7 1 = ok gen7 ∧ gen7.gf.m < 32 ∧ RsEnc.mk? 32 5 7 gen7 = ok enc7 ∧
    rsEncode 32 enc7 [1,0,1, 0,1,1, 0,0,0, 1,1,1, 0,1,0] (List.replicate 21 9) =
      ok [1,1,0, 1,0,0, 1,0,1, 0,1,1, 0,0,0, 1,1,1, 0,1,0] ∧
    rsIsCodeword 32 enc7 [1,1,0, 1,0,0, 1,0,1, 0,1,1, 0,0,0, 1,1,1, 0,1,0] = ok true ∧
    rsIsCodeword 32 enc7 [1,1,0, 1,0,1, 1,0,1, 0,1,1, 0,0,0, 1,1,1, 0,1,0] = ok false := by decide +kernel

/-- The positions announced for the information bits are wrong as soon as `m > 1`: they start at `2t` (a number of
symbols) where the message starts at `2t·m` (a number of bits). -/
theorem C19_info_positions_wrong : ∃ u c, rsEncode 32 enc7 u (List.replicate 21 0) = ok c ∧ u.length = 15 ∧
    RsEnc.mk? 32 5 7 gen7 = ok enc7 ∧ ∃ i q, i < 15 ∧ enc7.infoPos[i]? = some q ∧ c[q]? ≠ u[i]? :=
  ⟨[0,0,0, 0,0,0, 0,0,0, 0,0,0, 0,0,1], [1,1,0, 1,0,1, 0,0,0, 0,0,0, 0,0,0, 0,0,0, 0,0,1], by decide +kernel, rfl, by decide +kernel, 14, 16, by decide, rfl, by decide⟩

/-- A shortened encoder (6 symbols over GF(8)) is accepted; it reduces exponents modulo 6 instead of 7 and its
words are not codewords. -/
theorem C19_shortened_wrong : ∃ e u c, RsEnc.mk? 32 4 6 gen7 = ok e ∧ u.length = 12 ∧
    rsEncode 32 e u (List.replicate 18 0) = ok c ∧
    syndrome gen7.gf ((List.range 6).map (symbolAt 3 c)) 1 ≠ 0 := by
  refine ⟨⟨4, 6, gen7.gf, 2, [3, 4, 0], [2, 3, 4, 5, 6, 7, 8, 9, 10, 11, 12, 13]⟩,
    [0,0,1, 0,0,0, 0,0,0, 0,0,0], [1,1,1, 1,0,0, 0,0,1, 0,0,0, 0,0,0, 0,0,0], by decide +kernel, rfl, by decide +kernel, ?_⟩
  rw [syndrome_num (by decide) (by decide), ← el_zero]
  intro h
  exact absurd (el_inj (by decide +kernel) (by decide) h) (by decide +kernel)

/-- A field as wide as the element type passes every check of the constructors, and encoding a message with a
symbol whose top bit is set indexes a table with a negative number. -/
theorem C19_full_width_ub (w : Nat) (M t : Int) (gen : RsGen) (hgen : rsGen M t = ok gen) (K N : Int) (e : RsEnc)
    (h : RsEnc.mk? w K N gen = ok e) (hw : gen.gf.m = w) (u x : List Int) (hu : u.length = K.toNat * w) (s : Nat)
    (hs : s < K.toNat) (hbig : 2 ^ (w - 1) ≤ symbolAt w u s) : rsEncode w e u x = ub := by
  obtain ⟨G, hg⟩ := isRsGen_of_rsGen hgen
  have hm := G.hm
  obtain ⟨_, _, _, _, he⟩ := mk_rsEnc h (by omega)
  have hK : e.K = K.toNat := by rw [he]
  have hgf : e.gf = gen.gf := by rw [he]
  exact rsEncode_ub (by rw [hgf]; omega) (by rw [hgf]; exact hw) (by rw [hK, hgf, hw]; exact hu) (by omega) hbig

/-- The usual code of 255 bytes is in that case with 8-bit values. -/
example : ∃ gen e u, rsGen 255 16 = ok gen ∧ RsEnc.mk? 8 223 255 gen = ok e ∧ gen.gf.m = 8 ∧
    u.length = (223 : Int).toNat * 8 ∧ 2 ^ (8 - 1) ≤ symbolAt 8 u 0 := by
  obtain ⟨gf, h1, h2, _⟩ := C17_default 32 8 (by omega) (by omega) (by omega) 255 (by decide)
  obtain ⟨gen, h3, h4, _, h5⟩ := C18_rs_exists 255 16 gf h1 (by decide)
  have hm : gen.gf.m = 8 := by rw [h4, h2]
  have hl : gen.g.length = 33 := h5
  have he : RsEnc.mk? 8 223 255 gen = ok ⟨223, 255, gen.gf, gen.g.length - 1, gen.g,
      (List.range (223 * gen.gf.m)).map (gen.g.length - 1 + ·)⟩ := by
    unfold RsEnc.mk?
    simp only
    rw [hm, hl, if_neg (by decide), if_neg (by decide), if_neg (by decide), if_neg (by decide), if_neg (by decide)]
    rfl
  exact ⟨gen, _, List.replicate ((223 : Int).toNat * 8) 1, h3, he, hm, List.length_replicate, by decide +kernel⟩

/-! ## C43: minimum distance -/

/-- Two different binary words of the length of the code (at most `2^m - 1`) that pass the BCH codeword test differ
in at least `2t + 1` positions. -/
theorem C43_bch (w : Nat) (M t : Int) (p : List Nat) (gen : Gen) (hgen : bchGen w M t p = ok gen)
    (hw : gen.gf.m < w) (hprim : Primitive gen.gf.m (fieldPoly gen.gf.m gen.gf.p)) (ht : 2 * gen.t < gen.gf.N)
    (K N : Int) (e : Enc) (h : Enc.mk? K N gen = ok e) (hN : N ≤ gen.gf.N) (x y bx by' : List Nat)
    (hx : x.length = N.toNat) (hxb : IsBin x) (hy : y.length = N.toNat) (hyb : IsBin y)
    (hbx : bx.length = gen.g.length - 1) (hby : by'.length = gen.g.length - 1)
    (hcx : isCodeword e x bx = ok true) (hcy : isCodeword e y by' = ok true) (hne : x ≠ y) :
    2 * gen.t + 1 ≤ hamming x y := by
  obtain ⟨G, _⟩ := isGen_of_bchGen hgen hw hprim
  have hm : 0 < gen.gf.m := by have := G.hm; omega
  obtain ⟨b, hb, h1⟩ := C16_is_codeword_syndromes w M t p gen hgen hw hprim ht K N e h x bx hx hxb hbx
  obtain ⟨b', hb', h2⟩ := C16_is_codeword_syndromes w M t p gen hgen hw hprim ht K N e h y by' hy hyb hby
  rw [hcx] at hb
  rw [hcy] at hb'
  injection hb with hb
  injection hb' with hb'
  have h1 := h1.mp hb.symm
  have h2 := h2.mp hb'.symm
  refine distance G (n := N.toNat) (by omega) hx hy (val := el gen.gf.m gen.gf.p) (hx ▸ vals_getD x) (hy ▸ vals_getD y)
    ?_ ?_ hne
  · intro i hi e
    have lt : ∀ a, a = 0 ∨ a = 1 → a < 2 ^ gen.gf.m := by
      intro a ha
      have : 2 ^ 1 ≤ 2 ^ gen.gf.m := Nat.pow_le_pow_right (by omega) hm
      omega
    exact el_inj (lt _ (bin_getD hxb (i + 1) i (by omega))) (lt _ (bin_getD hyb (i + 1) i (by omega))) e
  · intro j hj1 hj2
    have e1 := h1 j hj1 (by omega)
    have e2 := h2 j hj1 (by omega)
    rw [syndrome_eq, hx] at e1
    rw [syndrome_eq, hy] at e2
    rw [e1, e2]

/-- Two words that pass the full-length Reed–Solomon test and differ in a symbol differ in at least `2t + 1`
symbols. -/
theorem C43_rs (w : Nat) (M t : Int) (gen : RsGen) (hgen : rsGen M t = ok gen) (K N : Int) (e : RsEnc)
    (h : RsEnc.mk? w K N gen = ok e) (hfull : N = gen.gf.N) (hw : gen.gf.m < w) (x y : List Int)
    (hx : x.length = N.toNat * gen.gf.m) (hy : y.length = N.toNat * gen.gf.m)
    (hcx : rsIsCodeword w e x = ok true) (hcy : rsIsCodeword w e y = ok true)
    (hne : (List.range N.toNat).map (symbolAt gen.gf.m x) ≠ (List.range N.toNat).map (symbolAt gen.gf.m y)) :
    2 * gen.t + 1 ≤ hamming ((List.range N.toNat).map (symbolAt gen.gf.m x))
      ((List.range N.toNat).map (symbolAt gen.gf.m y)) := by
  obtain ⟨G, _⟩ := isRsGen_of_rsGen hgen
  obtain ⟨b, hb, h1⟩ := C19_is_codeword w M t gen hgen K N e h hfull hw x hx
  obtain ⟨b', hb', h2⟩ := C19_is_codeword w M t gen hgen K N e h hfull hw y hy
  rw [hcx] at hb
  rw [hcy] at hb'
  injection hb with hb
  injection hb' with hb'
  have h1 := h1.mp hb.symm
  have h2 := h2.mp hb'.symm
  have vm : ∀ z : List Int, Vals ((List.range N.toNat).map (symbolAt gen.gf.m z)) N.toNat (symbolAt gen.gf.m z) := by
    intro z i hi
    rw [getElem?_mapRange, if_pos hi]
  refine distance G (n := N.toNat) (by omega) (by simp) (by simp) (val := el gen.gf.m gen.gf.p) (vm x) (vm y) ?_ ?_ hne
  · intro i hi e
    exact el_inj (symbolAt_lt _ _ _) (symbolAt_lt _ _ _) e
  · intro j hj1 hj2
    have e1 := h1 j hj1 (by omega)
    have e2 := h2 j hj1 (by omega)
    rw [syndrome_map] at e1 e2
    rw [e1, e2]

end Verif.BCH
