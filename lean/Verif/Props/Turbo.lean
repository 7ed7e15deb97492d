import Verif.Proof.Turbo

/-! # C94: turbo encoders

`C94_encode` and `C94_is_codeword` hold after any sequence of calls of the encoder, with an interleaver reached by any sequence of
operations. -/

namespace Verif.Turbo
open Exec Verif.RSC Verif.Interleaver

/-- A call of a turbo encoder: a frame of index `f` is encoded into the buffer `x`, or a word is checked. -/
inductive Call where
  | encode (f : Nat) (u x : List Int)
  | isCodeword (x : List Int)

/-- Admissible calls: message of `K` bits, word of `N` elements whose systematic part, read with `sys`, is binary. -/
def Call.Valid (K N nf : Nat) (sys : Nat → Nat) : Call → Prop
  | .encode f u x => f < nf ∧ u.length = K ∧ IsBits u ∧ x.length = N
  | .isCodeword x => x.length = N ∧ ∀ k, k < K → x[sys k]? = some 0 ∨ x[sys k]? = some 1

def TEnc.call (e : TEnc) : Call → Exec TEnc
  | .encode f u x => do let r ← e.encode f u x; ok r.1
  | .isCodeword x => do let r ← e.isCodeword x; ok r.1

def LEnc.call (e : LEnc) : Call → Exec LEnc
  | .encode f u x => do let r ← e.encode f u x; ok r.1
  | .isCodeword x => do let r ← e.isCodeword x; ok r.1

/-- Systematic positions of the interlaced layout. -/
def sys3 (k : Nat) : Nat := 3 * k

/-- **C94**: the permutation used for frame `f` is a permutation of the `K` indices, whatever operations were applied to the interleaver. -/
theorem C94_permutation {K : Nat} {uniform : Bool} {gen : GenLut} {ops : List Op} {core : Core} (hs : 0 < K) (hgen : ValidGen K gen)
    (hops : OpsValid K ops) (hc : history K uniform gen ops = ok core) (f : Nat) :
    (∀ i, i < K → perm core f i < K) ∧ ∀ i j, i < K → j < K → perm core f i = perm core f j → i = j := by
  obtain ⟨ρ, h⟩ := itlOk (nf := f + 1) hs hgen hops hc (Nat.lt_succ_self f)
  refine ⟨h.lt, fun i j hi hj hij => ?_⟩
  rw [← h.inv' i hi, ← h.inv' j hj, hij]

theorem trun {cn ci : Code} {K nf : Nat} {core : Core} (hp : ∀ f, f < nf → ∃ ρ, ItlOk core nf f K (perm core f) ρ) (hn : 0 < nf) :
    ∀ (cs : List Call) (e : TEnc), TInv e cn ci K nf core → (∀ c ∈ cs, c.Valid K e.N nf id) →
      ∃ e', cs.foldlM TEnc.call e = ok e' ∧ TInv e' cn ci K nf core := by
  intro cs
  induction cs with
  | nil => exact fun e he _ => ⟨e, rfl, he⟩
  | cons c cs ih =>
    intro e he hv
    have hc := hv c (List.mem_cons_self ..)
    have hstep : ∃ e', e.call c = ok e' ∧ TInv e' cn ci K nf core := by
      cases c with
      | encode f u x =>
        obtain ⟨ρ, hρ⟩ := hp f hc.1
        obtain ⟨r, hr, h⟩ := tencode_sat he hρ hc.2.1 hc.2.2.1 hc.2.2.2
        exact ⟨r.1, by simp only [TEnc.call]; rw [hr, bind_ok], h.1⟩
      | isCodeword x =>
        obtain ⟨ρ, hρ⟩ := hp 0 hn
        obtain ⟨r, hr, h⟩ := tisc_sat he hρ hc.1 hc.2
        exact ⟨r.1, by simp only [TEnc.call]; rw [hr, bind_ok], h.1⟩
    obtain ⟨e1, h1, h2⟩ := hstep
    obtain ⟨e2, h3, h4⟩ := ih e1 h2 (fun c' hc' => by rw [h2.hN, ← he.hN]; exact hv c' (List.mem_cons_of_mem _ hc'))
    exact ⟨e2, by rw [List.foldlM_cons, h1]; exact h3, h4⟩

theorem lrun {c : Code} {K nf : Nat} {core : Core} (hp : ∀ f, f < nf → ∃ ρ, ItlOk core nf f K (perm core f) ρ) (hn : 0 < nf) :
    ∀ (cs : List Call) (e : LEnc), LInv e c K nf core → (∀ c ∈ cs, c.Valid K e.N nf sys3) →
      ∃ e', cs.foldlM LEnc.call e = ok e' ∧ LInv e' c K nf core := by
  intro cs
  induction cs with
  | nil => exact fun e he _ => ⟨e, rfl, he⟩
  | cons c0 cs ih =>
    intro e he hv
    have hc := hv c0 (List.mem_cons_self ..)
    have hstep : ∃ e', e.call c0 = ok e' ∧ LInv e' c K nf core := by
      cases c0 with
      | encode f u x =>
        obtain ⟨ρ, hρ⟩ := hp f hc.1
        obtain ⟨r, hr, h⟩ := lencode_sat he hρ hc.2.1 hc.2.2.1 hc.2.2.2
        exact ⟨r.1, by simp only [LEnc.call]; rw [hr, bind_ok], h.1⟩
      | isCodeword x =>
        obtain ⟨ρ, hρ⟩ := hp 0 hn
        obtain ⟨r, hr, h⟩ := lisc_sat he hρ hc.1 hc.2
        exact ⟨r.1, by simp only [LEnc.call]; rw [hr, bind_ok], h.1⟩
    obtain ⟨e1, h1, h2⟩ := hstep
    obtain ⟨e2, h3, h4⟩ := ih e1 h2 (fun c' hc' => by rw [h2.hN, ← he.hN]; exact hv c' (List.mem_cons_of_mem _ hc'))
    exact ⟨e2, by rw [List.foldlM_cons, h1]; exact h3, h4⟩

/-- The convolutional code of polynomials `g0` (feedback) and `g1`. -/
def code (g0 g1 : Nat) : Code := ⟨g0.log2, g0, g1⟩

/-- **C94**, codewords: with two convolutional encoders of `K` bits in the buffered layout, a turbo encoder that constructs encodes, after
any sequence of calls, any message of `K` bits as the turbo codeword whose first `K` elements are the message. -/
theorem C94_encode {K nf : Nat} {N Nn Ni : Int} {gn0 gn1 gi0 gi1 : Nat} {en ei : Enc} {uniform : Bool} {gen : GenLut} {ops : List Op} {core : Core}
    {e : TEnc} (hen : genericEnc K Nn true [gn0, gn1] = ok en) (hei : genericEnc K Ni true [gi0, gi1] = ok ei) (hgen : ValidGen K gen)
    (hops : OpsValid K ops) (hc : history K uniform gen ops = ok core) (he : TEnc.mk? K N en ei core nf = ok e)
    {cs : List Call} (hcs : ∀ c ∈ cs, c.Valid K e.N nf id) {f : Nat} (hf : f < nf) {u x : List Int} (hu : u.length = K) (hb : IsBits u)
    (hx : x.length = e.N) :
    ∃ e1 e2 y, cs.foldlM TEnc.call e = ok e1 ∧ e1.encode f u x = ok (e2, y) ∧ IsTurbo (code gn0 gn1) (code gi0 gi1) K (perm core f) y ∧
      y.length = e.N ∧ ∀ k, k < K → y[k]? = u[k]? := by
  have hn := encOk hen
  obtain ⟨hi, hN, _⟩ := tmk_inv hn (encOk hei) he
  obtain ⟨e1, h1, i1⟩ := trun (fun f hf => itlOk hn.pos hgen hops hc hf) (by omega) cs e hi hcs
  obtain ⟨ρ, hρ⟩ := itlOk hn.pos hgen hops hc hf
  obtain ⟨r, hr, h⟩ := tencode_sat i1 hρ hu hb (by rw [i1.hN, ← hi.hN]; exact hx)
  exact ⟨e1, r.1, r.2, h1, hr, h.2.2.1, by rw [h.2.1, i1.hN, hi.hN], h.2.2.2⟩

/-- **C94**, membership: `is_codeword` accepts exactly the turbo codewords of the permutation of frame 0. -/
theorem C94_is_codeword {K nf : Nat} {N Nn Ni : Int} {gn0 gn1 gi0 gi1 : Nat} {en ei : Enc} {uniform : Bool} {gen : GenLut} {ops : List Op}
    {core : Core} {e : TEnc} (hen : genericEnc K Nn true [gn0, gn1] = ok en) (hei : genericEnc K Ni true [gi0, gi1] = ok ei)
    (hgen : ValidGen K gen) (hops : OpsValid K ops) (hc : history K uniform gen ops = ok core) (he : TEnc.mk? K N en ei core nf = ok e)
    {cs : List Call} (hcs : ∀ c ∈ cs, c.Valid K e.N nf id) (hnf : 0 < nf) {x : List Int} (hx : x.length = e.N)
    (hb : ∀ k, k < K → x[k]? = some 0 ∨ x[k]? = some 1) :
    ∃ e1 e2 r, cs.foldlM TEnc.call e = ok e1 ∧ e1.isCodeword x = ok (e2, r) ∧
      (r = true ↔ IsTurbo (code gn0 gn1) (code gi0 gi1) K (perm core 0) x) := by
  have hn := encOk hen
  obtain ⟨hi, hN, _⟩ := tmk_inv hn (encOk hei) he
  obtain ⟨e1, h1, i1⟩ := trun (fun f hf => itlOk hn.pos hgen hops hc hf) hnf cs e hi hcs
  obtain ⟨ρ, hρ⟩ := itlOk hn.pos hgen hops hc hnf
  obtain ⟨r, hr, h⟩ := tisc_sat i1 hρ (by rw [i1.hN, ← hi.hN]; exact hx) hb
  exact ⟨e1, r.1, r.2, h1, hr, h.2⟩

/-- **C94**, interlaced layout: with a convolutional encoder of `K` bits in the interlaced layout. -/
theorem C94_encode_interlaced {K nf : Nat} {N Ns : Int} {g0 g1 : Nat} {es : Enc} {uniform : Bool} {gen : GenLut} {ops : List Op} {core : Core}
    {e : LEnc} (hes : genericEnc K Ns false [g0, g1] = ok es) (hgen : ValidGen K gen) (hops : OpsValid K ops)
    (hc : history K uniform gen ops = ok core) (he : LEnc.mk? K N es core nf = ok e) {cs : List Call}
    (hcs : ∀ c ∈ cs, c.Valid K e.N nf sys3) {f : Nat} (hf : f < nf) {u x : List Int} (hu : u.length = K) (hb : IsBits u) (hx : x.length = e.N) :
    ∃ e1 e2 y, cs.foldlM LEnc.call e = ok e1 ∧ e1.encode f u x = ok (e2, y) ∧ IsTurboInterlaced (code g0 g1) K (perm core f) y ∧
      ∀ k, k < K → y[3 * k]? = u[k]? := by
  have hn := encOk hes
  obtain ⟨hi, hN, _⟩ := lmk_inv hn he
  obtain ⟨e1, h1, i1⟩ := lrun (fun f hf => itlOk hn.pos hgen hops hc hf) (by omega) cs e hi hcs
  obtain ⟨ρ, hρ⟩ := itlOk hn.pos hgen hops hc hf
  obtain ⟨r, hr, h⟩ := lencode_sat i1 hρ hu hb (by rw [i1.hN, ← hi.hN]; exact hx)
  exact ⟨e1, r.1, r.2, h1, hr, h.2.2.1, h.2.2.2⟩

/-- **C94**, interlaced layout: membership. -/
theorem C94_is_codeword_interlaced {K nf : Nat} {N Ns : Int} {g0 g1 : Nat} {es : Enc} {uniform : Bool} {gen : GenLut} {ops : List Op} {core : Core}
    {e : LEnc} (hes : genericEnc K Ns false [g0, g1] = ok es) (hgen : ValidGen K gen) (hops : OpsValid K ops)
    (hc : history K uniform gen ops = ok core) (he : LEnc.mk? K N es core nf = ok e) {cs : List Call}
    (hcs : ∀ c ∈ cs, c.Valid K e.N nf sys3) (hnf : 0 < nf) {x : List Int} (hx : x.length = e.N)
    (hb : ∀ k, k < K → x[3 * k]? = some 0 ∨ x[3 * k]? = some 1) :
    ∃ e1 e2 r, cs.foldlM LEnc.call e = ok e1 ∧ e1.isCodeword x = ok (e2, r) ∧ (r = true ↔ IsTurboInterlaced (code g0 g1) K (perm core 0) x) := by
  have hn := encOk hes
  obtain ⟨hi, hN, _⟩ := lmk_inv hn he
  obtain ⟨e1, h1, i1⟩ := lrun (fun f hf => itlOk hn.pos hgen hops hc hf) hnf cs e hi hcs
  obtain ⟨ρ, hρ⟩ := itlOk hn.pos hgen hops hc hnf
  obtain ⟨r, hr, h⟩ := lisc_sat i1 hρ (by rw [i1.hN, ← hi.hN]; exact hx) hb
  exact ⟨e1, r.1, r.2, h1, hr, h.2⟩

theorem pair_unique {bf : Bool} {cn ci : Code} {K : Nat} {π : Nat → Nat} {xn xi yn yi : List Int} (hm : 0 < cn.m) (hg : cn.g0.testBit cn.m = true)
    (hm' : 0 < ci.m) (hg' : ci.g0.testBit ci.m = true) (hπ : ∀ k, k < K → π k < K) (hx : Pair bf cn ci K π xn xi) (hy : Pair bf cn ci K π yn yi)
    (h : ∀ k, k < K → xn[sysPos bf k]? = yn[sysPos bf k]?) : xn = yn ∧ xi = yi := by
  refine ⟨codeword_unique hm hg hx.1 hy.1 h, codeword_unique hm' hg' hx.2.1 hy.2.1 fun k hk => ?_⟩
  rw [hx.2.2 k hk, hy.2.2 k hk, h _ (hπ k hk)]

/-- **C94**, uniqueness: a turbo codeword is determined by its message, so that the codeword of `C94_encode` is the only one. -/
theorem C94_unique {cn ci : Code} {K : Nat} {π : Nat → Nat} {x y : List Int} (hm : 0 < cn.m) (hg : cn.g0.testBit cn.m = true) (hm' : 0 < ci.m)
    (hg' : ci.g0.testBit ci.m = true) (hπ : ∀ k, k < K → π k < K) (hx : IsTurbo cn ci K π x) (hy : IsTurbo cn ci K π y)
    (h : ∀ k, k < K → x[k]? = y[k]?) : x = y := by
  obtain ⟨xn, xi, px, rfl⟩ := hx
  obtain ⟨yn, yi, py, rfl⟩ := hy
  have lx := px.1.1
  have ly := py.1.1
  obtain ⟨h1, h2⟩ := pair_unique hm hg hm' hg' hπ px py fun k hk => by
    have := h k hk
    rw [List.getElem?_append_left (by omega), List.getElem?_append_left (by omega)] at this
    simpa [sysPos] using this
  rw [h1, h2]

/-- **C94**, uniqueness in the interlaced layout. -/
theorem C94_unique_interlaced {c : Code} {K : Nat} {π : Nat → Nat} {x y : List Int} (hm : 0 < c.m) (hg : c.g0.testBit c.m = true)
    (hπ : ∀ k, k < K → π k < K) (hx : IsTurboInterlaced c K π x) (hy : IsTurboInterlaced c K π y) (h : ∀ k, k < K → x[3 * k]? = y[3 * k]?) :
    x = y := by
  obtain ⟨xn, xi, px, lx, a1, a2⟩ := hx
  obtain ⟨yn, yi, py, ly, b1, b2⟩ := hy
  obtain ⟨rfl, rfl⟩ := pair_unique hm hg hm hg hπ px py fun k hk => by
    have := h k hk
    rw [(a1 k hk).1, (b1 k hk).1] at this
    exact this
  apply List.ext_getElem?
  intro j
  by_cases hj : j < 3 * K
  · have e : j % 3 = 0 ∨ j % 3 = 1 ∨ j % 3 = 2 := by omega
    have hk : j / 3 < K := by omega
    rcases e with e | e | e
    · rw [show j = 3 * (j / 3) by omega, (a1 _ hk).1, (b1 _ hk).1]
    · rw [show j = 3 * (j / 3) + 1 by omega, (a1 _ hk).2.1, (b1 _ hk).2.1]
    · rw [show j = 3 * (j / 3) + 2 by omega, (a1 _ hk).2.2, (b1 _ hk).2.2]
  · by_cases h1 : j < 3 * K + 2 * c.m
    · obtain ⟨i, rfl⟩ : ∃ i, j = 3 * K + i := ⟨j - 3 * K, by omega⟩
      rw [(a2 i (by omega)).1, (b2 i (by omega)).1]
    · by_cases h2 : j < 3 * K + 4 * c.m
      · obtain ⟨i, rfl⟩ : ∃ i, j = 3 * K + 2 * c.m + i := ⟨j - (3 * K + 2 * c.m), by omega⟩
        rw [(a2 i (by omega)).2, (b2 i (by omega)).2]
      · rw [List.getElem?_eq_none (by omega), List.getElem?_eq_none (by omega)]

/-- **C94**, linearity: the turbo codewords of a permutation are closed under exclusive or. -/
theorem C94_linear {cn ci : Code} {K : Nat} {π : Nat → Nat} {x y : List Int} (hx : IsTurbo cn ci K π x) (hy : IsTurbo cn ci K π y) :
    IsTurbo cn ci K π (List.zipWith xorI x y) := by
  obtain ⟨xn, xi, px, rfl⟩ := hx
  obtain ⟨yn, yi, py, rfl⟩ := hy
  refine ⟨_, _, ⟨codeword_xor px.1 py.1, codeword_xor px.2.1 py.2.1, fun k hk => ?_⟩, ?_⟩
  · rw [List.getElem?_zipWith, List.getElem?_zipWith, px.2.2 k hk, py.2.2 k hk]
  · rw [List.zipWith_append (by rw [px.1.1, py.1.1]), List.drop_zipWith]

/-- **C94**, construction: with convolutional encoders of `K` bits, an encoder is constructed exactly when the size is `3 K` plus the
two tails and the interleaver has `K` elements. -/
theorem C94_constructor {K nf : Nat} {N Nn Ni : Int} {bf : Bool} {gn0 gn1 gi0 gi1 : Nat} {en ei : Enc} (core : Core)
    (hen : genericEnc K Nn bf [gn0, gn1] = ok en) (hei : genericEnc K Ni bf [gi0, gi1] = ok ei) :
    (∃ e, TEnc.mk? K N en ei core nf = ok e) ↔ N = 3 * K + 2 * gn0.log2 + 2 * gi0.log2 ∧ core.size = K := by
  have hn := encOk hen
  have hi := encOk hei
  have e1 : en.mch.nff = gn0.log2 := hn.nff
  have e2 : ei.mch.nff = gi0.log2 := hi.nff
  have hK := hn.pos
  unfold TEnc.mk? tail
  rw [e1, e2]
  constructor
  · rintro ⟨e, h⟩
    split at h
    · cases h
    split at h
    · cases h
    split at h
    · cases h
    split at h
    · cases h
    split at h
    · cases h
    push_cast at *
    omega
  · rintro ⟨h1, h2⟩
    rw [if_neg (by omega), if_neg (by omega), if_neg (by omega), if_neg (by push_cast; omega), if_neg (by omega)]
    exact ⟨_, rfl⟩

/-- The hypotheses of the theorems above are met: a code of polynomials (7, 5) with an interleaver of 4 elements, after two calls. -/
example : ∃ en core e y r, genericEnc (4 : Nat) 12 true [7, 5] = ok en ∧ ValidGen 4 (genRowColumn 2 2 .bottomLeft) ∧
    history (4 : Nat) false (genRowColumn 2 2 .bottomLeft) [] = ok core ∧ TEnc.mk? (4 : Nat) 20 en en core 1 = ok e ∧
    perm core 0 0 ≠ 0 ∧ e.N = 20 ∧ (do let (e, y) ← e.encode 0 [1, 0, 1, 1] (List.replicate 20 0)
                                       let (_, r) ← e.isCodeword y
                                       ok (y, r)) = ok (y, r) ∧ y.take 4 = [1, 0, 1, 1] ∧ 1 ∈ y.drop 12 ∧ r = true :=
  ⟨_, _, _, _, _, rfl, genRowColumn_valid 2 2 _, rfl, rfl, by decide +kernel, rfl, rfl, by decide +kernel, by decide +kernel, rfl⟩

example : ∃ en core e y r, genericEnc (4 : Nat) 12 false [7, 5] = ok en ∧ ValidGen 4 (genRowColumn 2 2 .bottomLeft) ∧
    history (4 : Nat) false (genRowColumn 2 2 .bottomLeft) [] = ok core ∧ LEnc.mk? (4 : Nat) 20 en core 1 = ok e ∧
    (do let (e, y) ← e.encode 0 [1, 0, 1, 1] (List.replicate 20 0)
        let (_, r) ← e.isCodeword y
        ok (y, r)) = ok (y, r) ∧ y.take 3 = [1, 1, 1] ∧ r = true :=
  ⟨_, _, _, _, _, rfl, genRowColumn_valid 2 2 _, rfl, rfl, rfl, by decide +kernel, rfl⟩

end Verif.Turbo
