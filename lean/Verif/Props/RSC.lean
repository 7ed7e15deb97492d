import Verif.Proof.RSC

/-! # C12–C15: recursive systematic convolutional encoders -/

namespace Verif.RSC
open Exec

/-- What the constructor of the generic encoder accepts: at least two polynomials, of the same degree `m > 0`,
and `N = 2 (K + m)`. -/
theorem C12_constructor (K N : Int) (bf : Bool) (poly : List Nat) (e : Enc)
    (h : genericEnc K N bf poly = ok e) :
    ∃ g0 g1 m : Nat, poly[0]? = some g0 ∧ poly[1]? = some g1 ∧ 0 < m ∧ g0.log2 = m ∧ g1.log2 = m ∧ g0 ≠ 0 ∧ g1 ≠ 0 ∧
      0 < K ∧ N = 2 * (K + m) ∧ e.K = K.toNat ∧ e.N = N.toNat ∧ e.buffered = bf ∧ e.mch.nff = m ∧
      e.mch = tableMachine m (genTables m g0 g1) ∧ e.infoPos = (List.range K.toNat).map (sysPos bf) := by
  unfold genericEnc at h
  cases h0 : poly[0]? with
  | none => simp [rd, h0] at h
  | some g0 =>
    rw [rd_eq h0, bind_ok] at h
    split at h
    · cases h
    next hg0 =>
    simp only at h
    unfold Enc.mk? at h
    split at h
    · cases h
    next hK =>
    split at h
    · cases h
    next hN =>
    split at h
    · cases h
    next hKN =>
    split at h
    · cases h
    next hm =>
    split at h
    · cases h
    next hNm =>
    have hpos : initPos K.toNat bf = ok ((List.range K.toNat).map (sysPos bf)) := by
      unfold initPos
      cases bf
      · simp only [Bool.not_false, if_true]
        obtain ⟨o, ho, hl, hv⟩ := forN_fill (n := K.toNat) (off := 0) (g := fun k => 2 * k)
          (out := List.range K.toNat) (by simp)
        simp only [Nat.zero_add] at ho
        rw [ho]
        congr 1
        apply eq_mapRange (by simpa using hl)
        intro i hi
        rw [hv, if_pos (by omega)]
        rfl
      · simp only [Bool.not_true, Bool.false_eq_true, if_false]
        congr 1
        apply eq_mapRange (by simp)
        intro i hi
        simp [hi, sysPos]
    rw [hpos, bind_ok, bind_ok] at h
    split at h
    · cases h
    next hlen =>
    cases h1 : poly[1]? with
    | none => simp [rd, h1] at h
    | some g1 =>
      rw [rd_eq h1, bind_ok] at h
      split at h
      · cases h
      next hg1 =>
      have hg1' : ¬ g1 = 0 ∧ g0.log2 = g1.log2 := ⟨fun e => hg1 (Or.inl e), Decidable.byContradiction fun e => hg1 (Or.inr e)⟩
      cases h
      exact ⟨g0, g1, g0.log2, rfl, rfl, by omega, rfl, hg1'.2.symm, hg0, hg1'.1, by omega, by omega, rfl, rfl, rfl,
        rfl, rfl, rfl⟩

theorem testBit_log2 {g m : Nat} (h : g ≠ 0) (hm : g.log2 = m) : g.testBit m = true := by
  subst hm
  exact Nat.testBit_log2 h

/-- Message as a function of time. -/
def msg (u : List Int) (i : Nat) : Bool := decide (u.getD i 0 = 1)

theorem msg_spec {u : List Int} (hb : IsBits u) {i : Nat} (hi : i < u.length) : u[i]? = some (b2i (msg u i)) := by
  rw [List.getElem?_eq_getElem hi]
  unfold msg
  rw [getD_lt 0 hi]
  rcases hb _ (List.getElem_mem hi) with e | e <;> rw [e] <;> rfl

theorem encode_generic {K N : Int} {bf : Bool} {poly : List Nat} {e : Enc} (h : genericEnc K N bf poly = ok e)
    {u xN : List Int} (hu : u.length = K.toNat) (hb : IsBits u) (hx : xN.length = N.toNat) :
    ∃ g0 g1 m, poly[0]? = some g0 ∧ poly[1]? = some g1 ∧ g0.log2 = m ∧ ∃ x, e.encode u xN = ok x ∧
      IsCodeword bf m g0 g1 K.toNat x ∧ ∀ k, k < K.toNat → x[sysPos bf k]? = u[k]? := by
  obtain ⟨g0, g1, m, h0, h1, hm, l0, l1, n0, n1, hK, hN, eK, eN, eb, em, emch, ei⟩ :=
    C12_constructor K N bf poly e h
  refine ⟨g0, g1, m, h0, h1, l0, ?_⟩
  have hI : Impl e.mch (2 ^ m) (nxG m g0) (pyG m g0 g1) (low m g0) := by rw [emch]; exact implGeneric hm
  obtain ⟨x, hx, h1', h2', h3'⟩ := encode_sat hI (u := msg u) (uK := u) (xN := xN)
    (fun i hi => msg_spec hb (by omega)) (by rw [em]; omega) (by rw [em]; exact st_end hm)
  rw [em, eb, eK] at *
  refine ⟨x, hx, ⟨h1', reg m g0 K.toNat (msg u), ?_, ?_, ?_⟩, ?_⟩
  · intro i hi; unfold reg; rw [if_pos hi]
  · intro i hi
    rw [show i = (i - m) + m by omega, reg_tail hm _ (by omega)]
  · intro t ht
    refine ⟨?_, ?_⟩
    · rw [h2' t ht]; simp only [sys_taps hm (testBit_log2 n0 l0)]
    · rw [h3' t ht, par_taps hm (testBit_log2 n1 l1)]
  · intro k hk
    rw [h2' k (by omega), msg_spec hb (by omega)]
    simp only [sysSeq, inp, if_pos hk]

/-- **C12**.  For every pair of polynomials accepted by the constructor, every message of every length and both
layouts, `encode` returns (the "bad termination" exception is never thrown, nothing is accessed out of bounds) a
word of the terminated convolutional code: a register sequence that starts and ends at zero produces its
systematic and parity symbols. -/
theorem C12_terminates (K N : Int) (bf : Bool) (poly : List Nat) (e : Enc) (h : genericEnc K N bf poly = ok e)
    (u xN : List Int) (hu : u.length = K.toNat) (hb : IsBits u) (hx : xN.length = N.toNat) :
    ∃ g0 g1 m, poly[0]? = some g0 ∧ poly[1]? = some g1 ∧ g0.log2 = m ∧ ∃ x, e.encode u xN = ok x ∧
      IsCodeword bf m g0 g1 K.toNat x := by
  obtain ⟨g0, g1, m, h0, h1, h2, x, hx, hc, _⟩ := encode_generic h hu hb hx
  exact ⟨g0, g1, m, h0, h1, h2, x, hx, hc⟩

/-- The LTE encoder (13, 15 in octal) on a 3-bit message. -/
example : ∃ e, genericEnc 3 12 true [11, 13] = ok e ∧
    e.encode [1, 0, 1] (List.replicate 12 7) = ok [1, 0, 1, 1, 0, 0, 1, 1, 0, 1, 0, 0] :=
  ⟨_, rfl, by decide +kernel⟩

/-- **C13**: the message is found unchanged at the positions given by `get_info_bits_pos`. -/
theorem C13_systematic (K N : Int) (bf : Bool) (poly : List Nat) (e : Enc) (h : genericEnc K N bf poly = ok e)
    (u xN x : List Int) (hu : u.length = K.toNat) (hb : IsBits u) (hx : xN.length = N.toNat)
    (he : e.encode u xN = ok x) :
    e.infoPos.length = u.length ∧ ∀ (k p : Nat), e.infoPos[k]? = some p → x[p]? = u[k]? := by
  obtain ⟨g0, g1, m, h0, h1, h2, x', hx', hc, hs⟩ := encode_generic h hu hb hx
  rw [he] at hx'
  injection hx' with hx'
  subst hx'
  obtain ⟨_, _, _, _, _, _, _, _, _, _, _, _, _, _, _, _, _, ei⟩ := C12_constructor K N bf poly e h
  rw [ei]
  refine ⟨by simp [hu], fun k p hp => ?_⟩
  rw [getElem?_mapRange] at hp
  split at hp
  · injection hp with hp
    rw [← hp]
    exact hs k (by assumption)
  · cases hp

theorem taps_xor (m g : Nat) (v w : Nat → Bool) (t : Nat) :
    taps m g (fun i => v i ^^ w i) t = (taps m g v t ^^ taps m g w t) := by
  unfold taps
  rw [← xorN_xor]
  apply xorN_congr
  intro i _
  cases g.testBit i <;> simp

theorem xorI_b2i (a b : Bool) : xorI (b2i a) (b2i b) = b2i (a ^^ b) := by cases a <;> cases b <;> rfl

theorem pos_cases {bf : Bool} {L j : Nat} (hj : j < 2 * L) : ∃ t, t < L ∧ (j = sysPos bf t ∨ j = parPos bf L t) := by
  cases bf
  · refine ⟨j / 2, by omega, ?_⟩
    simp only [sysPos, parPos, Bool.false_eq_true, if_false]
    omega
  · simp only [sysPos, parPos, if_true]
    by_cases h : j < L
    · exact ⟨j, h, Or.inl rfl⟩
    · exact ⟨j - L, by omega, Or.inr (by omega)⟩

/-- A codeword is determined by its message. -/
theorem codeword_unique {bf : Bool} {m g0 g1 K : Nat} (hm : 0 < m) (hg : g0.testBit m = true) {x y : List Int}
    (hx : IsCodeword bf m g0 g1 K x) (hy : IsCodeword bf m g0 g1 K y)
    (h : ∀ k, k < K → x[sysPos bf k]? = y[sysPos bf k]?) : x = y := by
  obtain ⟨lx, v, v0, v1, hv⟩ := hx
  obtain ⟨ly, w, w0, w1, hw⟩ := hy
  have inj : ∀ a b : Bool, b2i a = b2i b → a = b := by intro a b; cases a <;> cases b <;> simp [b2i]
  have key : ∀ t, t < K → taps m g0 v t = taps m g0 w t := by
    intro t ht
    have e := h t ht
    rw [(hv t (by omega)).1, (hw t (by omega)).1] at e
    injection e with e
    exact inj _ _ e
  have e1 := reg_unique (u := taps m g0 v) hm hg v0 v1 (fun t _ => rfl)
  have e2 := reg_unique (u := taps m g0 v) hm hg w0 w1 key
  have evw : v = w := by funext j; rw [e1 j, e2 j]
  subst evw
  apply List.ext_getElem?
  intro j
  by_cases hj : j < 2 * (K + m)
  · obtain ⟨t, ht, e | e⟩ := pos_cases (bf := bf) hj
    · rw [e, (hv t ht).1, (hw t ht).1]
    · rw [e, (hv t ht).2, (hw t ht).2]
  · rw [List.getElem?_eq_none (by omega), List.getElem?_eq_none (by omega)]

/-- Codewords are closed under XOR. -/
theorem codeword_xor {bf : Bool} {m g0 g1 K : Nat} {x y : List Int}
    (hx : IsCodeword bf m g0 g1 K x) (hy : IsCodeword bf m g0 g1 K y) :
    IsCodeword bf m g0 g1 K (List.zipWith xorI x y) := by
  obtain ⟨lx, v, v0, v1, hv⟩ := hx
  obtain ⟨ly, w, w0, w1, hw⟩ := hy
  refine ⟨by rw [List.length_zipWith, lx, ly, Nat.min_self], fun i => v i ^^ w i, ?_, ?_, ?_⟩
  · intro i hi; simp only [v0 i hi, w0 i hi]; rfl
  · intro i hi; simp only [v1 i hi, w1 i hi]; rfl
  · intro t ht
    rw [List.getElem?_zipWith, List.getElem?_zipWith, (hv t ht).1, (hv t ht).2, (hw t ht).1, (hw t ht).2]
    rw [taps_xor, taps_xor, ← xorI_b2i, ← xorI_b2i]
    exact ⟨rfl, rfl⟩

/-- **C13**: the encoder is linear: the codeword of the XOR of two messages is the XOR of their codewords. -/
theorem C13_linear (K N : Int) (bf : Bool) (poly : List Nat) (e : Enc) (h : genericEnc K N bf poly = ok e)
    (u v xN : List Int) (hu : u.length = K.toNat) (hv : v.length = K.toNat) (hbu : IsBits u) (hbv : IsBits v)
    (hx : xN.length = N.toNat) :
    ∃ x y, e.encode u xN = ok x ∧ e.encode v xN = ok y ∧
      e.encode (List.zipWith xorI u v) xN = ok (List.zipWith xorI x y) := by
  have hbw : IsBits (List.zipWith xorI u v) := by
    intro a ha
    obtain ⟨i, hi, rfl⟩ := List.getElem_of_mem ha
    rw [List.getElem_zipWith]
    rw [List.length_zipWith] at hi
    rcases hbu _ (List.getElem_mem (l := u) (n := i) (by omega)) with e | e <;>
      rcases hbv _ (List.getElem_mem (l := v) (n := i) (by omega)) with e' | e' <;> rw [e, e'] <;> simp [xorI]
  have hlw : (List.zipWith xorI u v).length = K.toNat := by rw [List.length_zipWith]; omega
  obtain ⟨g0, g1, m, h0, h1, h2, x, ex, cx, sx⟩ := encode_generic h hu hbu hx
  obtain ⟨g0', g1', m', h0', h1', h2', y, ey, cy, sy⟩ := encode_generic h hv hbv hx
  obtain ⟨g0'', g1'', m'', h0'', h1'', h2'', z, ez, cz, sz⟩ := encode_generic h hlw hbw hx
  obtain ⟨g0c, g1c, mc, h0c, h1c, hm, l0, l1, n0, n1, _⟩ := C12_constructor K N bf poly e h
  rw [h0] at h0' h0'' h0c
  rw [h1] at h1' h1'' h1c
  injection h0' with h0'; injection h0'' with h0''; injection h1' with h1'; injection h1'' with h1''
  injection h0c with h0c; injection h1c with h1c
  subst h0' h0'' h1' h1'' h0c h1c
  rw [h2] at h2' h2'' l0
  subst h2' h2'' l0
  refine ⟨x, y, ex, ey, ?_⟩
  rw [ez]
  congr 1
  apply codeword_unique hm (testBit_log2 n0 h2) cz (codeword_xor cx cy)
  intro k hk
  rw [sz k hk, List.getElem?_zipWith, List.getElem?_zipWith, sx k hk, sy k hk]

/-- **C14**: on every word whose message part is binary, `is_codeword` returns normally and answers whether the
word belongs to the code. -/
theorem C14_is_codeword (K N : Int) (bf : Bool) (poly : List Nat) (e : Enc) (h : genericEnc K N bf poly = ok e)
    (x : List Int) (hx : x.length = N.toNat)
    (hb : ∀ k, k < K.toNat → x[sysPos bf k]? = some 0 ∨ x[sysPos bf k]? = some 1) :
    ∃ g0 g1 m res, poly[0]? = some g0 ∧ poly[1]? = some g1 ∧ g0.log2 = m ∧ e.isCodeword x = ok res ∧
      (res = true ↔ IsCodeword bf m g0 g1 K.toNat x) := by
  obtain ⟨g0, g1, m, h0, h1, hm, l0, l1, n0, n1, hK, hN, eK, eN, eb, em, emch, ei⟩ :=
    C12_constructor K N bf poly e h
  let u : Nat → Bool := fun k => decide (x[sysPos bf k]? = some 1)
  have hu : ∀ k, k < K.toNat → x[sysPos bf k]? = some (b2i (u k)) := by
    intro k hk
    rcases hb k hk with e | e <;> simp [u, e, b2i]
  have hI : Impl e.mch (2 ^ m) (nxG m g0) (pyG m g0 g1) (low m g0) := by rw [emch]; exact implGeneric hm
  obtain ⟨res, hr, hiff⟩ := isCodeword_sat hI (u := u) (x := x) (by rw [eb, eK]; exact hu) (by rw [em]; omega)
  rw [em, eb, eK] at hiff
  refine ⟨g0, g1, m, res, h0, h1, l0, hr, hiff.trans ?_⟩
  constructor
  · intro hA
    refine ⟨by omega, reg m g0 K.toNat u, ?_, ?_, ?_⟩
    · intro i hi; unfold reg; rw [if_pos hi]
    · intro i hi
      rw [show i = (i - m) + m by omega, reg_tail hm _ (by omega)]
    · intro t ht
      obtain ⟨e1, e2⟩ := hA t ht
      refine ⟨?_, ?_⟩
      · rw [e1]; simp only [sys_taps hm (testBit_log2 n0 l0)]
      · rw [e2, par_taps hm (testBit_log2 n1 l1)]
  · rintro ⟨_, v, v0, v1, hv⟩
    have inj : ∀ a b : Bool, b2i a = b2i b → a = b := by intro a b; cases a <;> cases b <;> simp [b2i]
    have hvr : v = reg m g0 K.toNat u := by
      funext j
      refine reg_unique hm (testBit_log2 n0 l0) v0 v1 ?_ j
      intro t ht
      have e1 := (hv t (by omega)).1
      rw [hu t ht] at e1
      injection e1 with e1
      exact inj _ _ e1
    subst hvr
    intro t ht
    obtain ⟨e1, e2⟩ := hv t ht
    refine ⟨?_, ?_⟩
    · rw [e1]; simp only [sys_taps hm (testBit_log2 n0 l0)]
    · rw [e2, par_taps hm (testBit_log2 n1 l1)]

/-- **C14**: every encoder output is accepted. -/
theorem C14_encode_accepted (K N : Int) (bf : Bool) (poly : List Nat) (e : Enc) (h : genericEnc K N bf poly = ok e)
    (u xN : List Int) (hu : u.length = K.toNat) (hb : IsBits u) (hx : xN.length = N.toNat) :
    (e.encode u xN >>= e.isCodeword) = ok true := by
  obtain ⟨g0, g1, m, h0, h1, h2, x, ex, cx, sx⟩ := encode_generic h hu hb hx
  have hN : N.toNat = 2 * (K.toNat + m) := by
    obtain ⟨g0c, g1c, mc, h0c, h1c, hm, l0, l1, n0, n1, hK, hN, _⟩ := C12_constructor K N bf poly e h
    rw [h0] at h0c; injection h0c with h0c; subst h0c
    rw [h2] at l0; subst l0
    omega
  obtain ⟨g0', g1', m', res, h0', h1', h2', hr, hiff⟩ := C14_is_codeword K N bf poly e h x (by rw [cx.1]; omega) (by
    intro k hk
    rw [sx k hk, msg_spec hb (by omega)]
    cases msg u k <;> simp [b2i])
  rw [h0] at h0'; rw [h1] at h1'
  injection h0' with h0'; injection h1' with h1'
  subst h0' h1'
  rw [h2] at h2'; subst h2'
  rw [ex, bind_ok, hr, hiff.mpr cx]

example : ∃ e, genericEnc 3 12 false [11, 13] = ok e ∧
    e.isCodeword [1, 1, 0, 1, 1, 0, 1, 1, 0, 0, 0, 0] = ok true ∧
    e.isCodeword [1, 1, 0, 1, 1, 0, 1, 1, 0, 0, 0, 1] = ok false := ⟨_, rfl, by decide +kernel⟩

/-- Cell `(r, s)` of the trellis tables. -/
def cell (T : List (List Int)) (r s : Nat) : Option Int := T[r]?.bind (·[s]?)

/-- The bit of a branch as coded in the trellis: `+1` for 0 and `-1` for 1. -/
def coeffOf (b : Bool) : Int := if b then -1 else 1

/-- Rows `r, r+1, r+2` of column `q` describe the encoder branch from state `p` with input `b`. -/
def DescribesIncoming (mch : Machine) (T : List (List Int)) (r q p : Nat) (b : Bool) : Prop :=
  cell T r q = some (p : Int) ∧ cell T (r + 1) q = some (coeffOf b) ∧
    ∃ par, mch.inner (b2i b) p = ok (par, q) ∧ cell T (r + 2) q = some (xorI (b2i b) par)

/-- **C15**.  In the trellis returned by `get_trellis`, for every number of flip-flops and every polynomials: the
columns of rows 6–9 give, for each state and input bit, the encoder's next state and output; rows 0–2 and 3–5
of each state give two branches from distinct states, which are encoder transitions and the only ones that enter
this state. -/
theorem C15_trellis (K N : Int) (bf : Bool) (poly : List Nat) (e : Enc) (h : genericEnc K N bf poly = ok e) :
    ∃ T, e.mch.getTrellis = ok T ∧ T.length = 10 ∧
      (∀ s < 2 ^ e.mch.nff, ∀ b, ∃ par q, e.mch.inner (b2i b) s = ok (par, q) ∧ q < 2 ^ e.mch.nff ∧
        cell T (6 + 2 * b.toNat) s = some (q : Int) ∧
        cell T (7 + 2 * b.toNat) s = some (xorI (b2i b) par)) ∧
      ∀ q < 2 ^ e.mch.nff, ∃ p₁ b₁ p₂ b₂, p₁ ≠ p₂ ∧ p₁ < 2 ^ e.mch.nff ∧ p₂ < 2 ^ e.mch.nff ∧
        DescribesIncoming e.mch T 0 q p₁ b₁ ∧ DescribesIncoming e.mch T 3 q p₂ b₂ ∧
        ∀ p < 2 ^ e.mch.nff, ∀ b par, e.mch.inner (b2i b) p = ok (par, q) → (p = p₁ ∧ b = b₁) ∨ (p = p₂ ∧ b = b₂) := by
  obtain ⟨g0, g1, m, h0, h1, hm, l0, l1, n0, n1, hK, hN, eK, eN, eb, em, emch, ei⟩ :=
    C12_constructor K N bf poly e h
  obtain ⟨T, hT, c, o, hR, hI⟩ := trellis_sat (g0 := g0) (g1 := g1) hm
  rw [em, emch]
  have hcell : ∀ r s, r < 10 → s < 2 ^ m → cell T r s = some (c r s) := by
    intro r s hr hs
    have hrow := List.getElem?_eq_getElem (l := T) (i := r) (by have := hR.1; simp only at this; omega)
    unfold cell
    rw [hrow]
    exact (hR.2.1 r _ hrow).2 s hs
  have himpl := implGeneric (m := m) (g0 := g0) (g1 := g1) hm
  refine ⟨T, hT, hR.1, ?_, ?_⟩
  · intro s hs b
    refine ⟨pyG m g0 g1 s b, nxG m g0 s b, himpl.inner s b hs, nxG_lt hm hs, ?_, ?_⟩
    · rw [hcell _ _ (by cases b <;> simp) hs, (hI.out s hs b).1]
    · rw [hcell _ _ (by cases b <;> simp) hs, show 7 + 2 * b.toNat = 6 + 2 * b.toNat + 1 by omega,
        (hI.out s hs b).2]
  · intro q hq
    have hlt : q % 2 ^ (m - 1) < 2 ^ (m - 1) := Nat.mod_lt _ (Nat.two_pow_pos _)
    have hx : 2 ^ m = 2 ^ (m - 1) * 2 := by rw [← Nat.pow_succ]; congr 1; omega
    have d1 : ∀ p, p < 2 ^ m → p / 2 = q % 2 ^ (m - 1) →
        DescribesIncoming (tableMachine m (genTables m g0 g1)) T (3 * (p % 2)) q p (brBit m g0 p q) := by
      intro p hp hpq
      obtain ⟨a, b, c'⟩ := hI.inc q hq p hp hpq
      have hr : 3 * (p % 2) + 2 < 10 := by omega
      refine ⟨?_, ?_, pyG m g0 g1 p (brBit m g0 p q), ?_, ?_⟩
      · rw [hcell _ _ (by omega) hq, a]
      · rw [hcell _ _ (by omega) hq, b]; rfl
      · rw [himpl.inner _ _ hp]
        congr 2
        unfold brBit
        rcases (pred_iff (g0 := g0) hm hp hq).mp hpq with e | e
        · have : ¬ q = nxG m g0 p true := by rw [e]; exact nxG_ne hm hp
          simp only [this, decide_false]
          exact e.symm
        · simp only [e, decide_true]
      · rw [hcell _ _ (by omega) hq, c']
    have hA := d1 (2 * (q % 2 ^ (m - 1))) (by omega) (by omega)
    have hB := d1 (2 * (q % 2 ^ (m - 1)) + 1) (by omega) (by omega)
    rw [show 3 * (2 * (q % 2 ^ (m - 1)) % 2) = 0 by omega] at hA
    rw [show 3 * ((2 * (q % 2 ^ (m - 1)) + 1) % 2) = 3 by omega] at hB
    refine ⟨_, _, _, _, by omega, by omega, by omega, hA, hB, ?_⟩
    intro p hp b par hpb
    rw [himpl.inner _ _ hp] at hpb
    have hq' : nxG m g0 p b = q := by injection hpb with hpb; exact (Prod.mk.inj hpb).2
    have hpq : p / 2 = q % 2 ^ (m - 1) := by
      rw [pred_iff (g0 := g0) hm hp hq]
      cases b
      · exact Or.inl hq'.symm
      · exact Or.inr hq'.symm
    have hbb : b = brBit m g0 p q := by
      unfold brBit
      cases b
      · symm; simp only [decide_eq_false_iff_not]; rw [← hq']; exact nxG_ne hm hp
      · symm; simp only [decide_eq_true_eq]; exact hq'.symm
    rcases Nat.mod_two_eq_zero_or_one p with e | e
    · left
      have : p = 2 * (q % 2 ^ (m - 1)) := by omega
      exact ⟨this, by rw [hbb, ← this]⟩
    · right
      have : p = 2 * (q % 2 ^ (m - 1)) + 1 := by omega
      exact ⟨this, by rw [hbb, ← this]⟩

example : ∃ e, genericEnc 3 12 true [11, 13] = ok e ∧ e.mch.nff = 3 := ⟨_, rfl, rfl⟩

/-! ### The continuous-phase encoder -/

def cpeNx (s : Nat) (b : Bool) : Nat := (b.toNat <<< 2) ||| ((s >>> 1) ^^^ (s &&& 1))
def cpePy (s : Nat) (b : Bool) : Int :=
  (((((s >>> 0) &&& 1) <<< 0) ||| ((((s >>> 1) &&& 1) <<< 1) ||| ((((s >>> 2) &&& 1) <<< 2) ||| ((b.toNat <<< 3) ||| 0))) : Nat) : Int)
def cpeTl (s : Nat) : Bool := decide (((s &&& 1) ^^^ ((s >>> 1) &&& 1) ^^^ ((s >>> 2) &&& 1)) &&& 1 ≠ 0)

theorem implCpe : Impl cpeMachine 8 cpeNx cpePy cpeTl where
  pos := by omega
  inner s b _ := by
    unfold cpeMachine
    simp only
    rw [if_neg (by cases b <;> simp [b2i])]
    cases b <;> rfl
  tail s _ := by
    unfold cpeMachine cpeTl
    simp only
    split
    · next h => rw [decide_eq_true h]; rfl
    · next h => rw [decide_eq_false h]; rfl
  lt s b hs := by
    revert b
    have : ∀ s : Fin 8, ∀ b : Bool, cpeNx s.val b < 8 := by decide
    exact this ⟨s, hs⟩

/-- **C12** for the CPE encoder (3 flip-flops): for every message, after the three tail bits the state is zero, the
exception is never thrown, and the message is copied to the systematic positions. -/
theorem C12_cpe_terminates (K N : Int) (bf : Bool) (e : Enc) (h : cpeEnc K N bf = ok e) (u xN : List Int)
    (hu : u.length = K.toNat) (hb : IsBits u) (hx : xN.length = N.toNat) :
    ∃ x, e.encode u xN = ok x ∧ ∀ k, k < K.toNat → x[sysPos bf k]? = u[k]? := by
  have hfacts : 0 < K ∧ N = 2 * (K + 3) ∧ e.K = K.toNat ∧ e.buffered = bf ∧ e.mch = cpeMachine := by
    unfold cpeEnc Enc.mk? at h
    split at h
    · cases h
    split at h
    · cases h
    split at h
    · cases h
    split at h
    · cases h
    split at h
    · cases h
    generalize initPos K.toNat bf = r at h
    cases r with
    | ok p => cases h; exact ⟨by omega, by omega, rfl, rfl, rfl⟩
    | exc x => cases h
    | ub => cases h
  obtain ⟨hK, hN, eK, eb, em⟩ := hfacts
  have hI : Impl e.mch 8 cpeNx cpePy cpeTl := by rw [em]; exact implCpe
  have hnff : e.mch.nff = 3 := by rw [em]; rfl
  have hterm : st cpeNx cpeTl e.K (msg u) (e.K + e.mch.nff) = 0 := by
    rw [hnff]
    have hlt := st_lt hI e.K (msg u) e.K
    rw [st, st, st]
    simp only [inp]
    rw [if_neg (by omega), if_neg (by omega), if_neg (by omega)]
    generalize st cpeNx cpeTl e.K (msg u) e.K = s at hlt ⊢
    have : ∀ s : Fin 8, cpeNx (cpeNx (cpeNx s.val (cpeTl s.val)) (cpeTl (cpeNx s.val (cpeTl s.val))))
        (cpeTl (cpeNx (cpeNx s.val (cpeTl s.val)) (cpeTl (cpeNx s.val (cpeTl s.val))))) = 0 := by decide
    exact this ⟨s, hlt⟩
  obtain ⟨x, hx, _, h2, _⟩ := encode_sat hI (u := msg u) (uK := u) (xN := xN)
    (fun i hi => msg_spec hb (by omega)) (by rw [hnff]; omega) hterm
  refine ⟨x, hx, fun k hk => ?_⟩
  rw [eb, eK, hnff] at h2
  rw [h2 k (by omega), msg_spec hb (by omega)]
  simp only [sysSeq, inp, if_pos hk]

example : ∃ e, cpeEnc 2 10 false = ok e ∧ (e.encode [1, 1] (List.replicate 10 0)).toOption =
    some [1, 8, 1, 12, 0, 6, 0, 3, 0, 0] := ⟨_, rfl, by decide +kernel⟩

end Verif.RSC
