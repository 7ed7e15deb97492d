import Verif.Proof.TurboInst
import Verif.Proof.TurboCRC
import Verif.Props.BCJR
import Verif.Props.Turbo

/-! # C95: turbo decoding -/

namespace Verif.Turbo
open Exec Verif.RSC Verif.Interleaver Verif.BCJR Verif.Float

variable {R D : Type}

/-- `T` is the trellis of an encoder of polynomials `g0` and `g1`. -/
def IsTrellis (K g0 g1 : Nat) (T : List (List Int)) : Prop := ∃ N bf e, genericEnc K N bf [g0, g1] = ok e ∧ e.mch.getTrellis = ok T

/-- The turbo decoders that calls can lead to: from component decoders in any state, the constructor, then any calls of `decode_siho`. -/
inductive TReach (A : Arith R D) (zero : R) (K : Nat) (N : Int) (nIte : Nat) (Tn Ti : List (List Int)) (core : Core) (nf : Nat) (bf : Bool)
    (pps : List (PP R)) : TDec R → Prop
  | init {fill fn fi bn bi n i d} : Reach A fn K Tn bn n → Reach A fi K Ti bi i → TDec.mk? fill K N nIte n i core nf bf pps = ok d →
      TReach A zero K N nIte Tn Ti core nf bf pps d
  | decode {d f y r} : TReach A zero K N nIte Tn Ti core nf bf pps d → f < nf → d.decode A zero f y = ok r →
      TReach A zero K N nIte Tn Ti core nf bf pps r.1

/-- What a reachable decoder satisfies. -/
theorem TReach.dinv {A : Arith R D} {llr : Int → R} {zero : R} {K : Nat} {N : Int} {nIte : Nat} {Tn Ti : List (List Int)} {core : Core} {nf : Nat}
    {bf : Bool} {pps : List (PP R)} {cn ci : Code} (hTn : ∃ row, Tn[0]? = some row ∧ row.length = 2 ^ cn.m)
    (hTi : ∃ row, Ti[0]? = some row ∧ row.length = 2 ^ ci.m) (hp : ∀ f, f < nf → ∃ ρ, ItlOk core nf f K (perm core f) ρ)
    (hs : ∀ p ∈ pps, p.Stateless) {d : TDec R} (h : TReach A zero K N nIte Tn Ti core nf bf pps d) :
    ∃ fn fi bn bi, N = 3 * K + 2 * cn.m + 2 * ci.m ∧ 0 < nIte ∧
      DInv llr cn ci K nf nIte core bf pps (Inv A fn K (2 ^ cn.m) cn.m bn Tn) (Inv A fi K (2 ^ ci.m) ci.m bi Ti) d := by
  induction h with
  | init h1 h2 h3 =>
    have i1 := h1.inv hTn
    have i2 := h2.inv hTi
    rw [Int.toNat_natCast] at i1 i2
    obtain ⟨_, g1, g2, _, g3⟩ := mk_dinv (llr := llr) (cn := cn) (ci := ci) (K := K) ⟨i1.hK, i1.hm⟩ ⟨i2.hK, i2.hm⟩ i1 i2 h3
    rw [Int.toNat_natCast] at g3
    exact ⟨_, _, _, _, g2, by omega, g3⟩
  | decode _ hf hr ih =>
    obtain ⟨fn, fi, bn, bi, g1, g2, g3⟩ := ih
    obtain ⟨ρ, hρ⟩ := hp _ hf
    exact ⟨fn, fi, bn, bi, g1, g2, decode_pres hρ inv_keep inv_keep hs g3 hr⟩

theorem trellis_facts {K g0 g1 : Nat} {T : List (List Int)} (h : IsTrellis K g0 g1 T) (hodd : g0 % 2 = 1) :
    0 < K ∧ (code g0 g1).Ok ∧ Tr (2 ^ g0.log2) T (nxG g0.log2 g0) (pyB g0.log2 g0 g1) (prG g0.log2) (pbG g0.log2 g0) ∧
      ∃ row, T[0]? = some row ∧ row.length = 2 ^ g0.log2 := by
  obtain ⟨N, bf, e, he, hT⟩ := h
  obtain ⟨h1, h2, h3, h4, h5, h6⟩ := poly_facts he hT hodd
  exact ⟨h1, ⟨h2, h3, h4⟩, h5, h6⟩

/-- **C95**, on `short`: whatever was decoded before, `decode_siho` decides what the iterative decoding decides, as long as no LLR
exceeds the bound of C92. -/
theorem C95_decode_short {K nIte nf : Nat} {N : Int} {gn0 gn1 gi0 gi1 : Nat} {Tn Ti : List (List Int)} (hTn : IsTrellis K gn0 gn1 Tn)
    (hTi : IsTrellis K gi0 gi1 Ti) (on : gn0 % 2 = 1) (oi : gi0 % 2 = 1) {uniform : Bool} {gen : GenLut} {ops : List Op} {core : Core}
    (hgen : ValidGen K gen) (hops : OpsValid K ops) (hc : history K uniform gen ops = ok core) {bf : Bool} {pps : List Pp} {d : TDec Int}
    (hd : TReach a16 0 K N nIte Tn Ti core nf bf (pps.map (Pp.short nIte)) d) {M : Int} (bn : Bound16 gn0.log2 M) (bi : Bound16 gi0.log2 M)
    {y : List Int} (hy : y.length = N) (hyl : ∀ j, |at0 y j| ≤ 32767) {f : Nat} (hf : f < nf) {v : List Int}
    (hr : Run (code gn0 gn1) (code gi0 gi1) K (perm core f) M 32767 (pps.map (Pp.short' nIte)) (rxOf bf K gn0.log2 gi0.log2 (perm core f) y) nIte 1
      (fun _ => 0) v) : ∃ d', d.decode a16 0 f y = ok (d', v) := by
  obtain ⟨hK, kn, trn, rn⟩ := trellis_facts hTn on
  obtain ⟨_, ki, tri, ri⟩ := trellis_facts hTi oi
  have hp := fun f (hf : f < nf) => itlOk hK hgen hops hc hf
  obtain ⟨fn, fi, b1, b2, hN, hI, di⟩ := hd.dinv (llr := fun n => n) (cn := code gn0 gn1) (ci := code gi0 gi1) rn ri hp less16
  obtain ⟨ρ, hρ⟩ := hp f hf
  have hb : ∀ {g : Nat}, Bound16 g M → 2 * (2 * (g * M) + 8 * M) + 2 * M ≤ 32767 := fun {g} h => by
    have := h.2
    have h3 : 0 ≤ (g : Int) * M := mul_nonneg (by omega) h.1
    linarith
  have sn := sisoOk (lim := 32767) (fill := fn) (bf' := b1) (snd16 bn) bn.1 (fun s p h => hyp16 (K := K) kn.m kn.g0 kn.g1 trn h) (hb bn)
  have si := sisoOk (lim := 32767) (fill := fi) (bf' := b2) (snd16 bi) bi.1 (fun s p h => hyp16 (K := K) ki.m ki.g0 ki.g1 tri h) (hb bi)
  have hM : M ≤ 32767 := by
    have := hb bn
    have h3 : 0 ≤ (gn0.log2 : Int) * M := mul_nonneg (by omega) bn.1
    have := bn.1
    omega
  have hyn : y.length = 3 * K + 2 * gn0.log2 + 2 * gi0.log2 := by
    have e1 : (code gn0 gn1).m = gn0.log2 := rfl
    have e2 : (code gi0 gi1).m = gi0.log2 := rfl
    rw [e1, e2] at hN
    omega
  obtain ⟨⟨d', v'⟩, e, _, h⟩ := decode_sat ts16 sn si hρ (pp16 nIte pps) di hM hyn hyl hI hr
  dsimp only at h
  rw [List.map_id', h] at e
  exact ⟨d', e⟩

/-- **C95**, in floating point, for LLRs that are multiples of a power of two. -/
theorem C95_decode_float {K nIte nf : Nat} {N : Int} {gn0 gn1 gi0 gi1 : Nat} {Tn Ti : List (List Int)} (hTn : IsTrellis K gn0 gn1 Tn)
    (hTi : IsTrellis K gi0 gi1 Ti) (on : gn0 % 2 = 1) (oi : gi0 % 2 = 1) {uniform : Bool} {gen : GenLut} {ops : List Op} {core : Core}
    (hgen : ValidGen K gen) (hops : OpsValid K ops) (hc : history K uniform gen ops = ok core) {bf : Bool} {pps : List Pp} {F : Fmt} {q : Int}
    (hF : Covered F q) {d : TDec Fl} (hd : TReach (aF F) (.fin 0) K N nIte Tn Ti core nf bf (pps.map (Pp.float F nIte)) d) {M : Int}
    (bn : BoundF F K gn0.log2 M) (bi : BoundF F K gi0.log2 M) {y : List Int} (hy : y.length = N) (hyl : ∀ j, |at0 y j| < 2 ^ F.p) {f : Nat}
    (hf : f < nf) {v : List Int}
    (hr : Run (code gn0 gn1) (code gi0 gi1) K (perm core f) M (2 ^ F.p - 1) (pps.map (Pp.float' nIte))
      (rxOf bf K gn0.log2 gi0.log2 (perm core f) y) nIte 1 (fun _ => 0) v) : ∃ d', d.decode (aF F) (.fin 0) f (scale q y) = ok (d', v) := by
  obtain ⟨hK, kn, trn, rn⟩ := trellis_facts hTn on
  obtain ⟨_, ki, tri, ri⟩ := trellis_facts hTi oi
  have hp := fun f (hf : f < nf) => itlOk hK hgen hops hc hf
  obtain ⟨fn, fi, b1, b2, hN, hI, di⟩ := hd.dinv (llr := llrF q) (cn := code gn0 gn1) (ci := code gi0 gi1) rn ri hp lessF
  obtain ⟨ρ, hρ⟩ := hp f hf
  have hb : ∀ {g : Nat}, BoundF F K g M → 2 * ((2 * g + ((K + g : Nat) + 1)) * M) + 2 * M ≤ 2 ^ F.p - 1 := fun {g} h => by
    have := h.2
    push_cast at this ⊢
    have : (2 * K + 6 * g + 4) * M = 2 * ((2 * g + ((K + g) + 1)) * M) + 2 * M := by ring
    omega
  have sn := sisoOk (lim := 2 ^ F.p - 1) (fill := fn) (bf' := b1) (sndF hF bn) bn.1 (fun s p h => hypF (K := K) kn.m kn.g0 kn.g1 trn h) (hb bn)
  have si := sisoOk (lim := 2 ^ F.p - 1) (fill := fi) (bf' := b2) (sndF hF bi) bi.1 (fun s p h => hypF (K := K) ki.m ki.g0 ki.g1 tri h) (hb bi)
  have hM : M ≤ 2 ^ F.p - 1 := by
    have := hb bn
    have h3 : 0 ≤ ((2 * gn0.log2 + ((K + gn0.log2 : Nat) + 1)) : Int) * M := mul_nonneg (by omega) bn.1
    have := bn.1
    omega
  have hyn : y.length = 3 * K + 2 * gn0.log2 + 2 * gi0.log2 := by
    have e1 : (code gn0 gn1).m = gn0.log2 := rfl
    have e2 : (code gi0 gi1).m = gi0.log2 := rfl
    rw [e1, e2] at hN
    omega
  obtain ⟨⟨d', v'⟩, e, _, h⟩ := decode_sat (tsF hF) sn si hρ (ppF hF nIte pps) di hM hyn (fun j => by have := hyl j; omega) hI hr
  dsimp only at h
  rw [h] at e
  exact ⟨d', e⟩

/-- A codeword in the other layout. -/
theorem to_buffered {bf : Bool} {m g0 g1 K : Nat} {x : List Int} (h : IsCodeword bf m g0 g1 K x) :
    ∃ x', IsCodeword true m g0 g1 K x' ∧ ∀ t, t < K + m → sym x' t = sym x (sysPos bf t) ∧ sym x' (K + m + t) = sym x (parPos bf (K + m) t) := by
  obtain ⟨_, v, h1, h2, h3⟩ := h
  obtain ⟨x', hl, hx⟩ := word_exists true (K + m) (fun t => b2i (taps m g0 v t)) (fun t => b2i (taps m g1 v t))
  refine ⟨x', ⟨hl, v, h1, h2, hx⟩, fun t ht => ⟨?_, ?_⟩⟩
  · rw [sym_eq (h3 t ht).1]
    exact sym_eq (hx t ht).1
  · rw [sym_eq (h3 t ht).2]
    exact sym_eq (hx t ht).2

/-- The LLRs `y` have the signs of the word `x`, or are null; `k`-th bit of the message at `pos k`, with a LLR that is not null. -/
def Signs (K N : Nat) (pos : Nat → Nat) (x y : List Int) : Prop :=
  (∀ j, j < N → 0 ≤ (1 - 2 * sym x j) * at0 y j) ∧ ∀ k, k < K → 0 < (1 - 2 * sym x (pos k)) * at0 y (pos k)

theorem agree_buffered {cn ci : Code} {K : Nat} {π : Nat → Nat} (hπ : ∀ k, k < K → π k < K) {x y : List Int} (hx : IsTurbo cn ci K π x)
    (hs : Signs K (3 * K + 2 * cn.m + 2 * ci.m) id x y) : ∃ xn xi, IsCodeword true cn.m cn.g0 cn.g1 K xn ∧ IsCodeword true ci.m ci.g0 ci.g1 K xi ∧
      (∀ k, k < K → sym xi k = sym xn (π k)) ∧ Agrees cn K xn (rxOf true K cn.m ci.m π y).sn (rxOf true K cn.m ci.m π y).pn ∧
      Agrees ci K xi (rxOf true K cn.m ci.m π y).si (rxOf true K cn.m ci.m π y).pi ∧
      (∀ t, t < K → 0 < (1 - 2 * sym xn t) * (rxOf true K cn.m ci.m π y).sn t) ∧
      (∀ t, t < K → 0 < (1 - 2 * sym xi t) * (rxOf true K cn.m ci.m π y).si t) ∧ ∀ k, k < K → sym xn k = sym x (id k) := by
  obtain ⟨xn, xi, ⟨hn, hi, hp⟩, rfl⟩ := hx
  have ln := hn.1
  have li := hi.1
  have en : ∀ j, j < 2 * (K + cn.m) → sym (xn ++ xi.drop K) j = sym xn j := fun j hj => by
    unfold sym
    rw [List.getD_eq_getElem?_getD, List.getD_eq_getElem?_getD, List.getElem?_append_left (by omega)]
  have ei : ∀ j, sym (xn ++ xi.drop K) (2 * (K + cn.m) + j) = sym xi (K + j) := fun j => by
    unfold sym
    rw [List.getD_eq_getElem?_getD, List.getD_eq_getElem?_getD, List.getElem?_append_right (by omega), List.getElem?_drop]
    congr 2
    omega
  have hpi : ∀ k, k < K → sym xi k = sym xn (π k) := fun k hk => by
    have := hp k hk
    simp only [sysPos, if_true] at this
    unfold sym
    rw [List.getD_eq_getElem?_getD, List.getD_eq_getElem?_getD, this]
  have s1 : ∀ t, t < K → 0 < (1 - 2 * sym xn t) * at0 y t := fun t ht => by
    have := hs.2 t ht
    simp only [id] at this
    rwa [en t (by omega)] at this
  refine ⟨xn, xi, hn, hi, hpi, ⟨fun t ht => ?_, fun t ht => ?_⟩, ⟨fun t ht => ?_, fun t ht => ?_⟩, s1, fun t ht => ?_,
    fun k hk => (en k (by omega)).symm⟩
  · have := hs.1 t (by omega)
    rwa [en t (by omega)] at this
  · have := hs.1 (K + cn.m + t) (by omega)
    rwa [en _ (by omega)] at this
  · by_cases hk : t < K
    · simp only [rxOf, sysI, hk, if_true, sysN]
      rw [hpi t hk]
      exact (s1 _ (hπ t hk)).le
    · have := hs.1 (2 * (K + cn.m) + (t - K)) (by omega)
      rw [ei, show K + (t - K) = t by omega] at this
      simpa [rxOf, sysI, hk] using this
  · have := hs.1 (2 * (K + cn.m) + (ci.m + t)) (by omega)
    rw [ei, show K + (ci.m + t) = K + ci.m + t by omega, ← Nat.add_assoc] at this
    simpa [rxOf, parI] using this
  · simp only [rxOf, sysI, ht, if_true, sysN]
    rw [hpi t ht]
    exact s1 _ (hπ t ht)

theorem sym_congr {x x' : List Int} {i j : Nat} (h : x[i]? = x'[j]?) : sym x i = sym x' j := by
  unfold sym
  rw [List.getD_eq_getElem?_getD, List.getD_eq_getElem?_getD, h]

theorem agree_interlaced {c : Code} {K : Nat} {π : Nat → Nat} (hπ : ∀ k, k < K → π k < K) {x y : List Int} (hx : IsTurboInterlaced c K π x)
    (hs : Signs K (3 * K + 2 * c.m + 2 * c.m) sys3 x y) : ∃ xn xi, IsCodeword true c.m c.g0 c.g1 K xn ∧ IsCodeword true c.m c.g0 c.g1 K xi ∧
      (∀ k, k < K → sym xi k = sym xn (π k)) ∧ Agrees c K xn (rxOf false K c.m c.m π y).sn (rxOf false K c.m c.m π y).pn ∧
      Agrees c K xi (rxOf false K c.m c.m π y).si (rxOf false K c.m c.m π y).pi ∧
      (∀ t, t < K → 0 < (1 - 2 * sym xn t) * (rxOf false K c.m c.m π y).sn t) ∧
      (∀ t, t < K → 0 < (1 - 2 * sym xi t) * (rxOf false K c.m c.m π y).si t) ∧ ∀ k, k < K → sym xn k = sym x (sys3 k) := by
  obtain ⟨xn, xi, ⟨hn, hi, hp⟩, _, hb, ht⟩ := hx
  obtain ⟨yn, hyn, en⟩ := to_buffered hn
  obtain ⟨yi, hyi, ei⟩ := to_buffered hi
  simp only [sysPos, parPos, Bool.false_eq_true, if_false] at en ei hp
  have b1 : ∀ k, k < K → sym yn k = sym x (3 * k) ∧ sym yn (K + c.m + k) = sym x (3 * k + 1) ∧ sym yi (K + c.m + k) = sym x (3 * k + 2) := fun k hk => by
    have := hb k hk
    rw [(en k (by omega)).1, (en k (by omega)).2, (ei k (by omega)).2]
    exact ⟨sym_congr this.1.symm, sym_congr this.2.1.symm, sym_congr this.2.2.symm⟩
  have b2 : ∀ t, K ≤ t → t < K + c.m → (sym yn t = sym x (3 * K + 2 * (t - K)) ∧ sym yn (K + c.m + t) = sym x (3 * K + 2 * (t - K) + 1)) ∧
      sym yi t = sym x (3 * K + 2 * c.m + 2 * (t - K)) ∧ sym yi (K + c.m + t) = sym x (3 * K + 2 * c.m + 2 * (t - K) + 1) := fun t h1 h2 => by
    have k1 := ht (2 * (t - K)) (by omega)
    have k2 := ht (2 * (t - K) + 1) (by omega)
    rw [(en t (by omega)).1, (en t (by omega)).2, (ei t (by omega)).1, (ei t (by omega)).2]
    rw [show 2 * K + 2 * (t - K) = 2 * t by omega] at k1
    rw [show 2 * K + (2 * (t - K) + 1) = 2 * t + 1 by omega] at k2
    exact ⟨⟨sym_congr k1.1.symm, sym_congr k2.1.symm⟩, sym_congr k1.2.symm, sym_congr k2.2.symm⟩
  have hpi : ∀ k, k < K → sym yi k = sym yn (π k) := fun k hk => by
    have := hπ k hk
    rw [(ei k (by omega)).1, (en _ (by omega)).1]
    exact sym_congr (hp k hk)
  have s1 : ∀ t, t < K → 0 < (1 - 2 * sym yn t) * at0 y (3 * t) := fun t ht => by
    rw [(b1 t ht).1]
    exact hs.2 t ht
  refine ⟨yn, yi, hyn, hyi, hpi, ⟨fun t ht => ?_, fun t ht => ?_⟩, ⟨fun t ht => ?_, fun t ht => ?_⟩, fun t ht => ?_, fun t ht => ?_,
    fun k hk => (b1 k hk).1⟩
  · by_cases hk : t < K
    · simpa [rxOf, sysN, hk] using (s1 t hk).le
    · simp only [rxOf, sysN, Bool.false_eq_true, if_false, hk]
      rw [(b2 t (by omega) ht).1.1]
      exact hs.1 _ (by omega)
  · by_cases hk : t < K
    · simp only [rxOf, parN, Bool.false_eq_true, if_false, hk, if_true]
      rw [(b1 t hk).2.1]
      exact hs.1 _ (by omega)
    · simp only [rxOf, parN, Bool.false_eq_true, if_false, hk]
      rw [(b2 t (by omega) ht).1.2]
      exact hs.1 _ (by omega)
  · by_cases hk : t < K
    · simp only [rxOf, sysI, sysN, Bool.false_eq_true, if_false, hk, if_true, hπ t hk]
      rw [hpi t hk]
      exact (s1 _ (hπ t hk)).le
    · simp only [rxOf, sysI, Bool.false_eq_true, if_false, hk]
      rw [(b2 t (by omega) ht).2.1]
      exact hs.1 _ (by omega)
  · by_cases hk : t < K
    · simp only [rxOf, parI, Bool.false_eq_true, if_false, hk, if_true]
      rw [(b1 t hk).2.2]
      exact hs.1 _ (by omega)
    · simp only [rxOf, parI, Bool.false_eq_true, if_false, hk]
      rw [(b2 t (by omega) ht).2.2]
      exact hs.1 _ (by omega)
  · simpa [rxOf, sysN, ht] using s1 t ht
  · simp only [rxOf, sysI, sysN, Bool.false_eq_true, if_false, ht, if_true, hπ t ht]
    rw [hpi t ht]
    exact s1 _ (hπ t ht)

/-- `x` is a turbo codeword, in the layout `bf`. -/
def Turbo (bf : Bool) (cn ci : Code) (K : Nat) (π : Nat → Nat) (x : List Int) : Prop :=
  if bf then IsTurbo cn ci K π x else ci = cn ∧ IsTurboInterlaced cn K π x

/-- Position of bit `k` of the message. -/
def msgPos (bf : Bool) (k : Nat) : Nat := if bf then k else 3 * k

/-- **C95**, recovery: on LLRs that have the signs of a turbo codeword, the parities and the tails being possibly erased, the iterative decoding
decides the message of this codeword. -/
theorem C95_recovery {bf : Bool} {cn ci : Code} {K nIte : Nat} {π ρ : Nat → Nat} (hπ : ∀ k, k < K → π k < K) (hρ : ∀ k, k < K → ρ k < K ∧ π (ρ k) = k)
    {x y : List Int} (hx : Turbo bf cn ci K π x) (hs : Signs K (3 * K + 2 * cn.m + 2 * ci.m) (msgPos bf) x y) {M lim : Int} {ps : List Post}
    (hps : ∀ q ∈ ps, q.KeepsSigns) {v : List Int} (hr : Run cn ci K π M lim ps (rxOf bf K cn.m ci.m π y) nIte 1 (fun _ => 0) v) :
    v = (List.range K).map fun k => sym x (msgPos bf k) := by
  have key : ∃ xn xi, IsCodeword true cn.m cn.g0 cn.g1 K xn ∧ IsCodeword true ci.m ci.g0 ci.g1 K xi ∧
      (∀ k, k < K → sym xi k = sym xn (π k)) ∧ Agrees cn K xn (rxOf bf K cn.m ci.m π y).sn (rxOf bf K cn.m ci.m π y).pn ∧
      Agrees ci K xi (rxOf bf K cn.m ci.m π y).si (rxOf bf K cn.m ci.m π y).pi ∧
      (∀ t, t < K → 0 < (1 - 2 * sym xn t) * (rxOf bf K cn.m ci.m π y).sn t) ∧
      (∀ t, t < K → 0 < (1 - 2 * sym xi t) * (rxOf bf K cn.m ci.m π y).si t) ∧ ∀ k, k < K → sym xn k = sym x (msgPos bf k) := by
    cases bf with
    | true =>
      refine agree_buffered hπ ?_ ⟨hs.1, hs.2⟩
      simpa [Turbo] using hx
    | false =>
      simp only [Turbo, Bool.false_eq_true, if_false] at hx
      obtain ⟨rfl, hx⟩ := hx
      exact agree_interlaced hπ hx ⟨hs.1, hs.2⟩
  obtain ⟨xn, xi, h1, h2, h3, h4, h5, h6, h7, h8⟩ := key
  rw [run_recovery h1 h2 h3 hπ hρ h4 h5 h6 h7 hps hr fun t _ => by simp]
  exact List.map_congr_left fun k hk => h8 k (List.mem_range.1 hk)

theorem rx_obs {bf : Bool} {cn ci : Code} {K : Nat} {π : Nat → Nat} {y : List Int} {Y w : Int} {J : Nat} (hy : ∀ j, |at0 y j| ≤ Y ∧ w ^ J ∣ at0 y j) :
    Obs (K + cn.m) w J (2 * Y) (rxOf bf K cn.m ci.m π y).sn (rxOf bf K cn.m ci.m π y).pn ∧
      Obs (K + ci.m) w J (2 * Y) (rxOf bf K cn.m ci.m π y).si (rxOf bf K cn.m ci.m π y).pi := by
  have h1 : ∀ t, |sysN bf K y t| ≤ Y ∧ w ^ J ∣ sysN bf K y t := by
    intro t
    unfold sysN
    split
    · exact hy _
    · split <;> exact hy _
  have h2 : ∀ t, |parN bf K cn.m y t| ≤ Y ∧ w ^ J ∣ parN bf K cn.m y t := by
    intro t
    unfold parN
    split
    · exact hy _
    · split <;> exact hy _
  have h3 : ∀ t, |sysI bf K cn.m π y t| ≤ Y ∧ w ^ J ∣ sysI bf K cn.m π y t := by
    intro t
    unfold sysI
    split
    · exact h1 _
    · split <;> exact hy _
  have h4 : ∀ t, |parI bf K cn.m ci.m y t| ≤ Y ∧ w ^ J ∣ parI bf K cn.m ci.m y t := by
    intro t
    unfold parI
    split
    · exact hy _
    · split <;> exact hy _
  refine ⟨fun t _ => ⟨?_, (h1 t).2, (h2 t).2⟩, fun t _ => ⟨?_, (h3 t).2, (h4 t).2⟩⟩
  · have := (h1 t).1
    have := (h2 t).1
    show |sysN bf K y t| + |parN bf K cn.m y t| ≤ _
    omega
  · have := (h3 t).1
    have := (h4 t).1
    show |sysI bf K cn.m π y t| + |parI bf K cn.m ci.m y t| ≤ _
    omega

/-- **C95**, no overflow: the iterative decoding stays in the bounds for all LLRs at most `Y` in absolute value, where `Y` depends on the
number of iterations. -/
theorem C95_run_exists {bf : Bool} {cn ci : Code} {K nIte : Nat} {π ρ : Nat → Nat} (hcn : cn.Ok) (hci : ci.Ok) (hn : 0 < nIte)
    (hπ : ∀ k, k < K → π k < K) (hρ : ∀ k, k < K → ρ k < K ∧ π (ρ k) = k ∧ ρ (π k) = k) {w : Int} {ps : List Post} (hps : ∀ q ∈ ps, q.Total w)
    {y : List Int} {Y M lim : Int} (hY : ∀ j, |at0 y j| ≤ Y ∧ w ^ (2 * ps.length * nIte) ∣ at0 y j)
    (hM : (2 * Y + 1) * growth cn ci K ps.length ^ (2 * nIte) ≤ M) (hlim : M ≤ lim) :
    ∃ v, Run cn ci K π M lim ps (rxOf bf K cn.m ci.m π y) nIte 1 (fun _ => 0) v := by
  obtain ⟨h1, h2⟩ := rx_obs (bf := bf) (cn := cn) (ci := ci) (K := K) (π := π) hY
  have hY0 : 0 ≤ Y := le_trans (abs_nonneg _) (hY 0).1
  obtain ⟨k, rfl⟩ : ∃ k, nIte = k + 1 := ⟨nIte - 1, by omega⟩
  exact run_exists hcn hci hps hπ hρ (Y := 2 * Y) (by omega) h1 h2 k 1 _ 0 (2 * Y + 1) (by omega) (fun t _ => by simp) (Nat.le_refl _) (le_refl _)
    (by omega) (by rw [show 2 * k + 2 = 2 * (k + 1) by ring]; exact hM) hlim

/-- **C95**, recovery on `short`: LLRs of the signs of a turbo codeword, at most `Y`, are decoded to its message. -/
theorem C95_recovery_short {K nIte nf : Nat} {N : Int} {gn0 gn1 gi0 gi1 : Nat} {Tn Ti : List (List Int)} (hTn : IsTrellis K gn0 gn1 Tn)
    (hTi : IsTrellis K gi0 gi1 Ti) (on : gn0 % 2 = 1) (oi : gi0 % 2 = 1) {uniform : Bool} {gen : GenLut} {ops : List Op} {core : Core}
    (hgen : ValidGen K gen) (hops : OpsValid K ops) (hc : history K uniform gen ops = ok core) {bf : Bool} {pps : List Pp} {d : TDec Int}
    (hd : TReach a16 0 K N nIte Tn Ti core nf bf (pps.map (Pp.short nIte)) d) (hnI : 0 < nIte) {M Y : Int} (bn : Bound16 gn0.log2 M)
    (bi : Bound16 gi0.log2 M) (hM : (2 * Y + 1) * growth (code gn0 gn1) (code gi0 gi1) K pps.length ^ (2 * nIte) ≤ M)
    {x y : List Int} (hy : y.length = N) (hN : N = 3 * K + 2 * gn0.log2 + 2 * gi0.log2) (hY : ∀ j, |at0 y j| ≤ Y) {f : Nat} (hf : f < nf)
    (hx : Turbo bf (code gn0 gn1) (code gi0 gi1) K (perm core f) x) (hs : Signs K y.length (msgPos bf) x y) :
    ∃ d', d.decode a16 0 f y = ok (d', (List.range K).map fun k => sym x (msgPos bf k)) := by
  obtain ⟨hK, kn, trn, rn⟩ := trellis_facts hTn on
  obtain ⟨_, ki, tri, ri⟩ := trellis_facts hTi oi
  obtain ⟨ρ, hρ⟩ := itlOk hK hgen hops hc hf
  have hM1 : M ≤ 32767 := by
    have := bn.2
    have h3 : 0 ≤ (gn0.log2 : Int) * M := mul_nonneg (by omega) bn.1
    have := bn.1
    linarith
  have hY1 : Y ≤ M := by
    have h1 : 0 ≤ Y := le_trans (abs_nonneg _) (hY 0)
    have h2 : 1 ≤ growth (code gn0 gn1) (code gi0 gi1) K pps.length ^ (2 * nIte) := one_le_pow₀ (by unfold growth; omega)
    have := le_mul_of_one_le_right (show (0 : Int) ≤ 2 * Y + 1 by omega) h2
    omega
  obtain ⟨v, hv⟩ := C95_run_exists (bf := bf) (lim := 32767) (π := perm core f) (ρ := ρ) kn ki hnI hρ.lt
    (fun k hk => ⟨hρ.lt' k hk, hρ.inv k hk, hρ.inv' k hk⟩) (total16 (nIte := nIte) (pps := pps)) (y := y) (Y := Y) (M := M)
    (fun j => ⟨hY j, by simp⟩) (by simpa using hM) hM1
  have hrec := C95_recovery hρ.lt (fun k hk => ⟨hρ.lt' k hk, hρ.inv k hk⟩) hx (y := y)
    ⟨fun j hj => hs.1 j (by simp only [code] at hj; omega), hs.2⟩ signs16 hv
  obtain ⟨d', e⟩ := C95_decode_short hTn hTi on oi hgen hops hc hd bn bi hy (fun j => by have := hY j; omega) hf hv
  rw [hrec] at e
  exact ⟨d', e⟩

/-- **C95**, recovery in floating point; with scaling, for LLRs that are multiples of a large enough power of two. -/
theorem C95_recovery_float {K nIte nf : Nat} {N : Int} {gn0 gn1 gi0 gi1 : Nat} {Tn Ti : List (List Int)} (hTn : IsTrellis K gn0 gn1 Tn)
    (hTi : IsTrellis K gi0 gi1 Ti) (on : gn0 % 2 = 1) (oi : gi0 % 2 = 1) {uniform : Bool} {gen : GenLut} {ops : List Op} {core : Core}
    (hgen : ValidGen K gen) (hops : OpsValid K ops) (hc : history K uniform gen ops = ok core) {bf : Bool} {pps : List Pp} {F : Fmt} {q : Int}
    (hF : Covered F q) {d : TDec Fl} (hd : TReach (aF F) (.fin 0) K N nIte Tn Ti core nf bf (pps.map (Pp.float F nIte)) d) (hnI : 0 < nIte)
    {M Y : Int} (bn : BoundF F K gn0.log2 M) (bi : BoundF F K gi0.log2 M)
    (hM : (2 * Y + 1) * growth (code gn0 gn1) (code gi0 gi1) K pps.length ^ (2 * nIte) ≤ M) {x y : List Int} (hy : y.length = N)
    (hN : N = 3 * K + 2 * gn0.log2 + 2 * gi0.log2) (hY : ∀ j, |at0 y j| ≤ Y ∧ 4 ^ (2 * pps.length * nIte) ∣ at0 y j) {f : Nat} (hf : f < nf)
    (hx : Turbo bf (code gn0 gn1) (code gi0 gi1) K (perm core f) x) (hs : Signs K y.length (msgPos bf) x y) :
    ∃ d', d.decode (aF F) (.fin 0) f (scale q y) = ok (d', (List.range K).map fun k => sym x (msgPos bf k)) := by
  obtain ⟨hK, kn, trn, rn⟩ := trellis_facts hTn on
  obtain ⟨_, ki, tri, ri⟩ := trellis_facts hTi oi
  obtain ⟨ρ, hρ⟩ := itlOk hK hgen hops hc hf
  have hM1 : M ≤ 2 ^ F.p - 1 := by
    have h1 := bn.2
    have h3 : 0 ≤ ((2 * K + 6 * gn0.log2 + 3 : Nat) : Int) * M := mul_nonneg (by omega) bn.1
    push_cast at h3
    have : (2 * K + 6 * (gn0.log2 : Int) + 4) * M = (2 * K + 6 * (gn0.log2 : Int) + 3) * M + M := by ring
    omega
  have hY1 : Y ≤ M := by
    have h1 : 0 ≤ Y := le_trans (abs_nonneg _) (hY 0).1
    have h2 : 1 ≤ growth (code gn0 gn1) (code gi0 gi1) K pps.length ^ (2 * nIte) := one_le_pow₀ (by unfold growth; omega)
    have := le_mul_of_one_le_right (show (0 : Int) ≤ 2 * Y + 1 by omega) h2
    omega
  obtain ⟨v, hv⟩ := C95_run_exists (bf := bf) (lim := 2 ^ F.p - 1) (π := perm core f) (ρ := ρ) kn ki hnI hρ.lt
    (fun k hk => ⟨hρ.lt' k hk, hρ.inv k hk, hρ.inv' k hk⟩) (totalF (nIte := nIte) (pps := pps)) (y := y) (Y := Y) (M := M)
    (by simpa using hY) (by simpa using hM) hM1
  have hrec := C95_recovery hρ.lt (fun k hk => ⟨hρ.lt' k hk, hρ.inv k hk⟩) hx (y := y)
    ⟨fun j hj => hs.1 j (by simp only [code] at hj; omega), hs.2⟩ signsF hv
  obtain ⟨d', e⟩ := C95_decode_float hTn hTi on oi hgen hops hc hF hd bn bi hy (fun j => by have := (hY j).1; omega) hf hv
  rw [hrec] at e
  exact ⟨d', e⟩

/-- **C95**, early termination, in any arithmetic, for any post-processings and any calls before: the decisions either pass one of the checks, or
are those of the same decoder without the checks. -/
theorem C95_early_termination {A : Arith R D} {zero : R} {pps : List (PP R)} {d : TDec R} (h : Any A zero pps d) {f : Nat} {y : List R} {d' : TDec R}
    {v : List Int} (hr : d.decode A zero f y = ok (d', v)) :
    (∃ p ∈ pps, ∃ c, p.checks = some c ∧ c v = true) ∨ ∃ d0, d.unchecked.decode A zero f y = ok (d0, v) := by
  obtain ⟨h1, h2, h3⟩ := h.facts
  obtain ⟨_, g⟩ := decode_crc hr h1 h2
  rcases g with ⟨c, hc, hv⟩ | g
  · left
    rw [h3, List.mem_map] at hc
    obtain ⟨p, hp, e⟩ := hc
    exact ⟨p, hp, c, e, hv⟩
  · exact Or.inr g

/-- The codeword of the message 1011, and a received word. -/
def x1011 : List Int := [1, 0, 1, 1, 0, 1, 1, 1, 0, 0, 1, 1, 0, 0, 1, 0, 1, 0, 0, 0]

def y1011 : List Int := [-1, 1, -1, -1, 0, -1, 0, -1, 1, 0, -1, -1, 1, 0, -1, 1, 0, 1, 0, 0]

theorem IsTrellis75 : IsTrellis 4 7 5 T75 := ⟨12, true, _, rfl, by decide +kernel⟩

/-- A row-column interleaver. -/
def core4 : Core := ⟨4, 1, false, true, [2, 0, 3, 1], [1, 3, 0, 2]⟩

theorem codeword_1011 : Turbo true (code 7 5) (code 7 5) 4 (perm core4 0) x1011 := by
  refine ⟨[1, 0, 1, 1, 0, 1, 1, 1, 0, 0, 1, 1], [1, 1, 1, 0, 0, 0, 1, 0, 1, 0, 0, 0], ⟨⟨by decide, fun i => i = 2 || i = 3 || i = 4 || i = 5, ?_, ?_, ?_⟩,
    ⟨by decide, fun i => i = 2, ?_, ?_, ?_⟩, ?_⟩, rfl⟩
  · decide
  · intro i hi
    have : 6 ≤ i := hi
    simp
    omega
  · decide
  · decide
  · intro i hi
    have : 6 ≤ i := hi
    simp
    omega
  · decide
  · decide

/-- The hypotheses of the theorems above hold for a decoder, a codeword and LLRs some of which are erased. -/
example : ∃ d, ValidGen 4 (genRowColumn 2 2 .bottomLeft) ∧ history (4 : Nat) false (genRowColumn 2 2 .bottomLeft) [] = ok core4 ∧
    IsTrellis 4 7 5 T75 ∧ TReach a16 0 4 20 1 T75 T75 core4 1 true ([Pp.seq].map (Pp.short 1)) d ∧ Bound16 (Nat.log2 7) 243 ∧
    (2 * 1 + 1) * growth (code 7 5) (code 7 5) 4 1 ^ (2 * 1) ≤ (243 : Int) ∧ (∀ j, |at0 y1011 j| ≤ 1) ∧
    Turbo true (code 7 5) (code 7 5) 4 (perm core4 0) x1011 ∧ Signs 4 20 (msgPos true) x1011 y1011 := by
  refine ⟨_, genRowColumn_valid 2 2 _, rfl, IsTrellis75, .init (fill := 0) (fn := 0) (fi := 0) (bn := true) (bi := true) (.init rfl) (.init rfl) rfl, ⟨by norm_num, by decide⟩, by decide +kernel, ?_, codeword_1011,
    ⟨by decide, by decide⟩⟩
  intro j
  by_cases hj : j < 20
  · revert j
    decide
  · unfold at0
    rw [List.getD_eq_getElem?_getD, List.getElem?_eq_none (by simp only [y1011, List.length_cons, List.length_nil]; omega)]
    norm_num

/-- In floating point, with LLRs multiplied by `4 ^ 2`. -/
example : ∃ d, TReach (aF b32) (.fin 0) 4 20 1 T75 T75 core4 1 true ([Pp.seq].map (Pp.float b32 1)) d ∧ Covered b32 (-2) ∧ BoundF b32 4 (Nat.log2 7) 3000 ∧
    (2 * 16 + 1) * growth (code 7 5) (code 7 5) 4 1 ^ (2 * 1) ≤ (3000 : Int) ∧
    Signs 4 20 (msgPos true) x1011 (y1011.map fun n => 16 * n) :=
  ⟨_, .init (fill := .fin 0) (fn := .fin 0) (fi := .fin 0) (bn := true) (bi := true) (.init rfl) (.init rfl) rfl, .inl ⟨rfl, by omega, by omega⟩, ⟨by norm_num, by decide +kernel⟩, by decide +kernel, by decide, by decide⟩

/-- The outputs of a new decoder for the words `ys`, one after the other. -/
def runs (nIte : Nat) (pps : List (PP Int)) (ys : List (List Int)) : Exec (List (List Int)) := do
  let n ← Dec.mk? a16 0 (4 : Nat) T75 true
  let d ← TDec.mk? 0 4 20 nIte n n core4 1 true pps
  let r ← ys.foldlM (fun (st : TDec Int × List (List Int)) y => do
    let r ← st.1.decode a16 0 0 y
    ok (r.1, st.2 ++ [r.2])) (d, [])
  ok r.2

/-- Both outcomes of C95_early_termination happen: stopped by the check, then not stopped. -/
example : ∃ d r r', Any a16 0 [.crc 1 fun v => v.sum % 2 = 0] d ∧ d.decode a16 0 0 (List.replicate 20 2) = ok r ∧ r.2 = [0, 0, 0, 0] ∧
    r.1.decode a16 0 0 y1011 = ok r' ∧ r'.2 = [1, 0, 1, 1] := by
  have h : runs 2 [.crc 1 fun v => v.sum % 2 = 0] [List.replicate 20 2, y1011] = ok [[0, 0, 0, 0], [1, 0, 1, 1]] := by decide +kernel
  unfold runs at h
  obtain ⟨n, _, h⟩ := bind_inv h
  obtain ⟨d, hd, h⟩ := bind_inv h
  obtain ⟨w, hw, h⟩ := bind_inv h
  rw [List.foldlM_cons] at hw
  obtain ⟨w1, hw1, hw⟩ := bind_inv hw
  obtain ⟨r, h1, hw1⟩ := bind_inv hw1
  cases hw1
  rw [List.foldlM_cons] at hw
  obtain ⟨w2, hw2, hw⟩ := bind_inv hw
  obtain ⟨r', h2, hw2⟩ := bind_inv hw2
  cases hw2
  cases hw
  injection h with h
  simp only [List.nil_append, List.cons_append, List.cons.injEq, and_true] at h
  exact ⟨d, r, r', .init hd, h1, h.1, h2, h.2⟩

end Verif.Turbo
