import Verif.Proof.BCJRMain

/-! # C92: max-log BCJR decoding of the terminated convolutional codes -/

namespace Verif.BCJR
open Exec Verif.RSC Verif.Float

/-- LLR of index `t` of a list of integers. -/
def at' (l : List Int) (t : Nat) : Int := l.getD t 0

/-- The floating point LLRs `n 2 ^ e`. -/
def scale (e : Int) (l : List Int) : List Fl := l.map fun n : Int => .fin ((n : Rat) * 2 ^ e)

/-- The LLRs of the parities used by `decode_siho` on `y`: with the buffered layout, those of the tail are not read. -/
def parUsed (bf : Bool) (K L : Nat) (fill : Int) (y : List Int) (t : Nat) : Int :=
  if bf = true ∧ K ≤ t then if t < L then fill else 0 else if t < L then at' y (parPos bf L t) else 0

/-- The LLRs of the systematic symbols used by `decode_siho` on `y`. -/
def sysUsed (bf : Bool) (L : Nat) (y : List Int) (t : Nat) : Int := if t < L then at' y (sysPos bf t) else 0

theorem at'_eq {l : List Int} {t : Nat} (h : t < l.length) : l[t]? = some (at' l t) := by
  unfold at'
  rw [List.getD_eq_getElem?_getD, List.getElem?_eq_getElem h]
  rfl

theorem at'_ge {l : List Int} {t : Nat} (h : l.length ≤ t) : at' l t = 0 := by
  unfold at'
  rw [List.getD_eq_getElem?_getD, List.getElem?_eq_none h]
  rfl

theorem scale_at {e : Int} {l : List Int} {t : Nat} (h : t < l.length) : (scale e l)[t]? = some (.fin (at' l t * 2 ^ e)) := by
  unfold scale
  rw [List.getElem?_map, at'_eq h]
  rfl

/-- What `genericEnc` says of the polynomials. -/
theorem poly_facts {K : Nat} {N : Int} {bf : Bool} {g0 g1 : Nat} {e : Enc} {T : List (List Int)} (he : genericEnc K N bf [g0, g1] = ok e)
    (hT : e.mch.getTrellis = ok T) (hodd : g0 % 2 = 1) :
    0 < K ∧ 0 < g0.log2 ∧ g0.testBit g0.log2 = true ∧ g1.testBit g0.log2 = true ∧
      Tr (2 ^ g0.log2) T (nxG g0.log2 g0) (pyB g0.log2 g0 g1) (prG g0.log2) (pbG g0.log2 g0) ∧
      ∃ row, T[0]? = some row ∧ row.length = 2 ^ g0.log2 := by
  obtain ⟨g0', g1', m, e0, e1, hm, l0, l1, n0, n1, hK, _, _, _, _, _, emch, _⟩ := C12_constructor K N bf [g0, g1] e he
  have e0 : g0 = g0' := by simpa using e0
  have e1 : g1 = g1' := by simpa using e1
  subst e0 e1
  subst l0
  rw [emch] at hT
  obtain ⟨T', hT', h1, h2⟩ := tr_G (g0 := g0) (g1 := g1) hm (by rw [Nat.testBit_zero]; simpa using hodd)
  rw [hT] at hT'
  injection hT' with hT'
  subst hT'
  exact ⟨by omega, hm, testBit_log2 n0 rfl, testBit_log2 n1 l1, h1, h2⟩

theorem mod8_window {a b : Nat} (h : ∀ t, a < t → t ≤ b → (t % 8 == 0) = false) : b - a ≤ 7 := by
  by_contra hc
  have := h (a + 8 - a % 8) (by omega) (by omega)
  have h8 : (a + 8 - a % 8) % 8 = 0 := by omega
  rw [h8] at this
  cases this

theorem hyp16 {K : Nat} {g0 g1 : Nat} {T : List (List Int)} {M : Int} {s p : Nat → Int} (hm : 0 < g0.log2) (h0 : g0.testBit g0.log2 = true)
    (h1 : g1.testBit g0.log2 = true)
    (htr : Tr (2 ^ g0.log2) T (nxG g0.log2 g0) (pyB g0.log2 g0 g1) (prG g0.log2) (pbG g0.log2 g0)) (hM : ∀ t, |s t| + |p t| ≤ M) :
    Hyp a16 g0.log2 g0 g1 K 7 M (2 * (g0.log2 * M) + 8 * M) T s p where
  hm := hm
  h0 := h0
  h1 := h1
  tr := htr
  hM := hM
  hB := le_of_eq (by push_cast; ring)
  win k' k _ _ h := mod8_window h
  win' k' k hkk hk h := by
    have : K + g0.log2 - k' - 1 - (K + g0.log2 - k - 1) ≤ 7 ∨ True := Or.inr trivial
    by_contra hc
    have := h (K + g0.log2 - ((K + g0.log2 - k) + 7 - (K + g0.log2 - k + 7) % 8)) (by omega) (by omega)
    have h8 : (K + g0.log2 - (K + g0.log2 - ((K + g0.log2 - k) + 7 - (K + g0.log2 - k + 7) % 8))) % 8 = 0 := by omega
    simp only [a16] at this
    rw [h8] at this
    cases this

theorem hypF {F : Fmt} {K : Nat} {g0 g1 : Nat} {T : List (List Int)} {M : Int} {s p : Nat → Int} (hm : 0 < g0.log2) (h0 : g0.testBit g0.log2 = true)
    (h1 : g1.testBit g0.log2 = true)
    (htr : Tr (2 ^ g0.log2) T (nxG g0.log2 g0) (pyB g0.log2 g0 g1) (prG g0.log2) (pbG g0.log2 g0)) (hM : ∀ t, |s t| + |p t| ≤ M) :
    Hyp (aF F) g0.log2 g0 g1 K (K + g0.log2) M ((2 * g0.log2 + ((K + g0.log2 : Nat) + 1)) * M) T s p where
  hm := hm
  h0 := h0
  h1 := h1
  tr := htr
  hM := hM
  hB := le_refl _
  win k' k _ hk _ := by omega
  win' k' k _ hk _ := by omega

/-- The formats and the exponents of LLRs covered. -/
def Covered (F : Fmt) (e : Int) : Prop := (F = b32 ∧ -148 ≤ e ∧ e ≤ 80) ∨ (F = b64 ∧ -1073 ≤ e ∧ e ≤ 918)

theorem covered_ok {F : Fmt} {e : Int} (h : Covered F e) : FOk F e := by
  rcases h with ⟨rfl, h1, h2⟩ | ⟨rfl, h1, h2⟩
  · exact ⟨by decide, by decide, by decide, by simp only [b32]; omega, by simp only [b32]; norm_num; omega⟩
  · exact ⟨by decide, by decide, by decide, by simp only [b64]; omega, by simp only [b64]; norm_num; omega⟩

/-- The integer bounds: `(8 m + 26) M ≤ 16383`. -/
def Bound16 (m : Nat) (M : Int) : Prop := 0 ≤ M ∧ (8 * m + 26) * M ≤ 16383

/-- The bounds in floating point: `(2 K + 6 m + 4) M < 2 ^ p`. -/
def BoundF (F : Fmt) (K m : Nat) (M : Int) : Prop := 0 ≤ M ∧ (2 * K + 6 * m + 4) * M < 2 ^ F.p

def snd16 {m : Nat} {M : Int} (h : Bound16 m M) : Sound a16 (m * M) M (2 * (m * M) + 8 * M) :=
  s16 (mul_nonneg (by omega) h.1) h.1 (by have := h.2; linarith)

def sndF {F : Fmt} {e : Int} (hF : Covered F e) {K m : Nat} {M : Int} (h : BoundF F K m M) :
    Sound (aF F) (m * M) M ((2 * m + ((K + m : Nat) + 1)) * M) :=
  sF (covered_ok hF) _ h.1 (by
    have h1 : (0 : Int) ≤ (2 * m + (K + m : Nat)) * M := mul_nonneg (by omega) h.1
    linarith) (by
    have := h.2
    push_cast at this ⊢
    linarith)

theorem all_t {sys par : List Int} {L : Nat} {M : Int} (h0 : 0 ≤ M) (hs : sys.length = L) (hp : par.length = L)
    (hM : ∀ t, t < L → |at' sys t| + |at' par t| ≤ M) (t : Nat) : |at' sys t| + |at' par t| ≤ M := by
  by_cases h : t < L
  · exact hM t h
  · rw [at'_ge (by omega), at'_ge (by omega)]
    simpa using h0

/-- **C92**: on `short`, `decode_siso_alt` returns for each of the `K` bits the max-log posterior LLR minus the input LLR,
whatever was decoded before. -/
theorem C92_siso_alt_short {K : Nat} {N : Int} {bf : Bool} {g0 g1 : Nat} {e : Enc} {T : List (List Int)}
    (he : genericEnc K N bf [g0, g1] = ok e) (hT : e.mch.getTrellis = ok T) (hodd : g0 % 2 = 1)
    {fill : Int} {bf' : Bool} {d : Dec Int} (hd : Reach a16 fill K T bf' d) {M : Int} (hb : Bound16 g0.log2 M) {sys par ext : List Int}
    (hs : sys.length = K + g0.log2) (hp : par.length = K + g0.log2) (hx : ext.length = K)
    (hM : ∀ t, t < K + g0.log2 → |at' sys t| + |at' par t| ≤ M) :
    ∃ d' o, d.sisoAlt a16 sys par ext = ok (d', o) ∧ o.length = K ∧
      ∀ i, i < K → MaxLog bf g0.log2 g0 g1 K (at' sys) (at' par) (sysPos bf i) (at' o i + at' sys i) := by
  obtain ⟨hK, hm, t0, t1, htr, hrow⟩ := poly_facts he hT hodd
  have hi := hd.inv hrow
  rw [Int.toNat_natCast] at hi
  obtain ⟨⟨d', o⟩, h1, h2, h3⟩ := main_alt (bf := bf) (snd16 hb) (hyp16 hm t0 t1 htr (all_t hb.1 hs hp hM)) hi
    (fun t ht => at'_eq (by omega)) (fun t ht => at'_eq (by omega)) hx
  refine ⟨d', o, h1, h2, fun i hiK => ?_⟩
  obtain ⟨g, hg, hml⟩ := h3 i hiK
  have : at' o i = g - at' sys i := by
    have h4 := at'_eq (l := o) (t := i) (by dsimp only at h2; omega)
    dsimp only at hg
    rw [h4] at hg
    injection hg
  rw [this, sub_add_cancel]
  exact hml

/-- C92: the same in floating point, for LLRs that are multiples of a power of two. -/
theorem C92_siso_alt_float {K : Nat} {N : Int} {bf : Bool} {g0 g1 : Nat} {e : Enc} {T : List (List Int)}
    (he : genericEnc K N bf [g0, g1] = ok e) (hT : e.mch.getTrellis = ok T) (hodd : g0 % 2 = 1)
    {F : Fmt} {q : Int} (hF : Covered F q) {fill : Fl} {bf' : Bool} {d : Dec Fl} (hd : Reach (aF F) fill K T bf' d)
    {M : Int} (hb : BoundF F K g0.log2 M) {sys par : List Int} {ext : List Fl} (hs : sys.length = K + g0.log2) (hp : par.length = K + g0.log2)
    (hx : ext.length = K) (hM : ∀ t, t < K + g0.log2 → |at' sys t| + |at' par t| ≤ M) :
    ∃ d' o, d.sisoAlt (aF F) (scale q sys) (scale q par) ext = ok (d', scale q o) ∧ o.length = K ∧
      ∀ i, i < K → MaxLog bf g0.log2 g0 g1 K (at' sys) (at' par) (sysPos bf i) (at' o i + at' sys i) := by
  obtain ⟨hK, hm, t0, t1, htr, hrow⟩ := poly_facts he hT hodd
  have hi := hd.inv hrow
  rw [Int.toNat_natCast] at hi
  obtain ⟨⟨d', o⟩, h1, h2, h3⟩ := main_alt (bf := bf) (sndF hF hb) (hypF hm t0 t1 htr (all_t hb.1 hs hp hM)) hi
    (fun t ht => scale_at (by omega)) (fun t ht => scale_at (by omega)) hx
  dsimp only at h2 h3
  choose! g hg hml using h3
  refine ⟨d', (List.range K).map fun i => g i - at' sys i, ?_, by simp, fun i hiK => ?_⟩
  · rw [h1]
    congr 2
    apply List.ext_getElem?
    intro i
    by_cases hiK : i < K
    · rw [hg i hiK]
      unfold scale
      rw [List.getElem?_map, getElem?_mapRange, if_pos hiK]
      rfl
    · rw [List.getElem?_eq_none (by omega), List.getElem?_eq_none (by simp [scale]; omega)]
  · have : at' ((List.range K).map fun i => g i - at' sys i) i = g i - at' sys i := by
      unfold at'
      rw [List.getD_eq_getElem?_getD, getElem?_mapRange, if_pos hiK]
      rfl
    rw [this, sub_add_cancel]
    exact hml i hiK

/-- The decisions `v` are the signs of the max-log posterior LLRs. -/
def Decides (bf : Bool) (m g0 g1 K : Nat) (s p : Nat → Int) (v : List Int) : Prop :=
  v.length = K ∧ ∀ i, i < K → ∃ h, MaxLog bf m g0 g1 K s p (sysPos bf i) h ∧ v[i]? = some (if h < 0 then 1 else 0)

theorem used_t {y : List Int} {bf : Bool} {K L : Nat} {f M : Int} (h0 : 0 ≤ M)
    (hM : ∀ t, t < L → |sysUsed bf L y t| + |parUsed bf K L f y t| ≤ M) (t : Nat) : |sysUsed bf L y t| + |parUsed bf K L f y t| ≤ M := by
  by_cases h : t < L
  · exact hM t h
  · unfold sysUsed parUsed
    rw [if_neg h, if_neg h]
    simpa [h] using h0

/-- **C92**: on `short`, `decode_siho` decides the signs of the max-log posterior LLRs. -/
theorem C92_siho_short {K : Nat} {N : Int} {bf : Bool} {g0 g1 : Nat} {e : Enc} {T : List (List Int)}
    (he : genericEnc K N bf [g0, g1] = ok e) (hT : e.mch.getTrellis = ok T) (hodd : g0 % 2 = 1)
    {fill : Int} {d : Dec Int} (hd : Reach a16 fill K T bf d) {M : Int} (hb : Bound16 g0.log2 M) {y : List Int}
    (hy : y.length = 2 * (K + g0.log2))
    (hM : ∀ t, t < K + g0.log2 → |sysUsed bf (K + g0.log2) y t| + |parUsed bf K (K + g0.log2) fill y t| ≤ M) :
    ∃ d' v, d.siho a16 y = ok (d', v) ∧
      Decides bf g0.log2 g0 g1 K (sysUsed bf (K + g0.log2) y) (parUsed bf K (K + g0.log2) fill y) v := by
  obtain ⟨hK, hm, t0, t1, htr, hrow⟩ := poly_facts he hT hodd
  have hi := hd.inv hrow
  rw [Int.toNat_natCast] at hi
  obtain ⟨⟨d', v⟩, h1, h2, h3⟩ := main_siho (snd16 hb) (hyp16 hm t0 t1 htr (used_t hb.1 hM)) hi hy
    (fun t ht => by unfold sysUsed; rw [if_pos ht]; exact at'_eq (by rw [hy]; exact sysPos_lt ht))
    (fun t ht hc => by unfold parUsed; rw [if_neg hc, if_pos ht]; exact at'_eq (by rw [hy]; exact parPos_lt ht))
    (fun t ht h1 h2 => by unfold parUsed; rw [if_pos ⟨h1, h2⟩, if_pos ht]; rfl)
  exact ⟨d', v, h1, h2, h3⟩

/-- C92: the same in floating point. -/
theorem C92_siho_float {K : Nat} {N : Int} {bf : Bool} {g0 g1 : Nat} {e : Enc} {T : List (List Int)}
    (he : genericEnc K N bf [g0, g1] = ok e) (hT : e.mch.getTrellis = ok T) (hodd : g0 % 2 = 1)
    {F : Fmt} {q : Int} (hF : Covered F q) {f : Int} {d : Dec Fl} (hd : Reach (aF F) (.fin (f * 2 ^ q)) K T bf d)
    {M : Int} (hb : BoundF F K g0.log2 M) {y : List Int} (hy : y.length = 2 * (K + g0.log2))
    (hM : ∀ t, t < K + g0.log2 → |sysUsed bf (K + g0.log2) y t| + |parUsed bf K (K + g0.log2) f y t| ≤ M) :
    ∃ d' v, d.siho (aF F) (scale q y) = ok (d', v) ∧
      Decides bf g0.log2 g0 g1 K (sysUsed bf (K + g0.log2) y) (parUsed bf K (K + g0.log2) f y) v := by
  obtain ⟨hK, hm, t0, t1, htr, hrow⟩ := poly_facts he hT hodd
  have hi := hd.inv hrow
  rw [Int.toNat_natCast] at hi
  obtain ⟨⟨d', v⟩, h1, h2, h3⟩ := main_siho (sndF hF hb) (hypF hm t0 t1 htr (used_t hb.1 hM)) hi
    (y := scale q y) (by simpa [scale] using hy)
    (fun t ht => by unfold sysUsed; rw [if_pos ht]; exact scale_at (by rw [hy]; exact sysPos_lt ht))
    (fun t ht hc => by unfold parUsed; rw [if_neg hc, if_pos ht]; exact scale_at (by rw [hy]; exact parPos_lt ht))
    (fun t ht h1 h2 => by unfold parUsed; rw [if_pos ⟨h1, h2⟩, if_pos ht]; rfl)
  exact ⟨d', v, h1, h2, h3⟩

/-- **C92**: the decisions are the message of the maximum likelihood codeword, when there is only one. -/
theorem C92_maximum_likelihood {bf : Bool} {m g0 g1 K : Nat} {s p : Nat → Int} {v : List Int} (h : Decides bf m g0 g1 K s p v)
    {x : List Int} (hx : IsML bf m g0 g1 K s p x) (hu : ∀ x', IsML bf m g0 g1 K s p x' → x' = x) :
    ∀ i, i < K → v[i]? = x[sysPos bf i]? := by
  intro i hi
  obtain ⟨g, hg, e⟩ := h.2 i hi
  rw [e, ml_decision hx.1 ?_ hi hg]
  intro x' hx' hne
  rcases lt_or_eq_of_le (hx.2 x' hx') with h | h
  · exact h
  · exact absurd (hu x' ⟨hx', fun x'' h'' => by rw [h]; exact hx.2 x'' h''⟩) hne

/-- **C92**: LLRs with the signs of a codeword are decoded to its message (the tail parities, not read with the buffered
layout, being replaced by zeros). -/
theorem C92_recovery_short {K : Nat} {N : Int} {bf : Bool} {g0 g1 : Nat} {e : Enc} {T : List (List Int)}
    (he : genericEnc K N bf [g0, g1] = ok e) (hT : e.mch.getTrellis = ok T) (hodd : g0 % 2 = 1)
    {d : Dec Int} (hd : Reach a16 0 K T bf d) {M : Int} (hb : Bound16 g0.log2 M) {y x : List Int}
    (hy : y.length = 2 * (K + g0.log2)) (hM : ∀ j, j < 2 * (K + g0.log2) → 2 * |at' y j| ≤ M)
    (hx : IsCodeword bf g0.log2 g0 g1 K x) (hs : ∀ j, j < 2 * (K + g0.log2) → 0 < (1 - 2 * sym x j) * at' y j) :
    ∃ d' v, d.siho a16 y = ok (d', v) ∧ v = (List.range K).map fun i => sym x (sysPos bf i) := by
  obtain ⟨hK, hm, t0, t1, htr, hrow⟩ := poly_facts he hT hodd
  obtain ⟨d', v, h1, h2⟩ := C92_siho_short he hT hodd hd hb hy (by
    intro t ht
    have a1 := hM _ (sysPos_lt (bf := bf) ht)
    have a2 := hM _ (parPos_lt (bf := bf) ht)
    unfold sysUsed parUsed
    rw [if_pos ht, if_pos ht, if_pos ht]
    split
    · have := abs_nonneg (at' y (sysPos bf t))
      simp only [abs_zero]
      omega
    · omega)
  have hu := ml_of_signs hm t0 hx (s := sysUsed bf (K + g0.log2) y) (p := parUsed bf K (K + g0.log2) 0 y)
    (fun t ht => by unfold sysUsed; rw [if_pos (by omega)]; exact hs _ (sysPos_lt (by omega)))
    (fun t ht => by unfold sysUsed; rw [if_pos ht]; exact (hs _ (sysPos_lt ht)).le)
    (fun t ht => by
      unfold parUsed
      rw [if_pos ht, if_pos ht]
      split
      · simp
      · exact (hs _ (parPos_lt ht)).le)
  refine ⟨d', v, h1, ?_⟩
  apply List.ext_getElem?
  intro i
  by_cases hi : i < K
  · obtain ⟨g, hg, e⟩ := h2.2 i hi
    have e2 := ml_decision hx hu hi hg
    rw [e, getElem?_mapRange, if_pos hi, sym_of e2]
  · rw [List.getElem?_eq_none (by have := h2.1; omega), List.getElem?_eq_none (by simp; omega)]

/-- C92: the same in floating point. -/
theorem C92_recovery_float {K : Nat} {N : Int} {bf : Bool} {g0 g1 : Nat} {e : Enc} {T : List (List Int)}
    (he : genericEnc K N bf [g0, g1] = ok e) (hT : e.mch.getTrellis = ok T) (hodd : g0 % 2 = 1)
    {F : Fmt} {q : Int} (hF : Covered F q) {d : Dec Fl} (hd : Reach (aF F) (.fin 0) K T bf d)
    {M : Int} (hb : BoundF F K g0.log2 M) {y x : List Int} (hy : y.length = 2 * (K + g0.log2))
    (hM : ∀ j, j < 2 * (K + g0.log2) → 2 * |at' y j| ≤ M)
    (hx : IsCodeword bf g0.log2 g0 g1 K x) (hs : ∀ j, j < 2 * (K + g0.log2) → 0 < (1 - 2 * sym x j) * at' y j) :
    ∃ d' v, d.siho (aF F) (scale q y) = ok (d', v) ∧ v = (List.range K).map fun i => sym x (sysPos bf i) := by
  obtain ⟨hK, hm, t0, t1, htr, hrow⟩ := poly_facts he hT hodd
  obtain ⟨d', v, h1, h2⟩ := C92_siho_float (f := 0) (q := q) he hT hodd hF (by simpa using hd) hb hy (by
    intro t ht
    have a1 := hM _ (sysPos_lt (bf := bf) ht)
    have a2 := hM _ (parPos_lt (bf := bf) ht)
    unfold sysUsed parUsed
    rw [if_pos ht, if_pos ht, if_pos ht]
    split
    · have := abs_nonneg (at' y (sysPos bf t))
      simp only [abs_zero]
      omega
    · omega)
  have hu := ml_of_signs hm t0 hx (s := sysUsed bf (K + g0.log2) y) (p := parUsed bf K (K + g0.log2) 0 y)
    (fun t ht => by unfold sysUsed; rw [if_pos (by omega)]; exact hs _ (sysPos_lt (by omega)))
    (fun t ht => by unfold sysUsed; rw [if_pos ht]; exact (hs _ (sysPos_lt ht)).le)
    (fun t ht => by
      unfold parUsed
      rw [if_pos ht, if_pos ht]
      split
      · simp
      · exact (hs _ (parPos_lt ht)).le)
  refine ⟨d', v, h1, ?_⟩
  apply List.ext_getElem?
  intro i
  by_cases hi : i < K
  · obtain ⟨g, hg, e⟩ := h2.2 i hi
    have e2 := ml_decision hx hu hi hg
    rw [e, getElem?_mapRange, if_pos hi, sym_of e2]
  · rw [List.getElem?_eq_none (by have := h2.1; omega), List.getElem?_eq_none (by simp; omega)]

/-- Both values of the symbol at position `j` occur in codewords. -/
def BothOccur (bf : Bool) (m g0 g1 K j : Nat) : Prop :=
  ∀ b : Int, b = 0 ∨ b = 1 → ∃ x, IsCodeword bf m g0 g1 K x ∧ x[j]? = some b

/-- **C92**: on `short`, `decode_siso` returns for each symbol the max-log posterior LLR minus the input LLR (if the symbol is not
the same in all codewords). -/
theorem C92_siso_short {K : Nat} {N : Int} {g0 g1 : Nat} {e : Enc} {T : List (List Int)}
    (he : genericEnc K N true [g0, g1] = ok e) (hT : e.mch.getTrellis = ok T) (hodd : g0 % 2 = 1) (hmK : g0.log2 ≤ K)
    {fill : Int} {d : Dec Int} (hd : Reach a16 fill K T true d) {M : Int} (hb : Bound16 g0.log2 M) {y out : List Int}
    (hy : y.length = 2 * (K + g0.log2)) (ho : out.length = 2 * (K + g0.log2))
    (hM : ∀ j, j < 2 * (K + g0.log2) → 2 * |at' y j| ≤ M) :
    ∃ d' o, d.siso a16 y out = ok (d', o) ∧ o.length = 2 * (K + g0.log2) ∧
      ∀ j, j < 2 * (K + g0.log2) → BothOccur true g0.log2 g0 g1 K j →
        MaxLog true g0.log2 g0 g1 K (at' (y.take (K + g0.log2))) (at' (y.drop (K + g0.log2))) j (at' o j + at' y j) := by
  obtain ⟨hK, hm, t0, t1, htr, hrow⟩ := poly_facts he hT hodd
  have hi := hd.inv hrow
  rw [Int.toNat_natCast] at hi
  have hsy : ∀ t, t < K + g0.log2 → at' (y.take (K + g0.log2)) t = at' y t := by
    intro t ht
    unfold at'
    rw [List.getD_eq_getElem?_getD, List.getD_eq_getElem?_getD, List.getElem?_take_of_lt ht]
  have hpy : ∀ t, at' (y.drop (K + g0.log2)) t = at' y (K + g0.log2 + t) := by
    intro t
    unfold at'
    rw [List.getD_eq_getElem?_getD, List.getD_eq_getElem?_getD, List.getElem?_drop]
  have hMt : ∀ t, t < K + g0.log2 → |at' (y.take (K + g0.log2)) t| + |at' (y.drop (K + g0.log2)) t| ≤ M := by
    intro t ht
    rw [hsy t ht, hpy]
    have a1 := hM t (by omega)
    have a2 := hM (K + g0.log2 + t) (by omega)
    omega
  have hne : ∀ {j : Nat}, BothOccur true g0.log2 g0 g1 K j → ∀ b : Bool,
      (Corrs true g0.log2 g0 g1 K (at' (y.take (K + g0.log2))) (at' (y.drop (K + g0.log2))) j (b2i b)).Nonempty := by
    intro j hj b
    obtain ⟨x, h1, h2⟩ := hj (b2i b) (by cases b <;> simp [b2i])
    exact ⟨_, x, h1, h2, rfl⟩
  obtain ⟨⟨d', o⟩, h1, h2, h3⟩ := main_siso (snd16 hb) (hyp16 hm t0 t1 htr
    (all_t hb.1 (by rw [List.length_take]; omega) (by rw [List.length_drop]; omega) hMt)) hi hmK (y := y) (out := out)
    (fun t ht => by rw [hsy t ht]; exact at'_eq (by omega)) (fun t ht => by rw [hpy]; exact at'_eq (by omega)) ho
  refine ⟨d', o, h1, h2, fun j hj hocc => ?_⟩
  dsimp only at h2 h3
  by_cases hjL : j < K + g0.log2
  · obtain ⟨g, hg, hml⟩ := (h3 j hjL).1 (hne hocc)
    have : at' o j = g - at' y j := by
      have h4 := at'_eq (l := o) (t := j) (by omega)
      rw [h4, hsy j hjL] at hg
      injection hg
    rw [this, sub_add_cancel]
    exact hml
  · obtain ⟨t, rfl⟩ : ∃ t, j = K + g0.log2 + t := ⟨j - (K + g0.log2), by omega⟩
    obtain ⟨g, hg, hml⟩ := (h3 t (by omega)).2 (hne hocc)
    have : at' o (K + g0.log2 + t) = g - at' y (K + g0.log2 + t) := by
      have h4 := at'_eq (l := o) (t := K + g0.log2 + t) (by omega)
      rw [h4, hpy] at hg
      injection hg
    rw [this, sub_add_cancel]
    exact hml

/-- C92: the same in floating point. -/
theorem C92_siso_float {K : Nat} {N : Int} {g0 g1 : Nat} {e : Enc} {T : List (List Int)}
    (he : genericEnc K N true [g0, g1] = ok e) (hT : e.mch.getTrellis = ok T) (hodd : g0 % 2 = 1) (hmK : g0.log2 ≤ K)
    {F : Fmt} {q : Int} (hF : Covered F q) {fill : Fl} {d : Dec Fl} (hd : Reach (aF F) fill K T true d) {M : Int}
    (hb : BoundF F K g0.log2 M) {y : List Int} {out : List Fl}
    (hy : y.length = 2 * (K + g0.log2)) (ho : out.length = 2 * (K + g0.log2))
    (hM : ∀ j, j < 2 * (K + g0.log2) → 2 * |at' y j| ≤ M) :
    ∃ d' o, d.siso (aF F) (scale q y) out = ok (d', o) ∧ o.length = 2 * (K + g0.log2) ∧
      ∀ j, j < 2 * (K + g0.log2) → BothOccur true g0.log2 g0 g1 K j → ∃ h : Int, o[j]? = some (.fin ((h - at' y j : Int) * 2 ^ q)) ∧
        MaxLog true g0.log2 g0 g1 K (at' (y.take (K + g0.log2))) (at' (y.drop (K + g0.log2))) j h := by
  obtain ⟨hK, hm, t0, t1, htr, hrow⟩ := poly_facts he hT hodd
  have hi := hd.inv hrow
  rw [Int.toNat_natCast] at hi
  have hsy : ∀ t, t < K + g0.log2 → at' (y.take (K + g0.log2)) t = at' y t := by
    intro t ht
    unfold at'
    rw [List.getD_eq_getElem?_getD, List.getD_eq_getElem?_getD, List.getElem?_take_of_lt ht]
  have hpy : ∀ t, at' (y.drop (K + g0.log2)) t = at' y (K + g0.log2 + t) := by
    intro t
    unfold at'
    rw [List.getD_eq_getElem?_getD, List.getD_eq_getElem?_getD, List.getElem?_drop]
  have hMt : ∀ t, t < K + g0.log2 → |at' (y.take (K + g0.log2)) t| + |at' (y.drop (K + g0.log2)) t| ≤ M := by
    intro t ht
    rw [hsy t ht, hpy]
    have a1 := hM t (by omega)
    have a2 := hM (K + g0.log2 + t) (by omega)
    omega
  have hne : ∀ {j : Nat}, BothOccur true g0.log2 g0 g1 K j → ∀ b : Bool,
      (Corrs true g0.log2 g0 g1 K (at' (y.take (K + g0.log2))) (at' (y.drop (K + g0.log2))) j (b2i b)).Nonempty := by
    intro j hj b
    obtain ⟨x, h1, h2⟩ := hj (b2i b) (by cases b <;> simp [b2i])
    exact ⟨_, x, h1, h2, rfl⟩
  obtain ⟨⟨d', o⟩, h1, h2, h3⟩ := main_siso (sndF hF hb) (hypF hm t0 t1 htr
    (all_t hb.1 (by rw [List.length_take]; omega) (by rw [List.length_drop]; omega) hMt)) hi hmK (y := scale q y) (out := out)
    (fun t ht => by rw [hsy t ht]; exact scale_at (by omega)) (fun t ht => by rw [hpy]; exact scale_at (by omega)) ho
  refine ⟨d', o, h1, h2, fun j hj hocc => ?_⟩
  dsimp only at h2 h3
  by_cases hjL : j < K + g0.log2
  · obtain ⟨g, hg, hml⟩ := (h3 j hjL).1 (hne hocc)
    rw [hsy j hjL] at hg
    exact ⟨g, hg, hml⟩
  · obtain ⟨t, rfl⟩ : ∃ t, j = K + g0.log2 + t := ⟨j - (K + g0.log2), by omega⟩
    obtain ⟨g, hg, hml⟩ := (h3 t (by omega)).2 (hne hocc)
    rw [hpy] at hg
    exact ⟨g, hg, hml⟩

/-- C92: a decoder can be built for each encoder with an odd feedback polynomial. -/
theorem C92_constructor {K : Nat} {N : Int} {bf : Bool} {g0 g1 : Nat} {e : Enc} (he : genericEnc K N bf [g0, g1] = ok e)
    (hodd : g0 % 2 = 1) {R D : Type} (A : Arith R D) (fill : R) (bf' : Bool) :
    ∃ T d, e.mch.getTrellis = ok T ∧ Dec.mk? A fill K T bf' = ok d ∧ d.K = K ∧ d.n = 2 ^ g0.log2 ∧ d.nff = g0.log2 := by
  obtain ⟨g0', g1', m, e0, e1, hm, l0, l1, n0, n1, hK, _, _, _, _, _, emch, _⟩ := C12_constructor K N bf [g0, g1] e he
  have e0 : g0 = g0' := by simpa using e0
  have e1 : g1 = g1' := by simpa using e1
  subst e0 e1
  subst l0
  obtain ⟨T, hT, h1, row, h2, h3⟩ := tr_G (g0 := g0) (g1 := g1) hm (by rw [Nat.testBit_zero]; simpa using hodd)
  have key : ∃ d, Dec.mk? A fill K T bf' = ok d ∧ d.K = K ∧ d.n = 2 ^ g0.log2 ∧ d.nff = g0.log2 := by
    unfold Dec.mk?
    have hr : rd T 0 = ok row := by unfold rd; rw [h2]
    have hp : 0 < 2 ^ g0.log2 := Nat.two_pow_pos _
    rw [hr, bind_ok]
    dsimp only
    rw [h3, if_neg (by omega), if_neg (by omega), Nat.log2_two_pow, if_neg (by simp), Int.toNat_natCast]
    exact ⟨_, rfl, rfl, rfl, rfl⟩
  obtain ⟨d, hd⟩ := key
  exact ⟨T, d, by rw [emch]; exact hT, hd⟩

/-! ## A code -/

/-- The trellis of the code of polynomials 7, 5. -/
def T75 : List (List Int) :=
  [[0, 2, 0, 2], [1, -1, -1, 1], [0, 1, 0, 1], [1, 3, 1, 3], [-1, 1, 1, -1], [0, 1, 0, 1], [0, 2, 3, 1], [0, 0, 1, 1], [2, 0, 1, 3],
    [0, 0, 1, 1]]

/-- The hypotheses of the theorems above are met. -/
example : ∃ e d, genericEnc (3 : Nat) 10 false [7, 5] = ok e ∧ e.mch.getTrellis = ok T75 ∧ 7 % 2 = 1 ∧ Reach a16 0 (3 : Nat) T75 false d ∧
    Bound16 (Nat.log2 7) 300 ∧ IsCodeword false (Nat.log2 7) 7 5 3 [1, 1, 0, 1, 0, 1, 1, 1, 0, 0] ∧
    ∃ d', d.siho a16 [-7, -100, 3, -150, 1, -150, -9, -20, 30, 1] = ok (d', [1, 0, 0]) := by
  have h : ∃ e d r, genericEnc (3 : Nat) 10 false [7, 5] = ok e ∧ e.mch.getTrellis = ok T75 ∧ Dec.mk? a16 0 (3 : Nat) T75 false = ok d ∧
      d.siho a16 [-7, -100, 3, -150, 1, -150, -9, -20, 30, 1] = ok r ∧ r.2 = [1, 0, 0] := ⟨_, _, _, rfl, by decide +kernel, rfl, rfl, by decide +kernel⟩
  obtain ⟨e, d, ⟨d', v⟩, h1, h2, h3, h4, h5⟩ := h
  dsimp only at h5
  subst h5
  refine ⟨e, d, h1, h2, rfl, .init h3, ⟨by norm_num, by decide⟩, ⟨by decide, fun i => i = 2 || i = 3, ?_, ?_, ?_⟩, d', h4⟩
  · decide
  · intro i hi
    have : 5 ≤ i := hi
    simp
    omega
  · decide

example : ∃ d, Reach (aF b32) (.fin 0) (3 : Nat) T75 true d ∧ Covered b32 (-2) ∧ BoundF b32 3 2 1000 :=
  ⟨_, .init rfl, .inl ⟨rfl, by omega, by omega⟩, by norm_num, by norm_num [b32]⟩

/-! ## C93: what the decoder does not do -/

/-- **C93**: with the buffered layout, `decode_siho` does not read the LLRs of the parities of the tail. -/
theorem C93_tail_ignored {R D : Type} (A : Arith R D) (d : Dec R) (hb : d.buffered = true) {y y' : List R}
    (h : ∀ j, j < 2 * d.K + d.nff → y[j]? = y'[j]?) : d.siho A y = d.siho A y' := by
  have hc : ∀ so n (dst : List R), so + n ≤ 2 * d.K + d.nff → copyTo y so n dst 0 = copyTo y' so n dst 0 := by
    intro so n dst hn
    unfold copyTo
    refine forN_congr fun i s hi => ?_
    unfold rd
    rw [h (so + i) (by omega)]
  have : d.load y = d.load y' := by
    unfold Dec.load
    rw [if_pos hb, if_pos hb, hc _ _ _ (by omega)]
    congr 1
    funext sys
    rw [hc _ _ _ (by omega)]
  unfold Dec.siho
  rw [this]

/-- Decoding of one frame by a new decoder. -/
def decode1 {R D : Type} (A : Arith R D) (fill : R) (K N : Int) (bf : Bool) (poly : List Nat) (y : List R) : Exec (List Int) := do
  let e ← genericEnc K N bf poly
  let T ← e.mch.getTrellis
  let d ← Dec.mk? A fill K T bf
  let r ← d.siho A y
  ok r.2

/-- Encoding of one frame by a new encoder. -/
def encode1 (K N : Int) (bf : Bool) (poly : List Nat) (u : List Int) : Exec (List Int) := do
  let e ← genericEnc K N bf poly
  e.encode u (List.replicate N.toNat 0)

/-- Correlation of a word with LLRs in the same order. -/
def correl (x y : List Int) : Int := (List.zipWith (fun a b => (1 - 2 * a) * b) x y).sum

/-- **C93**: so that its decision may not be the most likely codeword: the codeword of message 1 is strictly better than that of
the message 0, which is decided. -/
theorem C93_buffered_not_ml :
    ∃ y x0 x1, encode1 1 6 true [7, 5] [0] = ok x0 ∧ encode1 1 6 true [7, 5] [1] = ok x1 ∧ correl x0 y < correl x1 y ∧
      decode1 a16 0 1 6 true [7, 5] y = ok [0] :=
  ⟨[1, 1, 1, 1, -8, -8], [0, 0, 0, 0, 0, 0], [1, 1, 1, 1, 0, 1], by decide +kernel⟩

/-- **C93**: with an even feedback polynomial, accepted by the encoder and the decoder, a codeword received without noise is decoded
to another message. -/
theorem C93_even_feedback :
    ∃ x, encode1 3 10 false [6, 5] [1, 0, 0] = ok x ∧ decode1 a16 0 3 10 false [6, 5] (x.map fun b => (1 - 2 * b) * 4) = ok [1, 1, 0] :=
  ⟨[1, 1, 0, 1, 0, 0, 1, 1, 0, 1], by decide +kernel⟩

/-- **C93**: on `short`, the metrics overflow: LLRs of magnitude 8000 with the signs of the null codeword are decoded to another
message. -/
theorem C93_overflow_short :
    encode1 3 10 false [7, 5] [0, 0, 0] = ok (List.replicate 10 0) ∧
      decode1 a16 0 3 10 false [7, 5] (List.replicate 10 8000) = ok [0, 1, 1] := by decide +kernel

/-- **C93**: on `signed char`, LLRs of magnitude 127 with the signs of the null codeword are decoded to another message. -/
theorem C93_overflow_char :
    decode1 a8 0 3 10 false [7, 5] (List.replicate 10 127) = ok [1, 0, 1] := by decide +kernel

/-- **C93**: on `signed char`, the branch metrics are halved: small LLRs are decided against the most likely codeword. -/
theorem C93_precision_char :
    ∃ y x0 x1, encode1 1 6 false [7, 5] [0] = ok x0 ∧ encode1 1 6 false [7, 5] [1] = ok x1 ∧ correl x1 y < correl x0 y ∧
      (∀ a ∈ y, |a| ≤ 2) ∧ decode1 a8 0 1 6 false [7, 5] y = ok [1] :=
  ⟨[2, 1, 0, -1, -1, -1], [0, 0, 0, 0, 0, 0], [1, 1, 1, 0, 1, 1], by decide +kernel⟩

end Verif.BCJR
