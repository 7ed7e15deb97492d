import Verif.Proof.MLUse

/-!
# C75, C76: maximum likelihood decoders
-/

namespace Verif.ML
open Exec Verif.Float

/-- **C75** (constructor).  It accepts exactly `0 < K ≤ N`, an encoder of the same sizes, and at most 64 bits to enumerate: those of
the message, or those of the codeword for the naive decoder. -/
theorem C75_constructor (kind : Kind) (sz : Nat) (K N : Int) (c : Coder) (hamming : Bool) :
    (∃ d, Dec.mk? kind sz K N c hamming = ok d ∧ d.kind = kind ∧ (d.K : Int) = K ∧ (d.N : Int) = N ∧ d.c = c ∧ d.hamming = hamming) ↔
      0 < K ∧ K ≤ N ∧ c.K = K ∧ c.N = N ∧ (kind = .std → K ≤ 64) ∧ (kind = .naive → N ≤ 64) := by
  unfold Dec.mk?
  constructor
  · rintro ⟨d, h, -⟩
    by_cases h1 : K ≤ 0
    · rw [if_pos h1] at h; cases h
    rw [if_neg h1] at h
    by_cases h2 : N ≤ 0
    · rw [if_pos h2] at h; cases h
    rw [if_neg h2] at h
    by_cases h3 : K > N
    · rw [if_pos h3] at h; cases h
    rw [if_neg h3] at h
    by_cases h4 : c.K ≠ K
    · rw [if_pos h4] at h; cases h
    rw [if_neg h4] at h
    by_cases h5 : c.N ≠ N
    · rw [if_pos h5] at h; cases h
    rw [if_neg h5] at h
    refine ⟨by omega, by omega, by omega, by omega, fun hk => ?_, fun hk => ?_⟩
    · subst hk
      simp only at h
      by_contra hc
      rw [if_pos (by omega)] at h; cases h
    · subst hk
      simp only at h
      by_contra hc
      rw [if_pos (by omega)] at h; cases h
  · rintro ⟨h1, h2, h3, h4, h5, h6⟩
    rw [if_neg (by omega), if_neg (by omega), if_neg (by omega), if_neg (by omega), if_neg (by omega)]
    cases kind with
    | std =>
      simp only
      rw [if_neg (by have := h5 rfl; omega)]
      exact ⟨_, rfl, rfl, by show (K.toNat : Int) = K; omega, by show (N.toNat : Int) = N; omega, rfl, rfl⟩
    | naive =>
      simp only
      rw [if_neg (by have := h6 rfl; omega)]
      exact ⟨_, rfl, rfl, by show (K.toNat : Int) = K; omega, by show (N.toNat : Int) = N; omega, rfl, rfl⟩

/-- **C75** (the specification has one answer).  The first message, or the first codeword, of least score is unique. -/
theorem C75_unique {D : Type} {lt : D → D → Prop} {n : Nat} {enc : List Int → List Int} {isCw : List Int → Bool} {score : List Int → D} {a b : List Int} :
    (FirstLeast lt n enc score a → FirstLeast lt n enc score b → a = b) ∧ (FirstLeastCw lt n isCw score a → FirstLeastCw lt n isCw score b → a = b) :=
  ⟨fun h h' => h.unique h', fun h h' => h.unique h'⟩

/-- **C75** (standard decoder, hard inputs).  Whatever was decoded before and whatever is in the output, with less than 64 bits of
message, the codeword and the message that are given are those of a message whose codeword is at the least Hamming distance of what
is received; of these messages, the first one. -/
theorem C75_std_hard {d : Dec} (hr : Reach d) (hk : d.kind = .std) (hK : d.K < 64) {y : List Int} (hy : y.length = d.N) :
    ∃ u, FirstLeast (· < ·) d.K d.c.enc (fun x => ham x y) u ∧ (∀ v, v.length = d.N → ∃ d', d.hihoCw y v = ok (d', d.c.enc u)) ∧
      ∀ v, v.length = d.K → ∃ d', d.hiho y v = ok (d', u) := by
  have h := hr.ok
  obtain ⟨u, h1, h2, h3⟩ := std_close h hk hK (msg := d.hiho y) (hiho_hs h hy) (fun v d' x hv e k hx => hiho_of h (by rw [hk]; intro; contradiction) hv e k hx)
    ⟨List.replicate d.K 0, zeros_bits _, by simp, ham_lt h hy⟩
  refine ⟨u, ?_, h2, h3⟩
  simpa only [decide_eq_true_eq] using h1

/-- **C75** (naive decoder, hard inputs).  With words of less than 64 bits, and if there is a codeword, the word that is given is a
codeword at the least Hamming distance of what is received; of these, the first one.  The message is made of its information bits. -/
theorem C75_naive_hard {d : Dec} (hr : Reach d) (hk : d.kind = .naive) (hN : d.N < 64) {y : List Int} (hy : y.length = d.N)
    (hex : ∃ x, IsBits x ∧ x.length = d.N ∧ d.c.isCw x = true) :
    ∃ x, FirstLeastCw (· < ·) d.N d.c.isCw (fun x => ham x y) x ∧ (∀ v, v.length = d.N → ∃ d', d.hihoCw y v = ok (d', x)) ∧
      (d.c.sys = true → ∀ v, v.length = d.K → ∃ d', d.hiho y v = ok (d', infoOf d.c x)) := by
  have h := hr.ok
  obtain ⟨x0, a1, a2, a3⟩ := hex
  obtain ⟨x, h1, h2, h3⟩ := naive_close h hk hN (msg := d.hiho y) (hiho_hs h hy) (fun hs v d' x hv e k hx => hiho_of h (fun _ => hs) hv e k hx)
    ⟨x0, a1, a2, a3, ham_lt h hy⟩
  refine ⟨x, ?_, h2, h3⟩
  simpa only [decide_eq_true_eq] using h1

/-- **C75** (naive decoder).  The message is refused when the encoder is not systematic. -/
theorem C75_naive_refused {d : Dec} (hk : d.kind = .naive) (hs : d.c.sys = false) (y : List Int) (z : List Fl) (v : List Int) :
    d.hiho y v = exc .invalidArgument ∧ d.siho z v = exc .invalidArgument := by
  have h : d.kind = .naive ∧ !d.c.sys := ⟨hk, by rw [hs]; rfl⟩
  unfold Dec.hiho Dec.siho
  rw [if_pos h, if_pos h]
  exact ⟨rfl, rfl⟩

/-- **C75** (soft inputs, Hamming option).  The results are those of the hard decisions. -/
theorem C75_soft_hamming {d : Dec} (hr : Reach d) (hh : d.hamming = true) {y : List Fl} (hy : y.length = d.N) :
    (∀ v, v.length = d.N → ∃ d1 d2 x, d.sihoCw y v = ok (d1, x) ∧ d.hihoCw (hard y) v = ok (d2, x)) ∧
      ((d.kind = .naive → d.c.sys = true) → ∀ v, v.length = d.K → ∃ d1 d2 u, d.siho y v = ok (d1, u) ∧ d.hiho (hard y) v = ok (d2, u)) := by
  have h := hr.ok
  have hl : (hard y).length = d.N := by rw [hard, List.length_map, hy]
  refine ⟨fun v hv => ?_, fun hs v hv => ?_⟩
  · obtain ⟨⟨d2, x⟩, e, -⟩ := hihoCw_kept h hl hv
    exact ⟨_, d2, x, by rw [sihoCw_hamming h hh hy, hihoCw_hardY (hard y) e], e⟩
  · obtain ⟨⟨d2, x⟩, e, k, hx⟩ := hihoCw_kept h hl h.bx
    have e2 : d.sihoCw y d.bestX = ok ({ d2 with hardY := hard y }, x) := by rw [sihoCw_hamming h hh hy, hihoCw_hardY (hard y) e]
    have k2 := (sat_of_ok (sihoCw_kept h hy h.bx) e2)
    have a1 := siho_of h hs hv e2 k2.1 hx
    have a2 := hiho_of h hs hv e k hx
    exact ⟨_, _, _, a1, a2⟩

/-- **C75** (standard decoder, soft inputs).  With inputs that are numbers and at least one codeword at a distance that is less than
`FLT_MAX`, the message is the first one whose codeword has the least Euclidean distance, as computed. -/
theorem C75_std_soft_float {d : Dec} (hr : Reach d) (hk : d.kind = .std) (hK : d.K < 64) (hh : d.hamming = false) {y : List Fl} (hy : y.length = d.N)
    (hn : ∀ b ∈ y, b ≠ .nan) (hex : ∃ u, IsBits u ∧ u.length = d.K ∧ Fl.lt (fdist (d.c.enc u) y) fltMax = true) :
    ∃ u, FirstLeast (fun a b => Fl.lt a b = true) d.K d.c.enc (fun x => fdist x y) u ∧ (∀ v, v.length = d.N → ∃ d', d.sihoCw y v = ok (d', d.c.enc u)) ∧
      ∀ v, v.length = d.K → ∃ d', d.siho y v = ok (d', u) := by
  have h := hr.ok
  exact std_close h hk hK (msg := d.siho y) (soft_hs h hh hy hn) (fun v d' x hv e k hx => siho_of h (by rw [hk]; intro; contradiction) hv e k hx) hex

/-- **C75** (naive decoder, soft inputs).  The same for the first codeword of least distance. -/
theorem C75_naive_soft_float {d : Dec} (hr : Reach d) (hk : d.kind = .naive) (hN : d.N < 64) (hh : d.hamming = false) {y : List Fl} (hy : y.length = d.N)
    (hn : ∀ b ∈ y, b ≠ .nan) (hex : ∃ x, IsBits x ∧ x.length = d.N ∧ d.c.isCw x = true ∧ Fl.lt (fdist x y) fltMax = true) :
    ∃ x, FirstLeastCw (fun a b => Fl.lt a b = true) d.N d.c.isCw (fun x => fdist x y) x ∧ (∀ v, v.length = d.N → ∃ d', d.sihoCw y v = ok (d', x)) ∧
      (d.c.sys = true → ∀ v, v.length = d.K → ∃ d', d.siho y v = ok (d', infoOf d.c x)) := by
  have h := hr.ok
  exact naive_close h hk hN (msg := d.siho y) (soft_hs h hh hy hn) (fun hs v d' x hv e k hx => siho_of h (fun _ => hs) hv e k hx) hex

theorem ofInts_length (y : List Int) : (ofInts y).length = y.length := by unfold ofInts; rw [List.length_map]

theorem ofInts_nan {y : List Int} : ∀ b ∈ ofInts y, b ≠ .nan := by
  intro b hb
  rw [ofInts, List.mem_map] at hb
  obtain ⟨v, -, rfl⟩ := hb
  simp

theorem int_lt_max {x y : List Int} {B : Int} (hB : 0 ≤ B) (hx : x.length = y.length) (hb : ∀ v ∈ y, |v| ≤ B) (hN : (y.length : Int) * (B + 1) ^ 2 < 2 ^ 24) :
    Fl.lt (fdist x (ofInts y)) fltMax = true := by
  obtain ⟨e, h1, h2⟩ := fdist_int hB hx hb hN
  rw [e, fltMax]
  simp only [Fl.lt, decide_eq_true_eq]
  have : (idist x y : ℚ) < ((2 ^ 24 : Int) : ℚ) := by exact_mod_cast lt_of_le_of_lt h2 hN
  push_cast at this
  linarith

theorem int_lt_iff {x x' y : List Int} {B : Int} (hB : 0 ≤ B) (hx : x.length = y.length) (hx' : x'.length = y.length) (hb : ∀ v ∈ y, |v| ≤ B)
    (hN : (y.length : Int) * (B + 1) ^ 2 < 2 ^ 24) : Fl.lt (fdist x (ofInts y)) (fdist x' (ofInts y)) = true ↔ corr x' y < corr x y := by
  rw [(fdist_int hB hx hb hN).1, (fdist_int hB hx' hb hN).1]
  simp only [Fl.lt, decide_eq_true_eq, Int.cast_lt]
  rw [idist_corr x y hx, idist_corr x' y hx']
  omega

/-- **C75** (standard decoder, integer inputs).  For quantized inputs of magnitude at most `B` with `N (B + 1)² < 2 ^ 24`, nothing is
rounded: the message is the first one whose codeword, sent as `±1`, has the greatest correlation with what is received. -/
theorem C75_std_soft_int {d : Dec} (hr : Reach d) (hk : d.kind = .std) (hK : d.K < 64) (hh : d.hamming = false) {y : List Int} (hy : y.length = d.N)
    {B : Int} (hb : ∀ v ∈ y, |v| ≤ B) (hN : (d.N : Int) * (B + 1) ^ 2 < 2 ^ 24) :
    ∃ u, FirstLeast (· > ·) d.K d.c.enc (fun x => corr x y) u ∧ (∀ v, v.length = d.N → ∃ d', d.sihoCw (ofInts y) v = ok (d', d.c.enc u)) ∧
      ∀ v, v.length = d.K → ∃ d', d.siho (ofInts y) v = ok (d', u) := by
  have h := hr.ok
  have hB : 0 ≤ B := by
    have := h.N0
    have hm : y[0] ∈ y := List.getElem_mem (by omega)
    exact (abs_nonneg _).trans (hb _ hm)
  have hl : ∀ u, IsBits u → u.length = d.K → (d.c.enc u).length = y.length := fun u u1 u2 => by
    rw [h.good.enc u u1 (by rw [u2, h.cK]), h.cN, hy]
  rw [← hy] at hN
  obtain ⟨u, ⟨h1, h1', h1''⟩, h2, h3⟩ := C75_std_soft_float hr hk hK hh (y := ofInts y) ((ofInts_length y).trans hy) ofInts_nan
    ⟨List.replicate d.K 0, zeros_bits _, by simp, int_lt_max hB (hl _ (zeros_bits _) (by simp)) hb hN⟩
  refine ⟨u, ⟨h1, h1', fun u' u1 u2 => ?_⟩, h2, h3⟩
  obtain ⟨g1, g2⟩ := h1'' u' u1 u2
  simp only at g1 g2
  rw [int_lt_iff hB (hl _ u1 u2) (hl _ h1 h1') hb hN] at g1
  rw [int_lt_iff hB (hl _ h1 h1') (hl _ u1 u2) hb hN] at g2
  exact ⟨g1, g2⟩

/-- **C75** (naive decoder, integer inputs).  The same for the codewords. -/
theorem C75_naive_soft_int {d : Dec} (hr : Reach d) (hk : d.kind = .naive) (hN64 : d.N < 64) (hh : d.hamming = false) {y : List Int} (hy : y.length = d.N)
    {B : Int} (hb : ∀ v ∈ y, |v| ≤ B) (hN : (d.N : Int) * (B + 1) ^ 2 < 2 ^ 24) (hex : ∃ x, IsBits x ∧ x.length = d.N ∧ d.c.isCw x = true) :
    ∃ x, FirstLeastCw (· > ·) d.N d.c.isCw (fun x => corr x y) x ∧ (∀ v, v.length = d.N → ∃ d', d.sihoCw (ofInts y) v = ok (d', x)) ∧
      (d.c.sys = true → ∀ v, v.length = d.K → ∃ d', d.siho (ofInts y) v = ok (d', infoOf d.c x)) := by
  have h := hr.ok
  have hB : 0 ≤ B := by
    have := h.N0
    have hm : y[0] ∈ y := List.getElem_mem (by omega)
    exact (abs_nonneg _).trans (hb _ hm)
  rw [← hy] at hN
  obtain ⟨x0, a1, a2, a3⟩ := hex
  obtain ⟨x, ⟨h1, h1', h10, h1''⟩, h2, h3⟩ := C75_naive_soft_float hr hk hN64 hh (y := ofInts y) ((ofInts_length y).trans hy) ofInts_nan
    ⟨x0, a1, a2, a3, int_lt_max hB (by omega) hb hN⟩
  refine ⟨x, ⟨h1, h1', h10, fun x' u1 u2 u3 => ?_⟩, h2, h3⟩
  obtain ⟨g1, g2⟩ := h1'' x' u1 u2 u3
  simp only at g1 g2
  rw [int_lt_iff hB (by omega) (by omega) hb hN] at g1
  rw [int_lt_iff hB (by omega) (by omega) hb hN] at g2
  exact ⟨g1, g2⟩

/-! ## Defects -/

theorem rounds_64 : rounds 64 = 1 := rfl

theorem bitsOf_zero (n : Nat) : bitsOf n 0 = List.replicate n 0 := by
  apply List.ext_getElem (by rw [bitsOf_length, List.length_replicate])
  intro i h1 h2
  unfold bitsOf
  simp

/-- **C76** (64 bits of message).  The constructor accepts `K = 64`, but the loop stops after the first message: whatever is
received, the message is zero. -/
theorem C76_std_64 {d : Dec} (hr : Reach d) (hk : d.kind = .std) (hK : d.K = 64) {y : List Int} (hy : y.length = d.N) {v : List Int} (hv : v.length = d.K) :
    ∃ d', d.hiho y v = ok (d', List.replicate 64 0) := by
  have h := hr.ok
  obtain ⟨⟨d1, x1⟩, e1, ⟨e, hp⟩, k1⟩ := hiho_hs h hy d.bestX h.bx
  have hx := found_len h h.bx ⟨e, hp⟩
  have hc : d.count = 1 := by unfold Dec.count; rw [hk]; simp only; rw [hK]; rfl
  have hcs : ∀ i, cands d i = some (bitsOf d.K i, d.c.enc (bitsOf d.K i)) := fun i => by unfold cands; rw [hk]
  have hsv : d.saved = d.K := by unfold Dec.saved; rw [hk]
  have := hiho_of h (by rw [hk]; intro; contradiction) hv e1 k1 hx.1
  rw [hk] at this
  simp only at this
  refine ⟨{ d1 with bestX := x1 }, this.trans ?_⟩
  congr 2
  cases hp with
  | none _ h' =>
    have := h' 0 (by omega) _ (hcs 0)
    rw [ham_lt h hy] at this
    cases this
  | some i p h1 h2 h3 h4 h5 h6 h7 =>
    obtain rfl : i = 0 := by omega
    rw [hcs] at h2
    cases h2
    simp only at h6
    rw [hsv, List.drop_eq_nil_of_le (by rw [h.bu]), List.append_nil, bitsOf_zero, hK] at h6
    exact h6

/-- **C76** (64 bits of codeword, naive decoder).  Only the null word is tried: it is the answer if it is a codeword, else what was in
the output stays there. -/
theorem C76_naive_64 {d : Dec} (hr : Reach d) (hk : d.kind = .naive) (hN : d.N = 64) {y : List Int} (hy : y.length = d.N) {v : List Int} (hv : v.length = d.N) :
    ∃ d', d.hihoCw y v = ok (d', if d.c.isCw (List.replicate 64 0) then List.replicate 64 0 else v) := by
  have h := hr.ok
  obtain ⟨⟨d1, x1⟩, e1, ⟨e, hp⟩, k1⟩ := hiho_hs h hy v hv
  have hc : d.count = 1 := by unfold Dec.count; rw [hk]; simp only; rw [hN]; rfl
  refine ⟨d1, e1.trans ?_⟩
  congr 2
  by_cases hcw : d.c.isCw (List.replicate 64 0) = true
  · rw [if_pos hcw]
    have hcs : cands d 0 = some ([], List.replicate 64 0) := by
      unfold cands; rw [hk]; simp only; rw [bitsOf_zero, hN, if_pos hcw]
    cases hp with
    | none _ h' =>
      have := h' 0 (by omega) _ hcs
      rw [ham_lt h hy] at this
      cases this
    | some i p h1 h2 h3 h4 h5 h6 h7 =>
      obtain rfl : i = 0 := by omega
      rw [hcs] at h2
      cases h2
      exact h5
  · rw [if_neg hcw]
    have hcs : cands d 0 = none := by
      unfold cands; rw [hk]; simp only; rw [bitsOf_zero, hN, if_neg hcw]
    cases hp with
    | none h' _ =>
      simp only [Prod.mk.injEq] at h'
      exact h'.2.1
    | some i p h1 h2 h3 h4 h5 h6 h7 =>
      obtain rfl : i = 0 := by omega
      rw [hcs] at h2
      cases h2

/-- **C76** (infinite inputs).  If an input is infinite, no distance is less than `FLT_MAX`: nothing is written in the output of
codewords, and the message is the one left by the previous frame. -/
theorem C76_infinite {d : Dec} (hr : Reach d) (hh : d.hamming = false) {y : List Fl} (hy : y.length = d.N) (hn : ∀ b ∈ y, b ≠ .nan) (hi : ∃ s, .inf s ∈ y) :
    (∀ v, v.length = d.N → ∃ d', d.sihoCw y v = ok (d', v)) ∧ (d.kind = .std → ∀ v, v.length = d.K → ∃ d', d.siho y v = ok (d', d.bestU)) ∧
      (d.kind = .naive → d.c.sys = true → ∀ v, v.length = d.K → ∃ d', d.siho y v = ok (d', infoOf d.c d.bestX)) := by
  have h := hr.ok
  have key : ∀ v, v.length = d.N → ∃ d', d.sihoCw y v = ok (d', v) ∧ d'.bestU = d.bestU ∧ Kept d d' := by
    intro v hv
    obtain ⟨⟨d1, x1⟩, e1, ⟨e, hp⟩, k1⟩ := soft_hs h hh hy hn v hv
    refine ⟨d1, ?_⟩
    cases hp with
    | none h' _ =>
      simp only [Prod.mk.injEq] at h'
      exact ⟨by rw [e1, h'.2.1], h'.2.2, k1⟩
    | some i p h1 h2 h3 h4 h5 h6 h7 =>
      simp only at h4
      rw [fdist_inf (by rw [(cands_len h h2).1, hy]) hn hi] at h4
      cases h4
  obtain ⟨d1, e1, b1, k1⟩ := key d.bestX h.bx
  refine ⟨fun v hv => ?_, fun hk v hv => ?_, fun hk hs v hv => ?_⟩
  · obtain ⟨d', e, -⟩ := key v hv; exact ⟨d', e⟩
  · have := siho_of h (by rw [hk]; intro; contradiction) hv e1 k1 h.bx
    rw [hk] at this
    simp only at this
    rw [b1] at this
    exact ⟨_, this⟩
  · have := siho_of h (fun _ => hs) hv e1 k1 h.bx
    rw [hk] at this
    exact ⟨_, this⟩

theorem out_ok {x : Exec (Dec × List Int)} {u : List Int} (h : x.toOption.map (·.2) = some u) : ∃ d', x = ok (d', u) := by
  cases x with
  | ok r => cases h; exact ⟨r.1, rfl⟩
  | exc e => cases h
  | ub => cases h

/-- The code without redundancy. -/
def ident (n : Nat) : Coder := ⟨n, n, id, fun _ => true, true, List.range n⟩

theorem ident_good (n : Nat) : (ident n).Good :=
  ⟨fun _ _ h => h, by show (List.range n).length = _; rw [List.length_range]; rfl, fun p hp => List.mem_range.mp hp⟩

/-- **C76** (history).  The message decoded from an infinite input depends on the previous frame: two decoders of the same code, with
the same input, give different messages. -/
theorem C76_history : ∃ d d1, Reach d ∧ d.kind = .std ∧ d.hamming = false ∧ d.c = ident 1 ∧ (∃ u, d.siho [.fin (-3)] [0] = ok (d1, u)) ∧
    (∃ d', d.siho [.inf false] [0] = ok (d', [0])) ∧ ∃ d', d1.siho [.inf false] [0] = ok (d', [1]) := by
  have hm : Dec.mk? .std 4 1 1 (ident 1) false = ok ⟨.std, 4, 1, 1, ident 1, false, [0], [0], [0]⟩ := rfl
  have hr : Reach _ := .make (by decide) (by decide) (ident_good 1) hm
  obtain ⟨d1, e1⟩ := out_ok (show ((Dec.mk .std 4 1 1 (ident 1) false [0] [0] [0]).siho [.fin (-3)] [0]).toOption.map (·.2) = some [1] by decide +kernel)
  refine ⟨_, d1, hr, rfl, rfl, rfl, ⟨_, e1⟩, out_ok (by decide +kernel), out_ok ?_⟩
  have h2 : (((Dec.mk .std 4 1 1 (ident 1) false [0] [0] [0]).siho [.fin (-3)] [0]).toOption.bind fun p => (p.1.siho [.inf false] [0]).toOption.map (·.2)) = some [1] := by
    decide +kernel
  rw [e1] at h2
  exact h2

/-- **C76** (absorption).  A large input makes the differences of the small ones vanish in the sum of squares: with the code without
redundancy and the inputs `2 ^ 30` and `-1`, the two bits are decoded as `0 0`, and `0 1` has a greater correlation with what is
received. -/
theorem C76_absorbed : ∃ d, Reach d ∧ d.kind = .std ∧ d.K = 2 ∧ d.hamming = false ∧ d.c = ident 2 ∧
    (∃ d', d.siho (ofInts [2 ^ 30, -1]) [0, 0] = ok (d', [0, 0])) ∧ corr (d.c.enc [0, 0]) [2 ^ 30, -1] < corr (d.c.enc [0, 1]) [2 ^ 30, -1] := by
  have hm : Dec.mk? .std 4 2 2 (ident 2) false = ok ⟨.std, 4, 2, 2, ident 2, false, [0, 0], [0, 0], [0, 0]⟩ := rfl
  have hr : Reach _ := .make (by decide) (by decide) (ident_good 2) hm
  exact ⟨_, hr, rfl, rfl, rfl, rfl, out_ok (by decide +kernel), by decide⟩

/-! ## The hypotheses are met -/

/-- A code of two bits and their parity. -/
def parity : Coder := ⟨2, 3, fun u => u ++ [if u.getD 0 0 = u.getD 1 0 then 0 else 1],
  fun x => decide (x.getD 2 0 = if x.getD 0 0 = x.getD 1 0 then 0 else 1), true, [0, 1]⟩

theorem parity_good : parity.Good :=
  ⟨fun u _ h => by show (u ++ _).length = 3; rw [List.length_append, h]; rfl, rfl, by decide⟩

example : ∃ d, Reach d ∧ d.kind = .std ∧ d.K < 64 ∧ d.hamming = false ∧ d.c = parity ∧ ∀ v ∈ [5, -3, 1], |v| ≤ (5 : Int) ∧ (d.N : Int) * (5 + 1) ^ 2 < 2 ^ 24 := by
  have hm : Dec.mk? .std 4 2 3 parity false = ok ⟨.std, 4, 2, 3, parity, false, [0, 0], [0, 0, 0], [0, 0, 0]⟩ := rfl
  exact ⟨_, .make (by decide) (by decide) parity_good hm, rfl, by decide, rfl, rfl, by decide⟩

example : ∃ d, Reach d ∧ d.kind = .naive ∧ d.N < 64 ∧ d.c.sys = true ∧ ∃ x, IsBits x ∧ x.length = d.N ∧ d.c.isCw x = true ∧ Fl.lt (fdist x (ofInts [5, -3, 1])) fltMax = true := by
  have hm : Dec.mk? .naive 4 2 3 parity false = ok ⟨.naive, 4, 2, 3, parity, false, [0, 0], [0, 0, 0], [0, 0, 0]⟩ := rfl
  exact ⟨_, .make (by decide) (by decide) parity_good hm, rfl, by decide, rfl, [1, 0, 1], by unfold IsBits; decide, rfl, rfl, by decide +kernel⟩

example : ((Dec.mk .std 4 2 3 parity false [0, 0] [0, 0, 0] [0, 0, 0]).siho (ofInts [5, -3, 1]) [0, 0]).toOption.map (·.2) = some [0, 1] := by decide +kernel

example : ((Dec.mk .naive 4 2 3 parity false [0, 0] [0, 0, 0] [0, 0, 0]).siho (ofInts [5, -3, -2]) [0, 0]).toOption.map (·.2) = some [0, 1] := by decide +kernel

example : ∃ d, Reach d ∧ d.kind = .std ∧ d.K = 64 := by
  have hm : Dec.mk? .std 4 64 64 (ident 64) false = ok ⟨.std, 4, 64, 64, ident 64, false, List.replicate 64 0, List.replicate 64 0, List.replicate 64 0⟩ := rfl
  exact ⟨_, .make (by decide) (by decide) (ident_good 64) hm, rfl, rfl⟩

example : ∃ d, Reach d ∧ d.kind = .naive ∧ d.N = 64 := by
  have hm : Dec.mk? .naive 4 64 64 (ident 64) false = ok ⟨.naive, 4, 64, 64, ident 64, false, List.replicate 64 0, List.replicate 64 0, List.replicate 64 0⟩ := rfl
  exact ⟨_, .make (by decide) (by decide) (ident_good 64) hm, rfl, rfl⟩

end Verif.ML
