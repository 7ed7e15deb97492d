import Verif.Proof.RASign

/-!
# Repeat-accumulate codes (C111, C112)

`core` is an interleaver of `N` positions after any history of operations; `perm core f` is the permutation it applies to
frame `f`.
-/

namespace Verif.RA
open Exec Verif.Interleaver Verif.Turbo

/-- A call of `encode`: frame index, message, output buffer. -/
abbrev ECall := Nat × List Nat × List Nat

def Enc.call (e : Enc) (c : ECall) : Exec Enc := e.encode c.1 c.2.1 c.2.2 >>= fun r => ok r.1

/-- A call of `decode`: frame index, LLRs, output buffer. -/
abbrev DCall (R : Type) := Nat × List R × List Nat

def Dec.call {R : Type} (o : Ops R) (d : Dec R) (c : DCall R) : Exec (Dec R) := d.decode o c.1 c.2.1 c.2.2 >>= fun r => ok r.1

theorem tab_getD {α : Type} {l : List α} {n : Nat} (h : l.length = n) (d : α) : Tab l n fun i => l.getD i d :=
  ⟨h, fun i hi => by dsimp only; rw [List.getD_eq_getElem?_getD, List.getElem?_eq_getElem (by omega)]; rfl⟩

theorem erun {K N nf : Nat} {core : Core} (hp : ∀ f, f < nf → ∃ ρ, ItlOk core nf f N (perm core f) ρ) :
    ∀ (cs : List ECall) (e : Enc), e.WF K N core nf →
      (∀ c ∈ cs, c.1 < nf ∧ c.2.1.length = K ∧ IsBits c.2.1 ∧ c.2.2.length = N) →
      ∃ e', cs.foldlM Enc.call e = ok e' ∧ e'.WF K N core nf ∧ e'.rep = e.rep := by
  intro cs
  induction cs with
  | nil => exact fun e he _ => ⟨e, rfl, he, rfl⟩
  | cons c cs ih =>
    intro e he hv
    obtain ⟨h1, h2, h3, h4⟩ := hv c List.mem_cons_self
    obtain ⟨ρ, hρ⟩ := hp c.1 h1
    obtain ⟨r, er, g1, g2, -, -⟩ := encode_sat he hρ h2 h3 h4
    obtain ⟨e', ee, k1, k2⟩ := ih r.1 g1 fun c hc => hv c (List.mem_cons_of_mem _ hc)
    refine ⟨e', ?_, k1, k2.trans g2⟩
    rw [List.foldlM_cons]
    unfold Enc.call at ee ⊢
    rw [er, bind_ok, bind_ok]
    exact ee

theorem drun {R : Type} {o : Ops R} {K N nf it : Nat} {core : Core}
    (hp : ∀ f, f < nf → ∃ ρ, ItlOk core nf f N (perm core f) ρ) (hN : 2 ≤ N) :
    ∀ (cs : List (DCall R)) (d : Dec R), d.WF K N core nf it → (∀ c ∈ cs, c.1 < nf ∧ c.2.1.length = N ∧ c.2.2.length = K) →
      ∃ d', cs.foldlM (Dec.call o) d = ok d' ∧ d'.WF K N core nf it ∧ d'.rep = d.rep := by
  intro cs
  induction cs with
  | nil => exact fun e he _ => ⟨e, rfl, he, rfl⟩
  | cons c cs ih =>
    intro d hd hv
    obtain ⟨h1, h2, h3⟩ := hv c List.mem_cons_self
    obtain ⟨ρ, hρ⟩ := hp c.1 h1
    obtain ⟨r, er, g1, g2, -⟩ := decode_sat (o := o) (y := fun i => c.2.1.getD i o.zero) hd hρ hN
      (tab_getD h2 _) h3
    obtain ⟨e', ee, k1, k2⟩ := ih r.1 g1 fun c hc => hv c (List.mem_cons_of_mem _ hc)
    refine ⟨e', ?_, k1, k2.trans g2⟩
    rw [List.foldlM_cons]
    unfold Dec.call at ee ⊢
    rw [er, bind_ok, bind_ok]
    exact ee

/-! ## Encoder -/

/-- **C111**, encoding.  For every accepted encoder, after any history of encodings, the output is the message repeated
`N / K` times, interleaved and accumulated modulo 2. -/
theorem C111_encode {K N : Int} {nf : Nat} {uniform : Bool} {gen : GenLut} {ops : List Op} {core : Core} {e : Enc}
    (hgen : ValidGen N.toNat gen) (hops : OpsValid N.toNat ops) (hc : history N.toNat uniform gen ops = ok core)
    (he : Enc.mk? K N core nf = ok e) {cs : List ECall}
    (hcs : ∀ c ∈ cs, c.1 < nf ∧ c.2.1.length = K.toNat ∧ IsBits c.2.1 ∧ c.2.2.length = N.toNat) {f : Nat} (hf : f < nf)
    {u x : List Nat} (hu : u.length = K.toNat) (hb : IsBits u) (hx : x.length = N.toNat) :
    ∃ e1 e2, cs.foldlM Enc.call e = ok e1 ∧
      e1.encode f u x = ok (e2, word (N.toNat / K.toNat) (perm core f) N.toNat u) := by
  obtain ⟨hw, hsz⟩ := Enc.mk_wf he
  have hp := fun f hf => itlOk (nf := nf) (f := f) hw.npos hgen hops hc hf
  obtain ⟨e1, h1, w1, r1⟩ := erun hp cs e hw hcs
  obtain ⟨ρ, hρ⟩ := hp f hf
  obtain ⟨r, er, g1, g2, g3, g4⟩ := encode_sat w1 hρ hu hb hx
  have hrep : e1.rep = N.toNat / K.toNat := (Nat.div_eq_of_eq_mul_left w1.kpos w1.dvd.symm).symm
  refine ⟨e1, r.1, h1, ?_⟩
  rw [er, ← hrep, ← g4]

/-- **C111**, uniqueness.  Different messages have different codewords, for every interleaver. -/
theorem C111_injective {K r nf f : Nat} {uniform : Bool} {gen : GenLut} {ops : List Op} {core : Core} (hK : 0 < K) (hr : 0 < r)
    (hgen : ValidGen (r * K) gen) (hops : OpsValid (r * K) ops) (hc : history (r * K : Nat) uniform gen ops = ok core) (hf : f < nf)
    {u v : List Nat} (hu : u.length = K) (hv : v.length = K) (hub : IsBits u) (hvb : IsBits v)
    (h : word r (perm core f) (r * K) u = word r (perm core f) (r * K) v) : u = v := by
  obtain ⟨ρ, hρ⟩ := itlOk (nf := nf) (f := f) (Nat.mul_pos hr hK) hgen hops hc hf
  have hB := X_inj (N := r * K) (fun i _ => getD_bit hub (perm core f i / r)) (fun i _ => getD_bit hvb (perm core f i / r))
    fun i hi => by
      have e1 : (word r (perm core f) (r * K) u)[i]? = (word r (perm core f) (r * K) v)[i]? := by rw [h]
      rw [word_eq, word_eq, getElem?_mapRange, getElem?_mapRange, if_pos hi, if_pos hi] at e1
      exact Option.some.inj e1
  refine List.ext_getElem? fun k => ?_
  by_cases hk : k < K
  · have hlt : k * r < r * K := by rw [Nat.mul_comm r K]; exact (Nat.mul_lt_mul_right hr).2 hk
    have := hB (ρ (k * r)) (hρ.lt' _ hlt)
    rw [hρ.inv _ hlt, Nat.mul_div_cancel _ hr, getD_lt 0 (by omega), getD_lt 0 (by omega)] at this
    rw [List.getElem?_eq_getElem (by omega), List.getElem?_eq_getElem (by omega), this]
  · rw [List.getElem?_eq_none (by omega), List.getElem?_eq_none (by omega)]

/-- **C111**, linearity.  The codeword of the sum of two messages is the sum of their codewords. -/
theorem C111_linear (r : Nat) (π : Nat → Nat) (N : Nat) (u v : List Nat) (h : u.length = v.length) :
    word r π N (List.zipWith (fun a b => (a + b) % 2) u v) =
      List.zipWith (fun a b => (a + b) % 2) (word r π N u) (word r π N v) := by
  rw [word_eq, word_eq, word_eq]
  refine List.ext_getElem? fun i => ?_
  rw [List.getElem?_zipWith, getElem?_mapRange, getElem?_mapRange, getElem?_mapRange]
  by_cases hi : i < N
  · rw [if_pos hi, if_pos hi, if_pos hi]
    dsimp only
    rw [← X_add]
    congr 2
    funext j
    rw [List.getD_eq_getElem?_getD, List.getElem?_zipWith, List.getD_eq_getElem?_getD, List.getD_eq_getElem?_getD]
    by_cases hj : π j / r < u.length
    · rw [List.getElem?_eq_getElem hj, List.getElem?_eq_getElem (by omega)]; rfl
    · rw [List.getElem?_eq_none (by omega), List.getElem?_eq_none (by omega)]; rfl
  · rw [if_neg hi, if_neg hi, if_neg hi]

/-! ## Decoder -/

theorem signs {N r K : Nat} {π ρ : Nat → Nat} {u : List Nat} (hb : IsBits u) (hN : 0 < N) :
    Signs N r π ρ (fun i => decide (X (fun j => u.getD (π j / r) 0) i ≠ 0)) (fun i => decide (u.getD (π i / r) 0 ≠ 0))
      (fun k => decide (u.getD k 0 ≠ 0)) := by
  refine ⟨by rw [X_zero (B := fun j => u.getD (π j / r) 0) (getD_bit hb _)], fun i hi => ?_, fun i hi => rfl⟩
  rw [X_succ]
  have h1 := X_lt (fun j => u.getD (π j / r) 0) i
  have h2 := getD_bit hb (π (i + 1) / r)
  generalize X (fun j => u.getD (π j / r) 0) i = a at h1
  generalize u.getD (π (i + 1) / r) 0 = b at h2
  have : ∀ a : Fin 2, ∀ b : Fin 2, decide ((a.1 + b.1) % 2 ≠ 0) = (decide (a.1 ≠ 0) ^^ decide (b.1 ≠ 0)) := by decide
  exact this ⟨a, h1⟩ ⟨b, h2⟩

section
variable {R : Type} [AddCommGroup R] [LinearOrder R] [IsOrderedAddMonoid R]

theorem flips_tab {x : List Nat} {Y : List R} {N : Nat} {B : Nat → Nat} {y : Nat → R} (hx : Tab x N B) (hY : Tab Y N y) :
    Tab (flips x Y) N fun i => fl (decide (B i ≠ 0)) (y i) := by
  unfold flips
  refine ⟨by rw [List.length_zipWith, hx.1, hY.1, Nat.min_self], fun i hi => ?_⟩
  rw [List.getElem?_zipWith, hx.2 i hi, hY.2 i hi]
  show some _ = some _
  congr 1
  show _ = fl _ _
  unfold fl
  by_cases h : B i = 0
  · rw [if_pos h, if_neg (by simpa using h)]
  · rw [if_neg h, if_pos (by simpa using h)]

theorem word_tab {r N : Nat} {π : Nat → Nat} {u : List Nat} : Tab (word r π N u) N (X fun i => u.getD (π i / r) 0) := by
  rw [word_eq]
  exact ⟨by simp, fun i hi => by rw [getElem?_mapRange, if_pos hi]⟩

/-- **C111**, symmetry of the decoder (exact arithmetic, frames of at least two bits).  After any history of decodings,
decoding LLRs whose signs are changed where a codeword has ones flips exactly the bits of its message: each decision on
the changed LLRs differs from the decision on the LLRs where the message has a one, except that both may be 0 (undecided).
Hence the errors made on any codeword are those made on the all-zero one. -/
theorem C111_symmetry {K N it : Int} {nf : Nat} {uniform : Bool} {gen : GenLut} {ops : List Op} {core : Core} {d : Dec R}
    (hgen : ValidGen N.toNat gen) (hops : OpsValid N.toNat ops) (hc : history N.toNat uniform gen ops = ok core)
    (hd : Dec.mk? (exact R) K N core nf it = ok d) (hN : 2 ≤ N) {cs cs' : List (DCall R)}
    (hcs : ∀ c ∈ cs, c.1 < nf ∧ c.2.1.length = N.toNat ∧ c.2.2.length = K.toNat)
    (hcs' : ∀ c ∈ cs', c.1 < nf ∧ c.2.1.length = N.toNat ∧ c.2.2.length = K.toNat) {f : Nat} (hf : f < nf) {u : List Nat}
    (hb : IsBits u) {Y : List R} (hY : Y.length = N.toNat) {V V' : List Nat} (hV : V.length = K.toNat) (hV' : V'.length = K.toNat) :
    ∃ d1 d2 d1' d2' v v', cs.foldlM (Dec.call (exact R)) d = ok d1 ∧ d1.decode (exact R) f Y V = ok (d2, v) ∧
      cs'.foldlM (Dec.call (exact R)) d = ok d1' ∧
      d1'.decode (exact R) f (flips (word (N.toNat / K.toNat) (perm core f) N.toNat u) Y) V' = ok (d2', v') ∧
      v.length = K.toNat ∧ v'.length = K.toNat ∧
      ∀ k, k < K.toNat → v'.getD k 0 = (v.getD k 0 + u.getD k 0) % 2 ∨ (v.getD k 0 = 0 ∧ v'.getD k 0 = 0) := by
  obtain ⟨hw, hsz⟩ := Dec.mk_wf hd
  have hp := fun f hf => itlOk (nf := nf) (f := f) hw.npos hgen hops hc hf
  have hN' : 2 ≤ N.toNat := by omega
  obtain ⟨d1, e1, w1, r1⟩ := drun (o := exact R) hp hN' cs d hw hcs
  obtain ⟨d1', e1', w1', r1'⟩ := drun (o := exact R) hp hN' cs' d hw hcs'
  obtain ⟨ρ, hρ⟩ := hp f hf
  have hrep : d.rep = N.toNat / K.toNat := (Nat.div_eq_of_eq_mul_left hw.kpos hw.dvd.symm).symm
  have hYt : Tab Y N.toNat fun i => Y.getD i 0 := tab_getD hY _
  obtain ⟨s, es, -, -, hs⟩ := decode_sat (o := exact R) w1 hρ hN' hYt hV
  obtain ⟨s', es', -, -, hs'⟩ := decode_sat (o := exact R) w1' hρ hN'
    (flips_tab (word_tab (r := N.toNat / K.toNat) (π := perm core f) (u := u)) hYt) hV'
  rw [r1] at hs
  rw [r1'] at hs'
  refine ⟨d1, s.1, d1', s'.1, s.2, s'.2, e1, es, e1', es', by rw [hs]; simp, by rw [hs']; simp, fun k hk => ?_⟩
  have hsg := signs (r := N.toNat / K.toNat) (N := N.toNat) (K := K.toNat) (π := perm core f) (ρ := ρ) hb (by omega)
  rw [hrep] at hs hs'
  have hdvd := hw.dvd
  have hrp := hw.rpos
  rw [hrep] at hdvd hrp
  have hρ' : ∀ i, i < N.toNat → ρ i < N.toNat ∧ perm core f (ρ i) = i := fun i hi => ⟨hρ.lt' i hi, hρ.inv i hi⟩
  have htot := tot_fl (R := R) (Y := fun i => Y.getD i 0) (T := tdI (exact R) (N.toNat / K.toNat) N.toNat (perm core f) ρ (fun i => Y.getD i 0) (it.toNat - 1))
    hN' hrp hdvd hρ' hsg (fun i _ => rfl)
    (fun i hi => tdI_fl (Y := fun i => Y.getD i 0) hN' hrp hdvd hρ.lt hρ' hsg (fun i _ => rfl) (it.toNat - 1) i hi) k hk
  have g : ∀ (F : Nat → Nat), ((List.range K.toNat).map F).getD k 0 = F k := fun F => by
    rw [List.getD_eq_getElem?_getD, getElem?_mapRange, if_pos hk]; rfl
  rw [hs, hs', g, g, htot]
  generalize totF (exact R) (N.toNat / K.toNat) N.toNat ρ _ _ k = t
  have hbk := getD_bit hb k
  generalize u.getD k 0 = c at hbk
  have hneg : ∀ v : R, (exact R).isNeg v = decide (v < 0) := fun v => rfl
  rw [hneg, hneg]
  by_cases h0 : c = 0
  · subst h0
    left
    have : fl (decide ((0 : Nat) ≠ 0)) t = t := by simp [fl]
    rw [this]
    split <;> rfl
  · obtain rfl : c = 1 := by omega
    have : fl (decide ((1 : Nat) ≠ 0)) t = -t := by simp [fl]
    rw [this]
    rcases lt_trichotomy t 0 with h | h | h
    · left
      rw [decide_eq_true h, decide_eq_false (by rw [Left.neg_neg_iff]; exact not_lt.2 h.le)]; rfl
    · right
      subst h
      rw [neg_zero, decide_eq_false (lt_irrefl _)]; exact ⟨rfl, rfl⟩
    · left
      rw [decide_eq_false (not_lt.2 h.le), decide_eq_true (by rw [Left.neg_neg_iff]; exact h)]; rfl

/-- **C111**, decoding (exact arithmetic, frames of at least two bits).  Whatever the number of iterations, the interleaver
and the previous frames, LLRs that agree with the codeword of a message, of any magnitudes, are decoded into the message. -/
theorem C111_decode {K N it : Int} {nf : Nat} {uniform : Bool} {gen : GenLut} {ops : List Op} {core : Core} {d : Dec R}
    (hgen : ValidGen N.toNat gen) (hops : OpsValid N.toNat ops) (hc : history N.toNat uniform gen ops = ok core)
    (hd : Dec.mk? (exact R) K N core nf it = ok d) (hN : 2 ≤ N) {cs : List (DCall R)}
    (hcs : ∀ c ∈ cs, c.1 < nf ∧ c.2.1.length = N.toNat ∧ c.2.2.length = K.toNat) {f : Nat} (hf : f < nf) {u : List Nat}
    (hu : u.length = K.toNat) (hb : IsBits u) {Y : List R} (hY : Y.length = N.toNat)
    (hA : Agrees Y (word (N.toNat / K.toNat) (perm core f) N.toNat u)) {V : List Nat} (hV : V.length = K.toNat) :
    ∃ d1 d2, cs.foldlM (Dec.call (exact R)) d = ok d1 ∧ d1.decode (exact R) f Y V = ok (d2, u) := by
  obtain ⟨hw, hsz⟩ := Dec.mk_wf hd
  have hp := fun f hf => itlOk (nf := nf) (f := f) hw.npos hgen hops hc hf
  have hN' : 2 ≤ N.toNat := by omega
  obtain ⟨d1, e1, w1, r1⟩ := drun (o := exact R) hp hN' cs d hw hcs
  obtain ⟨ρ, hρ⟩ := hp f hf
  have hrep : d.rep = N.toNat / K.toNat := (Nat.div_eq_of_eq_mul_left hw.kpos hw.dvd.symm).symm
  have hYt : Tab Y N.toNat fun i => Y.getD i 0 := tab_getD hY _
  obtain ⟨s, es, -, -, hs⟩ := decode_sat (o := exact R) w1 hρ hN' hYt hV
  rw [r1, hrep] at hs
  have hdvd := hw.dvd
  have hrp := hw.rpos
  rw [hrep] at hdvd hrp
  refine ⟨d1, s.1, e1, ?_⟩
  rw [es]
  suffices hsu : s.2 = u by rw [← hsu]
  rw [hs]
  refine (eq_mapRange hu fun k hk => ?_).symm
  have hsg := signs (r := N.toNat / K.toNat) (N := N.toNat) (K := K.toNat) (π := perm core f) (ρ := ρ) hb (by omega)
  have hρ' : ∀ i, i < N.toNat → ρ i < N.toNat ∧ perm core f (ρ i) = i := fun i hi => ⟨hρ.lt' i hi, hρ.inv i hi⟩
  -- magnitudes
  have hmag : ∀ i, i < N.toNat → Y.getD i 0 = fl (decide (X (fun j => u.getD (perm core f j / (N.toNat / K.toNat)) 0) i ≠ 0)) |Y.getD i 0| ∧
      0 < |Y.getD i 0| := by
    intro i hi
    obtain ⟨a1, a2⟩ := hA i _ _ (hYt.2 i hi) (word_tab.2 i hi)
    by_cases h0 : X (fun j => u.getD (perm core f j / (N.toNat / K.toNat)) 0) i = 0
    · have := a1 h0
      refine ⟨?_, abs_pos.2 this.ne'⟩
      rw [decide_eq_false (not_not.2 h0), abs_of_pos this]; rfl
    · have := a2 h0
      refine ⟨?_, abs_pos.2 this.ne⟩
      rw [decide_eq_true h0, abs_of_neg this]
      exact (neg_neg _).symm
  have htot := tot_fl (R := R) (Y' := fun i => Y.getD i 0)
    (T := tdI (exact R) (N.toNat / K.toNat) N.toNat (perm core f) ρ (fun i => |Y.getD i 0|) (it.toNat - 1))
    hN' hrp hdvd hρ' hsg (fun i hi => (hmag i hi).1)
    (fun i hi => tdI_fl (Y := fun i => |Y.getD i 0|) hN' hrp hdvd hρ.lt hρ' hsg (fun i hi => (hmag i hi).1) (it.toNat - 1) i hi) k hk
  have hpos := tot_pos (R := R) (r := N.toNat / K.toNat) (ρ := ρ) (Y := fun i => |Y.getD i 0|) hN' hrp hdvd hρ.lt' (fun i hi => (hmag i hi).2)
    (tdI_nonneg hN' hrp hdvd (fun i hi => ⟨hρ.lt i hi, hρ.inv' i hi⟩) hρ.lt' (fun i hi => (hmag i hi).2) (it.toNat - 1)) hk
  rw [htot]
  generalize totF (exact R) (N.toNat / K.toNat) N.toNat ρ _ _ k = t at hpos
  rw [List.getElem?_eq_getElem (by omega)]
  have hbk := getD_bit hb k
  rw [getD_lt 0 (by omega)] at hbk ⊢
  have hneg : ∀ v : R, (exact R).isNeg v = decide (v < 0) := fun v => rfl
  rw [hneg]
  congr 1
  by_cases h0 : u[k] = 0
  · rw [h0]
    have : fl (decide ((0 : Nat) ≠ 0)) t = t := by simp [fl]
    rw [this, decide_eq_false (not_lt.2 hpos.le)]; rfl
  · have h1 : u[k] = 1 := by omega
    rw [h1]
    have : fl (decide ((1 : Nat) ≠ 0)) t = -t := by simp [fl]
    rw [this, decide_eq_true (by rw [Left.neg_neg_iff]; exact hpos)]; rfl

end

/-- The hypotheses are met: a 3 by 2 row-column interleaver, 2 bits repeated 3 times, 4 iterations; the frame decoded before
has other LLRs. -/
example : (do
    let core ← history 6 false (genRowColumn 3 2 .topLeft) []
    let e ← Enc.mk? 2 6 core 1
    let (_, x) ← e.encode 0 [1, 0] (List.replicate 6 7)
    let d ← Dec.mk? (exact Int) 2 6 core 1 4
    let d ← Dec.call (exact Int) d (0, [1, -2, 3, 0, -5, 6], [7, 7])
    let (_, v) ← d.decode (exact Int) 0 (x.map fun b => if b = 0 then 5 else -2) [7, 7]
    ok ((List.range 6).map (perm core 0), x, v)) = ok ([0, 2, 4, 1, 3, 5], [1, 0, 0, 1, 1, 1], [1, 0]) ∧
    word 3 (fun i => [0, 2, 4, 1, 3, 5].getD i 0) 6 [1, 0] = [1, 0, 0, 1, 1, 1] ∧
    ValidGen 6 (genRowColumn 3 2 .topLeft) ∧ OpsValid 6 [] :=
  ⟨by decide +kernel, by decide, genRowColumn_valid 3 2 _, trivial⟩

example : Agrees [(-2 : Int), 5, 5, -2, -2, -2] [1, 0, 0, 1, 1, 1] := by
  have h : ∀ i : Fin 6, (([1, 0, 0, 1, 1, 1].getD i.1 7 = 0 → 0 < ([-2, 5, 5, -2, -2, -2] : List Int).getD i.1 0) ∧
      ([1, 0, 0, 1, 1, 1].getD i.1 7 ≠ 0 → ([-2, 5, 5, -2, -2, -2] : List Int).getD i.1 0 < 0)) := by decide
  intro i y b hy hb
  have := h ⟨i, (List.getElem?_eq_some_iff.1 hb).1⟩
  rwa [List.getD_eq_getElem?_getD, List.getD_eq_getElem?_getD, hy, hb] at this

/-! ## Defects -/

/-- **Finding.**  For every accepted decoder of frames of one bit, decoding accesses an array at index -1. -/
theorem C112_one_bit {R : Type} {o : Ops R} {K it : Int} {nf : Nat} {core : Core} {d : Dec R}
    (hd : Dec.mk? o K 1 core nf it = ok d) (f : Nat) {Y : List R} (hY : Y.length = 1) (V : List Nat) : d.decode o f Y V = ub := by
  obtain ⟨hw, -⟩ := Dec.mk_wf hd
  unfold Dec.decode
  obtain ⟨e, ee, he, er, eT⟩ := load_sat (o := o) hw
  rw [ee, bind_ok, he.it]
  have hiter : e.iter o f Y = ub := by
    unfold Dec.iter
    rw [he.n]
    obtain ⟨F, eF, -⟩ := forward_sat (o := o) (N := (1 : Int).toNat) (by decide) (tab_getD hY o.zero) eT he.fw
    rw [eF, bind_ok]
    show (if _ then ub else _) >>= _ = _
    rw [if_pos (by decide), bind_ub]
  obtain ⟨m, hm⟩ : ∃ m, it.toNat = m + 1 := ⟨it.toNat - 1, by have := he.ipos; omega⟩
  rw [hm, forN_succ', hiter, bind_ub, bind_ub]

example : (do
    let core ← history 1 false (genRowColumn 1 1 .topLeft) []
    let d ← Dec.mk? (exact Int) 1 1 core 1 10
    ok (d.K, d.N)) = ok (1, 1) := by decide +kernel

/-- **Finding.**  Sums of fixed-point LLRs are not saturated: with 8-bit LLRs, a codeword received without any error is
decoded into the complement of its message. -/
theorem C112_overflow : (do
    let core ← history 4 false (genRowColumn 4 1 .topLeft) []
    let e ← Enc.mk? 2 4 core 1
    let (_, x) ← e.encode 0 [1, 0] (List.replicate 4 0)
    let d ← Dec.mk? (fixed 8) 2 4 core 1 1
    let (_, v) ← d.decode (fixed 8) 0 (x.map fun b => if b = 0 then 100#8 else BitVec.ofInt 8 (-100)) [0, 0]
    ok (x, v)) = ok ([1, 0, 0, 0], [0, 1]) := by decide +kernel

/-- **Finding.**  The positions of information bits that the encoder publishes do not hold the message. -/
theorem C112_info_bits_pos : (do
    let core ← history 6 false (genRowColumn 6 1 .topLeft) []
    let e ← Enc.mk? 2 6 core 1
    let (e, x) ← e.encode 0 [1, 0] (List.replicate 6 0)
    ok (e.pos, e.pos.map (x.getD · 0))) = ok ([0, 3], [1, 1]) := by decide +kernel

end Verif.RA
