import Verif.Proof.BCHGen

/-! # Division by shift register, and the BCH encoder -/

namespace Verif.BCH
open Exec Polynomial Verif.Galois

section
variable {R : Type _} [CommRing R]

theorem lfsr_step (h2 : (2 : R) = 0) {r : Nat} (hr : 1 ≤ r) {γ ρ ρ' : Nat → R} {u fb : R} (hfb : fb = u + ρ (r - 1))
    (h0 : ρ' 0 = fb * γ 0) (hs : ∀ j, 1 ≤ j → j < r → ρ' j = ρ (j - 1) + fb * γ j) :
    S r ρ' = X * S r ρ + C u * X ^ r + C fb * (S r γ + X ^ r) := by
  obtain ⟨k, rfl⟩ : ∃ k, r = k + 1 := ⟨r - 1, by omega⟩
  rw [Nat.add_sub_cancel] at hfb
  have e1 : S k (fun j => ρ' (j + 1)) = S k ρ + C fb * S k (fun j => γ (j + 1)) := by
    rw [← S_mul_fun, ← S_add_fun]
    apply S_congr
    intro j hj
    rw [hs (j + 1) (by omega) (by omega), Nat.add_sub_cancel]
  have e2 : (C fb : R[X]) + C fb = 0 := by rw [← C_add, ← two_mul, h2, zero_mul, C_0]
  have e3 : (C fb : R[X]) = C u + C (ρ k) := by rw [hfb, C_add]
  rw [S_succ', e1, h0, S_succ k ρ, S_succ' k γ, C_mul]
  have : (C u : R[X]) * X ^ (k + 1) + C (ρ k) * X ^ (k + 1) + C fb * X ^ (k + 1) = 0 := by
    rw [← add_mul, ← add_mul, ← e3, e2, zero_mul]
  linear_combination (-1 : R[X]) * this

theorem lfsr_dvd (h2 : (2 : R) = 0) {r k : Nat} (hr : 1 ≤ r) {γ ρ ρ' : Nat → R} {u : Nat → R} {fb u0 : R}
    (hfb : fb = u0 + ρ (r - 1)) (h0 : ρ' 0 = fb * γ 0) (hs : ∀ j, 1 ≤ j → j < r → ρ' j = ρ (j - 1) + fb * γ j)
    (hd : (S r γ + X ^ r) ∣ S r ρ + X ^ r * S k u) {u' : Nat → R} (hu0 : u' 0 = u0) (hu : ∀ i, i < k → u' (i + 1) = u i) :
    (S r γ + X ^ r) ∣ S r ρ' + X ^ r * S (k + 1) u' := by
  rw [lfsr_step h2 hr hfb h0 hs, S_succ', hu0, S_congr hu]
  obtain ⟨q, hq⟩ := hd
  refine ⟨X * q + C fb, ?_⟩
  have : (C u0 : R[X]) + C u0 = 0 := by rw [← C_add, ← two_mul, h2, zero_mul, C_0]
  linear_combination X * hq + X ^ r * this

theorem monic_gen {r : Nat} [Nontrivial R] (γ : Nat → R) : (S r γ + X ^ r).Monic := by
  rw [add_comm]
  exact monic_X_pow_add (degree_S r γ)

/-- A remainder is determined by its class. -/
theorem rem_unique [Nontrivial R] (h2 : (2 : R) = 0) {r : Nat} {γ ρ x : Nat → R} {T : R[X]}
    (hd : (S r γ + X ^ r) ∣ S r ρ + T) : (S r γ + X ^ r) ∣ S r x + T ↔ ∀ j, j < r → x j = ρ j := by
  have hadd : ∀ a : R, a + a = 0 := fun a => by rw [← two_mul, h2, zero_mul]
  constructor
  · intro h
    have h3 : (S r γ + X ^ r) ∣ S r x - S r ρ := by
      have := dvd_sub h hd
      rwa [show S r x + T - (S r ρ + T) = S r x - S r ρ by ring] at this
    have hz : S r x - S r ρ = 0 := by
      by_contra hne
      have hlt : (S r x - S r ρ).degree < r :=
        lt_of_le_of_lt (degree_sub_le _ _) (max_lt (degree_S r x) (degree_S r ρ))
      have hdeg : (S r γ + X ^ r : R[X]).degree = r := by
        rw [add_comm, degree_add_eq_left_of_degree_lt (by rw [degree_X_pow]; exact degree_S r γ), degree_X_pow]
      exact (monic_gen γ).not_dvd_of_degree_lt hne (by rw [hdeg]; exact hlt) h3
    intro j hj
    have := congrArg (fun q => q.coeff j) hz
    simp only [coeff_sub, coeff_S, if_pos hj, coeff_zero] at this
    exact sub_eq_zero.mp this
  · intro h
    rw [S_congr h]; exact hd

end

/-- Values of `k` first elements. -/
def Vals {α : Type _} (l : List α) (k : Nat) (v : Nat → α) : Prop := ∀ j, j < k → l[j]? = some (v j)

def Bin (k : Nat) (v : Nat → Nat) : Prop := ∀ j, j < k → v j = 0 ∨ v j = 1

theorem cast_xor {a b : Nat} (ha : a = 0 ∨ a = 1) (hb : b = 0 ∨ b = 1) : ((a ^^^ b : Nat) : ZMod 2) = a + b := by
  rcases ha with rfl | rfl <;> rcases hb with rfl | rfl <;> decide

theorem cast_and {a b : Nat} (ha : a = 0 ∨ a = 1) (hb : b = 0 ∨ b = 1) : ((a &&& b : Nat) : ZMod 2) = a * b := by
  rcases ha with rfl | rfl <;> rcases hb with rfl | rfl <;> decide

theorem xor_bin {a b : Nat} (ha : a = 0 ∨ a = 1) (hb : b = 0 ∨ b = 1) : a ^^^ b = 0 ∨ a ^^^ b = 1 := by
  rcases ha with rfl | rfl <;> rcases hb with rfl | rfl <;> decide

theorem and_bin {a b : Nat} (ha : a = 0 ∨ a = 1) (hb : b = 0 ∨ b = 1) : a &&& b = 0 ∨ a &&& b = 1 := by
  rcases ha with rfl | rfl <;> rcases hb with rfl | rfl <;> decide

theorem cast_inj {a b : Nat} (ha : a = 0 ∨ a = 1) (hb : b = 0 ∨ b = 1) (h : ((a : Nat) : ZMod 2) = b) : a = b := by
  rcases ha with rfl | rfl <;> rcases hb with rfl | rfl
  · rfl
  · exact absurd h (by decide)
  · exact absurd h (by decide)
  · rfl

/-- Hypotheses on the members of the encoder. -/
structure EncOk (e : Enc) (γ : Nat → Nat) : Prop where
  r1 : 1 ≤ e.r
  g : Vals e.g e.r γ
  bin : Bin e.r γ

theorem encBit_sat {e : Enc} {γ : Nat → Nat} (E : EncOk e γ) {u par : List Nat} {off i ui : Nat} {ρ : Nat → Nat}
    (hu : u[off + i]? = some ui) (hui : ui = 0 ∨ ui = 1) (hp : Vals par e.r ρ) (hρ : Bin e.r ρ) :
    (encBit e u off i par).Sat fun p => p.length = par.length ∧ (∀ j, e.r ≤ j → p[j]? = par[j]?) ∧
      ∃ ρ' : Nat → Nat, Vals p e.r ρ' ∧ Bin e.r ρ' ∧
        ((ρ' 0 : Nat) : ZMod 2) = (((ui : Nat) : ZMod 2) + (ρ (e.r - 1) : Nat)) * (γ 0 : Nat) ∧
        ∀ j, 1 ≤ j → j < e.r → ((ρ' j : Nat) : ZMod 2) =
          (ρ (j - 1) : Nat) + (((ui : Nat) : ZMod 2) + (ρ (e.r - 1) : Nat)) * (γ j : Nat) := by
  have hr := E.r1
  have htop := hρ (e.r - 1) (by omega)
  have hfb := xor_bin hui htop
  have hlen : e.r - 1 < par.length := by
    have := hp (e.r - 1) (by omega)
    rw [List.getElem?_eq_some_iff] at this
    exact this.1
  unfold encBit
  rw [rd_eq hu, bind_ok, rd_eq (hp (e.r - 1) (by omega)), bind_ok]
  refine (shiftDown (n := e.r - 1) (body := shiftBit e (ui ^^^ ρ (e.r - 1))) (old := ρ)
    (new := fun j => ρ (j - 1) ^^^ (γ j &&& (ui ^^^ ρ (e.r - 1)))) (l0 := par) ?_ ?_).bind ?_
  · intro j l h1 h2 h3
    unfold shiftBit
    rw [rd_eq (h3 (j - 1) (by omega)), bind_ok, rd_eq (E.g j (by omega)), bind_ok]
  · intro j hj
    exact hp j (by omega)
  · rintro l ⟨h1, h2, h3, h4⟩
    rw [rd_eq (E.g 0 (by omega)), bind_ok, wr_lt (by omega), sat_ok]
    refine ⟨by simpa using h1, fun j hj => ?_, fun j => if j = 0 then γ 0 &&& (ui ^^^ ρ (e.r - 1)) else
      ρ (j - 1) ^^^ (γ j &&& (ui ^^^ ρ (e.r - 1))), ?_, ?_, ?_, ?_⟩
    · rw [List.getElem?_set_ne (by omega)]
      exact h4 j (by omega)
    · intro j hj
      beta_reduce
      by_cases hj0 : j = 0
      · subst hj0
        rw [List.getElem?_set_self (by omega), if_pos rfl]
        congr 1
        rcases hfb with h | h <;> rcases E.bin 0 (by omega) with h' | h' <;> rw [h, h'] <;> decide
      · rw [List.getElem?_set_ne (Ne.symm hj0), if_neg hj0]
        exact h3 j (by omega) (by omega)
    · intro j hj
      simp only
      split
      · exact and_bin (E.bin 0 (by omega)) hfb
      · exact xor_bin (hρ _ (by omega)) (and_bin (E.bin j hj) hfb)
    · simp only [if_true]
      rw [cast_and (E.bin 0 (by omega)) hfb, cast_xor hui htop, mul_comm]
    · intro j hj1 hj2
      beta_reduce
      rw [if_neg (by omega), cast_xor (hρ _ (by omega)) (and_bin (E.bin j hj2) hfb), cast_and (E.bin j hj2) hfb,
        cast_xor hui htop, mul_comm ((γ j : Nat) : ZMod 2)]

/-- Generator over GF(2). -/
noncomputable abbrev gp (r : Nat) (γ : Nat → Nat) : (ZMod 2)[X] := S r (fun j => ((γ j : Nat) : ZMod 2)) + X ^ r

theorem zero_fill {r : Nat} {par : List Nat} (h : r ≤ par.length) :
    (forN r (fun i p => wr p i 0) par).Sat fun p => p.length = par.length ∧ (∀ j, r ≤ j → p[j]? = par[j]?) ∧
      Vals p r (fun _ => 0) := by
  have := forN_fill (n := r) (off := 0) (g := fun _ => 0) (out := par) (by omega)
  simp only [Nat.zero_add] at this
  refine this.mono ?_
  rintro p ⟨h1, h2⟩
  refine ⟨h1, fun j hj => ?_, fun j hj => ?_⟩
  · rw [h2 j, if_neg (by omega)]
  · rw [h2 j, if_pos (by omega)]

theorem encPar_sat {e : Enc} {γ : Nat → Nat} (E : EncOk e γ) {u par : List Nat} {off : Nat} {uv : Nat → Nat}
    (hu : ∀ i, i < e.K → u[off + i]? = some (uv i)) (hub : Bin e.K uv) (hp : e.r ≤ par.length) :
    (encPar e u off par).Sat fun p => p.length = par.length ∧ (∀ j, e.r ≤ j → p[j]? = par[j]?) ∧
      ∃ ρ : Nat → Nat, Vals p e.r ρ ∧ Bin e.r ρ ∧
        gp e.r γ ∣ S e.r (fun j => ((ρ j : Nat) : ZMod 2)) + X ^ e.r * S e.K (fun i => ((uv i : Nat) : ZMod 2)) := by
  unfold encPar
  refine (zero_fill hp).bind ?_
  rintro p0 ⟨hl0, hr0, hv0⟩
  unfold forDown
  have := forN_inv (n := e.K) (f := fun i => encBit e u off (e.K - 1 - i)) (s := p0) (fun k p =>
    p.length = par.length ∧ (∀ j, e.r ≤ j → p[j]? = par[j]?) ∧ ∃ ρ : Nat → Nat, Vals p e.r ρ ∧ Bin e.r ρ ∧
        gp e.r γ ∣ S e.r (fun j => ((ρ j : Nat) : ZMod 2)) +
          X ^ e.r * S k (fun i => ((uv (e.K - k + i) : Nat) : ZMod 2))) ?_ ?_
  · refine this.mono ?_
    rintro p ⟨h1, h2, ρ, h3, h4, h5⟩
    refine ⟨h1, h2, ρ, h3, h4, ?_⟩
    simpa using h5
  · refine ⟨hl0, hr0, fun _ => 0, hv0, fun _ _ => Or.inl rfl, ?_⟩
    simp only [Nat.cast_zero]
    rw [S_zero]
    simp [S]
  · rintro k p hk ⟨h1, h2, ρ, h3, h4, h5⟩
    refine (encBit_sat E (hu (e.K - 1 - k) (by omega)) (hub _ (by omega)) h3 h4).mono ?_
    rintro p' ⟨q1, q2, ρ', q3, q4, q5, q6⟩
    refine ⟨by omega, fun j hj => by rw [q2 j hj, h2 j hj], ρ', q3, q4, ?_⟩
    refine lfsr_dvd (k := k) (by decide) E.r1 (ρ := fun j => ((ρ j : Nat) : ZMod 2)) rfl q5 q6 h5 ?_ ?_
    · rw [show e.K - (k + 1) + 0 = e.K - 1 - k by omega]
    · intro i hi
      rw [show e.K - (k + 1) + (i + 1) = e.K - k + i by omega]

theorem firstDiff_sat {α : Type _} [DecidableEq α] {x bb : List α} {r : Nat} {a b : Nat → α} (ha : Vals x r a)
    (hb : Vals bb r b) : ∀ fuel p, p ≤ r → r < fuel + p → (∀ j, j < p → a j = b j) →
    (firstDiff x bb r fuel p).Sat fun q => q = r ↔ ∀ j, j < r → a j = b j
  | 0, p, h1, h2, _ => by omega
  | fuel + 1, p, h1, h2, h3 => by
    unfold firstDiff
    by_cases hp : p < r
    · rw [if_pos hp, rd_eq (ha p hp), bind_ok, rd_eq (hb p hp), bind_ok]
      by_cases he : a p = b p
      · rw [if_pos he]
        apply firstDiff_sat ha hb fuel (p + 1) (by omega) (by omega)
        intro j hj
        rcases Nat.lt_or_ge j p with h | h
        · exact h3 j h
        · rw [show j = p by omega]; exact he
      · rw [if_neg he]
        refine sat_ok.mpr ⟨fun h => by omega, fun h => absurd (h p hp) he⟩
    · rw [if_neg hp]
      refine sat_ok.mpr ⟨fun _ j hj => h3 j (by omega), fun _ => by omega⟩

theorem bitPoly_vals {x : List Nat} {v : Nat → Nat} (h : Vals x x.length v) :
    bitPoly x = S x.length (fun i => ((v i : Nat) : ZMod 2)) := by
  rw [bitPoly_eq]
  apply S_congr
  intro i hi
  rw [List.getD_eq_getElem?_getD, h i hi]
  rfl

theorem vals_getD (x : List Nat) : Vals x x.length (fun i => x.getD i 0) := by
  intro i hi
  beta_reduce
  rw [List.getElem?_eq_getElem hi, getD_lt _ hi]

theorem bin_getD {x : List Nat} (h : IsBin x) (k : Nat) : Bin k (fun i => x.getD i 0) := by
  intro i _
  by_cases hi : i < x.length
  · simp only; rw [getD_lt _ hi]; exact h _ (List.getElem_mem _)
  · left; simp only; rw [List.getD_eq_getElem?_getD, List.getElem?_eq_none (by omega)]; rfl

theorem isBin_of_vals {x : List Nat} {v : Nat → Nat} (h : Vals x x.length v) (hb : Bin x.length v) : IsBin x := by
  intro a ha
  obtain ⟨i, hi, rfl⟩ := List.mem_iff_getElem.mp ha
  have := h i hi
  rw [List.getElem?_eq_some_iff] at this
  rw [this.2]
  exact hb i hi

theorem mk_enc {K N : Int} {gen : Gen} {e : Enc} (h : Enc.mk? K N gen = ok e) :
    0 < K ∧ K ≤ N ∧ N - K = (gen.g.length : Int) - 1 ∧
      e = ⟨K.toNat, N.toNat, gen.g.length - 1, gen.g, (List.range K.toNat).map (gen.g.length - 1 + ·)⟩ := by
  unfold Enc.mk? at h
  split_ifs at h
  injection h with h
  exact ⟨by omega, by omega, by omega, h.symm⟩

/-- The polynomial of the generator's list is the monic one used by the register. -/
theorem bitPoly_gen {gf : GF} {d : Nat} {l : List Nat} (h : IsGen gf d l) :
    bitPoly l = gp (l.length - 1) (fun i => l.getD i 0) := by
  have h2 := h.pos
  rw [bitPoly_eq]
  obtain ⟨k, hk⟩ : ∃ k, l.length = k + 1 := ⟨l.length - 1, by omega⟩
  have hl := h.lead
  rw [hk, Nat.add_sub_cancel] at hl ⊢
  rw [S_succ, List.getD_eq_getElem?_getD, hl]
  simp [gp]

theorem encOk_of_gen {K N : Int} {gen : Gen} {e : Enc} (h : Enc.mk? K N gen = ok e) {d : Nat}
    (hg : IsGen gen.gf d gen.g) : EncOk e (fun i => gen.g.getD i 0) := by
  obtain ⟨_, _, _, rfl⟩ := mk_enc h
  have := hg.pos
  refine ⟨by simp only; omega, ?_, bin_getD hg.bin _⟩
  intro j hj
  simp only at hj
  exact vals_getD gen.g j (by omega)

theorem encode_sat {K N : Int} {gen : Gen} {e : Enc} (h : Enc.mk? K N gen = ok e) {d : Nat}
    (hg : IsGen gen.gf d gen.g) {u x : List Nat} (hu : u.length = e.K) (hub : IsBin u) (hx : x.length = e.N) :
    (encode e u x).Sat fun c => c.length = e.N ∧ IsBin c ∧ (∀ i, i < e.K → c[e.r + i]? = u[i]?) ∧
      bitPoly gen.g ∣ bitPoly c := by
  have E := encOk_of_gen h hg
  obtain ⟨h1, h2, h3, he⟩ := mk_enc h
  have hK : e.K = K.toNat := by rw [he]
  have hN : e.N = N.toNat := by rw [he]
  have hr : e.r = gen.g.length - 1 := by rw [he]
  have hpos := hg.pos
  have hNr : e.N = e.r + e.K := by omega
  unfold encode
  refine (encPar_sat E (u := u) (par := x) (off := 0) (uv := fun i => u.getD i 0) ?_ (bin_getD hub _) (by omega)).bind ?_
  · intro i hi
    rw [Nat.zero_add]
    exact vals_getD u i (by omega)
  rintro p ⟨q1, q2, ρ, q3, q4, q5⟩
  refine (copyTo_sat (src := u) (so := 0) (n := e.K) (dst := p) (d := e.r) (by omega) (by omega)).mono ?_
  rintro c ⟨c1, c2⟩
  have hv : Vals c c.length (fun j => if j < e.r then ρ j else u.getD (j - e.r) 0) := by
    intro j hj
    beta_reduce
    rw [c2 j]
    by_cases hjr : j < e.r
    · rw [if_neg (by omega), if_pos hjr]; exact q3 j hjr
    · rw [if_pos (by omega), if_neg hjr, Nat.zero_add]
      exact vals_getD u _ (by omega)
  refine ⟨by omega, isBin_of_vals hv ?_, ?_, ?_⟩
  · intro j hj
    simp only
    split
    · exact q4 j (by assumption)
    · exact bin_getD hub (e.N + 1) (j - e.r) (by omega)
  · intro i hi
    rw [c2, if_pos (by omega)]
    congr 1; omega
  · rw [bitPoly_vals hv, bitPoly_gen hg, ← hr, show c.length = e.r + e.K by omega, S_split]
    have e1 : S e.r (fun i => (((if i < e.r then ρ i else u.getD (i - e.r) 0 : Nat)) : ZMod 2)) =
        S e.r (fun i => ((ρ i : Nat) : ZMod 2)) := S_congr fun i hi => by rw [if_pos hi]
    have e2 : S e.K (fun i => (((if e.r + i < e.r then ρ (e.r + i) else u.getD (e.r + i - e.r) 0 : Nat)) : ZMod 2)) =
        S e.K (fun i => ((u.getD i 0 : Nat) : ZMod 2)) := S_congr fun i hi => by
      rw [if_neg (by omega), Nat.add_sub_cancel_left]
    rw [e1, e2]
    exact q5

theorem isCodeword_sat {K N : Int} {gen : Gen} {e : Enc} (h : Enc.mk? K N gen = ok e) {d : Nat}
    (hg : IsGen gen.gf d gen.g) {x bb : List Nat} (hx : x.length = e.N) (hxb : IsBin x) (hbb : e.r ≤ bb.length) :
    (isCodeword e x bb).Sat fun b => b = true ↔ bitPoly gen.g ∣ bitPoly x := by
  have E := encOk_of_gen h hg
  obtain ⟨h1, h2, h3, he⟩ := mk_enc h
  have hK : e.K = K.toNat := by rw [he]
  have hN : e.N = N.toNat := by rw [he]
  have hr : e.r = gen.g.length - 1 := by rw [he]
  have hpos := hg.pos
  have hNr : e.N = e.r + e.K := by omega
  unfold isCodeword
  refine (encPar_sat E (u := x) (par := bb) (off := e.r) (uv := fun i => x.getD (e.r + i) 0) ?_ ?_ hbb).bind ?_
  · intro i hi
    exact vals_getD x _ (by omega)
  · intro i hi
    exact bin_getD hxb (e.N) (e.r + i) (by omega)
  rintro p ⟨q1, q2, ρ, q3, q4, q5⟩
  have hxv : Vals x e.r (fun i => x.getD i 0) := fun i hi => vals_getD x i (by omega)
  refine (firstDiff_sat hxv q3 (e.r + 1) 0 (by omega) (by omega) (fun j hj => by omega)).bind ?_
  intro q hq
  refine sat_ok.mpr ?_
  rw [decide_eq_true_iff, hq, bitPoly_eq x, bitPoly_gen hg, ← hr, show x.length = e.r + e.K by omega, S_split,
    rem_unique (by decide) q5]
  constructor
  · intro hh j hj; rw [hh j hj]
  · intro hh j hj
    exact cast_inj (bin_getD hxb (e.N) j (by omega)) (q4 j hj) (hh j hj)

end Verif.BCH
