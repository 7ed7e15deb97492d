import Verif.Proof.BCJRTr

/-! # BCJR: the decoder -/

namespace Verif.BCJR
open Exec Verif.RSC

variable {R D : Type}

theorem bind_inv {α β : Type _} {x : Exec α} {f : α → Exec β} {b : β} (h : (x >>= f) = ok b) : ∃ a, x = ok a ∧ f a = ok b := by
  cases x with
  | ok a => exact ⟨a, rfl, h⟩
  | exc e => cases h
  | ub => cases h

theorem forN_pres {σ : Type} {n : Nat} {f : Nat → σ → Exec σ} (P : σ → Prop) (hf : ∀ i a b, i < n → P a → f i a = ok b → P b) :
    ∀ {a b : σ}, P a → forN n f a = ok b → P b := by
  induction n with
  | zero => intro a b ha h; cases h; exact ha
  | succ n ih =>
    intro a b ha h
    rw [forN_succ] at h
    obtain ⟨c, h1, h2⟩ := bind_inv h
    exact hf n c b (by omega) (ih (fun i a b hi => hf i a b (by omega)) ha h1) h2

theorem wr_inv {α : Type _} {l l' : List α} {i : Nat} {x : α} (h : wr l i x = ok l') : i < l.length ∧ l' = l.set i x := by
  by_cases hi : i < l.length
  · rw [wr_lt hi] at h; cases h; exact ⟨hi, rfl⟩
  · rw [wr_ge (by omega)] at h; cases h

section
variable {A : Arith R D} {mM M B : Int} (sd : Sound A mM M B)
variable {S L m W K : Nat} {T : List (List Int)} {nx : Nat → Bool → Nat} {py : Nat → Bool → Bool} {pr : Bool → Nat → Nat}
  {pb : Bool → Nat → Bool} {s p : Nat → Int}

theorem betaExt_sat (h : Tr S T nx py pr pb) (hsf : Setup (ef S nx py s p) S L m W mM M B A.nrm)
    (hsb : Setup (eb S L nx py s p) S L m W mM M B (fun k => A.nrm (L - k))) (hL : L = K + m)
    (hM : ∀ t, t < L → |s t| + |p t| ≤ M) {gam : List (List R)} (hg : Gam sd gam L s p) {al : List (List R)}
    (ha : AlphaOk sd al (ef S nx py s p) S L A.nrm L) {sys ext : List R} (hs : ∀ t, t < L → sys[t]? = some (sd.llr (s t)))
    (he : K ≤ ext.length) :
    (betaExt A T gam S K m al sys ext).Sat fun o => o.length = ext.length ∧ (∀ i, K ≤ i → o[i]? = ext[i]?) ∧
      ∀ i, i < K → ∃ x, o[i]? = some x ∧ ExtOk sd S L nx py s p i selSys (s i) x := by
  obtain ⟨hl, h0, hcols⟩ := ha
  unfold betaExt
  rw [rd_eq h0, bind_ok]
  have hlen : (endCol A S).length = S := by have := h.pos; simp [endCol]; omega
  have hprev : (mapN S (fun j => rd (endCol A S) j)).Sat fun l => l = endCol A S := by
    refine (mapN_sat (P := fun j x => (endCol A S)[j]? = some x) ?_).mono ?_
    · intro j hj
      have e := List.getElem?_eq_getElem (l := endCol A S) (i := j) (by omega)
      rw [rd_eq e]
      exact sat_ok.2 e
    · rintro l ⟨h1, h2⟩
      apply List.ext_getElem?
      intro j
      by_cases hj : j < S
      · obtain ⟨x, e1, e2⟩ := h2 j hj
        rw [e1, e2]
      · rw [List.getElem?_eq_none (by omega), List.getElem?_eq_none (by omega)]
  refine hprev.bind ?_
  rintro _ rfl
  refine (forN_inv (fun k col => Col sd (eb S L nx py s p) S (fun k => A.nrm (L - k)) k col) (col_end sd h.pos) ?_).bind ?_
  · intro k col hk hc
    have := beta_step sd h hsb hM hg (k := k) (by omega) hc
    rw [show L - 1 - k = K + m - 1 - k by omega] at this
    exact this
  intro prev hprev'
  refine (forN_inv (fun k (st : List R × List R) => Col sd (eb S L nx py s p) S (fun k => A.nrm (L - k)) (m + k) st.1 ∧
    st.2.length = ext.length ∧ (∀ i, K ≤ i → st.2[i]? = ext[i]?) ∧
    ∀ i, i < K → K ≤ i + k → ∃ x, st.2[i]? = some x ∧ ExtOk sd S L nx py s p i selSys (s i) x) ?_ ?_).bind ?_
  · exact ⟨hprev', rfl, fun i _ => rfl, fun i h1 h2 => absurd h2 (by omega)⟩
  · rintro k ⟨col, o⟩ hk ⟨hc, hlo, hrest, hdone⟩
    dsimp only at hc hlo hrest hdone ⊢
    have hi : K - 1 - k < L := by omega
    obtain ⟨ac, hac, hacol⟩ := hcols (K - 1 - k) hi
    rw [rd_eq hac, bind_ok]
    obtain ⟨c, hmid⟩ := mid_of sd h hsf hsb hM (i := K - 1 - k) hi (by omega) hacol
      (next := col) (by rw [show L - 1 - (K - 1 - k) = m + k by omega]; exact hc)
    refine (extAlt_sat sd h hg hi hM hmid (hs _ hi)).bind fun x hx => ?_
    rw [wr_lt (by omega), bind_ok]
    have hb := beta_step sd h hsb hM hg (k := m + k) (by omega) hc
    rw [show L - 1 - (m + k) = K - 1 - k by omega] at hb
    rw [← bind_assoc']
    refine hb.bind fun col' hc' => sat_ok.2 ⟨hc', by simpa using hlo, ?_, ?_⟩
    · intro i hi
      rw [List.getElem?_set_ne (by omega)]
      exact hrest i hi
    · intro i h1 h2
      by_cases e : i = K - 1 - k
      · subst e
        exact ⟨x, List.getElem?_set_self (by omega), hx⟩
      · rw [List.getElem?_set_ne (by omega)]
        exact hdone i h1 (by omega)
  · rintro ⟨col, o⟩ ⟨_, h1, h2, h3⟩
    exact sat_ok.2 ⟨h1, h2, fun i hi => h3 i hi (by omega)⟩

/-- The columns of `beta`. -/
def BetaOk (be : List (List R)) (e : Nat → Nat → Nat → Int → Prop) (S L : Nat) (nr : Nat → Bool) (k : Nat) : Prop :=
  be.length = L + 1 ∧ be[L]? = some (endCol A S) ∧ ∀ i, i < k → ∃ col, be[L - i]? = some col ∧ Col sd e S nr i col

theorem computeBeta_sat (h : Tr S T nx py pr pb) (hsb : Setup (eb S L nx py s p) S L m W mM M B (fun k => A.nrm (L - k)))
    (hM : ∀ t, t < L → |s t| + |p t| ≤ M) {gam : List (List R)} (hg : Gam sd gam L s p) {be : List (List R)}
    (hl : be.length = L + 1) (h0 : be[L]? = some (endCol A S)) :
    (computeBeta A T gam S L be).Sat fun be' => BetaOk sd be' (eb S L nx py s p) S L (fun k => A.nrm (L - k)) L := by
  have hL := hsb.L0
  unfold computeBeta
  refine (forN_inv (fun k be' => BetaOk sd be' (eb S L nx py s p) S L (fun k => A.nrm (L - k)) (k + 1)) ?_ ?_).mono ?_
  · refine ⟨hl, h0, fun i hi => ?_⟩
    rw [show i = 0 by omega]
    exact ⟨_, h0, col_end sd h.pos⟩
  · rintro k be' hk ⟨h1, h2, h3⟩
    obtain ⟨col, hc1, hc2⟩ := h3 k (by omega)
    dsimp only
    rw [show L - 1 - k + 1 = L - k by omega, rd_eq hc1, bind_ok, ← bind_assoc']
    refine (beta_step sd h hsb hM hg (by omega : k < L) hc2).bind ?_
    intro col' hcol'
    rw [wr_lt (by omega)]
    apply sat_ok.2
    refine ⟨by simpa using h1, by rw [List.getElem?_set_ne (by omega)]; exact h2, fun i hi => ?_⟩
    by_cases e : i = k + 1
    · subst e
      rw [show L - (k + 1) = L - 1 - k by omega]
      exact ⟨col', List.getElem?_set_self (by omega), hcol'⟩
    · rw [List.getElem?_set_ne (by omega)]
      exact h3 i (by omega)
  · intro be' hb
    rw [show L - 1 + 1 = L by omega] at hb
    exact hb

theorem extSys_sat (h : Tr S T nx py pr pb) (hsf : Setup (ef S nx py s p) S L m W mM M B A.nrm)
    (hsb : Setup (eb S L nx py s p) S L m W mM M B (fun k => A.nrm (L - k))) (hL : L = K + m) (hK : m ≤ K)
    (hM : ∀ t, t < L → |s t| + |p t| ≤ M) {gam : List (List R)} (hg : Gam sd gam L s p) {al be : List (List R)}
    (ha : AlphaOk sd al (ef S nx py s p) S L A.nrm L) (hb : BetaOk sd be (eb S L nx py s p) S L (fun k => A.nrm (L - k)) L)
    {sys out : List R} (hs : ∀ t, t < L → sys[t]? = some (sd.llr (s t))) (he : L ≤ out.length) :
    (extSys A T gam S L al be sys out).Sat fun o => o.length = out.length ∧ (∀ i, L ≤ i → o[i]? = out[i]?) ∧
      ∀ i, i < L → ∃ x, o[i]? = some x ∧ ExtOk sd S L nx py s p i selSys (s i) x := by
  unfold extSys
  refine forN_inv (fun k (o : List R) => o.length = out.length ∧ (∀ i, k ≤ i → o[i]? = out[i]?) ∧
      ∀ i, i < k → ∃ x, o[i]? = some x ∧ ExtOk sd S L nx py s p i selSys (s i) x) ?_ ?_
  · exact ⟨rfl, fun i _ => rfl, fun i hi => absurd hi (by omega)⟩
  · rintro i o hi ⟨h1, h2, h3⟩
    obtain ⟨ac, hac, hacol⟩ := ha.2.2 i hi
    obtain ⟨bc, hbc, hbcol⟩ := hb.2.2 (L - 1 - i) (by omega)
    rw [show L - (L - 1 - i) = i + 1 by omega] at hbc
    rw [rd_eq hac, bind_ok, rd_eq hbc, bind_ok]
    obtain ⟨c, hmid⟩ := mid_of sd h hsf hsb hM hi (by omega) hacol hbcol
    refine (scanSys_sat sd h hg hi hmid (r := 1) (j0 := 0) (f := pb false) (fun j hj => (h.inc false j hj).2.1) (acc_none sd)).bind fun mm h4 => ?_
    refine (scanSys_sat sd h hg hi hmid (r := 4) (j0 := 0) (f := pb true) (fun j hj => (h.inc true j hj).2.1) h4).bind fun mm h5 => ?_
    rw [rd_eq (hs i hi), bind_ok, wr_lt (by omega)]
    apply sat_ok.2
    refine ⟨by simpa using h1, ?_, ?_⟩
    · intro j hj
      rw [List.getElem?_set_ne (by omega)]
      exact h2 j (by omega)
    · intro j hj
      by_cases e : j = i
      · subst e
        refine ⟨_, List.getElem?_set_self (by omega), ?_⟩
        have hsp := hM j hi
        refine ext_of sd h hi (by have := abs_nonneg (p j); linarith) ?_ h5
        intro j' b'
        have := extScan_all h (E := fun _ _ => False) (by simp) j' b'
        simpa using this
      · rw [List.getElem?_set_ne (by omega)]
        exact h3 j (by omega)

theorem extPar_sat (h : Tr S T nx py pr pb) (hsf : Setup (ef S nx py s p) S L m W mM M B A.nrm)
    (hsb : Setup (eb S L nx py s p) S L m W mM M B (fun k => A.nrm (L - k))) (hL : L = K + m) (hK : m ≤ K)
    (hM : ∀ t, t < L → |s t| + |p t| ≤ M) {gam : List (List R)} (hg : Gam sd gam L s p) {al be : List (List R)}
    (ha : AlphaOk sd al (ef S nx py s p) S L A.nrm L) (hb : BetaOk sd be (eb S L nx py s p) S L (fun k => A.nrm (L - k)) L)
    {y out : List R} (hs : ∀ t, t < L → y[L + t]? = some (sd.llr (p t))) (he : 2 * L ≤ out.length) :
    (extPar A T gam S L al be y out).Sat fun o => o.length = out.length ∧ (∀ i, i < L → o[i]? = out[i]?) ∧
      ∀ i, i < L → ∃ x, o[L + i]? = some x ∧ ExtOk sd S L nx py s p i py (p i) x := by
  unfold extPar
  refine forN_inv (fun k (o : List R) => o.length = out.length ∧ (∀ i, i < L → o[i]? = out[i]?) ∧
      ∀ i, i < k → ∃ x, o[L + i]? = some x ∧ ExtOk sd S L nx py s p i py (p i) x) ?_ ?_
  · exact ⟨rfl, fun i _ => rfl, fun i hi => absurd hi (by omega)⟩
  · rintro i o hi ⟨h1, h2, h3⟩
    obtain ⟨ac, hac, hacol⟩ := ha.2.2 i hi
    obtain ⟨bc, hbc, hbcol⟩ := hb.2.2 (L - 1 - i) (by omega)
    rw [show L - (L - 1 - i) = i + 1 by omega] at hbc
    rw [rd_eq hac, bind_ok, rd_eq hbc, bind_ok]
    obtain ⟨c, hmid⟩ := mid_of sd h hsf hsb hM hi (by omega) hacol hbcol
    refine (scanPar_sat sd h hg hi hmid (r := 1) (f := pb false) (fun j hj => (h.inc false j hj).2.1) (acc_none sd)).bind fun mm h4 => ?_
    refine (scanPar_sat sd h hg hi hmid (r := 4) (f := pb true) (fun j hj => (h.inc true j hj).2.1) h4).bind fun mm h5 => ?_
    rw [rd_eq (hs i hi), bind_ok, wr_lt (by omega)]
    apply sat_ok.2
    refine ⟨by simpa using h1, ?_, ?_⟩
    · intro j hj
      rw [List.getElem?_set_ne (by omega)]
      exact h2 j (by omega)
    · intro j hj
      by_cases e : j = i
      · subst e
        refine ⟨_, List.getElem?_set_self (by omega), ?_⟩
        have hsp := hM j hi
        refine ext_of sd h hi (by have := abs_nonneg (s j); linarith) ?_ h5
        intro j' b'
        exact extScan_all h (E := fun _ _ => False) (by simp) j' b'
      · rw [List.getElem?_set_ne (by omega)]
        exact h3 j (by omega)

end

/-- What every decoder built for `K` bits and a trellis of `S = 2 ^ m` states keeps, whatever the calls. -/
structure Inv (A : Arith R D) (fill : R) (K S m : Nat) (bf : Bool) (T : List (List Int)) (d : Dec R) : Prop where
  hK : d.K = K
  hn : d.n = S
  hm : d.nff = m
  hb : d.buffered = bf
  hT : d.T = T
  la : d.alpha.length = K + m + 1
  a0 : d.alpha[0]? = some (endCol A S)
  lb : d.beta.length = K + m + 1
  bL : d.beta[K + m]? = some (endCol A S)
  ls : d.sys.length = K + m
  lp : d.par.length = K + m
  le : d.ext.length = K
  tail : bf = true → ∀ t, K ≤ t → t < K + m → d.par[t]? = some fill

section
variable {A : Arith R D} {fill : R} {K S m : Nat} {bf : Bool} {T : List (List Int)}

theorem mk_inv {K' : Int} {d : Dec R} (h : Dec.mk? A fill K' T bf = ok d) :
    ∃ row, T[0]? = some row ∧ 0 < K' ∧ 2 ^ d.nff = row.length ∧ Inv A fill K'.toNat row.length d.nff bf T d := by
  unfold Dec.mk? at h
  obtain ⟨row, h1, h2⟩ := bind_inv h
  have hrow : T[0]? = some row := by
    unfold rd at h1
    cases hT : T[0]? with
    | none => rw [hT] at h1; cases h1
    | some r => rw [hT] at h1; cases h1; rfl
  dsimp only at h2
  split at h2
  · cases h2
  next h0 =>
  split at h2
  · cases h2
  next hK =>
  split at h2
  · cases h2
  next hp =>
  have hp : 2 ^ row.length.log2 = row.length := Decidable.byContradiction hp
  injection h2 with h2
  subst h2
  refine ⟨row, hrow, by omega, hp, rfl, rfl, rfl, rfl, rfl, ?_, rfl, ?_, ?_, ?_, ?_, ?_, ?_⟩
  · simp; omega
  · simp; omega
  · dsimp only
    rw [List.getElem?_append_right (by simp; omega)]
    simp only [List.length_cons, List.length_replicate]
    rw [show K'.toNat + row.length.log2 - (K'.toNat + row.length.log2 - 1 + 1) = 0 by omega]
    rfl
  · simp
  · simp
  · simp
  · intro _ t h1 h2
    dsimp only
    rw [List.getElem?_replicate, if_pos h2]

theorem computeAlpha_pres {T : List (List Int)} {gam : List (List R)} {n L : Nat} {al al' : List (List R)}
    (h : computeAlpha A T gam n L al = ok al') : al'.length = al.length ∧ al'[0]? = al[0]? := by
  unfold computeAlpha forRange at h
  refine forN_pres (fun x => x.length = al.length ∧ x[0]? = al[0]?) ?_ ⟨rfl, rfl⟩ h
  rintro i a b hi ⟨h1, h2⟩ hb
  dsimp only at hb
  obtain ⟨p, _, hb⟩ := bind_inv hb
  obtain ⟨c, _, hb⟩ := bind_inv hb
  obtain ⟨c', _, hb⟩ := bind_inv hb
  obtain ⟨_, rfl⟩ := wr_inv hb
  exact ⟨by simpa using h1, by rw [List.getElem?_set_ne (by omega)]; exact h2⟩

theorem computeBeta_pres {T : List (List Int)} {gam : List (List R)} {n L : Nat} {be be' : List (List R)}
    (h : computeBeta A T gam n L be = ok be') : be'.length = be.length ∧ be'[L]? = be[L]? := by
  unfold computeBeta at h
  refine forN_pres (fun x => x.length = be.length ∧ x[L]? = be[L]?) ?_ ⟨rfl, rfl⟩ h
  rintro i a b hi ⟨h1, h2⟩ hb
  dsimp only at hb
  obtain ⟨p, _, hb⟩ := bind_inv hb
  obtain ⟨c, _, hb⟩ := bind_inv hb
  obtain ⟨c', _, hb⟩ := bind_inv hb
  obtain ⟨_, rfl⟩ := wr_inv hb
  exact ⟨by simpa using h1, by rw [List.getElem?_set_ne (by omega)]; exact h2⟩

theorem sisoAlt_inv {d d' : Dec R} (hd : Inv A fill K S m bf T d) {sys par ext o : List R}
    (h : d.sisoAlt A sys par ext = ok (d', o)) : Inv A fill K S m bf T d' ∧ d'.sys = d.sys ∧ d'.par = d.par ∧ d'.ext = d.ext := by
  unfold Dec.sisoAlt at h
  obtain ⟨gam, _, h⟩ := bind_inv h
  obtain ⟨al, h1, h⟩ := bind_inv h
  obtain ⟨o', _, h⟩ := bind_inv h
  cases h
  obtain ⟨e1, e2⟩ := computeAlpha_pres h1
  exact ⟨⟨hd.hK, hd.hn, hd.hm, hd.hb, hd.hT, by rw [← hd.la]; exact e1, by rw [← hd.a0]; exact e2, hd.lb, hd.bL, hd.ls, hd.lp, hd.le,
    hd.tail⟩, rfl, rfl, rfl⟩

theorem betaExt_len {T : List (List Int)} {gam : List (List R)} {n K m : Nat} {al : List (List R)} {sys ext o : List R}
    (h : betaExt A T gam n K m al sys ext = ok o) : o.length = ext.length := by
  unfold betaExt at h
  obtain ⟨_, _, h⟩ := bind_inv h
  obtain ⟨_, _, h⟩ := bind_inv h
  obtain ⟨_, _, h⟩ := bind_inv h
  obtain ⟨r, hr, h⟩ := bind_inv h
  cases h
  refine forN_pres (fun x => x.2.length = ext.length) ?_ rfl hr
  rintro i a b hi h1 hb
  dsimp only at hb
  obtain ⟨_, _, hb⟩ := bind_inv hb
  obtain ⟨_, _, hb⟩ := bind_inv hb
  obtain ⟨e, he, hb⟩ := bind_inv hb
  obtain ⟨_, _, hb⟩ := bind_inv hb
  obtain ⟨_, _, hb⟩ := bind_inv hb
  cases hb
  obtain ⟨_, rfl⟩ := wr_inv he
  simpa using h1

theorem sisoAlt_len {d d' : Dec R} {sys par ext o : List R} (h : d.sisoAlt A sys par ext = ok (d', o)) : o.length = ext.length := by
  unfold Dec.sisoAlt at h
  obtain ⟨gam, _, h⟩ := bind_inv h
  obtain ⟨al, h1, h⟩ := bind_inv h
  obtain ⟨o', h2, h⟩ := bind_inv h
  cases h
  exact betaExt_len h2

theorem siso_inv {d d' : Dec R} (hd : Inv A fill K S m bf T d) {y out o : List R} (h : d.siso A y out = ok (d', o)) :
    Inv A fill K S m bf T d' := by
  unfold Dec.siso at h
  split at h
  · cases h
  obtain ⟨gam, _, h⟩ := bind_inv h
  obtain ⟨al, h1, h⟩ := bind_inv h
  obtain ⟨be, h2, h⟩ := bind_inv h
  obtain ⟨o', _, h⟩ := bind_inv h
  obtain ⟨o'', _, h⟩ := bind_inv h
  cases h
  obtain ⟨e1, e2⟩ := computeAlpha_pres h1
  obtain ⟨e3, e4⟩ := computeBeta_pres h2
  rw [hd.hK, hd.hm] at e4
  exact ⟨hd.hK, hd.hn, hd.hm, hd.hb, hd.hT, by rw [← hd.la]; exact e1, by rw [← hd.a0]; exact e2, by rw [← hd.lb]; exact e3,
    by rw [← hd.bL]; exact e4, hd.ls, hd.lp, hd.le, hd.tail⟩

/-- What `_load` puts in `sys` and `par`. -/
theorem load_sat {d : Dec R} (hd : Inv A fill K S m bf T d) {y : List R} (hy : y.length = 2 * (K + m)) :
    (d.load y).Sat fun d' => Inv A fill K S m bf T d' ∧ (∀ t, t < K + m → d'.sys[t]? = y[sysPos bf t]?) ∧
      ∀ t, t < K + m → d'.par[t]? = if bf = true ∧ K ≤ t then some fill else y[parPos bf (K + m) t]? := by
  unfold Dec.load
  rw [hd.hb, hd.hK, hd.hm]
  cases bf with
  | true =>
    rw [if_pos rfl]
    refine (copyTo_sat (by omega) (by rw [hd.ls]; omega)).bind fun sys hs => ?_
    refine (copyTo_sat (by omega) (by rw [hd.lp]; omega)).bind fun par hp => ?_
    apply sat_ok.2
    refine ⟨⟨rfl, hd.hn, rfl, rfl, hd.hT, hd.la, hd.a0, hd.lb, hd.bL, by rw [← hd.ls]; exact hs.1, by rw [← hd.lp]; exact hp.1, hd.le,
      ?_⟩, ?_, ?_⟩
    · intro _ t h1 h2
      dsimp only
      rw [hp.2, if_neg (by omega)]
      exact hd.tail rfl t h1 h2
    · intro t ht
      dsimp only
      rw [hs.2, if_pos (by omega)]
      simp [sysPos]
    · intro t ht
      dsimp only
      rw [hp.2]
      by_cases h : K ≤ t
      · rw [if_neg (by omega), if_pos ⟨rfl, h⟩]
        exact hd.tail rfl t h ht
      · rw [if_pos (by omega), if_neg (by omega)]
        simp [parPos]
  | false =>
    rw [if_neg (by simp)]
    refine (forN_inv (fun k (st : List R × List R) => st.1.length = K + m ∧ st.2.length = K + m ∧
      ∀ t, t < k → st.1[t]? = y[sysPos false t]? ∧ st.2[t]? = y[parPos false (K + m) t]?) ⟨hd.ls, hd.lp, fun t ht => absurd ht (by omega)⟩ ?_).bind ?_
    · rintro i ⟨sy, pa⟩ hi ⟨h1, h2, h3⟩
      dsimp only at h1 h2 h3 ⊢
      have e0 := List.getElem?_eq_getElem (l := y) (i := i * 2 + 0) (by omega)
      have e1 := List.getElem?_eq_getElem (l := y) (i := i * 2 + 1) (by omega)
      rw [rd_eq e0, bind_ok, wr_lt (by omega), bind_ok, rd_eq e1, bind_ok, wr_lt (by omega), bind_ok]
      apply sat_ok.2
      refine ⟨by simpa using h1, by simpa using h2, fun t ht => ?_⟩
      by_cases e : t = i
      · subst e
        refine ⟨?_, ?_⟩
        · dsimp only
          rw [List.getElem?_set_self (by omega), ← e0]
          simp only [sysPos, Bool.false_eq_true, if_false]
          congr 1; omega
        · dsimp only
          rw [List.getElem?_set_self (by omega), ← e1]
          simp only [parPos, Bool.false_eq_true, if_false]
          congr 1; omega
      · dsimp only
        rw [List.getElem?_set_ne (by omega), List.getElem?_set_ne (by omega)]
        exact h3 t (by omega)
    · rintro ⟨sy, pa⟩ ⟨h1, h2, h3⟩
      apply sat_ok.2
      refine ⟨⟨rfl, hd.hn, rfl, rfl, hd.hT, hd.la, hd.a0, hd.lb, hd.bL, h1, h2, hd.le, fun h => absurd h (by simp)⟩,
        fun t ht => (h3 t ht).1, fun t ht => ?_⟩
      rw [if_neg (by simp)]
      exact (h3 t ht).2

theorem load_inv {d d' : Dec R} (hd : Inv A fill K S m bf T d) {y : List R} (h : d.load y = ok d') : Inv A fill K S m bf T d' := by
  unfold Dec.load at h
  rw [hd.hb, hd.hK, hd.hm] at h
  cases bf with
  | true =>
    rw [if_pos rfl] at h
    obtain ⟨sys, h1, h⟩ := bind_inv h
    obtain ⟨par, h2, h⟩ := bind_inv h
    cases h
    have e1 : sys.length = d.sys.length := by
      refine forN_pres (fun x => x.length = d.sys.length) ?_ rfl h1
      intro i a b hi ha hb
      obtain ⟨_, _, hb⟩ := bind_inv hb
      obtain ⟨_, rfl⟩ := wr_inv hb
      simpa using ha
    have e2 : par.length = d.par.length ∧ ∀ t, K ≤ t → par[t]? = d.par[t]? := by
      refine forN_pres (fun x => x.length = d.par.length ∧ ∀ t, K ≤ t → x[t]? = d.par[t]?) ?_ ⟨rfl, fun t _ => rfl⟩ h2
      rintro i a b hi ⟨ha, ha'⟩ hb
      obtain ⟨_, _, hb⟩ := bind_inv hb
      obtain ⟨_, rfl⟩ := wr_inv hb
      exact ⟨by simpa using ha, fun t ht => by rw [List.getElem?_set_ne (by omega)]; exact ha' t ht⟩
    exact ⟨rfl, hd.hn, rfl, rfl, hd.hT, hd.la, hd.a0, hd.lb, hd.bL, by rw [← hd.ls]; exact e1, by rw [← hd.lp]; exact e2.1, hd.le,
      fun _ t h1 h2 => by rw [← hd.tail rfl t h1 h2]; exact e2.2 t h1⟩
  | false =>
    rw [if_neg (by simp)] at h
    obtain ⟨r, h1, h⟩ := bind_inv h
    cases h
    have e : r.1.length = d.sys.length ∧ r.2.length = d.par.length := by
      refine forN_pres (fun x => x.1.length = d.sys.length ∧ x.2.length = d.par.length) ?_ ⟨rfl, rfl⟩ h1
      rintro i a b hi ⟨ha, ha'⟩ hb
      obtain ⟨_, _, hb⟩ := bind_inv hb
      obtain ⟨_, h2, hb⟩ := bind_inv hb
      obtain ⟨_, _, hb⟩ := bind_inv hb
      obtain ⟨_, h3, hb⟩ := bind_inv hb
      cases hb
      obtain ⟨_, rfl⟩ := wr_inv h2
      obtain ⟨_, rfl⟩ := wr_inv h3
      exact ⟨by simpa using ha, by simpa using ha'⟩
    exact ⟨rfl, hd.hn, rfl, rfl, hd.hT, hd.la, hd.a0, hd.lb, hd.bL, by rw [← hd.ls]; exact e.1, by rw [← hd.lp]; exact e.2, hd.le,
      fun h => absurd h (by simp)⟩

theorem siho_inv {d d' : Dec R} (hd : Inv A fill K S m bf T d) {y : List R} {v : List Int} (h : d.siho A y = ok (d', v)) :
    Inv A fill K S m bf T d' := by
  unfold Dec.siho at h
  obtain ⟨d1, h1, h⟩ := bind_inv h
  obtain ⟨⟨d2, o⟩, h2, h⟩ := bind_inv h
  obtain ⟨v', _, h⟩ := bind_inv h
  cases h
  have i1 := load_inv hd h1
  obtain ⟨i2, _, _, _⟩ := sisoAlt_inv i1 h2
  have hl := sisoAlt_len h2
  exact ⟨i2.hK, i2.hn, i2.hm, i2.hb, i2.hT, i2.la, i2.a0, i2.lb, i2.bL, i2.ls, i2.lp, by rw [← i1.le]; exact hl, i2.tail⟩

end

section
variable {A : Arith R D} {mM M B : Int} (sd : Sound A mM M B) {fill : R} {bf : Bool}
variable {S m W K : Nat} {T : List (List Int)} {nx : Nat → Bool → Nat} {py : Nat → Bool → Bool} {pr : Bool → Nat → Nat}
  {pb : Bool → Nat → Bool} {s p : Nat → Int}

theorem sisoAlt_sat {d : Dec R} (hd : Inv A fill K S m bf T d) (h : Tr S T nx py pr pb)
    (hsf : Setup (ef S nx py s p) S (K + m) m W mM M B A.nrm)
    (hsb : Setup (eb S (K + m) nx py s p) S (K + m) m W mM M B (fun k => A.nrm (K + m - k)))
    (hM : ∀ t, t < K + m → |s t| + |p t| ≤ M) {sys par ext : List R} (hs : ∀ t, t < K + m → sys[t]? = some (sd.llr (s t)))
    (hp : ∀ t, t < K + m → par[t]? = some (sd.llr (p t))) (he : K ≤ ext.length) :
    (d.sisoAlt A sys par ext).Sat fun r => r.2.length = ext.length ∧ (∀ i, K ≤ i → r.2[i]? = ext[i]?) ∧
      ∀ i, i < K → ∃ x, r.2[i]? = some x ∧ ExtOk sd S (K + m) nx py s p i selSys (s i) x := by
  unfold Dec.sisoAlt
  rw [hd.hK, hd.hm, hd.hT, hd.hn]
  refine (gamma_sat sd hs hp hM).bind fun gam hg => ?_
  refine (computeAlpha_sat sd h hsf hM hg hd.la hd.a0).bind fun al ha => ?_
  refine (betaExt_sat sd h hsf hsb rfl hM hg ha hs he).bind fun o ho => ?_
  exact sat_ok.2 ho

theorem siso_sat {d : Dec R} (hd : Inv A fill K S m bf T d) (hbf : bf = true) (h : Tr S T nx py pr pb)
    (hsf : Setup (ef S nx py s p) S (K + m) m W mM M B A.nrm)
    (hsb : Setup (eb S (K + m) nx py s p) S (K + m) m W mM M B (fun k => A.nrm (K + m - k))) (hmK : m ≤ K)
    (hM : ∀ t, t < K + m → |s t| + |p t| ≤ M) {y out : List R} (hs : ∀ t, t < K + m → y[t]? = some (sd.llr (s t)))
    (hp : ∀ t, t < K + m → y[K + m + t]? = some (sd.llr (p t))) (he : out.length = 2 * (K + m)) :
    (d.siso A y out).Sat fun r => r.2.length = 2 * (K + m) ∧
      (∀ i, i < K + m → ∃ x, r.2[i]? = some x ∧ ExtOk sd S (K + m) nx py s p i selSys (s i) x) ∧
      ∀ i, i < K + m → ∃ x, r.2[K + m + i]? = some x ∧ ExtOk sd S (K + m) nx py s p i py (p i) x := by
  unfold Dec.siso
  rw [hd.hb, hbf]
  rw [if_neg (by simp)]
  dsimp only
  rw [hd.hK, hd.hm, hd.hT, hd.hn]
  refine (gamma_sat sd hs (par := y.drop (K + m)) (fun t ht => by rw [List.getElem?_drop]; exact hp t ht) hM).bind fun gam hg => ?_
  refine (computeAlpha_sat sd h hsf hM hg hd.la hd.a0).bind fun al ha => ?_
  refine (computeBeta_sat sd h hsb hM hg hd.lb hd.bL).bind fun be hb => ?_
  refine (extSys_sat sd h hsf hsb rfl hmK hM hg ha hb hs (by omega)).bind fun o ho => ?_
  refine (extPar_sat sd h hsf hsb rfl hmK hM hg ha hb hp (by omega)).bind fun o' ho' => ?_
  apply sat_ok.2
  refine ⟨by dsimp only; omega, fun i hi => ?_, ho'.2.2⟩
  dsimp only
  rw [ho'.2.1 i hi]
  exact ho.2.2 i hi

theorem siho_sat {d : Dec R} (hd : Inv A fill K S m bf T d) (h : Tr S T nx py pr pb)
    (hsf : Setup (ef S nx py s p) S (K + m) m W mM M B A.nrm)
    (hsb : Setup (eb S (K + m) nx py s p) S (K + m) m W mM M B (fun k => A.nrm (K + m - k)))
    (hM : ∀ t, t < K + m → |s t| + |p t| ≤ M) {y : List R} (hy : y.length = 2 * (K + m))
    (hs : ∀ t, t < K + m → y[sysPos bf t]? = some (sd.llr (s t)))
    (hp : ∀ t, t < K + m → ¬(bf = true ∧ K ≤ t) → y[parPos bf (K + m) t]? = some (sd.llr (p t)))
    (hpt : ∀ t, t < K + m → bf = true → K ≤ t → fill = sd.llr (p t))
    (hpar : ∀ i z0 z1, i < K → IsGreatest (Through S (K + m) nx py s p i selSys false) z0 →
      IsGreatest (Through S (K + m) nx py s p i selSys true) z1 → ∃ g, z0 - z1 = 2 * g)
    (hex : ∀ i, i < K → ∃ z0 z1, IsGreatest (Through S (K + m) nx py s p i selSys false) z0 ∧
      IsGreatest (Through S (K + m) nx py s p i selSys true) z1) :
    (d.siho A y).Sat fun r => r.2.length = K ∧ ∀ i, i < K → ∀ z0 z1,
      IsGreatest (Through S (K + m) nx py s p i selSys false) z0 →
      IsGreatest (Through S (K + m) nx py s p i selSys true) z1 → r.2[i]? = some (if z0 < z1 then 1 else 0) := by
  unfold Dec.siho
  refine (load_sat hd hy).bind fun d1 ⟨hd1, hs1, hp1⟩ => ?_
  have hsys : ∀ t, t < K + m → d1.sys[t]? = some (sd.llr (s t)) := fun t ht => by rw [hs1 t ht, hs t ht]
  have hparr : ∀ t, t < K + m → d1.par[t]? = some (sd.llr (p t)) := by
    intro t ht
    rw [hp1 t ht]
    split
    next h => rw [hpt t ht h.1 h.2]
    next h => exact hp t ht h
  refine (sisoAlt_sat sd hd1 h hsf hsb hM hsys hparr (by rw [hd1.le])).bind ?_
  rintro ⟨d2, o⟩ ⟨_, _, ho⟩
  dsimp only at ho ⊢
  rw [hd1.hK]
  refine (mapN_sat (P := fun i (v : Int) => ∀ z0 z1, IsGreatest (Through S (K + m) nx py s p i selSys false) z0 →
      IsGreatest (Through S (K + m) nx py s p i selSys true) z1 → v = if z0 < z1 then 1 else 0) ?_).bind ?_
  · intro i hi
    obtain ⟨x, hx, hox⟩ := ho i hi
    obtain ⟨z0, z1, g0, g1⟩ := hex i hi
    obtain ⟨g, hg⟩ := hpar i z0 z1 hi g0 g1
    obtain ⟨hb, rfl⟩ := hox z0 z1 g0 g1 g hg
    have hsp := hM i (by omega)
    rw [rd_eq hx, bind_ok, rd_eq (hsys i (by omega)), bind_ok, sd.hadd _ _ hb (by have := abs_nonneg (p i); linarith), sd.neg _ hb]
    apply sat_ok.2
    intro z0' z1' g0' g1'
    obtain rfl := g0.unique g0'
    obtain rfl := g1.unique g1'
    by_cases hlt : g < 0
    · rw [if_pos (by simpa using hlt), if_pos (by omega)]
    · rw [if_neg (by simpa using hlt), if_neg (by omega)]
  · rintro v ⟨hl, hv⟩
    apply sat_ok.2
    refine ⟨hl, fun i hi z0 z1 g0 g1 => ?_⟩
    obtain ⟨x, hx, hP⟩ := hv i hi
    rw [← hP z0 z1 g0 g1]
    exact hx

end

end Verif.BCJR
