import Verif.Proof.BCJRNum

/-! # BCJR: the loops of the decoder over a trellis -/

namespace Verif.BCJR
open Exec Verif.RSC

variable {R D : Type}

/-- The tables `T` describe the trellis of next states `nx` and parities `py`; `pr c q` and `pb c q` are the origin and the
input bit of the two branches that enter `q`. -/
structure Tr (S : Nat) (T : List (List Int)) (nx : Nat → Bool → Nat) (py : Nat → Bool → Bool) (pr : Bool → Nat → Nat)
    (pb : Bool → Nat → Bool) : Prop where
  pos : 0 < S
  inc : ∀ c q, q < S → tr T (3 * c.toNat) q = ok (pr c q : Int) ∧ tr T (3 * c.toNat + 1) q = ok (coef (pb c q)) ∧
    tr T (3 * c.toNat + 2) q = ok (b2i (pb c q ^^ py (pr c q) (pb c q)))
  out : ∀ b q, q < S → tr T (6 + 2 * b.toNat) q = ok (nx q b : Int) ∧ tr T (7 + 2 * b.toNat) q = ok (b2i (b ^^ py q b))
  iff : ∀ p q b, p < S → q < S → (nx p b = q ↔ ∃ c, p = pr c q ∧ b = pb c q)
  prlt : ∀ c q, q < S → pr c q < S
  nxlt : ∀ q b, q < S → nx q b < S
  alt : ∀ q, q < S → pb false q ≠ pb true q

/-- The two values of gamma. -/
def gm (s p : Nat → Int) (x : Bool) (t : Nat) : Int := if x then s t - p t else s t + p t

/-- Weight of the branch from `a` with input `b`. -/
def wtB (py : Nat → Bool → Bool) (s p : Nat → Int) (t a : Nat) (b : Bool) : Int := coef b * gm s p (b ^^ py a b) t

/-- The branches that satisfy `φ`. -/
def edge (S : Nat) (nx : Nat → Bool → Nat) (py : Nat → Bool → Bool) (s p : Nat → Int) (φ : Nat → Nat → Bool → Prop)
    (t a q : Nat) (w : Int) : Prop := a < S ∧ ∃ b, φ t a b ∧ q = nx a b ∧ w = wtB py s p t a b

/-- Every branch. -/
abbrev anyB : Nat → Nat → Bool → Prop := fun _ _ _ => True

section
variable {A : Arith R D} {mM M B : Int} (sd : Sound A mM M B)
variable {S L m W : Nat} {T : List (List Int)} {nx : Nat → Bool → Nat} {py : Nat → Bool → Bool} {pr : Bool → Nat → Nat}
  {pb : Bool → Nat → Bool} {s p : Nat → Int}

theorem two_fwd (h : Tr S T nx py pr pb) :
    Two (edge S nx py s p anyB) S L pr (fun k c q => coef (pb c q) * gm s p (pb c q ^^ py (pr c q) (pb c q)) k) := by
  intro k a q v _ hq
  constructor
  · rintro ⟨ha, b, _, e1, e2⟩
    obtain ⟨c, rfl, rfl⟩ := (h.iff a q b ha hq).1 e1.symm
    exact ⟨c, rfl, e2⟩
  · rintro ⟨c, rfl, rfl⟩
    exact ⟨h.prlt c q hq, pb c q, trivial, ((h.iff _ q _ (h.prlt c q hq) hq).2 ⟨c, rfl, rfl⟩).symm, rfl⟩

theorem two_bwd : Two (rev L (edge S nx py s p anyB)) S L (fun b q => nx q b)
    (fun k b q => wtB py s p (L - 1 - k) q b) := by
  intro k a q v hk hq
  constructor
  · rintro ⟨_, _, b, _, e1, e2⟩
    exact ⟨b, e1, e2⟩
  · rintro ⟨b, rfl, rfl⟩
    exact ⟨hk, hq, b, trivial, rfl, rfl⟩

/-- The table of gammas. -/
def Gam (gam : List (List R)) (L : Nat) (s p : Nat → Int) : Prop :=
  ∀ x t, t < L → gAt gam (b2i x) t = ok (sd.emb (gm s p x t))

theorem gamma_sat {sys par : List R} (hs : ∀ t, t < L → sys[t]? = some (sd.llr (s t)))
    (hp : ∀ t, t < L → par[t]? = some (sd.llr (p t))) (hM : ∀ t, t < L → |s t| + |p t| ≤ M) :
    (gamma A L sys par).Sat fun gam => Gam sd gam L s p := by
  unfold gamma
  refine (mapN_sat (P := fun t x => x = sd.emb (gm s p false t)) ?_).bind ?_
  · intro t ht
    rw [rd_eq (hs t ht), bind_ok, rd_eq (hp t ht), bind_ok, sd.gsum _ _ (hM t ht)]
    exact sat_ok.2 rfl
  rintro g0 ⟨l0, h0⟩
  refine (mapN_sat (P := fun t x => x = sd.emb (gm s p true t)) ?_).bind ?_
  · intro t ht
    rw [rd_eq (hs t ht), bind_ok, rd_eq (hp t ht), bind_ok, sd.gdiff _ _ (hM t ht)]
    exact sat_ok.2 rfl
  rintro g1 ⟨l1, h1⟩
  apply sat_ok.2
  intro x t ht
  unfold gAt rdI
  cases x
  · obtain ⟨y, hy, e⟩ := h0 t ht
    simp only [b2i, Bool.false_eq_true, if_false, Int.lt_irrefl, Int.toNat_zero]
    rw [rd_eq (a := g0) rfl, bind_ok, rd_eq hy, e]
  · obtain ⟨y, hy, e⟩ := h1 t ht
    simp only [b2i, if_true]
    rw [if_neg (by omega), rd_eq (a := g1) rfl, bind_ok, rd_eq hy, e]

theorem gm_le {x : Bool} {t : Nat} (hM : |s t| + |p t| ≤ M) : |gm s p x t| ≤ M := by
  unfold gm
  split
  · exact le_trans (abs_sub _ _) hM
  · exact le_trans (abs_add_le _ _) hM

theorem rdI_nat {α : Type} {l : List α} {i : Nat} {a : α} (h : l[i]? = some a) : rdI l (i : Int) = ok a := by
  unfold rdI
  rw [if_neg (by omega), Int.toNat_natCast, rd_eq h]

theorem alphaCell_eq (h : Tr S T nx py pr pb) {gam : List (List R)} (hg : Gam sd gam L s p) {prev : List R} {t q : Nat}
    (ht : t < L) (hq : q < S) {r0 r1 : R} (h0 : prev[pr false q]? = some r0) (h1 : prev[pr true q]? = some r1) :
    alphaCell A T gam prev t q =
      ok (A.max1 (A.madd r0 (coef (pb false q)) (sd.emb (gm s p (pb false q ^^ py (pr false q) (pb false q)) t)))
        (A.madd r1 (coef (pb true q)) (sd.emb (gm s p (pb true q ^^ py (pr true q) (pb true q)) t)))) := by
  obtain ⟨a0, a1, a2⟩ := h.inc false q hq
  obtain ⟨a3, a4, a5⟩ := h.inc true q hq
  simp only [Bool.toNat_false, Bool.toNat_true, Nat.mul_zero, Nat.zero_add, Nat.mul_one, Nat.reduceAdd] at a0 a1 a2 a3 a4 a5
  unfold alphaCell
  rw [a0, bind_ok, rdI_nat h0, bind_ok, a1, bind_ok, a2, bind_ok, hg _ t ht, bind_ok, a3, bind_ok, rdI_nat h1, bind_ok, a4,
    bind_ok, a5, bind_ok, hg _ t ht, bind_ok]

theorem betaCell_eq (h : Tr S T nx py pr pb) {gam : List (List R)} (hg : Gam sd gam L s p) {next : List R} {t q : Nat}
    (ht : t < L) (hq : q < S) {r0 r1 : R} (h0 : next[nx q false]? = some r0) (h1 : next[nx q true]? = some r1) :
    betaCell A T gam next t q =
      ok (A.max1 (A.add r0 (sd.emb (gm s p (false ^^ py q false) t))) (A.sub r1 (sd.emb (gm s p (true ^^ py q true) t)))) := by
  obtain ⟨a0, a1⟩ := h.out false q hq
  obtain ⟨a2, a3⟩ := h.out true q hq
  simp only [Bool.toNat_false, Bool.toNat_true, Nat.mul_zero, Nat.mul_one, Nat.reduceAdd] at a0 a1 a2 a3
  unfold betaCell
  rw [a0, bind_ok, rdI_nat h0, bind_ok, a1, bind_ok, hg _ t ht, bind_ok, a2, bind_ok, rdI_nat h1, bind_ok, a3, bind_ok,
    hg _ t ht, bind_ok]

theorem good_madd {b : Bool} {g : Int} (hg : |g| ≤ M) : Good sd (fun r => A.madd r (coef b) (sd.emb g)) (coef b * g) :=
  ⟨fun x hx hx' => sd.madd x g b hx hg hx', fun c l r hc hl hr => sd.maddL c l r g b hc hl hg hr⟩

theorem good_add {g : Int} (hg : |g| ≤ M) : Good sd (fun r => A.add r (sd.emb g)) g :=
  ⟨fun x hx hx' => sd.add x g hx hg hx', fun c l r hc hl hr => sd.addL c l r g hc hl hg hr⟩

theorem good_sub {g : Int} (hg : |g| ≤ M) : Good sd (fun r => A.sub r (sd.emb g)) (-g) :=
  ⟨fun x hx hx' => sd.sub x g hx hg hx', fun c l r hc hl hr => sd.subL c l r g hc hl hg hr⟩

/-- The forward and backward graphs. -/
abbrev ef (S : Nat) (nx : Nat → Bool → Nat) (py : Nat → Bool → Bool) (s p : Nat → Int) := edge S nx py s p anyB
abbrev eb (S L : Nat) (nx : Nat → Bool → Nat) (py : Nat → Bool → Bool) (s p : Nat → Int) := rev L (edge S nx py s p anyB)

theorem alpha_step (h : Tr S T nx py pr pb) (hs : Setup (ef S nx py s p) S L m W mM M B A.nrm)
    (hM : ∀ t, t < L → |s t| + |p t| ≤ M) {gam : List (List R)} (hg : Gam sd gam L s p) {k : Nat} (hk : k < L) {col : List R}
    (hc : Col sd (ef S nx py s p) S A.nrm k col) :
    (mapN S (alphaCell A T gam col k) >>= normalize A S (k + 1)).Sat (Col sd (ef S nx py s p) S A.nrm (k + 1)) := by
  refine col_step sd hs (two_fwd (L := L) h) hk hc rfl
    (op := fun q b r => A.madd r (coef (pb b q)) (sd.emb (gm s p (pb b q ^^ py (pr b q) (pb b q)) k))) ?_ ?_
  · intro q b _
    exact good_madd sd (gm_le (hM k hk))
  · intro q hq r0 r1 h0 h1
    exact alphaCell_eq sd h hg hk hq h0 h1

theorem beta_step (h : Tr S T nx py pr pb) (hs : Setup (eb S L nx py s p) S L m W mM M B (fun k => A.nrm (L - k)))
    (hM : ∀ t, t < L → |s t| + |p t| ≤ M) {gam : List (List R)} (hg : Gam sd gam L s p) {k : Nat} (hk : k < L) {col : List R}
    (hc : Col sd (eb S L nx py s p) S (fun k => A.nrm (L - k)) k col) :
    (mapN S (betaCell A T gam col (L - 1 - k)) >>= normalize A S (L - 1 - k)).Sat
      (Col sd (eb S L nx py s p) S (fun k => A.nrm (L - k)) (k + 1)) := by
  refine col_step sd hs two_bwd hk hc (congrArg A.nrm (by omega))
    (op := fun q b r => if b then A.sub r (sd.emb (gm s p (true ^^ py q true) (L - 1 - k)))
      else A.add r (sd.emb (gm s p (false ^^ py q false) (L - 1 - k)))) ?_ ?_
  · intro q b _
    cases b
    · have := good_add sd (gm_le (x := false ^^ py q false) (hM (L - 1 - k) (by omega)))
      simpa [wtB, coef] using this
    · have := good_sub sd (gm_le (x := true ^^ py q true) (hM (L - 1 - k) (by omega)))
      simpa [wtB, coef] using this
  · intro q hq r0 r1 h0 h1
    exact betaCell_eq sd h hg (by omega) hq h0 h1

/-- The columns of `alpha`. -/
def AlphaOk (al : List (List R)) (e : Nat → Nat → Nat → Int → Prop) (S L : Nat) (nr : Nat → Bool) (k : Nat) : Prop :=
  al.length = L + 1 ∧ al[0]? = some (endCol A S) ∧ ∀ i, i < k → ∃ col, al[i]? = some col ∧ Col sd e S nr i col

theorem computeAlpha_sat (h : Tr S T nx py pr pb) (hs : Setup (ef S nx py s p) S L m W mM M B A.nrm)
    (hM : ∀ t, t < L → |s t| + |p t| ≤ M) {gam : List (List R)} (hg : Gam sd gam L s p) {al : List (List R)}
    (hl : al.length = L + 1) (h0 : al[0]? = some (endCol A S)) :
    (computeAlpha A T gam S L al).Sat fun al' => AlphaOk sd al' (ef S nx py s p) S L A.nrm L := by
  have hL := hs.L0
  unfold computeAlpha forRange
  refine (forN_inv (fun k al' => AlphaOk sd al' (ef S nx py s p) S L A.nrm (k + 1)) ?_ ?_).mono ?_
  · refine ⟨hl, h0, fun i hi => ?_⟩
    rw [show i = 0 by omega]
    exact ⟨_, h0, col_end sd h.pos⟩
  · rintro k al' hk ⟨h1, h2, h3⟩
    obtain ⟨col, hc1, hc2⟩ := h3 k (by omega)
    dsimp only
    rw [show 1 + k - 1 = k by omega, rd_eq hc1, bind_ok, ← bind_assoc']
    have := alpha_step sd h hs hM hg (by omega : k < L) hc2
    rw [Nat.add_comm k 1] at this
    refine this.bind ?_
    intro col' hcol'
    rw [wr_lt (by omega)]
    apply sat_ok.2
    refine ⟨by simpa using h1, by rw [List.getElem?_set_ne (by omega)]; exact h2, fun i hi => ?_⟩
    by_cases e : i = 1 + k
    · subst e
      exact ⟨col', List.getElem?_set_self (by omega), hcol'⟩
    · rw [List.getElem?_set_ne (by omega)]
      exact h3 i (by omega)
  · intro al' ha
    rw [show L - 1 + 1 = L by omega] at ha
    exact ha

/-- The weights of the paths through the branch `(j, b)` at time `i`. -/
def Br (S L : Nat) (nx : Nat → Bool → Nat) (py : Nat → Bool → Bool) (s p : Nat → Int) (i j : Nat) (b : Bool) : Set Int :=
  {z | ∃ y ∈ Val (ef S nx py s p) i j, ∃ y' ∈ Val (eb S L nx py s p) (L - 1 - i) (nx j b), z = y + wtB py s p i j b + y'}

/-- Two columns at time `i` and `i + 1`. -/
structure Mid (S L : Nat) (nx : Nat → Bool → Nat) (py : Nat → Bool → Bool) (s p : Nat → Int) (i : Nat) (al next : List R)
    (c : Int) : Prop where
  b0 : ∀ j, j < S → ∀ r0 r1, al[j]? = some r0 → next[nx j false]? = some r1 →
    CellD sd (Br S L nx py s p i j false) c (A.sum3 r0 r1 (sd.emb (gm s p (false ^^ py j false) i)))
  b1 : ∀ j, j < S → ∀ r0 r1, al[j]? = some r0 → next[nx j true]? = some r1 →
    CellD sd (Br S L nx py s p i j true) c (A.dif3 r0 r1 (sd.emb (gm s p (true ^^ py j true) i)))
  la : al.length = S
  ln : next.length = S

theorem mid_of (h : Tr S T nx py pr pb) (hsf : Setup (ef S nx py s p) S L m W mM M B A.nrm)
    (hsb : Setup (eb S L nx py s p) S L m W mM M B (fun k => A.nrm (L - k)))
    (hM : ∀ t, t < L → |s t| + |p t| ≤ M) {i : Nat} (hi : i < L) (hor : m ≤ i ∨ m ≤ L - 1 - i) {al next : List R}
    (ha : Col sd (ef S nx py s p) S A.nrm i al)
    (hb : Col sd (eb S L nx py s p) S (fun k => A.nrm (L - k)) (L - 1 - i) next) :
    ∃ c, Mid sd S L nx py s p i al next c := by
  obtain ⟨la, ka, ca, hka, hca, hna, hva⟩ := ha
  obtain ⟨ln, kb, cb, hkb, hcb, hnb, hvb⟩ := hb
  refine ⟨ca + cb, ?_, ?_, la, ln⟩
  · intro j hj r0 r1 h0 h1
    obtain ⟨r0', h0', c0⟩ := hva j hj
    obtain ⟨r1', h1', c1⟩ := hvb _ (h.nxlt j false hj)
    rw [h0] at h0'; rw [h1] at h1'
    injection h0' with h0'; injection h1' with h1'
    subst h0' h1'
    have hg := gm_le (x := false ^^ py j false) (hM i hi)
    have := cell3 sd hsf hsb (by omega : i ≤ L) (by omega : L - 1 - i ≤ L) hor hka hkb hca hcb hna hnb hj (h.nxlt j false hj)
      c0 c1 (op3 := fun a b => A.sum3 a b (sd.emb (gm s p (false ^^ py j false) i))) (v := wtB py s p i j false)
      (by simpa [wtB, coef] using hg)
      (by
        intro a b ha hb
        rw [sd.sum3 a b _ ha hb hg]
        simp [wtB, coef])
      (fun c l r b hc hl hr hb => sd.sum3L c l r b _ hc hl hr hb hg)
    exact this
  · intro j hj r0 r1 h0 h1
    obtain ⟨r0', h0', c0⟩ := hva j hj
    obtain ⟨r1', h1', c1⟩ := hvb _ (h.nxlt j true hj)
    rw [h0] at h0'; rw [h1] at h1'
    injection h0' with h0'; injection h1' with h1'
    subst h0' h1'
    have hg := gm_le (x := true ^^ py j true) (hM i hi)
    have := cell3 sd hsf hsb (by omega : i ≤ L) (by omega : L - 1 - i ≤ L) hor hka hkb hca hcb hna hnb hj (h.nxlt j true hj)
      c0 c1 (op3 := fun a b => A.dif3 a b (sd.emb (gm s p (true ^^ py j true) i))) (v := wtB py s p i j true)
      (by simpa [wtB, coef] using hg)
      (by
        intro a b ha hb
        rw [sd.dif3 a b _ ha hb hg]
        simp [wtB, coef])
      (fun c l r b hc hl hr hb => sd.dif3L c l r b _ hc hl hr hb hg)
    exact this

theorem branch0_sat (h : Tr S T nx py pr pb) {gam : List (List R)} (hg : Gam sd gam L s p) {i : Nat} (hi : i < L)
    {al next : List R} {c : Int} (hm : Mid sd S L nx py s p i al next c) {j : Nat} (hj : j < S) :
    (branch0 A T gam al next i j).Sat fun x => CellD sd (Br S L nx py s p i j false) c x := by
  obtain ⟨a0, a1⟩ := h.out false j hj
  simp only [Bool.toNat_false, Nat.mul_zero, Nat.add_zero] at a0 a1
  have e0 := List.getElem?_eq_getElem (l := al) (i := j) (by rw [hm.la]; exact hj)
  have e1 := List.getElem?_eq_getElem (l := next) (i := nx j false) (by rw [hm.ln]; exact h.nxlt j false hj)
  unfold branch0
  rw [rd_eq e0, bind_ok, a0, bind_ok, rdI_nat e1, bind_ok, a1, bind_ok, hg _ i hi, bind_ok]
  exact sat_ok.2 (hm.b0 j hj _ _ e0 e1)

theorem branch1_sat (h : Tr S T nx py pr pb) {gam : List (List R)} (hg : Gam sd gam L s p) {i : Nat} (hi : i < L)
    {al next : List R} {c : Int} (hm : Mid sd S L nx py s p i al next c) {j : Nat} (hj : j < S) :
    (branch1 A T gam al next i j).Sat fun x => CellD sd (Br S L nx py s p i j true) c x := by
  obtain ⟨a0, a1⟩ := h.out true j hj
  simp only [Bool.toNat_true, Nat.mul_one, Nat.reduceAdd] at a0 a1
  have e0 := List.getElem?_eq_getElem (l := al) (i := j) (by rw [hm.la]; exact hj)
  have e1 := List.getElem?_eq_getElem (l := next) (i := nx j true) (by rw [hm.ln]; exact h.nxlt j true hj)
  unfold branch1
  rw [rd_eq e0, bind_ok, a0, bind_ok, rdI_nat e1, bind_ok, a1, bind_ok, hg _ i hi, bind_ok]
  exact sat_ok.2 (hm.b1 j hj _ _ e0 e1)

/-- The weights of the paths through the branches `(j, b)` of `E` with output `x`. -/
def Sel (S L : Nat) (nx : Nat → Bool → Nat) (py : Nat → Bool → Bool) (s p : Nat → Int) (i : Nat) (sel : Nat → Bool → Bool)
    (E : Nat → Bool → Prop) (x : Bool) : Set Int := {z | ∃ j b, E j b ∧ sel j b = x ∧ z ∈ Br S L nx py s p i j b}

/-- The two maxima over the branches of `E`. -/
def Acc (S L : Nat) (nx : Nat → Bool → Nat) (py : Nat → Bool → Bool) (s p : Nat → Int) (i : Nat) (sel : Nat → Bool → Bool)
    (E : Nat → Bool → Prop) (c : Int) (m : D × D) : Prop :=
  CellD sd (Sel S L nx py s p i sel E false) c m.1 ∧ CellD sd (Sel S L nx py s p i sel E true) c m.2

theorem sel_add {i : Nat} {sel : Nat → Bool → Bool} {E : Nat → Bool → Prop} {j : Nat} {b x : Bool} (hx : sel j b = x) :
    Sel S L nx py s p i sel (fun j' b' => E j' b' ∨ (j' = j ∧ b' = b)) x = Sel S L nx py s p i sel E x ∪ Br S L nx py s p i j b := by
  ext z
  constructor
  · rintro ⟨j', b', h1 | ⟨rfl, rfl⟩, h2, h3⟩
    · exact Or.inl ⟨j', b', h1, h2, h3⟩
    · exact Or.inr h3
  · rintro (⟨j', b', h1, h2, h3⟩ | h3)
    · exact ⟨j', b', Or.inl h1, h2, h3⟩
    · exact ⟨j, b, Or.inr ⟨rfl, rfl⟩, hx, h3⟩

theorem sel_same {i : Nat} {sel : Nat → Bool → Bool} {E : Nat → Bool → Prop} {j : Nat} {b x : Bool} (hx : sel j b ≠ x) :
    Sel S L nx py s p i sel (fun j' b' => E j' b' ∨ (j' = j ∧ b' = b)) x = Sel S L nx py s p i sel E x := by
  ext z
  constructor
  · rintro ⟨j', b', h1 | ⟨rfl, rfl⟩, h2, h3⟩
    · exact ⟨j', b', h1, h2, h3⟩
    · exact absurd h2 hx
  · rintro ⟨j', b', h1, h2, h3⟩
    exact ⟨j', b', Or.inl h1, h2, h3⟩

theorem Acc.add0 {i : Nat} {sel : Nat → Bool → Bool} {E : Nat → Bool → Prop} {c : Int} {mm : D × D} {j : Nat} {b : Bool} {x : D}
    (h : Acc sd S L nx py s p i sel E c mm) (hx : CellD sd (Br S L nx py s p i j b) c x) (hs : sel j b = false) :
    Acc sd S L nx py s p i sel (fun j' b' => E j' b' ∨ (j' = j ∧ b' = b)) c (A.max2 mm.1 x, mm.2) := by
  refine ⟨?_, ?_⟩
  · rw [sel_add hs]
    exact h.1.max sd hx
  · rw [sel_same (by rw [hs]; simp)]
    exact h.2

theorem Acc.add1 {i : Nat} {sel : Nat → Bool → Bool} {E : Nat → Bool → Prop} {c : Int} {mm : D × D} {j : Nat} {b : Bool} {x : D}
    (h : Acc sd S L nx py s p i sel E c mm) (hx : CellD sd (Br S L nx py s p i j b) c x) (hs : sel j b = true) :
    Acc sd S L nx py s p i sel (fun j' b' => E j' b' ∨ (j' = j ∧ b' = b)) c (mm.1, A.max2 mm.2 x) := by
  refine ⟨?_, ?_⟩
  · rw [sel_same (by rw [hs]; simp)]
    exact h.1
  · rw [sel_add hs]
    exact h.2.max sd hx

theorem Acc.congr {i : Nat} {sel : Nat → Bool → Bool} {E E' : Nat → Bool → Prop} {c : Int} {mm : D × D}
    (h : Acc sd S L nx py s p i sel E c mm) (he : ∀ j b, E j b ↔ E' j b) : Acc sd S L nx py s p i sel E' c mm := by
  have : E = E' := by funext j b; exact propext (he j b)
  rw [← this]; exact h

/-- The output selected in the maxima of the systematic LLRs. -/
abbrev selSys : Nat → Bool → Bool := fun _ b => b

theorem scanSys_sat (h : Tr S T nx py pr pb) {gam : List (List R)} (hg : Gam sd gam L s p) {i : Nat} (hi : i < L)
    {al next : List R} {c : Int} (hm : Mid sd S L nx py s p i al next c) {r j0 : Nat} {f : Nat → Bool}
    (hf : ∀ j, j < S → tr T r j = ok (coef (f j))) {E : Nat → Bool → Prop} {mm : D × D}
    (hE : Acc sd S L nx py s p i selSys E c mm) :
    (scanSys A T gam al next i r j0 S mm).Sat
      (Acc sd S L nx py s p i selSys (fun j b => E j b ∨ (j0 ≤ j ∧ j < S ∧ b = f j)) c) := by
  unfold scanSys forRange
  refine (forN_inv (fun k mm => Acc sd S L nx py s p i selSys (fun j b => E j b ∨ (j0 ≤ j ∧ j < j0 + k ∧ b = f j)) c mm) ?_ ?_).mono ?_
  · exact Acc.congr sd hE fun j b => ⟨Or.inl, fun h => h.elim id fun h => absurd h.2.1 (by omega)⟩
  · intro k mm hk hacc
    have hj : j0 + k < S := by omega
    dsimp only
    rw [hf _ hj, bind_ok]
    have cg : ∀ j b, ((E j b ∨ (j0 ≤ j ∧ j < j0 + k ∧ b = f j)) ∨ (j = j0 + k ∧ b = f (j0 + k))) ↔
        (E j b ∨ (j0 ≤ j ∧ j < j0 + (k + 1) ∧ b = f j)) := by
      intro j b
      constructor
      · rintro ((h | ⟨h1, h2, h3⟩) | ⟨rfl, rfl⟩)
        · exact Or.inl h
        · exact Or.inr ⟨h1, by omega, h3⟩
        · exact Or.inr ⟨by omega, by omega, rfl⟩
      · rintro (h | ⟨h1, h2, h3⟩)
        · exact Or.inl (Or.inl h)
        · by_cases e : j = j0 + k
          · subst e; exact Or.inr ⟨rfl, h3⟩
          · exact Or.inl (Or.inr ⟨h1, by omega, h3⟩)
    cases hfj : f (j0 + k) with
    | false =>
      rw [if_pos (by simp [coef])]
      refine (branch0_sat sd h hg hi hm hj).bind fun x hx => sat_ok.2 ?_
      rw [hfj] at cg
      exact Acc.congr sd (Acc.add0 sd hacc hx rfl) cg
    | true =>
      rw [if_neg (by simp [coef])]
      refine (branch1_sat sd h hg hi hm hj).bind fun x hx => sat_ok.2 ?_
      rw [hfj] at cg
      exact Acc.congr sd (Acc.add1 sd hacc hx rfl) cg
  · intro mm hacc
    refine Acc.congr sd hacc fun j b => ?_
    constructor
    · rintro (h | ⟨h1, h2, h3⟩)
      · exact Or.inl h
      · exact Or.inr ⟨h1, by omega, h3⟩
    · rintro (h | ⟨h1, h2, h3⟩)
      · exact Or.inl h
      · exact Or.inr ⟨h1, by omega, h3⟩

theorem scanPar_sat (h : Tr S T nx py pr pb) {gam : List (List R)} (hg : Gam sd gam L s p) {i : Nat} (hi : i < L)
    {al next : List R} {c : Int} (hm : Mid sd S L nx py s p i al next c) {r : Nat} {f : Nat → Bool}
    (hf : ∀ j, j < S → tr T r j = ok (coef (f j))) {E : Nat → Bool → Prop} {mm : D × D}
    (hE : Acc sd S L nx py s p i py E c mm) :
    (scanPar A T gam al next i r S mm).Sat
      (Acc sd S L nx py s p i py (fun j b => E j b ∨ (j < S ∧ b = f j)) c) := by
  unfold scanPar
  refine (forN_inv (fun k mm => Acc sd S L nx py s p i py (fun j b => E j b ∨ (j < k ∧ b = f j)) c mm) ?_ ?_)
  · exact Acc.congr sd hE fun j b => ⟨Or.inl, fun h => h.elim id fun h => absurd h.1 (by omega)⟩
  · intro k mm hk hacc
    obtain ⟨-, t7⟩ := h.out false k hk
    obtain ⟨-, t9⟩ := h.out true k hk
    simp only [Bool.toNat_false, Bool.toNat_true, Nat.mul_zero, Nat.mul_one, Nat.add_zero, Nat.reduceAdd] at t7 t9
    rw [hf _ hk, bind_ok, t7, bind_ok, t9, bind_ok]
    have cg : ∀ j b, ((E j b ∨ (j < k ∧ b = f j)) ∨ (j = k ∧ b = f k)) ↔ (E j b ∨ (j < k + 1 ∧ b = f j)) := by
      intro j b
      constructor
      · rintro ((h | ⟨h2, h3⟩) | ⟨rfl, rfl⟩)
        · exact Or.inl h
        · exact Or.inr ⟨by omega, h3⟩
        · exact Or.inr ⟨by omega, rfl⟩
      · rintro (h | ⟨h2, h3⟩)
        · exact Or.inl (Or.inl h)
        · by_cases e : j = k
          · subst e; exact Or.inr ⟨rfl, h3⟩
          · exact Or.inl (Or.inr ⟨by omega, h3⟩)
    cases hfj : f k with
    | false =>
      rw [hfj] at cg
      cases hp : py k false with
      | false =>
        rw [if_pos (by simp [coef, b2i])]
        refine (branch0_sat sd h hg hi hm hk).bind fun x hx => sat_ok.2 ?_
        exact Acc.congr sd (Acc.add0 sd hacc hx hp) cg
      | true =>
        rw [if_neg (by simp [b2i]), if_pos (by simp [coef, b2i])]
        refine (branch0_sat sd h hg hi hm hk).bind fun x hx => sat_ok.2 ?_
        exact Acc.congr sd (Acc.add1 sd hacc hx hp) cg
    | true =>
      rw [hfj] at cg
      rw [if_neg (by simp [coef]), if_neg (by simp [coef])]
      cases hp : py k true with
      | false =>
        rw [if_pos (by simp [coef, b2i])]
        refine (branch1_sat sd h hg hi hm hk).bind fun x hx => sat_ok.2 ?_
        exact Acc.congr sd (Acc.add0 sd hacc hx hp) cg
      | true =>
        rw [if_neg (by simp [b2i]), if_pos (by simp [coef, b2i])]
        refine (branch1_sat sd h hg hi hm hk).bind fun x hx => sat_ok.2 ?_
        exact Acc.congr sd (Acc.add1 sd hacc hx hp) cg

/-- Weights of the whole paths whose branch at time `i` has output `x`. -/
def Through (S L : Nat) (nx : Nat → Bool → Nat) (py : Nat → Bool → Bool) (s p : Nat → Int) (i : Nat) (sel : Nat → Bool → Bool)
    (x : Bool) : Set Int := Val (edge S nx py s p fun t a b => t = i → sel a b = x) L 0

theorem sel_through (h : Tr S T nx py pr pb) {i : Nat} (hi : i < L) {sel : Nat → Bool → Bool} {x : Bool} :
    Sel S L nx py s p i sel (fun j _ => j < S) x = Through S L nx py s p i sel x := by
  ext z
  constructor
  · rintro ⟨j, b, hj, hx, y, hy, y', hy', rfl⟩
    have h2 := Steps.rev (L := L) (a := 0) (n := L - 1 - i) (by omega) (show Steps (eb S L nx py s p) 0 0 (L - 1 - i) (nx j b) y' from hy')
    rw [show L - 0 - (L - 1 - i) = i + 1 by omega] at h2
    have a1 : Steps (edge S nx py s p fun t a b => t = i → sel a b = x) 0 0 i j y := by
      refine Steps.congr ?_ hy
      rintro t r q w ht ⟨h1, b, -, h3, h4⟩
      exact ⟨h1, b, fun e => absurd e (by omega), h3, h4⟩
    have a2 : Steps (edge S nx py s p fun t a b => t = i → sel a b = x) (0 + i + 1) (nx j b) (L - 1 - i) 0 y' := by
      rw [Nat.zero_add]
      refine Steps.congr ?_ h2
      rintro t r q w ht ⟨h1, b, -, h3, h4⟩
      exact ⟨h1, b, fun e => absurd e (by omega), h3, h4⟩
    have a3 := a1.snoc (q := nx j b) (w := wtB py s p i j b) ⟨hj, b, fun _ => hx, rfl, by rw [Nat.zero_add]⟩
    have a4 := a3.append a2
    rw [show i + 1 + (L - 1 - i) = L by omega] at a4
    exact a4
  · intro hz
    have hz' : Steps (edge S nx py s p fun t a b => t = i → sel a b = x) 0 0 (i + 1 + (L - 1 - i)) 0 z := by
      rw [show i + 1 + (L - 1 - i) = L by omega]; exact hz
    obtain ⟨q, z1, z2, h1, h2, rfl⟩ := hz'.split
    obtain ⟨j, y, w, h3, h4, rfl⟩ := Steps.succ_inv h1
    rw [Nat.zero_add] at h2 h4
    obtain ⟨hj, b, hb, rfl, rfl⟩ := h4
    refine ⟨j, b, hj, hb rfl, y, ?_, z2, ?_, rfl⟩
    · refine Steps.congr ?_ h3
      rintro t r q w ht ⟨h1, b, -, h3, h4⟩
      exact ⟨h1, b, trivial, h3, h4⟩
    · refine Steps.of_rev (by omega) ?_
      rw [show L - 0 - (L - 1 - i) = i + 1 by omega]
      refine Steps.congr ?_ h2
      rintro t r q w ht ⟨h1, b, -, h3, h4⟩
      exact ⟨h1, b, trivial, h3, h4⟩

/-- What is said of an extrinsic value. -/
def ExtOk (S L : Nat) (nx : Nat → Bool → Nat) (py : Nat → Bool → Bool) (s p : Nat → Int) (i : Nat) (sel : Nat → Bool → Bool)
    (v : Int) (x : R) : Prop :=
  ∀ z0 z1, IsGreatest (Through S L nx py s p i sel false) z0 → IsGreatest (Through S L nx py s p i sel true) z1 → ∀ h,
    z0 - z1 = 2 * h → |h| ≤ 2 * B + M ∧ x = sd.llr (h - v)

theorem ext_of (h : Tr S T nx py pr pb) {i : Nat} (hi : i < L) {sel : Nat → Bool → Bool} {c v : Int} {mm : D × D} (hv : |v| ≤ M)
    {E : Nat → Bool → Prop} (hE : ∀ j b, E j b ↔ j < S) (ha : Acc sd S L nx py s p i sel E c mm) :
    ExtOk sd S L nx py s p i sel v (A.fin (A.post mm.1 mm.2) (sd.llr v)) := by
  have ha := Acc.congr sd ha hE
  unfold Acc at ha
  rw [sel_through h hi, sel_through h hi] at ha
  intro z0 z1 h0 h1 g hg
  obtain ⟨a0, a1⟩ := ha
  rcases a0 with ⟨z0', h0', e0, b0⟩ | ⟨n0, -⟩
  swap
  · rw [n0] at h0; exact absurd h0.1 (by simp)
  rcases a1 with ⟨z1', h1', e1, b1⟩ | ⟨n1, -⟩
  swap
  · rw [n1] at h1; exact absurd h1.1 (by simp)
  obtain rfl := h0.unique h0'
  obtain rfl := h1.unique h1'
  have hb : |g| ≤ 2 * B + M := by
    rw [abs_le] at b0 b1 ⊢
    omega
  refine ⟨hb, ?_⟩
  rw [e0, e1, sd.post _ _ g b0 b1 (by omega), sd.fin _ _ hb hv]

theorem extAlt_sat (h : Tr S T nx py pr pb) {gam : List (List R)} (hg : Gam sd gam L s p) {i : Nat} (hi : i < L)
    (hM : ∀ t, t < L → |s t| + |p t| ≤ M)
    {al next sys : List R} {c : Int} (hm : Mid sd S L nx py s p i al next c) (hs : sys[i]? = some (sd.llr (s i))) :
    (extAlt A T gam al next sys i S).Sat (ExtOk sd S L nx py s p i selSys (s i)) := by
  unfold extAlt
  refine (branch0_sat sd h hg hi hm h.pos).bind fun m0 h0 => ?_
  refine (branch1_sat sd h hg hi hm h.pos).bind fun m1 h1 => ?_
  have hacc : Acc sd S L nx py s p i selSys (fun j _ => j = 0) c (m0, m1) := by
    refine ⟨?_, ?_⟩
    · convert h0 using 1
      ext z
      constructor
      · rintro ⟨j, b, rfl, rfl, h⟩; exact h
      · intro h; exact ⟨0, false, rfl, rfl, h⟩
    · convert h1 using 1
      ext z
      constructor
      · rintro ⟨j, b, rfl, rfl, h⟩; exact h
      · intro h; exact ⟨0, true, rfl, rfl, h⟩
  refine (scanSys_sat sd h hg hi hm (r := 1) (j0 := 1) (f := pb false) (fun j hj => (h.inc false j hj).2.1) hacc).bind fun mm h2 => ?_
  refine (scanSys_sat sd h hg hi hm (r := 4) (j0 := 1) (f := pb true) (fun j hj => (h.inc true j hj).2.1) h2).bind fun mm h3 => ?_
  rw [rd_eq hs, bind_ok]
  apply sat_ok.2
  have hsp := hM i hi
  refine ext_of sd h hi (by have := abs_nonneg (p i); linarith) ?_ h3
  intro j b
  constructor
  · rintro ((rfl | h) | h)
    · exact h.pos
    · exact h.2.1
    · exact h.2.1
  · intro hj
    by_cases e : j = 0
    · exact Or.inl (Or.inl e)
    · have := h.alt j hj
      by_cases eb : b = pb false j
      · exact Or.inl (Or.inr ⟨by omega, hj, eb⟩)
      · refine Or.inr ⟨by omega, hj, ?_⟩
        revert this eb
        cases b <;> cases pb false j <;> cases pb true j <;> simp

theorem extScan_all (h : Tr S T nx py pr pb) {E : Nat → Bool → Prop} (hE : ∀ j b, ¬E j b) (j : Nat) (b : Bool) :
    ((E j b ∨ (j < S ∧ b = pb false j)) ∨ (j < S ∧ b = pb true j)) ↔ j < S := by
  constructor
  · rintro ((h | h) | h)
    · exact absurd h (hE j b)
    · exact h.1
    · exact h.1
  · intro hj
    have := h.alt j hj
    by_cases eb : b = pb false j
    · exact Or.inl (Or.inr ⟨hj, eb⟩)
    · refine Or.inr ⟨hj, ?_⟩
      revert this eb
      cases b <;> cases pb false j <;> cases pb true j <;> simp

theorem acc_none {i : Nat} {sel : Nat → Bool → Bool} {c : Int} :
    Acc sd S L nx py s p i sel (fun _ _ => False) c (A.lowD, A.lowD) := by
  refine ⟨Or.inr ⟨?_, sd.lowD⟩, Or.inr ⟨?_, sd.lowD⟩⟩ <;>
  · ext z
    simp [Sel]

end

end Verif.BCJR
