import Verif.Model.BCJR
import Verif.Proof.RSC
import Verif.Proof.BCJRPath
import Verif.Prelude.Loops

/-! # BCJR: from the metrics of the decoder to the best paths -/

namespace Verif.BCJR
open Exec Verif.RSC

variable {R D : Type}

/-- The operations are exact on metrics of absolute value at most `B`, with branch weights of absolute value at most `M`;
`Low c l r`: `r` is a metric of a state that is not reached, `c` having been subtracted and `l` bounding the sum of the added
weights. `mM` bounds `c` and `l`. -/
structure Sound (A : Arith R D) (mM M B : Int) where
  emb : Int → R
  llr : Int → R
  embD : Int → D
  Low : Int → Int → R → Prop
  LowD : D → Prop
  zero : A.zero = emb 0
  low : Low 0 0 A.low
  lowD : LowD A.lowD
  gsum : ∀ s p, |s| + |p| ≤ M → A.gsum (llr s) (llr p) = emb (s + p)
  gdiff : ∀ s p, |s| + |p| ≤ M → A.gdiff (llr s) (llr p) = emb (s - p)
  madd : ∀ x g b, |x| ≤ B → |g| ≤ M → |x + coef b * g| ≤ B → A.madd (emb x) (coef b) (emb g) = emb (x + coef b * g)
  add : ∀ x g, |x| ≤ B → |g| ≤ M → |x + g| ≤ B → A.add (emb x) (emb g) = emb (x + g)
  sub : ∀ x g, |x| ≤ B → |g| ≤ M → |x + -g| ≤ B → A.sub (emb x) (emb g) = emb (x + -g)
  maddL : ∀ c l r g b, |c| ≤ mM → l + M ≤ mM → |g| ≤ M → Low c l r → Low c (l + M) (A.madd r (coef b) (emb g))
  addL : ∀ c l r g, |c| ≤ mM → l + M ≤ mM → |g| ≤ M → Low c l r → Low c (l + M) (A.add r (emb g))
  subL : ∀ c l r g, |c| ≤ mM → l + M ≤ mM → |g| ≤ M → Low c l r → Low c (l + M) (A.sub r (emb g))
  max1 : ∀ x y, |x| ≤ B → |y| ≤ B → A.max1 (emb x) (emb y) = emb (max x y)
  max1L : ∀ c l r x, |c| ≤ mM → l ≤ mM → Low c l r → |x| ≤ B → A.max1 r (emb x) = emb x ∧ A.max1 (emb x) r = emb x
  max1LL : ∀ c l r r', Low c l r → Low c l r' → Low c l (A.max1 r r')
  nsub : ∀ x v i, A.nrm i = true → |x| ≤ B → |v| ≤ B → |x - v| ≤ B → A.nsub (emb x) (emb v) = emb (x - v)
  nsubL : ∀ c l r v i, A.nrm i = true → |c| ≤ mM → l ≤ mM → |c + v| ≤ mM → |v| ≤ B → Low c l r → Low (c + v) l (A.nsub r (emb v))
  sum3 : ∀ a b g, |a| ≤ B → |b| ≤ B → |g| ≤ M → A.sum3 (emb a) (emb b) (emb g) = embD (a + b + g)
  dif3 : ∀ a b g, |a| ≤ B → |b| ≤ B → |g| ≤ M → A.dif3 (emb a) (emb b) (emb g) = embD (a + b + -g)
  sum3L : ∀ c l r b g, |c| ≤ mM → l ≤ mM → Low c l r → |b| ≤ B → |g| ≤ M →
    LowD (A.sum3 r (emb b) (emb g)) ∧ LowD (A.sum3 (emb b) r (emb g))
  dif3L : ∀ c l r b g, |c| ≤ mM → l ≤ mM → Low c l r → |b| ≤ B → |g| ≤ M →
    LowD (A.dif3 r (emb b) (emb g)) ∧ LowD (A.dif3 (emb b) r (emb g))
  max2 : ∀ x y, |x| ≤ 2 * B + M → |y| ≤ 2 * B + M → A.max2 (embD x) (embD y) = embD (max x y)
  max2L : ∀ r x, LowD r → |x| ≤ 2 * B + M → A.max2 r (embD x) = embD x ∧ A.max2 (embD x) r = embD x
  max2LL : ∀ r r', LowD r → LowD r' → LowD (A.max2 r r')
  post : ∀ x y h, |x| ≤ 2 * B + M → |y| ≤ 2 * B + M → x - y = 2 * h → A.post (embD x) (embD y) = llr h
  fin : ∀ h s, |h| ≤ 2 * B + M → |s| ≤ M → A.fin (llr h) (llr s) = llr (h - s)
  hadd : ∀ h s, |h| ≤ 2 * B + M → |s| ≤ M → A.hadd (llr (h - s)) (llr s) = llr h
  neg : ∀ h, |h| ≤ 2 * B + M → A.neg (llr h) = decide (h < 0)

theorem mapN_sat {n : Nat} {f : Nat → Exec R} {P : Nat → R → Prop} (h : ∀ j, j < n → (f j).Sat (P j)) :
    (mapN n f).Sat fun l => l.length = n ∧ ∀ j, j < n → ∃ x, l[j]? = some x ∧ P j x := by
  unfold mapN
  refine forN_inv (fun k (l : List R) => l.length = k ∧ ∀ j, j < k → ∃ x, l[j]? = some x ∧ P j x) ⟨rfl, fun j hj => absurd hj (by omega)⟩ ?_
  rintro i l hi ⟨h1, h2⟩
  obtain ⟨x, hx, hP⟩ := h i hi
  rw [hx, bind_ok]
  apply sat_ok.2
  refine ⟨by simp [h1], fun j hj => ?_⟩
  by_cases e : j = i
  · subst e
    exact ⟨x, by rw [List.getElem?_append_right (by omega), h1]; simp, hP⟩
  · obtain ⟨y, hy, hPy⟩ := h2 j (by omega)
    exact ⟨y, by rw [List.getElem?_append_left (by omega)]; exact hy, hPy⟩

section
variable {A : Arith R D} {mM M B : Int} (sd : Sound A mM M B)

/-- `r` is the metric of the best element of `P`. -/
def Cell (P : Set Int) (c l : Int) (r : R) : Prop :=
  (∃ z, IsGreatest P z ∧ r = sd.emb (z - c)) ∨ (P = ∅ ∧ sd.Low c l r)

/-- A column of metrics at time `k`; `nr t` says whether column `t` is normalized. -/
def Col (e : Nat → Nat → Nat → Int → Prop) (S : Nat) (nr : Nat → Bool) (k : Nat) (col : List R) : Prop :=
  col.length = S ∧ ∃ k' c, k' ≤ k ∧ IsGreatest (Val e k' 0) c ∧ (∀ t, k' < t → t ≤ k → nr t = false) ∧
    ∀ q, q < S → ∃ r, col[q]? = some r ∧ Cell sd (Val e k q) c (k * M) r

/-- `op` adds the weight `w`. -/
def Good (op : R → R) (w : Int) : Prop :=
  (∀ x, |x| ≤ B → |x + w| ≤ B → op (sd.emb x) = sd.emb (x + w)) ∧
  ∀ c l r, |c| ≤ mM → l + M ≤ mM → sd.Low c l r → sd.Low c (l + M) (op r)

variable {e : Nat → Nat → Nat → Int → Prop} {S L m W : Nat} {pr : Bool → Nat → Nat} {w : Nat → Bool → Nat → Int}
  {nr : Nat → Bool}

theorem isGreatest_two {P Q : Set Int} {a b : Int} (ha : IsGreatest P a) (hb : IsGreatest Q b) :
    IsGreatest (P ∪ Q) (max a b) := ha.union hb

/-- What is required of the bounds. -/
structure Setup (e : Nat → Nat → Nat → Int → Prop) (S L m W : Nat) (mM M B : Int) (nr : Nat → Bool) : Prop where
  g : Graph e S L m M
  L0 : 0 < L
  hmM : mM = m * M
  hB : (2 * m + (W + 1)) * M ≤ B
  win : ∀ k' k, k' ≤ k → k ≤ L → (∀ t, k' < t → t ≤ k → nr t = false) → k - k' ≤ W

theorem Setup.bnd (hs : Setup e S L m W mM M B nr) {k k' q : Nat} (hkk : k' ≤ k) (hk : k ≤ L) (hw : k - k' ≤ W) (hq : q < S) {z c : Int}
    (hz : IsGreatest (Val e k q) z) (hc : IsGreatest (Val e k' 0) c) : |z - c| ≤ B - M := by
  have h1 := best_le hs.g hs.L0 hkk hk hz.1 hc.2
  have h2 := best_ge hs.g hs.L0 hkk hk hq hz hc.1
  have hM := hs.g.nonneg hs.L0
  have h3 : (((k - k' : Nat) : Int)) * M ≤ W * M := by gcongr
  have := hs.hB
  rw [abs_le]
  constructor <;> nlinarith

theorem Setup.c_le (hs : Setup e S L m W mM M B nr) {k' : Nat} {c : Int} (hc : IsGreatest (Val e k' 0) c) (hk : k' ≤ m) : |c| ≤ mM := by
  have hM := hs.g.nonneg hs.L0
  have h1 := (show Steps e 0 0 k' 0 c from hc.1).bound hs.g
  have : (k' : Int) * M ≤ m * M := by gcongr
  rw [hs.hmM]
  linarith

theorem Setup.lt_m (hs : Setup e S L m W mM M B nr) {k q : Nat} (hk : k ≤ L) (hq : q < S) (h : Val e k q = ∅) : k < m := by
  by_contra hc
  have := val_nonempty hs.g hq (by omega) hk
  rw [h] at this
  exact Set.not_nonempty_empty this

/-- Columns of the values before normalization. -/
theorem cell_step (hs : Setup e S L m W mM M B nr) (ht : Two e S L pr w) {k k' : Nat} {c : Int} (hk : k < L) (hkk : k' ≤ k)
    (hc : IsGreatest (Val e k' 0) c) (hn : ∀ t, k' < t → t ≤ k → nr t = false) {q : Nat} (hq : q < S) {r : Bool → R}
    (hr : ∀ b, Cell sd (Val e k (pr b q)) c (k * M) (r b)) {op : Bool → R → R} (ho : ∀ b, Good sd (op b) (w k b q)) :
    Cell sd (Val e (k + 1) q) c ((k + 1 : Nat) * M) (A.max1 (op false (r false)) (op true (r true))) := by
  have hM := hs.g.nonneg hs.L0
  have hw := hs.win k' k hkk (by omega) hn
  -- each branch
  have key : ∀ b, (∃ z, IsGreatest {x | ∃ y ∈ Val e k (pr b q), x = y + w k b q} z ∧ op b (r b) = sd.emb (z - c) ∧ |z - c| ≤ B) ∨
      ({x | ∃ y ∈ Val e k (pr b q), x = y + w k b q} = ∅ ∧ sd.Low c ((k + 1 : Nat) * M) (op b (r b)) ∧ k + 1 ≤ m) := by
    intro b
    rcases hr b with ⟨z, hz, e1⟩ | ⟨h0, hl⟩
    · left
      have hb := hs.bnd hkk (by omega) hw (ht.lt hs.g hk hq b) hz hc
      have hwt := ht.wt hs.g hk hq b
      have hb2 : |z - c + w k b q| ≤ B := le_trans (abs_add_le _ _) (by linarith)
      refine ⟨z + w k b q, ⟨⟨z, hz.1, rfl⟩, ?_⟩, ?_, ?_⟩
      · rintro x ⟨y, hy, rfl⟩
        have := hz.2 hy
        linarith
      · rw [e1, (ho b).1 _ (by linarith) hb2]
        congr 1
        ring
      · rw [show z + w k b q - c = z - c + w k b q by ring]; exact hb2
    · right
      have hlt := hs.lt_m (by omega) (ht.lt hs.g hk hq b) h0
      have h1 : ((k : Nat) : Int) * M + M ≤ mM := by
        rw [hs.hmM]
        have : ((k + 1 : Nat) : Int) * M ≤ m * M := by gcongr; omega
        push_cast at this
        linarith
      refine ⟨by rw [h0]; simp, ?_, by omega⟩
      have := (ho b).2 c (k * M) (r b) (hs.c_le hc (by omega)) h1 hl
      rw [show ((k + 1 : Nat) : Int) * M = k * M + M by push_cast; ring]
      exact this
  have hun : Val e (k + 1) q = {x | ∃ y ∈ Val e k (pr false q), x = y + w k false q} ∪ {x | ∃ y ∈ Val e k (pr true q), x = y + w k true q} := by
    ext x
    rw [ht.val hk hq]
    simp [Bool.exists_bool]
  rw [hun]
  have h1m : k + 1 ≤ m → ((k + 1 : Nat) : Int) * M ≤ mM := by
    intro h
    rw [hs.hmM]
    gcongr
  rcases key false with ⟨z0, hz0, e0, b0⟩ | ⟨n0, l0, m0⟩ <;> rcases key true with ⟨z1, hz1, e1, b1⟩ | ⟨n1, l1, m1⟩
  · left
    refine ⟨max z0 z1, hz0.union hz1, ?_⟩
    rw [e0, e1, sd.max1 _ _ b0 b1]
    congr 1
    omega
  · left
    rw [n1, Set.union_empty]
    exact ⟨z0, hz0, by rw [e0, (sd.max1L _ _ _ _ (hs.c_le hc (by omega)) (h1m m1) l1 b0).2]⟩
  · left
    rw [n0, Set.empty_union]
    exact ⟨z1, hz1, by rw [e1, (sd.max1L _ _ _ _ (hs.c_le hc (by omega)) (h1m m0) l0 b1).1]⟩
  · right
    rw [n0, n1, Set.union_empty]
    exact ⟨rfl, sd.max1LL _ _ _ _ l0 l1⟩

theorem col_step (hs : Setup e S L m W mM M B nr) (ht : Two e S L pr w) {k idx : Nat} {col : List R} (hk : k < L)
    (hcol : Col sd e S nr k col) (hidx : A.nrm idx = nr (k + 1)) {f : Nat → Exec R} {op : Nat → Bool → R → R}
    (ho : ∀ q b, q < S → Good sd (op q b) (w k b q))
    (hf : ∀ q, q < S → ∀ r0 r1, col[pr false q]? = some r0 → col[pr true q]? = some r1 →
      f q = ok (A.max1 (op q false r0) (op q true r1))) :
    (mapN S f >>= normalize A S idx).Sat (Col sd e S nr (k + 1)) := by
  obtain ⟨hl, k', c, hkk, hc, hn, hv⟩ := hcol
  have hM := hs.g.nonneg hs.L0
  refine (mapN_sat (P := fun q x => Cell sd (Val e (k + 1) q) c ((k + 1 : Nat) * M) x) ?_).bind ?_
  · intro q hq
    obtain ⟨r0, h0, c0⟩ := hv _ (ht.lt hs.g hk hq false)
    obtain ⟨r1, h1, c1⟩ := hv _ (ht.lt hs.g hk hq true)
    rw [hf q hq r0 r1 h0 h1]
    apply sat_ok.2
    exact cell_step sd hs ht hk hkk hc hn hq (r := fun b => if b then r1 else r0) (op := op q)
      (by intro b; cases b <;> assumption) (fun b => ho q b hq)
  · rintro col' ⟨hl', hv'⟩
    unfold normalize
    have hw := hs.win k' k hkk (by omega) hn
    cases hnr : nr (k + 1) with
    | false =>
      rw [hidx, hnr, if_neg (by simp)]
      apply sat_ok.2
      refine ⟨hl', k', c, by omega, hc, ?_, hv'⟩
      intro t h1 h2
      by_cases e : t = k + 1
      · rw [e]; exact hnr
      · exact hn t h1 (by omega)
    | true =>
      rw [hidx, hnr, if_pos rfl]
      obtain ⟨v, hv0, hcv⟩ := hv' 0 hs.g.pos
      rw [rd_eq hv0, bind_ok]
      have hne := val0_nonempty hs.g (k := k + 1) (by omega)
      obtain ⟨z0, hz0, rfl⟩ : ∃ z, IsGreatest (Val e (k + 1) 0) z ∧ v = sd.emb (z - c) := by
        rcases hcv with h | ⟨h, _⟩
        · exact h
        · rw [h] at hne; exact absurd hne Set.not_nonempty_empty
      -- bound without the window
      have hbz : ∀ q z, q < S → IsGreatest (Val e (k + 1) q) z → |z - c| ≤ B := by
        intro q z hq hz
        have h1 := best_le hs.g hs.L0 (by omega : k' ≤ k + 1) hk hz.1 hc.2
        have h2 := best_ge hs.g hs.L0 (by omega : k' ≤ k + 1) hk hq hz hc.1
        have h3 : (((k + 1 - k' : Nat) : Int)) * M ≤ (W + 1 : Nat) * M := by gcongr; omega
        have := hs.hB
        push_cast at h3
        rw [abs_le]
        constructor <;> nlinarith
      refine (mapN_sat (P := fun q x => Cell sd (Val e (k + 1) q) z0 ((k + 1 : Nat) * M) x) ?_).mono ?_
      · intro q hq
        obtain ⟨x, hx, hcx⟩ := hv' q hq
        rw [rd_eq hx, bind_ok]
        apply sat_ok.2
        rcases hcx with ⟨z, hz, rfl⟩ | ⟨he, hlow⟩
        · left
          refine ⟨z, hz, ?_⟩
          have hzz : |z - z0| ≤ B := by
            have := hs.bnd (le_refl (k + 1)) hk (by omega) hq hz hz0
            linarith
          rw [sd.nsub _ _ idx (by rw [hidx, hnr]) (hbz q z hq hz) (hbz 0 z0 hs.g.pos hz0) (by rw [show z - c - (z0 - c) = z - z0 by ring]; exact hzz)]
          congr 1
          ring
        · right
          refine ⟨he, ?_⟩
          have hlt := hs.lt_m (by omega) hq he
          have h1m : ((k + 1 : Nat) : Int) * M ≤ mM := by rw [hs.hmM]; gcongr
          have := sd.nsubL c _ x (z0 - c) idx (by rw [hidx, hnr]) (hs.c_le hc (by omega)) h1m
            (by rw [show c + (z0 - c) = z0 by ring]; exact hs.c_le hz0 (by omega)) (hbz 0 z0 hs.g.pos hz0) hlow
          rw [show c + (z0 - c) = z0 by ring] at this
          exact this
      · rintro col'' ⟨hl'', hv''⟩
        exact ⟨hl'', k + 1, z0, le_refl _, hz0, fun t h1 h2 => absurd h2 (by omega), hv''⟩

/-- The column of the metrics at the ends. -/
theorem col_end (hS : 0 < S) : Col sd e S nr 0 (endCol A S) := by
  refine ⟨by simp [endCol]; omega, 0, 0, le_refl _, ⟨.nil, ?_⟩, fun t h1 h2 => absurd h2 (by omega), ?_⟩
  · intro z hz
    exact le_of_eq (Steps.zero_inv hz).2
  · intro q hq
    unfold endCol
    cases q with
    | zero =>
      refine ⟨A.zero, rfl, Or.inl ⟨0, ⟨.nil, ?_⟩, ?_⟩⟩
      · intro z hz
        exact le_of_eq (Steps.zero_inv hz).2
      · rw [sd.zero]; rfl
    | succ q =>
      refine ⟨A.low, ?_, Or.inr ⟨?_, ?_⟩⟩
      · rw [List.getElem?_cons_succ, List.getElem?_replicate, if_pos (by omega)]
      · ext z
        simp only [Val, Set.mem_setOf_eq, Set.mem_empty_iff_false, iff_false]
        intro h
        exact absurd (Steps.zero_inv h).1 (by omega)
      · simpa using sd.low

/-- `x` is the sum of the metrics of the best element of `P`. -/
def CellD (P : Set Int) (c : Int) (x : D) : Prop :=
  (∃ z, IsGreatest P z ∧ x = sd.embD (z - c) ∧ |z - c| ≤ 2 * B + M) ∨ (P = ∅ ∧ sd.LowD x)

theorem CellD.max {P Q : Set Int} {c : Int} {x y : D} (hx : CellD sd P c x) (hy : CellD sd Q c y) :
    CellD sd (P ∪ Q) c (A.max2 x y) := by
  rcases hx with ⟨z0, hz0, rfl, b0⟩ | ⟨n0, l0⟩ <;> rcases hy with ⟨z1, hz1, rfl, b1⟩ | ⟨n1, l1⟩
  · left
    refine ⟨Max.max z0 z1, hz0.union hz1, ?_, ?_⟩
    · rw [sd.max2 _ _ b0 b1]
      congr 1
      omega
    · rcases max_choice z0 z1 with h | h <;> rw [h] <;> assumption
  · left
    rw [n1, Set.union_empty]
    exact ⟨z0, hz0, (sd.max2L _ _ l1 b0).2, b0⟩
  · left
    rw [n0, Set.empty_union]
    exact ⟨z1, hz1, (sd.max2L _ _ l0 b1).1, b1⟩
  · right
    rw [n0, n1, Set.union_empty]
    exact ⟨rfl, sd.max2LL _ _ l0 l1⟩

/-- One branch: metric of the origin, of the end, and weight. -/
theorem cell3 {ea eb : Nat → Nat → Nat → Int → Prop} {nra nrb : Nat → Bool}
    (ha : Setup ea S L m W mM M B nra) (hb : Setup eb S L m W mM M B nrb) {i i' : Nat}
    (hi : i ≤ L) (hi' : i' ≤ L) (hor : m ≤ i ∨ m ≤ i') {ka kb : Nat} {ca cb : Int} (hka : ka ≤ i) (hkb : kb ≤ i')
    (hca : IsGreatest (Val ea ka 0) ca) (hcb : IsGreatest (Val eb kb 0) cb)
    (hna : ∀ t, ka < t → t ≤ i → nra t = false) (hnb : ∀ t, kb < t → t ≤ i' → nrb t = false) {p q : Nat} (hp : p < S)
    (hq : q < S) {ra rb : R} (h1 : Cell sd (Val ea i p) ca (i * M) ra) (h2 : Cell sd (Val eb i' q) cb (i' * M) rb)
    {op3 : R → R → D} {v : Int} (hv : |v| ≤ M)
    (hop : ∀ a b, |a| ≤ B → |b| ≤ B → op3 (sd.emb a) (sd.emb b) = sd.embD (a + b + v))
    (hopL : ∀ c l r b, |c| ≤ mM → l ≤ mM → sd.Low c l r → |b| ≤ B → sd.LowD (op3 r (sd.emb b)) ∧ sd.LowD (op3 (sd.emb b) r)) :
    CellD sd {x | ∃ y ∈ Val ea i p, ∃ y' ∈ Val eb i' q, x = y + v + y'} (ca + cb) (op3 ra rb) := by
  have hM := ha.g.nonneg ha.L0
  have hwa := ha.win ka i hka hi hna
  have hwb := hb.win kb i' hkb hi' hnb
  rcases h1 with ⟨z1, hz1, rfl⟩ | ⟨n1, l1⟩
  · have b1 := ha.bnd hka hi hwa hp hz1 hca
    rcases h2 with ⟨z2, hz2, rfl⟩ | ⟨n2, l2⟩
    · have b2 := hb.bnd hkb hi' hwb hq hz2 hcb
      left
      refine ⟨z1 + v + z2, ⟨⟨z1, hz1.1, z2, hz2.1, rfl⟩, ?_⟩, ?_, ?_⟩
      · rintro x ⟨y, hy, y', hy', rfl⟩
        have := hz1.2 hy
        have := hz2.2 hy'
        linarith
      · rw [hop _ _ (by linarith) (by linarith)]
        congr 1
        ring
      · rw [show z1 + v + z2 - (ca + cb) = (z1 - ca) + v + (z2 - cb) by ring]
        have h3 := abs_add_le (z1 - ca + v) (z2 - cb)
        have h4 := abs_add_le (z1 - ca) v
        linarith
    · right
      refine ⟨by rw [n2]; simp, ?_⟩
      have hlt := hb.lt_m hi' hq n2
      refine (hopL cb (i' * M) rb (z1 - ca) (hb.c_le hcb (by omega)) ?_ l2 (by linarith)).2
      rw [hb.hmM]; gcongr
  · rcases h2 with ⟨z2, hz2, rfl⟩ | ⟨n2, l2⟩
    · have b2 := hb.bnd hkb hi' hwb hq hz2 hcb
      right
      refine ⟨by rw [n1]; simp, ?_⟩
      have hlt := ha.lt_m hi hp n1
      refine (hopL ca (i * M) ra (z2 - cb) (ha.c_le hca (by omega)) ?_ l1 (by linarith)).1
      rw [ha.hmM]; gcongr
    · have := ha.lt_m hi hp n1
      have := hb.lt_m hi' hq n2
      omega

end

end Verif.BCJR
