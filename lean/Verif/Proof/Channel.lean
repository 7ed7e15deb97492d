import Verif.Spec.Channel
import Verif.Proof.User

/-! # Channels: lemmas -/

namespace Verif.Channel
open Exec
open Verif.User (Tok two_loops zip_of)

variable {R : Type}

theorem fits {N frames f : Nat} (hf : f < frames) : f * N + N ≤ N * frames := by
  calc f * N + N = N * (f + 1) := by rw [Nat.mul_add, Nat.mul_one, Nat.mul_comm]
    _ ≤ N * frames := Nat.mul_le_mul_left _ hf

/-- The noise drawn for frame `f`. -/
theorem draw_sat {N frames f : Nat} {draw d : List R} (hf : f < frames) (hd : draw.length = N) (hl : d.length = N * frames) :
    ∃ d', copyTo draw 0 N d (f * N) = ok d' ∧ d'.length = N * frames ∧ (∀ i, i < N → d'[f * N + i]? = draw[i]?) ∧
      (∀ j : Nat, (j < f * N ∨ f * N + N ≤ j) → d'[j]? = d[j]?) := by
  have := fits (N := N) hf
  obtain ⟨d', e, l1, l2⟩ := copyTo_sat (src := draw) (so := 0) (n := N) (dst := d) (d := f * N) (by omega) (by omega)
  refine ⟨d', e, by omega, fun i hi => ?_, fun j hj => ?_⟩
  · rw [l2, if_pos (by omega)]; congr 1; omega
  · rw [l2, if_neg (by omega)]

theorem slice_eq {N f : Nat} {d draw : List R} (hd : draw.length = N) (h : ∀ i, i < N → d[f * N + i]? = draw[i]?) :
    (d.drop (f * N)).take N = draw := by
  apply List.ext_getElem?
  intro i
  by_cases hi : i < N
  · rw [List.getElem?_take_of_lt hi, List.getElem?_drop, h i hi]
  · rw [List.getElem?_eq_none (by rw [List.length_take]; omega), List.getElem?_eq_none (by omega)]

/-- What a call does: the output and the noise of the frame; the rest does not change. -/
def Does (noise : Ch R → List R → Nat → List R → List R → Exec (Ch R × List R)) (g : R → R → R) (users : Bool) : Prop :=
  ∀ (c : Ch R) (draw : List R) (f : Nat) (X Y : List R), c.noised.length = c.N * c.frames → c.addUsers = users → ¬ (users = true ∧ c.frames > 1) →
    f < c.frames → draw.length = c.N → X.length = c.N → Y.length = c.N →
    ∃ d, noise c draw f X Y = ok ({ c with noised := d }, List.zipWith g X draw) ∧ d.length = c.N * c.frames ∧
      (∀ i, i < c.N → d[f * c.N + i]? = draw[i]?) ∧ (∀ j : Nat, (j < f * c.N ∨ f * c.N + c.N ≤ j) → d[j]? = c.noised[j]?)

theorem awgn_does (o : Ops R) (users : Bool) : Does (Ch.awgn o) o.add users := by
  intro c draw f X Y hl hus hu hf hd hX hY
  obtain ⟨d, e, l1, l2, l3⟩ := draw_sat hf hd hl
  refine ⟨d, ?_, l1, l2, l3⟩
  unfold Ch.awgn
  rw [if_neg (by rw [hus]; exact hu), e, bind_ok]
  obtain ⟨y, e', m1, m2⟩ := Extractor.store_sat (n := c.N) (out := Y) (g := fun i => (List.zipWith o.add X draw).getD i o.zero)
    (f := fun n Y => do
      let x ← rd X n
      let e ← rd d (f * c.N + n)
      wr Y n (o.add x e)) (fun i y hi => by
        rw [rd_lt (by omega), bind_ok, rd_eq ((l2 i hi).trans (List.getElem?_eq_getElem (by omega))), bind_ok,
          List.getD_eq_getElem?_getD, List.getElem?_zipWith, List.getElem?_eq_getElem (show i < X.length by omega),
          List.getElem?_eq_getElem (show i < draw.length by omega)]
        rfl) (by omega)
  rw [e', bind_ok]
  rw [zip_of (g := o.add) hX hd (m1.trans hY) fun i x v hi hx hv => by
    rw [m2, if_pos hi, List.getD_eq_getElem?_getD, List.getElem?_zipWith, hx, hv]; rfl]

theorem erasure_does (bits : R → Nat) (erased : R) {L : Nat} (hL : 0 < L) (users : Bool) :
    Does (Ch.erasure bits erased L) (fun x e => if bits e = 0 then x else erased) users := by
  intro c draw f X Y hl hus hu hf hd hX hY
  obtain ⟨d, e, l1, l2, l3⟩ := draw_sat hf hd hl
  refine ⟨d, ?_, l1, l2, l3⟩
  unfold Ch.erasure
  rw [Nat.mul_comm c.N f, e, bind_ok]
  obtain ⟨y, e', m1, m2⟩ := two_loops hL (gv := fun x e => if bits e = 0 then x else erased)
    (gs := fun x e => if bits e ≠ 0 then erased else x) hX hd hY l2
  rw [← Exec.bind_assoc', e', bind_ok]
  rw [zip_of (g := fun x e => if bits e = 0 then x else erased) hX hd m1 fun i x v hi hx hv => by
    rw [m2 i x v hi hx hv]
    by_cases hb : bits v = 0 <;> simp [hb]]

/-- The bit after an event or not. -/
def flipped (bits : R → Nat) (isZero : R → Bool) (zero one : R) (x e : R) : R :=
  if bits e = 0 then (if isZero x then zero else one) else (if isZero x then one else zero)

theorem symmetric_does (bits : R → Nat) (isZero : R → Bool) (zero one : R) {L : Nat} (hL : 0 < L)
    (c : Ch R) (draw : List R) (f : Nat) (X Y : List R) (hl : c.noised.length = c.N * c.frames) (hf : f < c.frames)
    (hd : draw.length = c.N) (hX : X.length = c.N) (hY : Y.length = c.N) (hb : ∀ e ∈ draw, bits e = 0 ∨ bits e = 1) :
    ∃ d, Ch.symmetric bits isZero zero one L c draw f X Y = ok ({ c with noised := d }, List.zipWith (flipped bits isZero zero one) X draw) ∧
      d.length = c.N * c.frames ∧ (∀ i, i < c.N → d[f * c.N + i]? = draw[i]?) ∧
      (∀ j : Nat, (j < f * c.N ∨ f * c.N + c.N ≤ j) → d[j]? = c.noised[j]?) := by
  obtain ⟨d, e, l1, l2, l3⟩ := draw_sat hf hd hl
  refine ⟨d, ?_, l1, l2, l3⟩
  unfold Ch.symmetric
  rw [Nat.mul_comm c.N f, e, bind_ok]
  obtain ⟨y, e', m1, m2⟩ := two_loops hL (gv := fun x e => if xor (decide (bits e ≠ 0)) (isZero x) then zero else one)
    (gs := fun x e => if bits e ≠ (if isZero x then 1 else 0) then zero else one) hX hd hY l2
  rw [← Exec.bind_assoc', e', bind_ok]
  rw [zip_of (g := flipped bits isZero zero one) hX hd m1 fun i x v hi hx hv => by
    rw [m2 i x v hi hx hv]
    unfold flipped
    rcases hb v (List.mem_of_getElem? hv) with h | h <;> cases hz : isZero x <;> simp [h]]

/-- Any sequence of calls: the outputs, and the noise recorded after each call. -/
theorem run_eq {noise : Ch R → List R → Nat → List R → List R → Exec (Ch R × List R)} {g : R → R → R} {users : Bool} (D : Does noise g users) :
    ∀ (ops : List (List R × Nat × List R × List R)) (c : Ch R), c.noised.length = c.N * c.frames → c.addUsers = users →
      ¬ (users = true ∧ c.frames > 1) → (∀ p ∈ ops, p.1.length = c.N ∧ p.2.1 < c.frames ∧ p.2.2.1.length = c.N ∧ p.2.2.2.length = c.N) →
      ∃ c', c.run noise ops = ok (c', ops.map fun p => (List.zipWith g p.2.2.1 p.1, p.1)) := by
  intro ops
  induction ops with
  | nil => intro c _ _ _ _; exact ⟨c, rfl⟩
  | cons p ops ih =>
    intro c hl hus hu ho
    obtain ⟨draw, f, X, Y⟩ := p
    obtain ⟨h1, h2, h3, h4⟩ := ho _ (List.mem_cons_self ..)
    obtain ⟨d, e, l1, l2, -⟩ := D c draw f X Y hl hus hu h2 h1 h3 h4
    obtain ⟨c', e2⟩ := ih { c with noised := d } l1 hus hu fun p hp => ho p (List.mem_cons_of_mem _ hp)
    refine ⟨c', ?_⟩
    rw [Ch.run, e, bind_ok]
    dsimp only
    rw [e2, bind_ok, slice_eq h1 l2]
    rfl

/-! ## Loops over two arrays -/

theorem pair_eq {n : Nat} {body : Nat → List R × List R → Exec (List R × List R)} {h y : Nat → R} {H Y : List R} (hH : H.length = n)
    (hY : Y.length = n) (hb : ∀ i (s : List R × List R), i < n → s.1.length = n → s.2.length = n →
      body i s = ok (s.1.set i (h i), s.2.set i (y i))) : forN n body (H, Y) = ok ((List.range n).map h, (List.range n).map y) := by
  obtain ⟨s, e, l1, l2, l3⟩ := forN_inv (n := n) (f := body) (s := (H, Y)) (fun k (s : List R × List R) => s.1.length = n ∧ s.2.length = n ∧
    ∀ j, j < k → s.1[j]? = some (h j) ∧ s.2[j]? = some (y j)) ⟨hH, hY, fun j hj => absurd hj (by omega)⟩ (by
      rintro k ⟨a, b⟩ hk ⟨l1, l2, l3⟩
      rw [hb k _ hk l1 l2, sat_ok]
      refine ⟨by simpa using l1, by simpa using l2, fun j hj => ?_⟩
      dsimp only at l1 l2 l3 ⊢
      rw [List.getElem?_set, List.getElem?_set]
      by_cases hkj : k = j
      · subst hkj; rw [if_pos rfl, if_pos rfl, if_pos (by omega), if_pos (by omega)]; exact ⟨rfl, rfl⟩
      · rw [if_neg hkj, if_neg hkj]; exact l3 j (by omega))
  rw [e]
  obtain ⟨a, b⟩ := s
  rw [eq_mapRange (l := a) (f := h) (n := n) l1 fun i hi => (l3 i hi).1, eq_mapRange (l := b) (f := y) (n := n) l2 fun i hi => (l3 i hi).2]

theorem pair2_eq {m : Nat} {body : Nat → List R × List R → Exec (List R × List R)} {h y : Nat → R} {H Y : List R} (hH : H.length = 2 * m)
    (hY : Y.length = 2 * m) (hb : ∀ i (s : List R × List R), i < m → s.1.length = 2 * m → s.2.length = 2 * m →
      body i s = ok ((s.1.set (2 * i) (h (2 * i))).set (2 * i + 1) (h (2 * i + 1)), (s.2.set (2 * i) (y (2 * i))).set (2 * i + 1) (y (2 * i + 1)))) :
    forN m body (H, Y) = ok ((List.range (2 * m)).map h, (List.range (2 * m)).map y) := by
  obtain ⟨s, e, l1, l2, l3⟩ := forN_inv (n := m) (f := body) (s := (H, Y)) (fun k (s : List R × List R) => s.1.length = 2 * m ∧ s.2.length = 2 * m ∧
    ∀ j, j < 2 * k → s.1[j]? = some (h j) ∧ s.2[j]? = some (y j)) ⟨hH, hY, fun j hj => absurd hj (by omega)⟩ (by
      rintro k ⟨a, b⟩ hk ⟨l1, l2, l3⟩
      rw [hb k _ hk l1 l2, sat_ok]
      refine ⟨by simpa using l1, by simpa using l2, fun j hj => ?_⟩
      dsimp only at l1 l2 l3 ⊢
      simp only [List.getElem?_set, List.length_set]
      by_cases h1 : 2 * k + 1 = j
      · subst h1; rw [if_pos rfl, if_pos rfl, if_pos (by omega), if_pos (by omega)]; exact ⟨rfl, rfl⟩
      · rw [if_neg h1, if_neg h1]
        by_cases h2 : 2 * k = j
        · subst h2; rw [if_pos rfl, if_pos rfl, if_pos (by omega), if_pos (by omega)]; exact ⟨rfl, rfl⟩
        · rw [if_neg h2, if_neg h2]; exact l3 j (by omega))
  rw [e]
  obtain ⟨a, b⟩ := s
  rw [eq_mapRange (l := a) (f := h) (n := 2 * m) l1 fun i hi => (l3 i hi).1, eq_mapRange (l := b) (f := y) (n := 2 * m) l2 fun i hi => (l3 i hi).2]

theorem rd_getD {l : List R} {i : Nat} (d : R) (h : i < l.length) : rd l i = ok (l.getD i d) := by
  rw [rd_lt h, List.getD_eq_getElem?_getD, List.getElem?_eq_getElem h]; rfl

theorem rd_set_self {l : List R} {i : Nat} {v : R} (h : i < l.length) : rd (l.set i v) i = ok v := by
  rw [rd_eq]; simp [h]

/-! ## Gains of a file -/

/-- The position after `q` samples. -/
theorem advance_eq {occ len q : Nat} (ho : 0 < occ) (hl : 0 < len) :
    advance occ len (q % occ) (q / occ % len) = ((q + 1) % occ, (q + 1) / occ % len) := by
  unfold advance
  have hq := Nat.div_add_mod q occ
  have hm := Nat.mod_lt q ho
  have hi := Nat.mod_lt (q / occ) hl
  by_cases h : q % occ + 1 ≥ occ
  · rw [if_pos h]
    have e : q + 1 = occ * (q / occ + 1) := by rw [Nat.mul_add, Nat.mul_one]; omega
    rw [e, Nat.mul_mod_right, Nat.mul_div_cancel_left _ ho]
    congr 1
    rw [Nat.add_mod (q / occ) 1 len]
    by_cases h2 : q / occ % len + 1 ≥ len
    · rw [if_pos h2]
      have : q / occ % len + 1 = len := by omega
      rcases Nat.lt_or_ge 1 len with h3 | h3
      · rw [Nat.mod_eq_of_lt h3, this, Nat.mod_self]
      · have : len = 1 := by omega
        subst this
        rw [Nat.mod_one]
    · rw [if_neg h2]
      rw [Nat.mod_eq_of_lt (show 1 < len by omega), Nat.mod_eq_of_lt (show q / occ % len + 1 < len by omega)]
  · rw [if_neg h]
    have e : q + 1 = occ * (q / occ) + (q % occ + 1) := by omega
    have e1 : (q + 1) % occ = q % occ + 1 := by
      rw [e, Nat.mul_add_mod]; exact Nat.mod_eq_of_lt (show q % occ + 1 < occ by omega)
    have e2 : (q + 1) / occ = q / occ := by
      rw [e, Nat.mul_add_div ho, Nat.div_eq_of_lt (show q % occ + 1 < occ by omega), Nat.add_zero]
    rw [e1, e2]

/-- The state of a channel that has processed `q` samples. -/
structure ROk (c : Ray R) (N frames occ : Nat) (stock : List R) (q : Nat) : Prop where
  n : c.N = N
  fr : c.frames = frames
  st : c.stock = stock
  oc : c.occ = occ
  len : c.gains.length = N * frames
  cur : c.cur = q % occ
  idx : c.idx = q / occ % stock.length

theorem step_eq (o : Ops R) {c : Ray R} {N frames occ q : Nat} {stock : List R} (h : ROk c N frames occ stock q) (ho : 0 < occ)
    (hs : 0 < stock.length) {n X H Y : List R} (hn : n.length = N * frames) (hX : X.length = N * frames) (hH : H.length = N * frames)
    (hY : Y.length = N * frames) :
    ∃ c', c.step o n X H Y = ok (c', (List.range (N * frames)).map fun i => gainOf o stock occ (q + i),
        (List.range (N * frames)).map fun i => o.add (o.mul (X.getD i o.zero) (gainOf o stock occ (q + i))) (n.getD i o.zero)) ∧
      ROk c' N frames occ stock (q + N * frames) := by
  have hfirst : (forN c.gains.length (fun i (s : List R × Nat × Nat) => do
      let g ← rd c.stock s.2.2
      let gs ← wr s.1 i g
      ok (gs, advance c.occ c.stock.length s.2.1 s.2.2)) (c.gains, c.cur, c.idx)) =
      ok ((List.range (N * frames)).map (fun i => gainOf o stock occ (q + i)), (q + N * frames) % occ, (q + N * frames) / occ % stock.length) := by
    rw [h.st, h.oc, h.len, h.cur, h.idx]
    obtain ⟨⟨gs, cur, idx⟩, e, l1, l2, l3, l4⟩ := forN_inv (n := N * frames) (f := fun i (s : List R × Nat × Nat) => do
        let g ← rd stock s.2.2
        let gs ← wr s.1 i g
        ok (gs, advance occ stock.length s.2.1 s.2.2)) (s := (c.gains, q % occ, q / occ % stock.length))
      (fun k (s : List R × Nat × Nat) => s.1.length = N * frames ∧ s.2.1 = (q + k) % occ ∧ s.2.2 = (q + k) / occ % stock.length ∧
        ∀ j, j < k → s.1[j]? = some (gainOf o stock occ (q + j))) ⟨h.len, rfl, rfl, fun j hj => absurd hj (by omega)⟩ (by
        rintro k ⟨gs, cur, idx⟩ hk ⟨l1, l2, l3, l4⟩
        dsimp only at l1 l2 l3 l4 ⊢
        subst l2 l3
        rw [rd_getD o.zero (Nat.mod_lt _ hs), bind_ok, wr_lt (by omega), bind_ok, sat_ok, advance_eq ho hs]
        refine ⟨by simpa using l1, rfl, rfl, fun j hj => ?_⟩
        dsimp only
        rw [List.getElem?_set]
        by_cases hkj : k = j
        · subst hkj; rw [if_pos rfl, if_pos (by omega)]; rfl
        · rw [if_neg hkj]; exact l4 j (by omega))
    rw [e]
    dsimp only at l1 l2 l3 l4
    rw [l2, l3, eq_mapRange (l := gs) (f := fun i => gainOf o stock occ (q + i)) (n := N * frames) l1 l4]
  refine ⟨⟨c.N, c.frames, c.stock, (List.range (N * frames)).map (fun i => gainOf o stock occ (q + i)), c.occ, (q + N * frames) % occ,
      (q + N * frames) / occ % stock.length⟩, ?_, ⟨h.n, h.fr, h.st, h.oc, by simp, rfl, rfl⟩⟩
  unfold Ray.step
  rw [hfirst, bind_ok]
  dsimp only
  rw [h.n, h.fr]
  rw [pair_eq (n := N * frames) (h := fun i => gainOf o stock occ (q + i))
    (y := fun i => o.add (o.mul (X.getD i o.zero) (gainOf o stock occ (q + i))) (n.getD i o.zero)) hH hY (by
      rintro i ⟨a, b⟩ hi l1 l2
      dsimp only at l1 l2 ⊢
      have e : ((List.range (N * frames)).map fun i => gainOf o stock occ (q + i))[i]? = some (gainOf o stock occ (q + i)) := by
        rw [getElem?_mapRange, if_pos hi]
      rw [rd_eq e, bind_ok, wr_lt (by omega), bind_ok, rd_getD o.zero (by omega), bind_ok, rd_set_self (by omega), bind_ok,
        rd_getD o.zero (by omega), bind_ok, wr_lt (by omega), bind_ok])]
  rw [bind_ok]

end Verif.Channel
