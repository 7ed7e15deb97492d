import Verif.Proof.Modem

/-! # The tasks of the modem -/

namespace Verif.Modem
open Verif.Float Verif.Cstl Verif.ML Verif.Chase Exec

/-! ## Labels -/

theorem bits_sum {a : Nat → Nat} (ha : ∀ j, a j ≤ 1) (n b : Nat) (hb : b < n) : bit (∑ j ∈ Finset.range n, a j * 2 ^ j) b = a b := by
  induction b generalizing a n with
  | zero =>
    obtain ⟨n, rfl⟩ : ∃ k, n = k + 1 := ⟨n - 1, by omega⟩
    rw [Finset.sum_range_succ']
    have : ∑ j ∈ Finset.range n, a (j + 1) * 2 ^ (j + 1) = 2 * ∑ j ∈ Finset.range n, a (j + 1) * 2 ^ j := by
      rw [Finset.mul_sum]; exact Finset.sum_congr rfl fun j _ => by rw [pow_succ]; ring
    rw [this]
    unfold bit
    have := ha 0
    simp only [pow_zero, Nat.div_one, mul_one]
    omega
  | succ b ih =>
    obtain ⟨n, rfl⟩ : ∃ k, n = k + 1 := ⟨n - 1, by omega⟩
    rw [Finset.sum_range_succ']
    have : ∑ j ∈ Finset.range n, a (j + 1) * 2 ^ (j + 1) = 2 * ∑ j ∈ Finset.range n, a (j + 1) * 2 ^ j := by
      rw [Finset.mul_sum]; exact Finset.sum_congr rfl fun j _ => by rw [pow_succ]; ring
    rw [this, ← ih (a := fun j => a (j + 1)) (fun j => ha _) n (by omega)]
    unfold bit
    rw [pow_succ', ← Nat.div_div_eq_div_mul]
    have := ha 0
    congr 2
    simp only [pow_zero, mul_one]
    omega

theorem sum_lt {a : Nat → Nat} (ha : ∀ j, a j ≤ 1) (n : Nat) : ∑ j ∈ Finset.range n, a j * 2 ^ j < 2 ^ n := by
  induction n with
  | zero => simp
  | succ n ih =>
    rw [Finset.sum_range_succ, pow_succ]
    have : a n * 2 ^ n ≤ 1 * 2 ^ n := Nat.mul_le_mul_right _ (ha n)
    omega

theorem getD_bit {x : List Int} (hx : IsBits x) (i : Nat) : x.getD i 0 = 0 ∨ x.getD i 0 = 1 := by
  rcases lt_or_ge i x.length with h | h
  · rw [getD_lt 0 h]; exact hx _ (List.getElem_mem h)
  · left; rw [List.getD_eq_getElem?_getD, List.getElem?_eq_none h]; rfl

theorem toNat_bit {x : List Int} (hx : IsBits x) (i : Nat) : (x.getD i 0).toNat ≤ 1 := by
  rcases getD_bit hx i with h | h <;> rw [h] <;> decide

theorem label_lt {x : List Int} (hx : IsBits x) (n N k : Nat) : label n N x k < 2 ^ n := by
  have := sum_lt (a := fun j => if k * n + j < N then (x.getD (k * n + j) 0).toNat else 0) (fun j => by
    split
    · exact toNat_bit hx _
    · omega) n
  refine lt_of_le_of_lt (le_of_eq ?_) this
  unfold label
  refine Finset.sum_congr rfl fun j _ => ?_
  split <;> simp

theorem label_bit {x : List Int} (hx : IsBits x) {n N k b : Nat} (hb : b < n) (hN : k * n + b < N) : (bit (label n N x k) b : Int) = x.getD (k * n + b) 0 := by
  have := bits_sum (a := fun j => if k * n + j < N then (x.getD (k * n + j) 0).toNat else 0) (fun j => by
    split
    · exact toNat_bit hx _
    · omega) n b hb
  have e : label n N x k = ∑ j ∈ Finset.range n, (if k * n + j < N then (x.getD (k * n + j) 0).toNat else 0) * 2 ^ j := by
    unfold label
    refine Finset.sum_congr rfl fun j _ => ?_
    split <;> simp
  rw [e, this, if_pos hN]
  rcases getD_bit hx (k * n + b) with h | h <;> rw [h] <;> decide

theorem index_eq {x : List Int} (hx : IsBits x) {off n : Nat} (hn : n ≤ 32) (hl : off + n ≤ x.length) :
    index x off n = ok (∑ j ∈ Finset.range n, (x.getD (off + j) 0).toNat * 2 ^ j) := by
  unfold index
  induction n with
  | zero => rfl
  | succ n ih =>
    rw [forN_succ, ih (by omega) (by omega), bind_ok, rd_lt (by omega : off + n < x.length), bind_ok, Finset.sum_range_succ]
    have h1 := sum_lt (a := fun j => (x.getD (off + j) 0).toNat) (fun j => toNat_bit hx _) (n + 1)
    rw [Finset.sum_range_succ] at h1
    have h2 : (2 : Nat) ^ (n + 1) ≤ 2 ^ 32 := Nat.pow_le_pow_right (by decide) hn
    have h3 : (2 : Nat) ^ n < 2 ^ 32 := Nat.pow_lt_pow_right (by decide) (by omega)
    have h4 : x[off + n]'(by omega) = x.getD (off + n) 0 := (getD_lt 0 _).symm
    rw [h4]
    have h5 : ((2 ^ n * x.getD (off + n) 0 : Int) % 2 ^ 32).toNat = (x.getD (off + n) 0).toNat * 2 ^ n := by
      rcases getD_bit hx (off + n) with h | h
      · rw [h]; simp
      · rw [h, mul_one, Int.emod_eq_of_lt (by positivity) (by exact_mod_cast h3), show (2 : Int) ^ n = ((2 ^ n : Nat) : Int) by push_cast; rfl, Int.toNat_natCast]
        simp
    rw [h5, Nat.mod_eq_of_lt (by omega)]

theorem label_full {x : List Int} {n N k : Nat} (h : (k + 1) * n ≤ N) : label n N x k = ∑ j ∈ Finset.range n, (x.getD (k * n + j) 0).toNat * 2 ^ j := by
  refine Finset.sum_congr rfl fun j hj => ?_
  rw [Finset.mem_range] at hj
  rw [if_pos (by rw [Nat.add_mul] at h; omega)]

theorem label_last {x : List Int} {n N k : Nat} (h1 : k * n ≤ N) (h2 : N - k * n ≤ n) :
    label n N x k = ∑ j ∈ Finset.range (N - k * n), (x.getD (k * n + j) 0).toNat * 2 ^ j := by
  unfold label
  rw [← Finset.sum_subset (s₁ := Finset.range (N - k * n))]
  · refine Finset.sum_congr rfl fun j hj => ?_
    rw [Finset.mem_range] at hj
    rw [if_pos (by omega)]
  · intro j hj; rw [Finset.mem_range] at *; omega
  · intro j _ hj
    rw [Finset.mem_range] at hj
    rw [if_neg (by omega)]

/-! ## Reading and writing symbols -/

/-- Number of values of a symbol. -/
def wid (cplx : Bool) : Nat := if cplx then 2 else 1

theorem symbolAt_eq {cplx : Bool} {y : List Fl} {k : Nat} (h : wid cplx * (k + 1) ≤ y.length) : symbolAt cplx y k = ok (point cplx y k) := by
  unfold symbolAt point
  cases cplx with
  | true =>
    have h' : 2 * (k + 1) ≤ y.length := h
    rw [if_pos rfl, if_pos rfl, rd_lt (by omega : 2 * k < y.length), bind_ok, rd_lt (by omega : 2 * k + 1 < y.length), bind_ok,
      getD_lt _ (by omega : 2 * k < y.length), getD_lt _ (by omega : 2 * k + 1 < y.length)]
  | false =>
    have h' : 1 * (k + 1) ≤ y.length := h
    rw [if_neg (by decide), if_neg (by decide), rd_lt (by omega : k < y.length), bind_ok, getD_lt _ (by omega : k < y.length)]

theorem put_sat {cplx : Bool} {o : List Fl} {k : Nat} {p : Pt} (h : wid cplx * (k + 1) ≤ o.length) :
    (put cplx o (wid cplx * k) p).Sat fun o' => o'.length = o.length ∧ point cplx o' k = shown cplx p ∧ ∀ i, i ≠ k → point cplx o' i = point cplx o i := by
  unfold put shown point
  cases cplx with
  | true =>
    have h' : 2 * (k + 1) ≤ o.length := h
    show Exec.Sat (wr o (2 * k) p.re >>= fun o => wr o (2 * k + 1) p.im) _
    rw [wr_lt (by omega : 2 * k < o.length), bind_ok, wr_lt (by rw [List.length_set]; omega : 2 * k + 1 < (o.set (2 * k) p.re).length)]
    refine sat_ok.2 ⟨by simp, ?_, ?_⟩
    · simp only [if_true, List.getD_eq_getElem?_getD, List.getElem?_set, List.length_set]
      rw [if_neg (by omega), if_pos (by omega : 2 * k < o.length), if_pos (by omega : 2 * k + 1 < o.length)]
      rfl
    · intro i hi
      simp only [if_true, List.getD_eq_getElem?_getD, List.getElem?_set, List.length_set]
      rw [if_neg (by omega), if_neg (by omega), if_neg (by omega), if_neg (by omega)]
  | false =>
    have h' : 1 * (k + 1) ≤ o.length := h
    show Exec.Sat (wr o (1 * k) p.re) _
    rw [Nat.one_mul, wr_lt (by omega : k < o.length)]
    refine sat_ok.2 ⟨by simp, ?_, ?_⟩
    · simp only [List.getD_eq_getElem?_getD, List.getElem?_set, Bool.false_eq_true, if_false, if_true]
      rw [if_pos (by omega : k < o.length)]
      rfl
    · intro i hi
      simp only [List.getD_eq_getElem?_getD, List.getElem?_set, Bool.false_eq_true, if_false]
      rw [if_neg (by omega)]

theorem symbols_eq {n N : Nat} (hn : 1 ≤ n) : symbols n N = N / n + if N / n * n < N then 1 else 0 := by
  unfold symbols
  have h := Nat.div_add_mod N n
  have hm := Nat.mod_lt N hn
  rw [Nat.mul_comm] at h
  split
  · rw [Nat.div_eq_iff (by omega)]
    rw [Nat.add_mul]; omega
  · rw [Nat.div_eq_iff (by omega), Nat.add_zero]
    omega

theorem div_lt_symbols {n N i : Nat} (hn : 1 ≤ n) (hi : i < N) : i / n < symbols n N := by
  unfold symbols
  rw [Nat.div_lt_iff_lt_mul (by omega)]
  have h := Nat.div_add_mod (N + n - 1) n
  have hm := Nat.mod_lt (N + n - 1) (show 0 < n by omega)
  rw [Nat.mul_comm]
  omega

theorem modulate_sat {g : Cfg} (hg : g.Good) {x : List Int} (hx : IsBits x) (hl : x.length = g.N) {out : List Fl} (ho : out.length = g.nMod) :
    (modulate g x out).Sat fun o => o.length = g.nMod ∧
      ∀ k, k < symbols g.c.nBps g.N → point g.c.cplx o k = shown g.c.cplx (g.c.pts.getD (label g.c.nBps g.N x k) ⟨.nan, .nan⟩) := by
  obtain ⟨⟨h1, h2, h3, h4⟩, hs, -⟩ := hg
  have hs' : g.nMod = wid g.c.cplx * symbols g.c.nBps g.N := hs
  have hw : g.w = wid g.c.cplx := rfl
  have hwp : 1 ≤ wid g.c.cplx := by unfold wid; split <;> omega
  have hdm : g.N / g.c.nBps * g.c.nBps ≤ g.N := Nat.div_mul_le_self _ _
  unfold modulate
  rw [hw]
  refine Exec.Sat.bind (P := fun o => o.length = g.nMod ∧
      ∀ k, k < g.N / g.c.nBps → point g.c.cplx o k = shown g.c.cplx (g.c.pts.getD (label g.c.nBps g.N x k) ⟨.nan, .nan⟩)) ?_ ?_
  · refine forN_inv (fun i (o : List Fl) => o.length = g.nMod ∧
      ∀ k, k < i → point g.c.cplx o k = shown g.c.cplx (g.c.pts.getD (label g.c.nBps g.N x k) ⟨.nan, .nan⟩)) ?_ ?_
    · exact ⟨ho, fun k hk => by omega⟩
    · rintro i o hi ⟨i1, i2⟩
      have hin : (i + 1) * g.c.nBps ≤ g.N := le_trans (Nat.mul_le_mul_right _ hi) hdm
      rw [index_eq hx (by omega) (by rw [Nat.add_mul] at hin; omega), bind_ok, ← label_full hin]
      have hlt : label g.c.nBps g.N x i < g.c.pts.length := by rw [h4]; exact label_lt hx _ _ _
      rw [rd_lt hlt, bind_ok, ← getD_lt ⟨.nan, .nan⟩ hlt]
      refine (put_sat (o := o) (k := i) ?_).mono ?_
      · rw [i1, hs']
        refine Nat.mul_le_mul_left _ ?_
        rw [symbols_eq h1]; omega
      · rintro o' ⟨p1, p2, p3⟩
        refine ⟨by rw [p1, i1], fun k hk => ?_⟩
        by_cases hki : k = i
        · subst hki; exact p2
        · rw [p3 k hki, i2 k (by omega)]
  · rintro o ⟨i1, i2⟩
    by_cases hr : g.N / g.c.nBps * g.c.nBps < g.N
    · rw [if_pos hr]
      have hmod := Nat.mod_lt g.N (show 0 < g.c.nBps by omega)
      have hdiv := Nat.div_add_mod g.N g.c.nBps
      rw [Nat.mul_comm] at hdiv
      rw [index_eq hx (by omega) (by omega), bind_ok, ← label_last hdm (by omega)]
      have hlt : label g.c.nBps g.N x (g.N / g.c.nBps) < g.c.pts.length := by rw [h4]; exact label_lt hx _ _ _
      rw [rd_lt hlt, bind_ok, ← getD_lt ⟨.nan, .nan⟩ hlt]
      have hsy : symbols g.c.nBps g.N = g.N / g.c.nBps + 1 := by rw [symbols_eq h1, if_pos hr]
      have hpos : g.nMod - wid g.c.cplx = wid g.c.cplx * (g.N / g.c.nBps) := by
        rw [hs', hsy, Nat.mul_add]; omega
      rw [hpos]
      refine (put_sat (o := o) (k := g.N / g.c.nBps) (by rw [i1, hs', hsy])).mono ?_
      rintro o' ⟨p1, p2, p3⟩
      refine ⟨by rw [p1, i1], fun k hk => ?_⟩
      by_cases hki : k = g.N / g.c.nBps
      · subst hki; exact p2
      · rw [p3 k hki, i2 k (by omega)]
    · rw [if_neg hr]
      refine sat_ok.2 ⟨i1, fun k hk => i2 k ?_⟩
      rw [symbols_eq h1, if_neg hr] at hk
      omega

/-! ## The demodulators -/

theorem gainAt_eq {g : Cfg} {h : Option (List Fl)} {k : Nat} (hh : GainOk g h) (hk : wid g.c.cplx * (k + 1) ≤ g.nMod) :
    gainAt g.c.cplx h k = ok (h.map fun h => point g.c.cplx h k) := by
  cases h with
  | none => rfl
  | some l =>
    show (symbolAt g.c.cplx l k >>= fun p => ok (some p)) = _
    rw [symbolAt_eq (by rw [hh l rfl]; exact hk)]
    rfl

theorem loop_fill {N : Nat} {f : Nat → List Fl → Exec (List Fl)} {v : Nat → Fl} {out : List Fl} (ho : out.length = N)
    (h : ∀ n o, n < N → f n o = wr o n (v n)) : forN N f out = ok ((List.range N).map v) := by
  rw [forN_congr (g := fun n o => wr o (0 + n) (v n)) (fun n o hn => by rw [h n o hn, Nat.zero_add])]
  obtain ⟨o, e, hl, hv⟩ := forN_fill (n := N) (off := 0) (g := v) (out := out) (by omega)
  rw [e]
  congr 1
  refine eq_mapRange (by omega) fun i hi => ?_
  rw [hv i, if_pos ⟨by omega, by omega⟩]; rfl

theorem room {g : Cfg} (hg : g.Good) {n : Nat} (hn : n < g.N) : wid g.c.cplx * (n / g.c.nBps + 1) ≤ g.nMod := by
  have hs' : g.nMod = wid g.c.cplx * symbols g.c.nBps g.N := hg.size
  rw [hs']
  exact Nat.mul_le_mul_left _ (div_lt_symbols hg.whole.1 hn)

theorem demodulate_eq {g : Cfg} (hg : g.Good) {MAX : Fl → Fl → Fl} {inv : Fl} {h : Option (List Fl)} (hh : GainOk g h) {y out : List Fl}
    (hy : y.length = g.nMod) (ho : out.length = g.N) :
    demodulate g MAX inv h y out = ok ((List.range g.N).map fun n =>
      sub g.F (scan MAX (2 ^ g.c.nBps) (n % g.c.nBps) (met g inv h y (n / g.c.nBps))).1 (scan MAX (2 ^ g.c.nBps) (n % g.c.nBps) (met g inv h y (n / g.c.nBps))).2) := by
  unfold demodulate
  rw [if_neg (by rw [hg.types]; decide)]
  refine loop_fill ho fun n o hn => ?_
  have hr := room hg hn
  rw [symbolAt_eq (by rw [hy]; exact hr), bind_ok, gainAt_eq hh hr, bind_ok, hg.whole.2.2.1, llr_eq (m := met g inv h y (n / g.c.nBps)), bind_ok]
  intro j hj
  have hj' : j < g.c.pts.length := by rw [hg.whole.2.2.2]; exact hj
  rw [rd_lt hj', bind_ok, ← getD_lt ⟨.nan, .nan⟩ hj']
  rfl

theorem loopN_foldl {σ : Type} (n : Nat) (f : Nat → σ → σ) (s : σ) : loopN n f s = (List.range n).foldl (fun s i => f i s) s := by
  induction n with
  | zero => rfl
  | succ n ih => rw [loopN_succ, ih, List.range_succ, List.foldl_append]; rfl

theorem apriori_eq {g : Cfg} {y2 : List Fl} (h2 : y2.length = g.N) (k b j : Nat) (t : Fl) :
    apriori g y2 k b j t = ok (clean (withPriors g y2 k b j t)) := by
  unfold apriori
  rw [forN_ok (g := fun l t =>
    if l ≠ b ∧ bit j l = 1 then g.F.add t (if k * g.c.nBps + l < g.N then y2.getD (k * g.c.nBps + l) .nan else .inf false) else t), bind_ok, loopN_foldl]
  · rfl
  · intro l t hl
    by_cases hb : l = b
    · rw [if_pos hb, if_neg (by simp [hb])]
    · rw [if_neg hb]
      by_cases hj : j / 2 ^ l % 2 = 1
      · rw [if_pos hj, if_pos (show l ≠ b ∧ bit j l = 1 from ⟨hb, hj⟩)]
        by_cases hN : k * g.c.nBps + l < g.N
        · rw [if_pos hN, if_pos hN, rd_lt (by omega : k * g.c.nBps + l < y2.length), bind_ok, getD_lt _ (by omega : k * g.c.nBps + l < y2.length)]
        · rw [if_neg hN, if_neg hN]
      · rw [if_neg hj, if_neg (show ¬ (l ≠ b ∧ bit j l = 1) from fun h => hj h.2)]

theorem tdemodulate_eq {g : Cfg} (hg : g.Good) {MAX : Fl → Fl → Fl} {inv : Fl} {h : Option (List Fl)} (hh : GainOk g h) {y y2 out : List Fl}
    (hy : y.length = g.nMod) (h2 : y2.length = g.N) (ho : out.length = g.N) :
    tdemodulate g MAX inv h y y2 out = ok ((List.range g.N).map fun n =>
      sub g.F (scan MAX (2 ^ g.c.nBps) (n % g.c.nBps) (tmet g inv h y y2 (n / g.c.nBps) (n % g.c.nBps))).1
        (scan MAX (2 ^ g.c.nBps) (n % g.c.nBps) (tmet g inv h y y2 (n / g.c.nBps) (n % g.c.nBps))).2) := by
  unfold tdemodulate
  rw [if_neg (by rw [hg.types]; decide)]
  refine loop_fill ho fun n o hn => ?_
  have hr := room hg hn
  rw [symbolAt_eq (by rw [hy]; exact hr), bind_ok, gainAt_eq hh hr, bind_ok, hg.whole.2.2.1, llr_eq (m := tmet g inv h y y2 (n / g.c.nBps) (n % g.c.nBps)), bind_ok]
  intro j hj
  have hj' : j < g.c.pts.length := by rw [hg.whole.2.2.2]; exact hj
  rw [rd_lt hj', bind_ok, ← getD_lt ⟨.nan, .nan⟩ hj', apriori_eq h2, bind_ok]
  rfl

/-! ## The state -/

theorem bind_ok_inv {α β : Type} {x : Exec α} {f : α → Exec β} {b : β} (h : (x >>= f) = ok b) : ∃ a, x = ok a ∧ f a = ok b := by
  cases x with
  | ok a => exact ⟨a, rfl, h⟩
  | exc e => cases h
  | ub => cases h

/-- The invariant of the state. -/
def Inv (g : Cfg) (st : St) : Prop :=
  (g.noSig2 = true → st.inv = .fin 1) ∧ (g.noSig2 = false → (st.last = fltMax ∧ st.inv = .fin 1) ∨ st.inv = sigma g.F st.last)

theorem Inv.refresh {g : Cfg} {st : St} (h : Inv g st) (cp : Fl) : Inv g { refresh g st cp with last := cp } := by
  obtain ⟨h1, h2⟩ := h
  unfold Modem.refresh
  refine ⟨fun hs => ?_, fun hs => ?_⟩
  · rw [if_neg (by rw [hs]; rintro ⟨-, h⟩; cases h)]
    exact h1 hs
  · by_cases hc : cp ≠ st.last ∨ cp = .nan
    · rw [if_pos ⟨hc, hs⟩]; right; rfl
    · rw [if_neg fun h => hc h.1]
      have : cp = st.last := by
        by_contra hne; exact hc (.inl hne)
      dsimp only
      rw [this]; exact h2 hs

theorem Reach.inv {g : Cfg} {MAX : Fl → Fl → Fl} {st : St} (h : Reach g MAX st) : Inv g st := by
  induction h with
  | init => exact ⟨fun _ => rfl, fun _ => .inl ⟨rfl, rfl⟩⟩
  | modulate _ e ih =>
    obtain ⟨o, -, h2⟩ := bind_ok_inv e
    cases h2; exact ih
  | demodulate _ e ih =>
    obtain ⟨o, -, h2⟩ := bind_ok_inv e
    cases h2; exact ih.refresh _
  | tdemodulate _ e ih =>
    obtain ⟨o, -, h2⟩ := bind_ok_inv e
    cases h2; exact ih.refresh _

/-- The scale in use for a channel parameter. -/
theorem Reach.scale {g : Cfg} {MAX : Fl → Fl → Fl} {st : St} (h : Reach g MAX st) {cp : Fl} (hc : cp ≠ fltMax) : (Modem.refresh g st cp).inv = Modem.scale g cp := by
  obtain ⟨h1, h2⟩ := h.inv
  unfold Modem.refresh Modem.scale
  cases hs : g.noSig2 with
  | true => rw [if_neg (by rintro ⟨-, h⟩; cases h), if_pos rfl]; exact h1 hs
  | false =>
    rw [if_neg (by decide : ¬ (false = true))]
    by_cases hd : cp ≠ st.last ∨ cp = .nan
    · rw [if_pos ⟨hd, rfl⟩]; rfl
    · rw [if_neg fun h => hd h.1]
      have e : cp = st.last := by
        by_contra hne; exact hd (.inl hne)
      rcases h2 hs with ⟨h3, -⟩ | h3
      · exact absurd (e.trans h3) hc
      · rw [h3, ← e]; rfl

end Verif.Modem
