import Verif.Proof.BCJRDec
import Verif.Spec.BCJR
import Verif.Props.RSC
import Mathlib.Algebra.BigOperators.Ring.Finset
import Mathlib.Algebra.BigOperators.Intervals

/-! # BCJR: the trellis of the generic encoder and its codewords -/

namespace Verif.BCJR
open Exec Verif.RSC

/-- Parity of the generic encoder. -/
def pyB (m g0 g1 s : Nat) (b : Bool) : Bool := (low m g0 s ^^ b) ^^ low m g1 s

/-- Origin and input bit of the two branches that enter `q`. -/
def prG (m : Nat) (c : Bool) (q : Nat) : Nat := 2 * (q % 2 ^ (m - 1)) + c.toNat
def pbG (m g0 : Nat) (c : Bool) (q : Nat) : Bool := brBit m g0 (prG m c q) q

theorem prG_lt {m q : Nat} (hm : 0 < m) (c : Bool) : prG m c q < 2 ^ m := by
  obtain ⟨k, rfl⟩ : ∃ k, m = k + 1 := ⟨m - 1, by omega⟩
  unfold prG
  simp only [Nat.add_sub_cancel]
  have := Nat.mod_lt q (Nat.two_pow_pos k)
  rw [Nat.pow_succ]
  cases c <;> simp <;> omega

theorem prG_div {m q : Nat} (c : Bool) : prG m c q / 2 = q % 2 ^ (m - 1) := by
  unfold prG
  cases c <;> simp <;> omega

theorem prG_mod {m q : Nat} (c : Bool) : prG m c q % 2 = c.toNat := by
  unfold prG
  cases c <;> simp

theorem iff_G {m g0 p q : Nat} {b : Bool} (hm : 0 < m) (hp : p < 2 ^ m) (hq : q < 2 ^ m) :
    nxG m g0 p b = q ↔ ∃ c, p = prG m c q ∧ b = pbG m g0 c q := by
  have hne := nxG_ne (g0 := g0) hm hp
  have hbr : p / 2 = q % 2 ^ (m - 1) → (nxG m g0 p b = q ↔ b = brBit m g0 p q) := by
    intro hd
    have h := (pred_iff (g0 := g0) hm hp hq).1 hd
    unfold brBit
    rcases h with rfl | rfl
    · rw [show decide (nxG m g0 p false = nxG m g0 p true) = false by simpa using hne]
      cases b
      · simp
      · simpa using fun h => hne h.symm
    · cases b
      · simpa using hne
      · simp
  constructor
  · intro h
    have hd : p / 2 = q % 2 ^ (m - 1) := (pred_iff (g0 := g0) hm hp hq).2 (by cases b <;> simp [h])
    refine ⟨decide (p % 2 = 1), ?_, ?_⟩
    · unfold prG
      rw [← hd]
      rcases Nat.mod_two_eq_zero_or_one p with e | e <;> simp [e] <;> omega
    · have hpp : p = prG m (decide (p % 2 = 1)) q := by
        unfold prG
        rw [← hd]
        rcases Nat.mod_two_eq_zero_or_one p with e | e <;> simp [e] <;> omega
      unfold pbG
      rw [← hpp]
      exact (hbr hd).1 h
  · rintro ⟨c, rfl, rfl⟩
    exact (hbr (prG_div c)).2 rfl

theorem low_odd {m g a : Nat} (hm : 0 < m) (hg : g.testBit 0 = true) : low m g (2 * a + 1) = !low m g (2 * a) := by
  obtain ⟨k, rfl⟩ : ∃ k, m = k + 1 := ⟨m - 1, by omega⟩
  unfold low
  induction k with
  | zero => simp [xorN, hg]
  | succ k ih =>
    have hx : ∀ f : Nat → Bool, xorN (k + 1 + 1) f = (xorN (k + 1) f ^^ f (k + 1)) := fun f => rfl
    rw [hx, hx, ih (by omega)]
    have : (2 * a + 1).testBit (k + 1) = (2 * a).testBit (k + 1) := by
      rw [Nat.testBit_succ, Nat.testBit_succ]
      congr 1
      omega
    rw [this]
    generalize xorN (k + 1) _ = x
    generalize (g.testBit (k + 1) && (2 * a).testBit (k + 1)) = y
    cases x <;> cases y <;> rfl

theorem alt_G {m g0 q : Nat} (hm : 0 < m) (hg : g0.testBit 0 = true) (hq : q < 2 ^ m) : pbG m g0 false q ≠ pbG m g0 true q := by
  intro h
  have e0 := (iff_G (g0 := g0) (b := pbG m g0 false q) hm (prG_lt hm false) hq).2 ⟨false, rfl, rfl⟩
  have e1 := (iff_G (g0 := g0) (b := pbG m g0 true q) hm (prG_lt hm true) hq).2 ⟨true, rfl, rfl⟩
  rw [← h] at e1
  rw [nxG_eq hm (prG_lt hm _), prG_div] at e0 e1
  have hl := low_odd (a := q % 2 ^ (m - 1)) hm hg
  have hp := Nat.two_pow_pos (m - 1)
  unfold prG at e0 e1
  simp only [Bool.toNat_false, Bool.toNat_true, Nat.add_zero] at e0 e1
  rw [hl] at e1
  generalize low m g0 (2 * (q % 2 ^ (m - 1))) = x at *
  generalize pbG m g0 false q = b at *
  cases x <;> cases b <;> simp at e0 e1 <;> omega

theorem tr_G {m g0 g1 : Nat} (hm : 0 < m) (hg : g0.testBit 0 = true) :
    ((tableMachine m (genTables m g0 g1)).getTrellis).Sat fun T =>
      Tr (2 ^ m) T (nxG m g0) (pyB m g0 g1) (prG m) (pbG m g0) ∧ ∃ row, T[0]? = some row ∧ row.length = 2 ^ m := by
  refine (trellis_sat hm).mono ?_
  rintro T ⟨c, o, ⟨h1, h2, _⟩, hI⟩
  have htr : ∀ r s, r < 10 → s < 2 ^ m → tr T r s = ok (c r s) := by
    intro r s hr hs
    have hrow := List.getElem?_eq_getElem (l := T) (i := r) (by have := h1; simp only at this; omega)
    obtain ⟨_, h3⟩ := h2 r _ hrow
    unfold tr
    rw [rd_eq hrow, bind_ok, rd_eq (h3 s hs)]
  have hpy : ∀ s b, pyG m g0 g1 s b = b2i (pyB m g0 g1 s b) := fun s b => rfl
  constructor
  · refine ⟨Nat.two_pow_pos m, ?_, ?_, ?_, fun c q _ => prG_lt hm c, fun q b hq => nxG_lt hm hq, fun q hq => alt_G hm hg hq⟩
    · intro cc q hq
      obtain ⟨a1, a2, a3⟩ := hI.inc q hq (prG m cc q) (prG_lt hm cc) (prG_div cc)
      rw [prG_mod] at a1 a2 a3
      have hc : cc.toNat ≤ 1 := by cases cc <;> decide
      rw [htr _ q (by omega) hq, htr _ q (by omega) hq, htr _ q (by omega) hq, a1, a2, a3, hpy, xorI_b2i]
      exact ⟨rfl, rfl, rfl⟩
    · intro b q hq
      obtain ⟨a1, a2⟩ := hI.out q hq b
      have hc : b.toNat ≤ 1 := by cases b <;> decide
      rw [show 7 + 2 * b.toNat = 6 + 2 * b.toNat + 1 by omega, htr _ q (by omega) hq, htr _ q (by omega) hq, a1, a2, hpy, xorI_b2i]
      exact ⟨rfl, rfl⟩
    · intro p q b hp hq
      exact iff_G hm hp hq
  · have hrow := List.getElem?_eq_getElem (l := T) (i := 0) (by have := h1; simp only at this; omega)
    exact ⟨_, hrow, (h2 0 _ hrow).1⟩

theorem wtB_le {py : Nat → Bool → Bool} {s p : Nat → Int} {M : Int} {t a : Nat} {b : Bool} (hM : |s t| + |p t| ≤ M) :
    |wtB py s p t a b| ≤ M := by
  unfold wtB coef
  have := gm_le (x := b ^^ py a b) hM
  split
  · rw [neg_one_mul, abs_neg]; exact this
  · rw [one_mul]; exact this

theorem low_zero (m g : Nat) : low m g 0 = false := by
  unfold low
  rw [xorN_congr (g := fun _ => false) (fun i _ => by simp), xorN_false]

theorem graph_G {m g0 L : Nat} {py : Nat → Bool → Bool} {s p : Nat → Int} {M : Int} (hm : 0 < m)
    (hM : ∀ t, |s t| + |p t| ≤ M) : Graph (ef (2 ^ m) (nxG m g0) py s p) (2 ^ m) L m M where
  pos := Nat.two_pow_pos m
  wt := by
    rintro k a q w ⟨_, b, _, _, rfl⟩
    exact wtB_le (hM k)
  src := by
    rintro k a q w ⟨ha, b, _, rfl, _⟩
    exact ⟨ha, nxG_lt hm ha⟩
  loop k _ := by
    refine ⟨_, Nat.two_pow_pos m, false, trivial, ?_, rfl⟩
    rw [nxG_eq hm (Nat.two_pow_pos m), low_zero]
    simp
  conn a q q' hq hq' _ := by
    have key : ∀ j, j ≤ m → ∃ r z, Steps (ef (2 ^ m) (nxG m g0) py s p) a q j r z ∧ r < 2 ^ m ∧
        ∀ i, i < m → r.testBit i = if i + j < m then q.testBit (i + j) else q'.testBit (i + j - m) := by
      intro j
      induction j with
      | zero =>
        intro _
        exact ⟨q, 0, .nil, hq, fun i hi => by rw [if_pos (by omega)]; rfl⟩
      | succ j ih =>
        intro hj
        obtain ⟨r, z, h1, h2, h3⟩ := ih (by omega)
        refine ⟨nxG m g0 r (low m g0 r ^^ q'.testBit j), _, .snoc h1 ⟨h2, _, trivial, rfl, rfl⟩, nxG_lt hm h2, fun i hi => ?_⟩
        rw [testBit_nxG hm h2 hi]
        by_cases h : i + 1 < m
        · rw [if_pos h, h3 _ h]
          by_cases h' : i + 1 + j < m
          · rw [if_pos h', if_pos (by omega)]; congr 1; omega
          · rw [if_neg h', if_neg (by omega)]; congr 1; omega
        · rw [if_neg h, if_neg (by omega)]
          rw [show i + (j + 1) - m = j by omega]
          cases low m g0 r <;> simp
    obtain ⟨r, z, h1, h2, h3⟩ := key m (Nat.le_refl m)
    have : r = q' := by
      apply Nat.eq_of_testBit_eq
      intro i
      by_cases hi : i < m
      · rw [h3 i hi, if_neg (by omega)]; congr 1; omega
      · rw [Nat.testBit_lt_two_pow (Nat.lt_of_lt_of_le h2 (Nat.pow_le_pow_right (by omega) (by omega))),
          Nat.testBit_lt_two_pow (Nat.lt_of_lt_of_le hq' (Nat.pow_le_pow_right (by omega) (by omega)))]
    exact ⟨z, this ▸ h1⟩

/-! ## Paths and inputs -/

/-- State at time `t` from state 0 on the inputs `u`. -/
def run (nx : Nat → Bool → Nat) (u : Nat → Bool) : Nat → Nat
  | 0 => 0
  | t + 1 => nx (run nx u t) (u t)

theorem run_congr {nx : Nat → Bool → Nat} {u v : Nat → Bool} {n : Nat} (h : ∀ t, t < n → u t = v t) : ∀ t, t ≤ n → run nx u t = run nx v t
  | 0, _ => rfl
  | t + 1, ht => by rw [run, run, run_congr h t (by omega), h t (by omega)]

theorem run_lt {nx : Nat → Bool → Nat} {S : Nat} (h0 : 0 < S) (h : ∀ q b, q < S → nx q b < S) (u : Nat → Bool) : ∀ t, run nx u t < S
  | 0 => h0
  | t + 1 => h _ _ (run_lt h0 h u t)

theorem steps_iff {S : Nat} {nx : Nat → Bool → Nat} {py : Nat → Bool → Bool} {s p : Nat → Int} {φ : Nat → Nat → Bool → Prop}
    (h0 : 0 < S) (hn : ∀ q b, q < S → nx q b < S) : ∀ n q z, Steps (edge S nx py s p φ) 0 0 n q z ↔
      ∃ u : Nat → Bool, run nx u n = q ∧ (∀ t, t < n → φ t (run nx u t) (u t)) ∧
        z = ∑ t ∈ Finset.range n, wtB py s p t (run nx u t) (u t) := by
  intro n
  induction n with
  | zero =>
    intro q z
    constructor
    · intro h
      obtain ⟨rfl, rfl⟩ := h.zero_inv
      exact ⟨fun _ => false, rfl, fun t ht => absurd ht (by omega), rfl⟩
    · rintro ⟨u, rfl, _, rfl⟩
      exact .nil
  | succ n ih =>
    intro q z
    constructor
    · intro h
      obtain ⟨r, y, w, h1, h2, rfl⟩ := h.succ_inv
      obtain ⟨u, rfl, hφ, rfl⟩ := (ih r y).1 h1
      rw [Nat.zero_add] at h2
      obtain ⟨_, b, hb, rfl, rfl⟩ := h2
      have hc : ∀ t, t < n → u t = (fun t => if t = n then b else u t) t := fun t ht => by simp [Nat.ne_of_lt ht]
      have hr := run_congr (nx := nx) hc
      refine ⟨fun t => if t = n then b else u t, ?_, ?_, ?_⟩
      · rw [run, ← hr n (Nat.le_refl n)]; simp
      · intro t ht
        rw [← hr t (by omega)]
        by_cases e : t = n
        · subst e; simpa using hb
        · simpa [e] using hφ t (by omega)
      · rw [Finset.sum_range_succ, ← hr n (Nat.le_refl n)]
        simp only [if_true]
        congr 1
        apply Finset.sum_congr rfl
        intro t ht
        rw [Finset.mem_range] at ht
        rw [← hr t (by omega)]
        simp [Nat.ne_of_lt ht]
    · rintro ⟨u, rfl, hφ, rfl⟩
      rw [Finset.sum_range_succ]
      refine .snoc ((ih _ _).2 ⟨u, rfl, fun t ht => hφ t (by omega), rfl⟩) ?_
      rw [Nat.zero_add]
      exact ⟨run_lt h0 hn u n, u n, hφ n (by omega), rfl, rfl⟩

theorem st_run {nx : Nat → Bool → Nat} {tl : Nat → Bool} {L : Nat} {u : Nat → Bool} : ∀ t, t ≤ L → st nx tl L u t = run nx u t
  | 0, _ => rfl
  | t + 1, ht => by rw [st, run, st_run t (by omega), inp, if_pos (by omega)]

/-- A word with given systematic symbols and parities. -/
theorem word_exists (bf : Bool) (L : Nat) (a b : Nat → Int) : ∃ x : List Int, x.length = 2 * L ∧
    ∀ t, t < L → x[sysPos bf t]? = some (a t) ∧ x[parPos bf L t]? = some (b t) := by
  cases bf with
  | true =>
    refine ⟨(List.range (2 * L)).map fun j => if j < L then a j else b (j - L), by simp, fun t ht => ?_⟩
    simp only [sysPos, parPos, if_true]
    rw [getElem?_mapRange, getElem?_mapRange, if_pos (by omega), if_pos ht, if_pos (by omega), if_neg (by omega)]
    exact ⟨rfl, by rw [Nat.add_sub_cancel_left]⟩
  | false =>
    refine ⟨(List.range (2 * L)).map fun j => if j % 2 = 0 then a (j / 2) else b (j / 2), by simp, fun t ht => ?_⟩
    simp only [sysPos, parPos, Bool.false_eq_true, if_false]
    rw [getElem?_mapRange, getElem?_mapRange, if_pos (by omega), if_pos (by omega), if_pos (by omega), if_neg (by omega)]
    exact ⟨by congr 2; omega, by congr 2; omega⟩

theorem b2i_inj {a b : Bool} (h : b2i a = b2i b) : a = b := by
  cases a <;> cases b <;> simp [b2i] at h ⊢

/-- Codewords are the paths from state 0 to state 0. -/
theorem codeword_iff {bf : Bool} {m g0 g1 K : Nat} (hm : 0 < m) (h0 : g0.testBit m = true) (h1 : g1.testBit m = true)
    {x : List Int} : IsCodeword bf m g0 g1 K x ↔ x.length = 2 * (K + m) ∧ ∃ u : Nat → Bool, run (nxG m g0) u (K + m) = 0 ∧
      ∀ t, t < K + m → x[sysPos bf t]? = some (b2i (u t)) ∧
        x[parPos bf (K + m) t]? = some (b2i (pyB m g0 g1 (run (nxG m g0) u t) (u t))) := by
  have hsys : ∀ u t, t < K + m → taps m g0 (reg m g0 (K + m) u) t = u t := by
    intro u t ht
    rw [← sys_taps hm h0, sysSeq, inp, if_pos ht]
  have hpar : ∀ u t, t < K + m → b2i (taps m g1 (reg m g0 (K + m) u) t) = b2i (pyB m g0 g1 (run (nxG m g0) u t) (u t)) := by
    intro u t ht
    rw [← par_taps hm h1, parSeq, sysSeq, inp, if_pos ht, st_run t (by omega)]
    rfl
  constructor
  · rintro ⟨hl, v, v0, v1, hv⟩
    have hreg := reg_unique (K := K + m) (u := taps m g0 v) hm h0 v0 (fun i hi => v1 i (by omega)) (fun t _ => rfl)
    have hreg : v = reg m g0 (K + m) (taps m g0 v) := funext hreg
    refine ⟨hl, taps m g0 v, ?_, fun t ht => ?_⟩
    · rw [← st_run (tl := low m g0) (K + m) (Nat.le_refl _)]
      apply Nat.eq_of_testBit_eq
      intro i
      rw [Nat.zero_testBit]
      by_cases hi : i < m
      · rw [st_testBit hm _ _ hi, ← hreg, v1 _ (by omega)]
      · have hlt : st (nxG m g0) (low m g0) (K + m) (taps m g0 v) (K + m) < 2 ^ m := st_lt (implGeneric (g1 := g0) hm) _ _ _
        exact Nat.testBit_lt_two_pow (Nat.lt_of_lt_of_le hlt (Nat.pow_le_pow_right (by omega) (by omega)))
    · rw [(hv t ht).1, (hv t ht).2]
      refine ⟨rfl, ?_⟩
      have := hpar (taps m g0 v) t ht
      rw [← hreg] at this
      rw [this]
  · rintro ⟨hl, u, hu, hx⟩
    refine ⟨hl, reg m g0 (K + m) u, fun i hi => by unfold reg; rw [if_pos hi], ?_, ?_⟩
    · intro i hi
      by_cases h : i < K + m + m
      · have := st_testBit (g0 := g0) (K := K + m) (u := u) hm (K + m) (i - (K + m)) (by omega)
        rw [st_run _ (Nat.le_refl _), hu, Nat.zero_testBit, show K + m + (i - (K + m)) = i by omega] at this
        exact this.symm
      · rw [show i = (i - m) + m by omega]
        exact reg_tail hm _ (by omega)
    · intro t ht
      rw [hsys u t ht, hpar u t ht]
      exact hx t ht

theorem sym_of {x : List Int} {j : Nat} {v : Int} (h : x[j]? = some v) : sym x j = v := by
  unfold sym
  rw [List.getD_eq_getElem?_getD, h]
  rfl

theorem wtB_eq (py : Nat → Bool → Bool) (s p : Nat → Int) (t a : Nat) (b : Bool) :
    wtB py s p t a b = (1 - 2 * b2i b) * s t + (1 - 2 * b2i (py a b)) * p t := by
  unfold wtB gm coef b2i
  cases b <;> cases py a _ <;> simp <;> ring

section
variable {bf : Bool} {m g0 g1 K : Nat} (hm : 0 < m) (h0 : g0.testBit m = true) (h1 : g1.testBit m = true) {s p : Nat → Int}
include hm h0 h1

theorem through_gen {i : Nat} (hi : i < K + m) {sel : Nat → Bool → Bool} {b : Bool} {j : Nat}
    (hj : ∀ (x : List Int) (u : Nat → Bool), (∀ t, t < K + m → x[sysPos bf t]? = some (b2i (u t)) ∧
        x[parPos bf (K + m) t]? = some (b2i (pyB m g0 g1 (run (nxG m g0) u t) (u t)))) →
      (x[j]? = some (b2i b) ↔ sel (run (nxG m g0) u i) (u i) = b)) :
    Through (2 ^ m) (K + m) (nxG m g0) (pyB m g0 g1) s p i sel b = Corrs bf m g0 g1 K s p j (b2i b) := by
  ext z
  unfold Through Val Corrs
  rw [Set.mem_setOf_eq, Set.mem_setOf_eq, steps_iff (Nat.two_pow_pos m) (fun q b hq => nxG_lt hm hq)]
  have hcorr : ∀ (x : List Int) (u : Nat → Bool), (∀ t, t < K + m → x[sysPos bf t]? = some (b2i (u t)) ∧
        x[parPos bf (K + m) t]? = some (b2i (pyB m g0 g1 (run (nxG m g0) u t) (u t)))) →
      ∑ t ∈ Finset.range (K + m), wtB (pyB m g0 g1) s p t (run (nxG m g0) u t) (u t) = corr bf (K + m) s p x := by
    intro x u hx
    unfold corr
    apply Finset.sum_congr rfl
    intro t ht
    rw [Finset.mem_range] at ht
    rw [wtB_eq, sym_of (hx t ht).1, sym_of (hx t ht).2]
  constructor
  · rintro ⟨u, hu, hφ, rfl⟩
    obtain ⟨x, hl, hx⟩ := word_exists bf (K + m) (fun t => b2i (u t)) (fun t => b2i (pyB m g0 g1 (run (nxG m g0) u t) (u t)))
    exact ⟨x, (codeword_iff hm h0 h1).2 ⟨hl, u, hu, hx⟩, (hj x u hx).2 (hφ i hi rfl), hcorr x u hx⟩
  · rintro ⟨x, hc, hb, rfl⟩
    obtain ⟨hl, u, hu, hx⟩ := (codeword_iff hm h0 h1).1 hc
    exact ⟨u, hu, fun t _ e => by subst e; exact (hj x u hx).1 hb, (hcorr x u hx).symm⟩

theorem through_sys {i : Nat} (hi : i < K + m) (b : Bool) :
    Through (2 ^ m) (K + m) (nxG m g0) (pyB m g0 g1) s p i selSys b = Corrs bf m g0 g1 K s p (sysPos bf i) (b2i b) := by
  refine through_gen hm h0 h1 hi fun x u hx => ?_
  rw [(hx i hi).1]
  constructor
  · intro h; injection h with h; exact b2i_inj h
  · intro h; rw [← h]

theorem through_par {i : Nat} (hi : i < K + m) (b : Bool) :
    Through (2 ^ m) (K + m) (nxG m g0) (pyB m g0 g1) s p i (pyB m g0 g1) b = Corrs bf m g0 g1 K s p (parPos bf (K + m) i) (b2i b) := by
  refine through_gen hm h0 h1 hi fun x u hx => ?_
  rw [(hx i hi).2]
  constructor
  · intro h; injection h with h; exact b2i_inj h
  · intro h; rw [← h]

end

/-- The words of `2 L` symbols 0 or 1 have correlations of the same parity. -/
theorem corr_parity {bf : Bool} {L : Nat} {s p : Nat → Int} (x x' : List Int) : ∃ g, corr bf L s p x - corr bf L s p x' = 2 * g := by
  unfold corr
  rw [← Finset.sum_sub_distrib]
  refine ⟨∑ t ∈ Finset.range L, ((sym x' (sysPos bf t) - sym x (sysPos bf t)) * s t + (sym x' (parPos bf L t) - sym x (parPos bf L t)) * p t), ?_⟩
  rw [Finset.mul_sum]
  apply Finset.sum_congr rfl
  intro t _
  ring

theorem corrs_bdd {bf : Bool} {m g0 g1 K : Nat} {s p : Nat → Int} {j : Nat} {b : Int} (hbits : ∀ x, IsCodeword bf m g0 g1 K x → IsBits x) :
    ∃ B, ∀ z ∈ Corrs bf m g0 g1 K s p j b, z ≤ B := by
  refine ⟨∑ t ∈ Finset.range (K + m), (|s t| + |p t|), ?_⟩
  rintro z ⟨x, hx, _, rfl⟩
  unfold corr
  have hsym : ∀ j, sym x j = 0 ∨ sym x j = 1 := by
    intro j
    unfold sym
    rw [List.getD_eq_getElem?_getD]
    cases e : x[j]? with
    | none => simp
    | some v => exact hbits x hx v (List.mem_of_getElem? e)
  have hle : ∀ j (v : Int), (1 - 2 * sym x j) * v ≤ |v| := by
    intro j v
    rcases hsym j with e | e <;> rw [e]
    · simpa using le_abs_self v
    · have := neg_abs_le v; linarith
  exact Finset.sum_le_sum fun t _ => add_le_add (hle _ _) (hle _ _)

theorem codeword_bits {bf : Bool} {m g0 g1 K : Nat} {x : List Int} (h : IsCodeword bf m g0 g1 K x) : IsBits x := by
  obtain ⟨hl, v, _, _, hv⟩ := h
  intro a ha
  obtain ⟨j, hj⟩ := List.mem_iff_getElem?.1 ha
  have hlt : j < 2 * (K + m) := by
    by_contra hc
    rw [List.getElem?_eq_none (by omega)] at hj
    cases hj
  have hb : ∀ b : Bool, b2i b = 0 ∨ b2i b = 1 := fun b => by cases b <;> simp [b2i]
  cases bf with
  | true =>
    by_cases hc : j < K + m
    · have := (hv j hc).1
      simp only [sysPos, if_true] at this
      rw [hj] at this
      injection this with this
      rw [this]; exact hb _
    · have := (hv (j - (K + m)) (by omega)).2
      simp only [parPos, if_true] at this
      rw [show K + m + (j - (K + m)) = j by omega, hj] at this
      injection this with this
      rw [this]; exact hb _
  | false =>
    rcases Nat.mod_two_eq_zero_or_one j with e | e
    · have := (hv (j / 2) (by omega)).1
      simp only [sysPos, Bool.false_eq_true, if_false] at this
      rw [show 2 * (j / 2) = j by omega, hj] at this
      injection this with this
      rw [this]; exact hb _
    · have := (hv (j / 2) (by omega)).2
      simp only [parPos, Bool.false_eq_true, if_false] at this
      rw [show 2 * (j / 2) + 1 = j by omega, hj] at this
      injection this with this
      rw [this]; exact hb _

theorem corrs_max {bf : Bool} {m g0 g1 K : Nat} {s p : Nat → Int} {j : Nat} {b : Int} (h : (Corrs bf m g0 g1 K s p j b).Nonempty) :
    ∃ z, IsGreatest (Corrs bf m g0 g1 K s p j b) z := by
  obtain ⟨B, hB⟩ := corrs_bdd (s := s) (p := p) (j := j) (b := b) (fun x (hx : IsCodeword bf m g0 g1 K x) => codeword_bits hx)
  obtain ⟨z, h1, h2⟩ := Int.exists_greatest_of_bdd (P := fun z => z ∈ Corrs bf m g0 g1 K s p j b) ⟨B, hB⟩ h
  exact ⟨z, h1, fun y hy => h2 y hy⟩

/-- Every message is the one of a codeword. -/
theorem codeword_exists {bf : Bool} {m g0 g1 K : Nat} (hm : 0 < m) (h0 : g0.testBit m = true) (h1 : g1.testBit m = true) (u : Nat → Bool) :
    ∃ x, IsCodeword bf m g0 g1 K x ∧ ∀ t, t < K → x[sysPos bf t]? = some (b2i (u t)) := by
  obtain ⟨x, hl, hx⟩ := word_exists bf (K + m) (fun t => b2i (taps m g0 (reg m g0 K u) t)) (fun t => b2i (taps m g1 (reg m g0 K u) t))
  refine ⟨x, ⟨hl, reg m g0 K u, fun i hi => by unfold reg; rw [if_pos hi], fun i hi => ?_, hx⟩, fun t ht => ?_⟩
  · rw [show i = (i - m) + m by omega]
    exact reg_tail hm _ (by omega)
  · rw [(hx t (by omega)).1, ← sys_taps hm h0, sysSeq, inp, if_pos ht]

end Verif.BCJR
