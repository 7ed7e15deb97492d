import Mathlib.Data.List.Nodup
import Verif.Prelude.Loops
import Verif.Model.Puncturer
import Verif.Spec.Puncturer

/-! # Puncturers: proofs -/

namespace Verif.Puncturer
open Exec

section
variable {α : Type _}

theorem kept_succ (keep : Nat → Bool) (n : Nat) : kept keep (n + 1) = kept keep n ++ if keep n then [n] else [] := by
  unfold kept
  rw [List.range_succ, List.filter_append]
  congr 1
  cases h : keep n <;> simp [h]

theorem kept_lt {keep : Nat → Bool} {n p : Nat} (h : p ∈ kept keep n) : p < n ∧ keep p = true := by
  unfold kept at h
  rw [List.mem_filter, List.mem_range] at h
  exact h

/-- Number of transmitted positions before `p`. -/
def rank (keep : Nat → Bool) (p : Nat) : Nat := (kept keep p).length

theorem rank_succ (keep : Nat → Bool) (n : Nat) : rank keep (n + 1) = rank keep n + if keep n then 1 else 0 := by
  unfold rank
  rw [kept_succ, List.length_append]
  congr 1
  split <;> rfl

theorem rank_le (keep : Nat → Bool) {n m : Nat} (h : n ≤ m) : rank keep n ≤ rank keep m := by
  induction h with
  | refl => exact Nat.le_refl _
  | step _ ih => rw [Nat.succ_eq_add_one, rank_succ]; omega

theorem rank_lt (keep : Nat → Bool) {p n : Nat} (h : p < n) (hk : keep p = true) : rank keep p < rank keep n := by
  have := rank_le keep (show p + 1 ≤ n from h)
  rw [rank_succ, if_pos hk] at this
  omega

theorem kept_get (keep : Nat → Bool) : ∀ (n p : Nat), p < n → keep p = true → (kept keep n)[rank keep p]? = some p := by
  intro n
  induction n with
  | zero => intro p hp; omega
  | succ n ih =>
    intro p hp hk
    rw [kept_succ]
    by_cases e : p = n
    · subst e
      unfold rank
      rw [if_pos hk, List.getElem?_append_right (Nat.le_refl _)]
      simp
    · have hlt := rank_lt keep (show p < n by omega) hk
      rw [List.getElem?_append_left hlt]
      exact ih p (by omega) hk

/-- The canonical puncturing loop. -/
theorem putIf_run {keep : Nat → Bool} {x out : List α} {n : Nat} (hx : n ≤ x.length) (ho : rank keep n ≤ out.length) :
    (forN n (fun p => putIf (keep p) x p) (0, out)).Sat fun s => s.1 = rank keep n ∧ s.2.length = out.length ∧
      (∀ p, p < n → keep p = true → s.2[rank keep p]? = x[p]?) ∧ ∀ j : Nat, rank keep n ≤ j → s.2[j]? = out[j]? := by
  induction n with
  | zero => exact ⟨(0, out), rfl, rfl, rfl, fun p hp => by omega, fun j _ => rfl⟩
  | succ n ih =>
    rw [rank_succ] at ho
    rw [forN_succ]
    refine (ih (by omega) (by omega)).bind ?_
    rintro ⟨k, o⟩ ⟨h1, h2, h3, h4⟩
    simp only at h1 h2 h3 h4
    unfold putIf put
    rw [rank_succ]
    by_cases hk : keep n = true
    · rw [if_pos hk] at ho
      rw [if_pos hk, rd_lt (by omega), bind_ok, wr_lt (by simp only; omega), bind_ok]
      refine sat_ok.mpr ⟨by simp [h1, hk], by simpa using h2, fun p hp hkp => ?_, fun j hj => ?_⟩
      · simp only
        by_cases e : p = n
        · subst e; rw [h1, List.getElem?_set_self (by omega), List.getElem?_eq_getElem]
        · rw [List.getElem?_set_ne, h3 p (by omega) hkp]
          have := rank_lt keep (show p < n by omega) hkp
          omega
      · simp only
        rw [if_pos hk] at hj
        rw [List.getElem?_set_ne (by omega), h4 j (by omega)]
    · rw [if_neg hk]
      refine sat_ok.mpr ⟨by simp [h1, hk], h2, fun p hp hkp => h3 p ?_ hkp, fun j hj => h4 j ?_⟩
      · have : p ≠ n := fun e => hk (e ▸ hkp)
        omega
      · rw [if_neg hk] at hj; exact hj

/-- Depuncturing of one position, keeping what the buffer holds when nothing was transmitted. -/
def getIf (b : Bool) (y : List α) (p : Nat) (s : Nat × List α) : Exec (Nat × List α) := if b then get y p s else ok s

/-- The canonical depuncturing loops. -/
theorem get_run {keep : Nat → Bool} {y out : List α} {n k : Nat} {step : Nat → Nat × List α → Exec (Nat × List α)}
    {e : Nat → Option α} (hy : rank keep n + k ≤ y.length) (ho : n ≤ out.length)
    (hkeep : ∀ p s, p < n → keep p = true → step p s = get y p s)
    (hdrop : ∀ p s, p < n → keep p = false → s.2.length = out.length → s.2[p]? = out[p]? →
      ∃ o, step p s = ok (s.1, o) ∧ o.length = s.2.length ∧ o[p]? = e p ∧ ∀ j, j ≠ p → o[j]? = s.2[j]?) :
    (forN n step (k, out)).Sat fun s => s.1 = rank keep n + k ∧ s.2.length = out.length ∧
      (∀ p, p < n → keep p = true → s.2[p]? = y[rank keep p + k]?) ∧ (∀ p, p < n → keep p = false → s.2[p]? = e p) ∧
      ∀ j : Nat, n ≤ j → s.2[j]? = out[j]? := by
  induction n with
  | zero => exact ⟨(k, out), rfl, by simp [rank, kept], rfl, fun p hp => by omega, fun p hp => by omega, fun j _ => rfl⟩
  | succ n ih =>
    rw [rank_succ] at hy
    rw [forN_succ]
    refine (ih (by omega) (by omega) (fun p s hp => hkeep p s (by omega)) (fun p s hp => hdrop p s (by omega))).bind ?_
    rintro ⟨k', o⟩ ⟨h1, h2, h3, h4, h5⟩
    simp only at h1 h2 h3 h4 h5
    rw [rank_succ]
    cases hk : keep n
    · obtain ⟨o', e1, e2, e3, e4⟩ := hdrop n (k', o) (by omega) hk h2 (h5 n (Nat.le_refl _))
      rw [e1]
      refine sat_ok.mpr ⟨by simpa using h1, by simpa using e2.trans h2, fun p hp hkp => ?_, fun p hp hkp => ?_, fun j hj => ?_⟩
      · have : p ≠ n := fun e => by rw [e, hk] at hkp; cases hkp
        simp only; rw [e4 p this, h3 p (by omega) hkp]
      · simp only
        by_cases e : p = n
        · subst e; exact e3
        · rw [e4 p e, h4 p (by omega) hkp]
      · simp only; rw [e4 j (by omega), h5 j (by omega)]
    · rw [hkeep n _ (by omega) hk]
      rw [hk, if_pos rfl] at hy
      unfold get
      rw [rd_lt (by simp only; omega), bind_ok, wr_lt (by simp only; omega), bind_ok]
      refine sat_ok.mpr ⟨by simp; omega, by simpa using h2, fun p hp hkp => ?_, fun p hp hkp => ?_, fun j hj => ?_⟩
      · simp only
        by_cases e : p = n
        · subst e
          rw [List.getElem?_set_self (by omega), ← List.getElem?_eq_getElem, h1]
        · rw [List.getElem?_set_ne (by omega), h3 p (by omega) hkp]
      · have : p ≠ n := fun e => by rw [e, hk] at hkp; cases hkp
        simp only; rw [List.getElem?_set_ne (by omega), h4 p (by omega) hkp]
      · simp only; rw [List.getElem?_set_ne (by omega), h5 j (by omega)]

theorem getOr_run {keep : Nat → Bool} {zero : α} {y out : List α} {n : Nat} (hy : rank keep n ≤ y.length) (ho : n ≤ out.length) :
    (forN n (fun p => getOr zero (keep p) y p) (0, out)).Sat fun s => s.1 = rank keep n ∧ s.2.length = out.length ∧
      (∀ p, p < n → keep p = true → s.2[p]? = y[rank keep p]?) ∧ (∀ p, p < n → keep p = false → s.2[p]? = some zero) ∧
      ∀ j : Nat, n ≤ j → s.2[j]? = out[j]? := by
  refine get_run (k := 0) (e := fun _ => some zero) (by omega) ho (fun p s _ hk => ?_) (fun p s hp hk hl _ => ?_)
  · unfold getOr; rw [if_pos hk]
  · unfold getOr
    rw [hk, if_neg (by decide), wr_lt (by omega), bind_ok]
    exact ⟨_, rfl, by simp, List.getElem?_set_self (by omega), fun j hj => List.getElem?_set_ne (by omega)⟩

/-- From the canonical loops to the specification. -/
theorem punctures_of {keep : Nat → Bool} {Ncw N : Nat} {fill : α} {pct dpc : List α → List α → Exec (List α)}
    (hN : rank keep Ncw = N)
    (h1 : ∀ x out : List α, x.length = Ncw → out.length = N → pct x out = (forN Ncw (fun p => putIf (keep p) x p) (0, out) >>= fun s => ok s.2))
    (h2 : ∀ y out : List α, y.length = N → out.length = Ncw → (dpc y out).Sat fun o => o.length = Ncw ∧
      (∀ p, p < Ncw → keep p = true → o[p]? = y[rank keep p]?) ∧ ∀ p, p < Ncw → keep p = false → o[p]? = some fill) :
    Punctures keep Ncw N fill pct dpc := by
  have hr : ∀ j (h : j < (kept keep Ncw).length), rank keep ((kept keep Ncw)[j]) = j := by
    intro j h
    obtain ⟨hp, hk⟩ := kept_lt (List.getElem_mem h)
    have := kept_get keep Ncw _ hp hk
    have hnd : (kept keep Ncw).Nodup := List.nodup_range.sublist List.filter_sublist
    rw [List.getElem?_eq_some_iff] at this
    obtain ⟨h', e⟩ := this
    exact (List.Nodup.getElem_inj_iff hnd).mp e
  refine ⟨hN, fun x out hx ho => ?_, fun y out hy ho => ?_⟩
  · rw [h1 x out hx ho]
    obtain ⟨s, e1, e2, e3, e4, -⟩ := putIf_run (keep := keep) (x := x) (out := out) (n := Ncw) (by omega) (by omega)
    rw [e1, bind_ok]
    refine ⟨_, rfl, by omega, fun j h => ?_⟩
    obtain ⟨hp, hk⟩ := kept_lt (List.getElem_mem h)
    have := e4 _ hp hk
    rwa [hr j h] at this
  · obtain ⟨o, e1, e2, e3, e4⟩ := h2 y out hy ho
    refine ⟨o, e1, e2, fun j h => ?_, e4⟩
    obtain ⟨hp, hk⟩ := kept_lt (List.getElem_mem h)
    rw [e3 _ hp hk, hr j h]

theorem dpc_sat_of {keep : Nat → Bool} {zero : α} {Ncw N : Nat} {y out : List α} (hN : rank keep Ncw = N) (hy : y.length = N)
    (ho : out.length = Ncw) :
    (forN Ncw (fun p => getOr zero (keep p) y p) (0, out) >>= fun s => ok s.2).Sat fun o => o.length = Ncw ∧
      (∀ p, p < Ncw → keep p = true → o[p]? = y[rank keep p]?) ∧ ∀ p, p < Ncw → keep p = false → o[p]? = some zero := by
  obtain ⟨s, e1, -, e2, e3, e4, -⟩ := getOr_run (keep := keep) (zero := zero) (y := y) (out := out) (n := Ncw) (by omega) (by omega)
  rw [e1, bind_ok]
  exact sat_ok.mpr ⟨by omega, e3, e4⟩

/-- Round trips. -/
theorem dpc_pct {keep : Nat → Bool} {Ncw N : Nat} {fill : α} {pct dpc : List α → List α → Exec (List α)}
    (h : Punctures keep Ncw N fill pct dpc) (x out1 out2 : List α) (hx : x.length = Ncw) (h1 : out1.length = N)
    (h2 : out2.length = Ncw) :
    ∃ o z, pct x out1 = ok o ∧ dpc o out2 = ok z ∧ z.length = Ncw ∧
      ∀ p, p < Ncw → z[p]? = if keep p then x[p]? else some fill := by
  obtain ⟨o, e1, e2, e3⟩ := h.pct x out1 hx h1
  obtain ⟨z, f1, f2, f3, f4⟩ := h.dpc o out2 e2 h2
  refine ⟨o, z, e1, f1, f2, fun p hp => ?_⟩
  cases hk : keep p
  · simp only [Bool.false_eq_true, if_false]; exact f4 p hp hk
  · simp only [if_true]
    have := kept_get keep Ncw p hp hk
    obtain ⟨h', e⟩ := List.getElem?_eq_some_iff.mp this
    have g1 := f3 _ h'
    have g2 := e3 _ h'
    rw [e] at g1 g2
    rw [g1, g2]

theorem pct_dpc {keep : Nat → Bool} {Ncw N : Nat} {fill : α} {pct dpc : List α → List α → Exec (List α)}
    (h : Punctures keep Ncw N fill pct dpc) (y out1 out2 : List α) (hy : y.length = N) (h1 : out1.length = Ncw)
    (h2 : out2.length = N) :
    ∃ z, dpc y out1 = ok z ∧ pct z out2 = ok y := by
  obtain ⟨z, f1, f2, f3, -⟩ := h.dpc y out1 hy h1
  obtain ⟨o, e1, e2, e3⟩ := h.pct z out2 f2 h2
  refine ⟨z, f1, ?_⟩
  rw [e1]
  congr 1
  refine List.ext_getElem? fun j => ?_
  by_cases hj : j < N
  · rw [e3 j (by rw [h.count]; exact hj), f3 j (by rw [h.count]; exact hj)]
  · rw [List.getElem?_eq_none (by omega), List.getElem?_eq_none (by omega)]

/-! ## LDPC -/

theorem forN_id {σ : Type _} {n : Nat} {f : Nat → σ → Exec σ} {s : σ} (h : ∀ k s, k < n → f k s = ok s) : forN n f s = ok s := by
  induction n with
  | zero => rfl
  | succ n ih => rw [forN_succ, ih fun k s hk => h k s (by omega), bind_ok, h n s (by omega)]

theorem bitAt {pat : List Bool} {i : Nat} (h : i < pat.length) : rd pat i = ok (pat.getD i false) := by
  rw [rd_lt h, getD_lt _ h]

theorem ldpc_blocks {Z : Nat} {pat : List Bool} {x : List α} {s : Nat × List α} :
    forN pat.length (ldpcBlock Z pat x) s = forN (pat.length * Z) (fun p => putIf (pat.getD (p / Z) false) x p) s := by
  have : ∀ i s, i < pat.length → ldpcBlock Z pat x i s = forN Z (fun z => putIf (pat.getD i false) x (i * Z + z)) s := by
    intro i s hi
    unfold ldpcBlock
    rw [bitAt hi, bind_ok]
    cases h : pat.getD i false
    · rw [if_neg (by decide)]
      exact (forN_id fun k s _ => rfl).symm
    · rw [if_pos rfl]; rfl
  rw [forN_congr (fun i s hi => this i s hi), forN_nested]
  apply forN_congr
  intro p s hp
  rw [Nat.mul_comm (p / Z) Z, Nat.div_add_mod]

theorem ldpc_unblocks {zero : α} {Z : Nat} {pat : List Bool} {y : List α} {s : Nat × List α} :
    forN pat.length (ldpcUnblock zero Z pat y) s = forN (pat.length * Z) (fun p => getOr zero (pat.getD (p / Z) false) y p) s := by
  have : ∀ i s, i < pat.length → ldpcUnblock zero Z pat y i s = forN Z (fun z => getOr zero (pat.getD i false) y (i * Z + z)) s := by
    intro i s hi
    unfold ldpcUnblock
    rw [bitAt hi, bind_ok]
    cases h : pat.getD i false
    · rw [if_neg (by decide)]; rfl
    · rw [if_pos rfl]; rfl
  rw [forN_congr (fun i s hi => this i s hi), forN_nested]
  apply forN_congr
  intro p s hp
  rw [Nat.mul_comm (p / Z) Z, Nat.div_add_mod]

/-- Counting by blocks. -/
theorem rank_add (keep : Nat → Bool) (n m : Nat) : rank keep (n + m) = rank keep n + rank (fun p => keep (n + p)) m := by
  induction m with
  | zero => simp [rank, kept]
  | succ m ih => rw [← Nat.add_assoc, rank_succ, ih, rank_succ]; omega

theorem rank_congr {k1 k2 : Nat → Bool} {n : Nat} (h : ∀ p, p < n → k1 p = k2 p) : rank k1 n = rank k2 n := by
  induction n with
  | zero => rfl
  | succ n ih => rw [rank_succ, rank_succ, ih fun p hp => h p (by omega), h n (by omega)]

theorem rank_true (n : Nat) : rank (fun _ => true) n = n := by
  induction n with
  | zero => rfl
  | succ n ih => rw [rank_succ, ih]; rfl

theorem rank_false (n : Nat) : rank (fun _ => false) n = 0 := by
  induction n with
  | zero => rfl
  | succ n ih => rw [rank_succ, ih]; rfl

theorem rank_list (l : List Bool) : rank (fun p => l.getD p false) l.length = (l.filter (· = true)).length := by
  induction l with
  | nil => rfl
  | cons b l ih =>
    rw [List.length_cons, Nat.add_comm, rank_add]
    have : rank (fun p => (b :: l).getD (1 + p) false) l.length = (l.filter (· = true)).length := by
      rw [← ih]
      apply rank_congr
      intro p _
      rw [Nat.add_comm, List.getD_cons_succ]
    rw [this]
    cases b
    · simp [rank_succ, rank, kept]
    · simp [rank_succ, rank, kept]; omega

theorem rank_blocks {f : Nat → Bool} {Z : Nat} (q : Nat) : rank (fun p => f (p / Z)) (q * Z) = Z * rank f q := by
  induction q with
  | zero => simp [rank, kept]
  | succ q ih =>
    rw [Nat.succ_mul, rank_add, ih, rank_succ, Nat.mul_add]
    congr 1
    rw [rank_congr (k2 := fun _ => f q)]
    · cases f q
      · rw [rank_false]; simp
      · rw [rank_true]; simp
    · intro p hp
      have : (q * Z + p) / Z = q := by
        rw [Nat.mul_comm, Nat.mul_add_div (by omega), Nat.div_eq_of_lt hp, Nat.add_zero]
      rw [this]

theorem rank_periodic {f : Nat → Bool} {per : Nat} (q : Nat) : rank (fun p => f (p % per)) (q * per) = q * rank f per := by
  induction q with
  | zero => simp [rank, kept]
  | succ q ih =>
    rw [Nat.succ_mul, rank_add, ih, Nat.succ_mul]
    congr 1
    apply rank_congr
    intro p hp
    rw [Nat.mul_comm, Nat.mul_add_mod, Nat.mod_eq_of_lt hp]

/-! ## Turbo -/

/-- The position in the pattern is the turn number modulo the period. -/
theorem forN_period {σ : Type _} {n per : Nat} {g : Nat → Nat → σ → Exec σ} {s : σ} :
    forN n (fun i (s : Nat × σ) => g i s.1 s.2 >>= fun t => ok ((s.1 + 1) % per, t)) (0, s) =
      forN n (fun i s => g i (i % per) s) s >>= fun t => ok (if n = 0 then 0 else n % per, t) := by
  induction n with
  | zero => rfl
  | succ n ih =>
    rw [forN_succ, ih, forN_succ, bind_assoc', bind_assoc']
    congr 1
    funext t
    rw [bind_ok]
    simp only
    have e : (if n = 0 then 0 else n % per) = n % per := by
      split
      · subst_vars; rw [Nat.zero_mod]
      · rfl
    rw [e]
    congr 1
    funext t
    rw [if_neg (by omega), Nat.mod_add_mod]

theorem bit_eq {pat : List (List Bool)} {j p : Nat} (hj : j < pat.length) (hp : p < (pat.getD j []).length) :
    bit pat j p = ok ((pat.getD j []).getD p false) := by
  unfold bit
  rw [rd_lt hj, bind_ok]
  rw [getD_lt _ hj] at hp ⊢
  exact bitAt hp

theorem forN_three {σ : Type _} {f : Nat → σ → Exec σ} {s : σ} : forN 3 f s = f 0 s >>= fun s => f 1 s >>= fun s => f 2 s := by
  rw [show (3 : Nat) = 2 + 1 from rfl, forN_succ, show (2 : Nat) = 1 + 1 from rfl, forN_succ, show (1 : Nat) = 0 + 1 from rfl, forN_succ]
  rw [bind_assoc', bind_assoc', forN_zero, bind_ok]

/-- One turn of the interleaved loops, with the action on a value as a parameter. -/
def genTurn {σ : Type _} (st : Bool → Nat → σ → Exec σ) (pat : List (List Bool)) (i : Nat) (s : Nat × σ) : Exec (Nat × σ) :=
  bit pat 0 s.1 >>= fun b0 => st b0 (i * 3 + 0) s.2 >>= fun t =>
  bit pat 1 s.1 >>= fun b1 => st b1 (i * 3 + 1) t >>= fun t =>
  bit pat 2 s.1 >>= fun b2 => st b2 (i * 3 + 2) t >>= fun t => ok ((s.1 + 1) % period pat, t)

/-- One turn of the buffered loops. -/
def genBufTurn {σ : Type _} (st : Bool → Nat → σ → Exec σ) (pat : List (List Bool)) (j o : Nat) (i : Nat) (s : Nat × σ) :
    Exec (Nat × σ) :=
  bit pat j s.1 >>= fun b => st b (o + i) s.2 >>= fun t => ok ((s.1 + 1) % period pat, t)

/-- One row of the buffered loops. -/
def genBufRow {σ : Type _} (st : Bool → Nat → σ → Exec σ) (K tail : Nat) (pat : List (List Bool)) (j : Nat) (s : σ) :
    Exec σ := do
  let t ← forN K (genBufTurn st pat j (off K tail j)) (0, s)
  forN (tailLen tail j) (fun i => st true (off K tail j + K + i)) t.2

/-- The pattern has three rows of the same positive length. -/
structure PatOk (pat : List (List Bool)) : Prop where
  three : pat.length = 3
  row : ∀ j, j < 3 → (pat.getD j []).length = period pat
  pos : 0 < period pat

theorem streamKeep_lt {K : Nat} {pat : List (List Bool)} {j i : Nat} (h : i < K) :
    streamKeep K pat j i = (pat.getD j []).getD (i % period pat) false := by
  unfold streamKeep; rw [if_pos h]; rfl

theorem turbo_run {σ : Type _} {st : Bool → Nat → σ → Exec σ} {pat : List (List Bool)} (hp : PatOk pat) {K tail : Nat} {s : σ} :
    (forN K (genTurn st pat) (0, s) >>= fun t => forN tail (fun i => st true (3 * K + i)) t.2) =
      forN (K * 3 + tail) (fun p => st (turboKeep false K tail pat p) p) s := by
  have h1 : forN K (genTurn st pat) (0, s) = forN K (fun i s => forN 3 (fun q => st (streamKeep K pat q i) (i * 3 + q)) s) s >>=
      fun t => ok (if K = 0 then 0 else K % period pat, t) := by
    have e : ∀ i (s : Nat × σ), i < K → genTurn st pat i s = (forN 3 (fun q s' => bit pat q s.1 >>= fun b => st b (i * 3 + q) s') s.2 >>=
        fun t => ok ((s.1 + 1) % period pat, t)) := by
      intro i s _
      rw [forN_three]
      unfold genTurn
      simp only [bind_assoc']
    rw [forN_congr (fun i s hi => e i s hi),
      forN_period (g := fun i p s => forN 3 (fun q s' => bit pat q p >>= fun b => st b (i * 3 + q) s') s)]
    congr 1
    apply forN_congr
    intro i s hi
    apply forN_congr
    intro q s hq
    rw [bit_eq (by rw [hp.three]; exact hq) (by rw [hp.row q hq]; exact Nat.mod_lt _ hp.pos), bind_ok, streamKeep_lt hi]
  rw [h1, bind_assoc', forN_add, forN_nested]
  simp only [bind_ok]
  have e1 : ∀ p s, p < K * 3 → st (streamKeep K pat (p % 3) (p / 3)) (p / 3 * 3 + p % 3) s = st (turboKeep false K tail pat p) p s := by
    intro p s hlt
    have : p / 3 * 3 + p % 3 = p := by omega
    rw [this]
    unfold turboKeep
    rw [if_neg (by decide), if_pos (by omega)]
  rw [forN_congr (fun p s hlt => e1 p s hlt)]
  congr 1
  funext s
  apply forN_congr
  intro i s hi
  have : turboKeep false K tail pat (K * 3 + i) = true := by
    unfold turboKeep
    rw [if_neg (by decide), if_neg (by omega)]
  rw [this, Nat.mul_comm 3 K]

theorem bufRow_run {σ : Type _} {st : Bool → Nat → σ → Exec σ} {pat : List (List Bool)} (hp : PatOk pat) {K tail j : Nat} (hj : j < 3)
    {s : σ} :
    genBufRow st K tail pat j s = forN (K + tailLen tail j) (fun i => st (streamKeep K pat j i) (off K tail j + i)) s := by
  have h1 : forN K (genBufTurn st pat j (off K tail j)) (0, s) =
      forN K (fun i s => st (streamKeep K pat j i) (off K tail j + i) s) s >>= fun t => ok (if K = 0 then 0 else K % period pat, t) := by
    have e : ∀ i (s : Nat × σ), i < K → genBufTurn st pat j (off K tail j) i s =
        ((fun i p s => bit pat j p >>= fun b => st b (off K tail j + i) s) i s.1 s.2 >>= fun t => ok ((s.1 + 1) % period pat, t)) := by
      intro i s _
      unfold genBufTurn
      simp only [bind_assoc']
    rw [forN_congr (fun i s hi => e i s hi), forN_period (g := fun i p s => bit pat j p >>= fun b => st b (off K tail j + i) s)]
    congr 1
    apply forN_congr
    intro i s hi
    rw [bit_eq (by rw [hp.three]; exact hj) (by rw [hp.row j hj]; exact Nat.mod_lt _ hp.pos), bind_ok, streamKeep_lt hi]
  unfold genBufRow
  rw [h1, bind_assoc', forN_add]
  simp only [bind_ok]
  congr 1
  funext s
  apply forN_congr
  intro i s hi
  have : streamKeep K pat j (K + i) = true := by unfold streamKeep; rw [if_neg (by omega)]
  rw [this, Nat.add_assoc]

theorem turboBuf_run {σ : Type _} {st : Bool → Nat → σ → Exec σ} {pat : List (List Bool)} (hp : PatOk pat) {K tail : Nat}
    (ht : tail % 4 = 0) {s : σ} :
    forN 3 (genBufRow st K tail pat) s = forN (K * 3 + tail) (fun p => st (turboKeep true K tail pat p) p) s := by
  have hsum : K * 3 + tail = (K + tailLen tail 0) + ((K + tailLen tail 1) + (K + tailLen tail 2)) := by
    simp only [tailLen, if_pos, if_neg (show ¬ (1 : Nat) = 0 by decide), if_neg (show ¬ (2 : Nat) = 0 by decide),
      if_neg (show ¬ (2 : Nat) = 1 by decide)]
    omega
  rw [hsum, forN_add]
  have key : ∀ j o n, j < 3 → o = off K tail j → n = K + tailLen tail j →
      (∀ i, i < n → turboKeep true K tail pat (o + i) = streamKeep K pat j i) →
      ∀ s, genBufRow st K tail pat j s = forN n (fun i => st (turboKeep true K tail pat (o + i)) (o + i)) s := by
    rintro j o n hj rfl rfl h s
    rw [bufRow_run hp hj]
    apply forN_congr
    intro i s hi
    rw [h i hi]
  have t0 : tailLen tail 0 = tail / 4 := rfl
  have t1 : tailLen tail 1 = tail / 2 := rfl
  have t2 : tailLen tail 2 = tail / 4 := rfl
  have o0 : off K tail 0 = 0 := rfl
  have o1 : off K tail 1 = K + tail / 4 := rfl
  have o2 : off K tail 2 = K * 3 + tail - (K + tail / 4) := rfl
  have k0 := key 0 0 (K + tailLen tail 0) (by decide) rfl rfl (by
    intro i hi
    unfold turboKeep
    rw [if_pos rfl, if_pos (by omega), Nat.zero_add])
  have k1 := key 1 (K + tailLen tail 0) (K + tailLen tail 1) (by decide) (by omega) rfl (by
    intro i hi
    unfold turboKeep
    rw [if_pos rfl, if_neg (by omega), if_pos (by omega)]
    congr 1; omega)
  have k2 := key 2 (K + tailLen tail 0 + (K + tailLen tail 1)) (K + tailLen tail 2) (by decide) (by omega) rfl (by
    intro i hi
    unfold turboKeep
    rw [if_pos rfl, if_neg (by omega), if_neg (by omega)]
    congr 1; omega)
  rw [forN_three, k0]
  simp only [Nat.zero_add]
  congr 1
  funext s
  rw [forN_add, k1]
  congr 1
  funext s
  rw [k2]
  apply forN_congr
  intro i s _
  rw [Nat.add_assoc]

/-- Number of transmitted values of the streams. -/
theorem rank_stream (K : Nat) (pat : List (List Bool)) (j t : Nat) :
    rank (streamKeep K pat j) (K + t) = rank (fun i => (pat.getD j []).getD (i % period pat) false) K + t := by
  rw [rank_add]
  congr 1
  · exact rank_congr fun p hp => streamKeep_lt hp
  · rw [rank_congr (k2 := fun _ => true), rank_true]
    intro p _
    unfold streamKeep
    rw [if_neg (by omega)]

theorem rank_turbo {K tail : Nat} {pat : List (List Bool)} {buffered : Bool} (ht : buffered = true → tail % 4 = 0) :
    rank (turboKeep buffered K tail pat) (K * 3 + tail) =
      rank (fun i => (pat.getD 0 []).getD (i % period pat) false) K + rank (fun i => (pat.getD 1 []).getD (i % period pat) false) K +
      rank (fun i => (pat.getD 2 []).getD (i % period pat) false) K + tail := by
  cases buffered
  · rw [rank_add]
    congr 1
    · have h : ∀ n, n ≤ K → rank (turboKeep false K tail pat) (n * 3) =
          rank (fun i => (pat.getD 0 []).getD (i % period pat) false) n + rank (fun i => (pat.getD 1 []).getD (i % period pat) false) n +
          rank (fun i => (pat.getD 2 []).getD (i % period pat) false) n := by
        intro n
        induction n with
        | zero => intro _; rfl
        | succ n ih =>
          intro hn
          have hq : ∀ q, q < 3 → turboKeep false K tail pat (n * 3 + q) = (pat.getD q []).getD (n % period pat) false := by
            intro q hq
            unfold turboKeep
            rw [if_neg (by decide), if_pos (by omega), show (n * 3 + q) % 3 = q by omega, show (n * 3 + q) / 3 = n by omega,
              streamKeep_lt (by omega)]
          rw [show (n + 1) * 3 = n * 3 + 0 + 1 + 1 + 1 by omega, rank_succ, rank_succ, rank_succ, rank_succ, rank_succ, rank_succ]
          have h0 : turboKeep false K tail pat (n * 3) = (pat.getD 0 []).getD (n % period pat) false := hq 0 (by decide)
          have h1 := hq 1 (by decide)
          have h2 := hq 2 (by decide)
          rw [show n * 3 + 0 + 1 + 1 = n * 3 + 2 by omega, h2, show n * 3 + 0 + 1 = n * 3 + 1 by omega, h1, h0,
            ih (by omega)]
          omega
      exact h K (Nat.le_refl _)
    · rw [rank_congr (k2 := fun _ => true), rank_true]
      intro p _
      unfold turboKeep
      rw [if_neg (by decide), if_neg (by omega)]
  · have ht := ht rfl
    rw [show K * 3 + tail = (K + tail / 4) + ((K + tail / 2) + (K + tail / 4)) by omega, rank_add _ (K + tail / 4), rank_add _ (K + tail / 2)]
    have e0 : rank (turboKeep true K tail pat) (K + tail / 4) = rank (streamKeep K pat 0) (K + tail / 4) := by
      apply rank_congr
      intro p hp
      unfold turboKeep
      rw [if_pos rfl, if_pos hp]
    have e1 : rank (fun p => turboKeep true K tail pat (K + tail / 4 + p)) (K + tail / 2) = rank (streamKeep K pat 1) (K + tail / 2) := by
      apply rank_congr
      intro p hp
      unfold turboKeep
      rw [if_pos rfl, if_neg (by omega), if_pos (by omega)]
      congr 1; omega
    have e2 : rank (fun p => turboKeep true K tail pat (K + tail / 4 + (K + tail / 2 + p))) (K + tail / 4) =
        rank (streamKeep K pat 2) (K + tail / 4) := by
      apply rank_congr
      intro p hp
      unfold turboKeep
      rw [if_pos rfl, if_neg (by omega), if_neg (by omega)]
      congr 1; omega
    rw [e0, e1, e2, rank_stream, rank_stream, rank_stream]
    omega

theorem filter_full {l : List Bool} (h : (l.filter (· = true)).length = l.length) : ∀ i, i < l.length → l.getD i false = true := by
  intro i hi
  have := List.length_filter_eq_length_iff.mp h
  have := this _ (List.getElem_mem hi)
  rw [getD_lt _ hi]
  simpa using this

theorem turboCtor_spec {K N tail : Int} {pat : List (List Bool)} (h : turboCtor K N tail pat = ok ()) :
    0 < K ∧ 0 < N ∧ 0 ≤ tail ∧ PatOk pat ∧
      ∀ buffered, (buffered = true → tail % 4 = 0) → rank (turboKeep buffered K.toNat tail.toNat pat) (K.toNat * 3 + tail.toNat) = N.toNat := by
  unfold turboCtor baseCtor at h
  by_cases a1 : K ≤ 0
  · rw [if_pos a1] at h; cases h
  rw [if_neg a1] at h
  by_cases a2 : N ≤ 0
  · rw [if_pos a2] at h; cases h
  rw [if_neg a2] at h
  by_cases a3 : K * 3 + tail ≤ 0
  · rw [if_pos a3] at h; cases h
  rw [if_neg a3] at h
  by_cases a4 : K > N
  · rw [if_pos a4] at h; cases h
  rw [if_neg a4] at h
  by_cases a5 : N > K * 3 + tail
  · rw [if_pos a5] at h; cases h
  rw [if_neg a5, bind_ok] at h
  by_cases a6 : tail < 0
  · rw [if_pos a6] at h; cases h
  rw [if_neg a6] at h
  unfold computeN checkPattern at h
  by_cases a7 : pat.length ≠ 3
  · rw [if_pos a7] at h; cases h
  rw [if_neg a7] at h
  by_cases a8 : (pat.getD 0 []).length ≠ (pat.getD 1 []).length ∨ (pat.getD 0 []).length ≠ (pat.getD 2 []).length
  · rw [if_pos a8] at h; cases h
  rw [if_neg a8] at h
  by_cases a9 : ¬ bitCount pat = period pat * pat.length ∧ K.tmod (period pat) ≠ 0
  · rw [if_pos a9] at h; cases h
  rw [if_neg a9, bind_ok] at h
  by_cases a10 : period pat ≠ 0
  swap
  · rw [if_neg a10, bind_ok] at h
    rw [if_pos (by omega)] at h; cases h
  rw [if_pos a10, bind_ok] at h
  have hN : N = (K * bitCount pat).tdiv (period pat) + tail := by
    by_contra hne
    rw [if_pos hne] at h; cases h
  obtain ⟨r0, r1, r2, rfl⟩ : ∃ r0 r1 r2, pat = [r0, r1, r2] := List.length_eq_three.mp (by omega)
  focus
    have l1 : r0.length = r1.length := by
      by_contra hc; exact a8 (Or.inl (by simpa using hc))
    have l2 : r0.length = r2.length := by
      by_contra hc; exact a8 (Or.inr (by simpa using hc))
    have hper : period [r0, r1, r2] = r0.length := rfl
    have hbc : bitCount [r0, r1, r2] = (r0.filter (· = true)).length + ((r1.filter (· = true)).length + (r2.filter (· = true)).length) := by
      simp [bitCount]
    have ok3 : PatOk [r0, r1, r2] := by
      refine ⟨rfl, fun j hj => ?_, by omega⟩
      rw [hper]
      rcases (show j = 0 ∨ j = 1 ∨ j = 2 by omega) with rfl | rfl | rfl
      · rfl
      · exact l1.symm
      · exact l2.symm
    refine ⟨by omega, by omega, by omega, ok3, fun buffered hb => ?_⟩
    rw [rank_turbo (fun hh => by have := hb hh; omega)]
    have g0 : ([r0, r1, r2] : List (List Bool)).getD 0 [] = r0 := rfl
    have g1 : ([r0, r1, r2] : List (List Bool)).getD 1 [] = r1 := rfl
    have g2 : ([r0, r1, r2] : List (List Bool)).getD 2 [] = r2 := rfl
    rw [g0, g1, g2, hper]
    rw [hper, hbc] at hN a9
    rw [hper] at a10
    have hN' : N.toNat = (K.toNat * ((r0.filter (· = true)).length + ((r1.filter (· = true)).length + (r2.filter (· = true)).length))) / r0.length + tail.toNat := by
      have hK : K = (K.toNat : Int) := by omega
      have e1 : K * ((((r0.filter (· = true)).length + ((r1.filter (· = true)).length + (r2.filter (· = true)).length)) : Nat) : Int) =
          ((K.toNat * ((r0.filter (· = true)).length + ((r1.filter (· = true)).length + (r2.filter (· = true)).length)) : Nat) : Int) := by
        rw [Int.natCast_mul, ← hK]
      rw [e1, ← Int.ofNat_tdiv] at hN
      omega
    rw [hN']
    congr 1
    have f0 := List.length_filter_le (fun b => decide (b = true)) r0
    have f1 := List.length_filter_le (fun b => decide (b = true)) r1
    have f2 := List.length_filter_le (fun b => decide (b = true)) r2
    have hcnt : ∀ r : List Bool, r.length = r0.length →
        (K.toNat % r0.length = 0 → rank (fun i => r.getD (i % r0.length) false) K.toNat = K.toNat / r0.length * (r.filter (· = true)).length) ∧
        ((r.filter (· = true)).length = r.length → rank (fun i => r.getD (i % r0.length) false) K.toNat = K.toNat) := by
      intro r hr
      constructor
      · intro hd
        have hK : K.toNat = K.toNat / r0.length * r0.length := (Nat.div_mul_cancel (Nat.dvd_of_mod_eq_zero hd)).symm
        conv_lhs => rw [hK]
        rw [rank_periodic (f := fun i => r.getD i false), ← hr, rank_list]
      · intro hf
        rw [rank_congr (k2 := fun _ => true), rank_true]
        intro p _
        exact filter_full hf _ (by rw [hr]; exact Nat.mod_lt _ (by omega))
    by_cases hall : (r0.filter (· = true)).length + ((r1.filter (· = true)).length + (r2.filter (· = true)).length) = r0.length * 3
    · rw [(hcnt r0 rfl).2 (by omega), (hcnt r1 l1.symm).2 (by omega), (hcnt r2 l2.symm).2 (by omega), hall,
        show K.toNat * (r0.length * 3) = r0.length * (K.toNat * 3) by rw [Nat.mul_left_comm], Nat.mul_div_cancel_left _ (by omega)]
      omega
    · have hmod : K.toNat % r0.length = 0 := by
        have : K.tmod (r0.length : Int) = 0 := by
          by_contra hc
          exact a9 ⟨hall, hc⟩
        have hK : K = (K.toNat : Int) := by omega
        rw [hK, ← Int.ofNat_tmod] at this
        omega
      rw [(hcnt r0 rfl).1 hmod, (hcnt r1 l1.symm).1 hmod, (hcnt r2 l2.symm).1 hmod]
      obtain ⟨q, hq⟩ := Nat.dvd_of_mod_eq_zero hmod
      rw [hq, Nat.mul_div_cancel_left _ (by omega), Nat.mul_assoc, Nat.mul_div_cancel_left _ (by omega), Nat.mul_add, Nat.mul_add]
      omega

/-! ## Double-binary turbo -/

theorem putList_append (x : List α) (b : Nat) (l1 l2 : List Nat) (s : Nat × List α) :
    putList x b (l1 ++ l2) s = putList x b l1 s >>= putList x b l2 := by
  induction l1 generalizing s with
  | nil => rfl
  | cons c l1 ih =>
    simp only [List.cons_append, putList]
    rw [bind_assoc']
    congr 1
    funext t
    exact ih t

theorem getList_append (y : List α) (b : Nat) (l1 l2 : List Nat) (s : Nat × List α) :
    getList y b (l1 ++ l2) s = getList y b l1 s >>= getList y b l2 := by
  induction l1 generalizing s with
  | nil => rfl
  | cons c l1 ih =>
    simp only [List.cons_append, getList]
    rw [bind_assoc']
    congr 1
    funext t
    exact ih t

theorem putList_filter (x : List α) (b n : Nat) (k : Nat → Bool) (s : Nat × List α) :
    putList x b (kept k n) s = forN n (fun q => putIf (k q) x (b + q)) s := by
  induction n with
  | zero => rfl
  | succ n ih =>
    rw [kept_succ, putList_append, ih, forN_succ]
    congr 1
    funext t
    cases h : k n
    · rfl
    · simp only [if_true, putList, putIf]
      cases put x (b + n) t <;> rfl

theorem getList_filter (y : List α) (b n : Nat) (k : Nat → Bool) (s : Nat × List α) :
    getList y b (kept k n) s = forN n (fun q => getIf (k q) y (b + q)) s := by
  induction n with
  | zero => rfl
  | succ n ih =>
    rw [kept_succ, getList_append, ih, forN_succ]
    congr 1
    funext t
    cases h : k n
    · rfl
    · simp only [if_true, getList, getIf]
      cases get y (b + n) t <;> rfl

theorem offsets_eq (r : Rate) : r.offsets = kept (fun q => decide (q ∈ r.offsets)) r.step := by
  cases r <;> decide +kernel

/-- Positions visited after the whole streams. -/
def dbM (r : Rate) (K : Nat) : Nat := (K + r.step - 1) / r.step * r.step

theorem dbKeep_eq (r : Rate) (K p : Nat) (hp : p < 3 * K) :
    dbKeep r K p = decide (p < r.whole * K ∨ (p - r.whole * K < dbM r K ∧ (p - r.whole * K) % r.step ∈ r.offsets)) := by
  cases r <;> simp only [dbKeep, Rate.whole, Rate.offsets, dbM, Rate.step, span, List.not_mem_nil, and_false, or_false, Nat.one_mul]
  case r13 => simp [hp]
  all_goals rfl

theorem db_put_loop (r : Rate) (K : Nat) (x : List α) (s : Nat × List α) :
    forN ((K + r.step - 1) / r.step) (fun t => putList x (r.whole * K + t * r.step) r.offsets) s =
      forN (dbM r K) (fun q => putIf (decide (q % r.step ∈ r.offsets)) x (r.whole * K + q)) s := by
  have : ∀ t s, t < (K + r.step - 1) / r.step → putList x (r.whole * K + t * r.step) r.offsets s =
      forN r.step (fun q => putIf (decide (q ∈ r.offsets)) x (r.whole * K + t * r.step + q)) s := by
    intro t s _
    conv_lhs => rw [offsets_eq r]
    exact putList_filter _ _ _ _ _
  rw [forN_congr (fun t s ht => this t s ht), forN_nested]
  apply forN_congr
  intro q s _
  have : r.whole * K + q / r.step * r.step + q % r.step = r.whole * K + q := by
    rw [Nat.add_assoc, Nat.mul_comm (q / r.step), Nat.div_add_mod]
  rw [this]

theorem db_get_loop (r : Rate) (K : Nat) (y : List α) (s : Nat × List α) :
    forN ((K + r.step - 1) / r.step) (fun t => getList y (r.whole * K + t * r.step) r.offsets) s =
      forN (dbM r K) (fun q => getIf (decide (q % r.step ∈ r.offsets)) y (r.whole * K + q)) s := by
  have : ∀ t s, t < (K + r.step - 1) / r.step → getList y (r.whole * K + t * r.step) r.offsets s =
      forN r.step (fun q => getIf (decide (q ∈ r.offsets)) y (r.whole * K + t * r.step + q)) s := by
    intro t s _
    conv_lhs => rw [offsets_eq r]
    exact getList_filter _ _ _ _ _
  rw [forN_congr (fun t s ht => this t s ht), forN_nested]
  apply forN_congr
  intro q s _
  have : r.whole * K + q / r.step * r.step + q % r.step = r.whole * K + q := by
    rw [Nat.add_assoc, Nat.mul_comm (q / r.step), Nat.div_add_mod]
  rw [this]

/-- The looped positions, cut at the end of the codeword (the cut is empty unless nothing is looped over). -/
theorem db_cut (r : Rate) (K : Nat) (h : dbEnd r K ≤ 3 * K) {σ : Type _} (f : Bool → Nat → σ → Exec σ)
    (hf : ∀ p s, f false p s = ok s) (s : σ) :
    forN (dbM r K) (fun q => f (decide (q % r.step ∈ r.offsets)) (r.whole * K + q)) s =
      forN (3 * K - r.whole * K) (fun q => f (dbKeep r K (r.whole * K + q)) (r.whole * K + q)) s := by
  have hk : ∀ q, q < 3 * K - r.whole * K → dbKeep r K (r.whole * K + q) = decide (q < dbM r K ∧ q % r.step ∈ r.offsets) := by
    intro q hq
    rw [dbKeep_eq r K _ (by omega), Nat.add_sub_cancel_left]
    congr 1
    have : ¬ r.whole * K + q < r.whole * K := by omega
    simp only [this, false_or]
  by_cases h0 : r.offsets = []
  · rw [forN_id (fun q s _ => by simp [h0, hf]), forN_id fun q s hq => by rw [hk q hq]; simp [h0, hf]]
  · have hle : dbM r K ≤ 3 * K - r.whole * K := by
      cases r <;> simp [dbEnd, dbM, Rate.step, Rate.whole, Rate.offsets, span] at * <;> omega
    rw [show 3 * K - r.whole * K = dbM r K + (3 * K - r.whole * K - dbM r K) by omega, forN_add]
    have e : ∀ s, forN (3 * K - r.whole * K - dbM r K) (fun q => f (dbKeep r K (r.whole * K + (dbM r K + q))) (r.whole * K + (dbM r K + q))) s = ok s := by
      intro s
      apply forN_id
      intro q s hq
      have : decide (dbM r K + q < dbM r K ∧ (dbM r K + q) % r.step ∈ r.offsets) = false :=
        decide_eq_false (fun hh => by omega)
      rw [hk _ (by omega), this, hf]
    beta_reduce
    rw [show forN (3 * K - r.whole * K - dbM r K) (fun i => f (dbKeep r K (r.whole * K + (dbM r K + i))) (r.whole * K + (dbM r K + i))) = ok
      from funext e]
    rw [show ∀ z : Exec σ, (z >>= ok) = z from fun z => by cases z <;> rfl]
    apply forN_congr
    intro q s hq
    rw [hk q (by omega)]
    simp only [hq, true_and]

theorem whole_le (r : Rate) (K : Nat) : r.whole * K ≤ 3 * K := Nat.mul_le_mul_right _ (by cases r <;> decide)

theorem db_puncture {r : Rate} {K : Nat} (h : dbEnd r K ≤ 3 * K) (x out : List α) :
    dbPuncture r K x out = (forN (3 * K) (fun p => putIf (dbKeep r K p) x p) (0, out) >>= fun s => ok s.2) := by
  have hw := whole_le r K
  unfold dbPuncture
  have e : forN (3 * K) (fun p => putIf (dbKeep r K p) x p) (0, out) =
      forN (r.whole * K) (fun i => put x i) (0, out) >>= fun s =>
        forN ((K + r.step - 1) / r.step) (fun t => putList x (r.whole * K + t * r.step) r.offsets) s := by
    conv_lhs => rw [show 3 * K = r.whole * K + (3 * K - r.whole * K) by omega]
    rw [forN_add]
    congr 1
    · apply forN_congr
      intro p s hp
      rw [dbKeep_eq r K p (by omega)]
      simp [hp, putIf]
    · funext s
      rw [db_put_loop, db_cut r K h (fun b p => putIf b x p) (fun p s => rfl)]
  rw [e, bind_assoc']

theorem db_depuncture {zero : α} {r : Rate} {K N : Nat} (h : dbEnd r K ≤ 3 * K) (hN : rank (dbKeep r K) (3 * K) = N)
    (y out : List α) (hy : y.length = N) (ho : out.length = 3 * K) :
    (dbDepuncture zero r K y out).Sat fun o => o.length = 3 * K ∧
      (∀ p, p < 3 * K → dbKeep r K p = true → o[p]? = y[rank (dbKeep r K) p]?) ∧
      ∀ p, p < 3 * K → dbKeep r K p = false → o[p]? = some zero := by
  have hw := whole_le r K
  have hkw : ∀ p, p < r.whole * K → dbKeep r K p = true := by
    intro p hp
    rw [dbKeep_eq r K p (by omega)]
    simp [hp]
  have hrw : ∀ p, p ≤ r.whole * K → rank (dbKeep r K) p = p := by
    intro p hp
    rw [rank_congr (k2 := fun _ => true), rank_true]
    intro q hq
    exact hkw q (by omega)
  have hadd := rank_add (dbKeep r K) (r.whole * K)
  have hN' := hadd (3 * K - r.whole * K)
  rw [show r.whole * K + (3 * K - r.whole * K) = 3 * K by omega, hN, hrw _ (Nat.le_refl _)] at hN'
  unfold dbDepuncture
  obtain ⟨⟨k1, o1⟩, f1, f2, f3, f4, -, f5⟩ := get_run (keep := fun _ => true) (y := y) (out := out) (n := r.whole * K) (k := 0)
    (step := fun i => get y i) (e := fun _ => none) (by rw [rank_true]; omega) (by omega) (fun _ _ _ _ => rfl) (fun _ _ _ hh => by cases hh)
  rw [f1, bind_ok]
  simp only at f2 f3 f4 f5 ⊢
  have hfill : (forN (3 * K - r.whole * K) (fun i o => wr o (r.whole * K + i) zero) o1).Sat fun o => o.length = 3 * K ∧
      (∀ p : Nat, p < r.whole * K → o[p]? = o1[p]?) ∧ ∀ p : Nat, r.whole * K ≤ p → p < 3 * K → o[p]? = some zero := by
    refine (forN_inv (fun m (o : List α) => o.length = 3 * K ∧ (∀ p : Nat, p < r.whole * K → o[p]? = o1[p]?) ∧
      ∀ p : Nat, r.whole * K ≤ p → p < r.whole * K + m → o[p]? = some zero) ⟨by omega, fun _ _ => rfl, fun p _ _ => by omega⟩ ?_).mono ?_
    · rintro m o hm ⟨g1, g2, g3⟩
      rw [wr_lt (by omega)]
      refine sat_ok.mpr ⟨by simpa using g1, fun p hp => ?_, fun p h1 h2 => ?_⟩
      · rw [List.getElem?_set_ne (by omega), g2 p hp]
      · by_cases e : p = r.whole * K + m
        · subst e; rw [List.getElem?_set_self (by omega)]
        · rw [List.getElem?_set_ne (by omega), g3 p h1 (by omega)]
    · rintro o ⟨g1, g2, g3⟩
      exact ⟨g1, g2, fun p h1 h2 => g3 p h1 (by omega)⟩
  obtain ⟨o2, g0, g1, g2, g3⟩ := hfill
  rw [g0, bind_ok, db_get_loop, db_cut r K h (fun b p => getIf b y p) (fun p s => rfl)]
  have hrun : (forN (3 * K - r.whole * K) (fun q => getIf (dbKeep r K (r.whole * K + q)) y (r.whole * K + q)) (k1, o2)).Sat
      fun s => s.2.length = 3 * K ∧ (∀ p : Nat, p < r.whole * K → s.2[p]? = o2[p]?) ∧
        ∀ q : Nat, q < 3 * K - r.whole * K → s.2[r.whole * K + q]? =
          if dbKeep r K (r.whole * K + q) then y[rank (dbKeep r K) (r.whole * K + q)]? else some zero := by
    refine (forN_inv (fun m (s : Nat × List α) => s.1 = rank (dbKeep r K) (r.whole * K + m) ∧ s.2.length = 3 * K ∧
      (∀ p : Nat, p < r.whole * K → s.2[p]? = o2[p]?) ∧ (∀ q : Nat, q < m → s.2[r.whole * K + q]? =
          if dbKeep r K (r.whole * K + q) then y[rank (dbKeep r K) (r.whole * K + q)]? else some zero) ∧
      ∀ q : Nat, m ≤ q → q < 3 * K - r.whole * K → s.2[r.whole * K + q]? = some zero)
      ⟨?_, g1, fun _ _ => rfl, fun q hq => by omega, fun q _ hq => g3 _ (by omega) (by omega)⟩ ?_).mono ?_
    · simp only [Nat.add_zero]; rw [hrw _ (Nat.le_refl _), f2, rank_true]; rfl
    · rintro m ⟨k, o⟩ hm ⟨i1, i2, i3, i4, i5⟩
      simp only at i1 i2 i3 i4 i5
      have hs := rank_succ (dbKeep r K) (r.whole * K + m)
      rw [Nat.add_assoc] at hs
      unfold getIf
      cases hk : dbKeep r K (r.whole * K + m)
      · rw [if_neg (by decide)]
        rw [hk, if_neg (by decide)] at hs
        refine sat_ok.mpr ⟨by simp only; omega, i2, i3, fun q hq => ?_, fun q h1 h2 => i5 q (by omega) h2⟩
        by_cases e : q = m
        · subst e; simp only; rw [hk, if_neg (by decide), i5 q (Nat.le_refl _) hm]
        · exact i4 q (by omega)
      · rw [hk, if_pos rfl] at hs
        have hlt := rank_lt (dbKeep r K) (show r.whole * K + m < 3 * K by omega) hk
        rw [if_pos rfl]
        unfold get
        rw [rd_lt (by simp only; omega), bind_ok, wr_lt (by simp only; omega), bind_ok]
        refine sat_ok.mpr ⟨by simp only; omega, by simpa using i2, fun p hp => ?_, fun q hq => ?_, fun q h1 h2 => ?_⟩
        · simp only; rw [List.getElem?_set_ne (by omega), i3 p hp]
        · by_cases e : q = m
          · subst e; simp only; rw [hk, if_pos rfl, List.getElem?_set_self (by omega), ← List.getElem?_eq_getElem, i1]
          · simp only; rw [List.getElem?_set_ne (by omega)]; exact i4 q (by omega)
        · simp only; rw [List.getElem?_set_ne (by omega), i5 q (by omega) h2]
    · rintro s ⟨-, i2, i3, i4, -⟩
      exact ⟨i2, i3, i4⟩
  obtain ⟨s, e0, e1, e2, e3⟩ := hrun
  rw [e0, bind_ok]
  refine sat_ok.mpr ⟨e1, fun p hp hk => ?_, fun p hp hk => ?_⟩
  · by_cases hlt : p < r.whole * K
    · rw [e2 p hlt, g2 p hlt, f4 p hlt trivial, rank_true, hrw p (by omega), Nat.add_zero]
    · have := e3 (p - r.whole * K) (by omega)
      rw [show r.whole * K + (p - r.whole * K) = p by omega, hk, if_pos rfl] at this
      exact this
  · have hlt : ¬ p < r.whole * K := fun hh => by rw [hkw p hh] at hk; cases hk
    have := e3 (p - r.whole * K) (by omega)
    rw [show r.whole * K + (p - r.whole * K) = p by omega, hk, if_neg (by decide)] at this
    exact this

end

end Verif.Puncturer
