import Verif.Prelude.Loops
import Verif.Model.Repetition
import Verif.Spec.Repetition

/-! # Repetition code: proofs -/

namespace Verif.Repetition
open Exec

theorem pos_lt {K rep : Nat} {b : Bool} {k r : Nat} (hk : k < K) (hr : r ≤ rep) : pos K rep b k r < K * (rep + 1) := by
  unfold pos; cases b
  · simp only [Bool.false_eq_true, if_false]
    have : (k + 1) * (rep + 1) ≤ K * (rep + 1) := Nat.mul_le_mul_right _ hk
    rw [Nat.succ_mul] at this; omega
  · simp only [if_true]
    have : (r + 1) * K ≤ (rep + 1) * K := Nat.mul_le_mul_right _ (by omega)
    rw [Nat.succ_mul, Nat.mul_comm (rep + 1)] at this; omega

theorem exists_pos {K rep j : Nat} (b : Bool) (hj : j < K * (rep + 1)) : ∃ k r, k < K ∧ r ≤ rep ∧ j = pos K rep b k r := by
  have hK : 0 < K := by
    rcases Nat.eq_zero_or_pos K with h | h
    · subst h; omega
    · exact h
  unfold pos; cases b
  · refine ⟨j / (rep + 1), j % (rep + 1), (Nat.div_lt_iff_lt_mul (by omega)).mpr hj, ?_, ?_⟩
    · have := Nat.mod_lt j (show 0 < rep + 1 by omega); omega
    · simp only [Bool.false_eq_true, if_false]; rw [Nat.mul_comm]; exact (Nat.div_add_mod j (rep + 1)).symm
  · refine ⟨j % K, j / K, Nat.mod_lt _ hK, ?_, ?_⟩
    · have := (Nat.div_lt_iff_lt_mul hK).mpr (by rw [Nat.mul_comm]; exact hj : j < (rep + 1) * K); omega
    · simp only [if_true]; rw [Nat.mul_comm]; exact (Nat.div_add_mod j K).symm

theorem encodeBit_sat {α : Type _} {rep i : Nat} {u x : List α} (hi : i < u.length) (hx : (i + 1) * (rep + 1) ≤ x.length) :
    (encodeBit rep u i x).Sat fun o => o.length = x.length ∧
      ∀ j : Nat, o[j]? = if i * (rep + 1) ≤ j ∧ j < (i + 1) * (rep + 1) then u[i]? else x[j]? := by
  rw [Nat.succ_mul] at *
  unfold encodeBit
  rw [rd_lt hi, bind_ok, wr_lt (by omega), bind_ok]
  obtain ⟨o, h1, h2, h3⟩ := forN_fill (n := rep) (off := i * (rep + 1) + 1) (g := fun _ => u[i])
    (out := x.set (i * (rep + 1)) u[i]) (by rw [List.length_set]; omega)
  refine ⟨o, h1, by simpa using h2, fun j => ?_⟩
  rw [h3, List.getElem?_set]
  by_cases e : i * (rep + 1) ≤ j ∧ j < i * (rep + 1) + (rep + 1)
  · rw [if_pos e, List.getElem?_eq_getElem hi]
    by_cases e' : i * (rep + 1) = j
    · rw [if_neg (by omega), if_pos e', if_pos (by omega)]
    · rw [if_pos (by omega)]
  · rw [if_neg e, if_neg (by omega), if_neg (by omega)]

theorem encode_sat {α : Type _} {e : Enc} {u x : List α} (hu : u.length = e.K) (hx : x.length = e.K * (e.rep + 1)) :
    (e.encode u x).Sat fun o => o.length = x.length ∧
      ∀ k r, k < e.K → r ≤ e.rep → o[pos e.K e.rep e.buffered k r]? = u[k]? := by
  unfold Enc.encode
  cases hb : e.buffered
  · simp only [Bool.false_eq_true, if_false]
    refine (forN_inv (fun i (o : List α) => o.length = x.length ∧ ∀ k r, k < i → r ≤ e.rep →
      o[k * (e.rep + 1) + r]? = u[k]?) ⟨rfl, fun k r hk => by omega⟩ ?_).mono ?_
    · rintro i o hi ⟨h1, h2⟩
      have hle : (i + 1) * (e.rep + 1) ≤ e.K * (e.rep + 1) := Nat.mul_le_mul_right _ hi
      refine (encodeBit_sat (by omega) (by omega)).mono ?_
      rintro o' ⟨h3, h4⟩
      refine ⟨by omega, fun k r hk hr => ?_⟩
      rw [h4]
      rcases Nat.lt_succ_iff_lt_or_eq.mp hk with hk | rfl
      · have : (k + 1) * (e.rep + 1) ≤ i * (e.rep + 1) := Nat.mul_le_mul_right _ hk
        rw [Nat.succ_mul] at this
        rw [if_neg (by omega), h2 k r hk hr]
      · rw [if_pos (by rw [Nat.succ_mul]; omega)]
    · rintro o ⟨h1, h2⟩
      exact ⟨h1, fun k r hk hr => by simpa [pos] using h2 k r hk hr⟩
  · simp only [if_true]
    have hle0 : e.K ≤ e.K * (e.rep + 1) := by rw [Nat.mul_succ]; omega
    refine (copyTo_sat (by omega) (by omega)).bind ?_
    rintro x1 ⟨l1, v1⟩
    refine (forN_inv (fun i (o : List α) => o.length = x.length ∧ ∀ k r, k < e.K → r ≤ i →
      o[r * e.K + k]? = u[k]?) ⟨l1, fun k r hk hr => ?_⟩ ?_).mono ?_
    · obtain rfl : r = 0 := by omega
      rw [v1, Nat.zero_mul, if_pos (by omega)]
      congr 1; omega
    · rintro i o hi ⟨h1, h2⟩
      have hle : (i + 1 + 1) * e.K ≤ (e.rep + 1) * e.K := Nat.mul_le_mul_right _ (by omega)
      rw [Nat.succ_mul, Nat.mul_comm (e.rep + 1)] at hle
      refine (copyTo_sat (by omega) (by omega)).mono ?_
      rintro o' ⟨h3, h4⟩
      refine ⟨by omega, fun k r hk hr => ?_⟩
      rw [h4]
      by_cases h : r = i + 1
      · subst h
        rw [if_pos (by omega)]; congr 1; omega
      · have : (r + 1) * e.K ≤ (i + 1) * e.K := Nat.mul_le_mul_right _ (by omega)
        rw [Nat.succ_mul] at this
        rw [if_neg (by omega), h2 k r hk (by omega)]
    · rintro o ⟨h1, h2⟩
      exact ⟨h1, fun k r hk hr => by simpa [pos] using h2 k r hk hr⟩

theorem scan_eq {n : Nat} {p : Nat → Exec Bool} {f : Nat → Bool} (hp : ∀ k, k < n → p k = ok (f k)) :
    ∀ fuel k, k ≤ n → n < fuel + k →
      ∃ m, scan n p fuel k = ok m ∧ (m = n ↔ ∀ i, k ≤ i → i < n → f i = true) := by
  intro fuel
  induction fuel with
  | zero => intro k h1 h2; omega
  | succ fuel ih =>
    intro k h1 h2
    unfold scan
    by_cases h : k < n
    · rw [if_pos h, hp k h, bind_ok]
      cases hf : f k
      · simp only [Bool.false_eq_true, if_false]
        refine ⟨k, rfl, ?_⟩
        constructor
        · intro e; omega
        · intro e; rw [e k (Nat.le_refl k) h] at hf; cases hf
      · simp only [if_true]
        obtain ⟨m, hm, hm'⟩ := ih (k + 1) h (by omega)
        refine ⟨m, hm, hm'.trans ?_⟩
        constructor
        · intro e i hi hn
          by_cases e' : k = i
          · subst e'; exact hf
          · exact e i (by omega) hn
        · intro e i hi hn; exact e i (by omega) hn
    · rw [if_neg h]
      exact ⟨k, rfl, fun _ i _ _ => by omega, fun _ => by omega⟩

theorem scan_all {n : Nat} {p : Nat → Exec Bool} {f : Nat → Bool} (hp : ∀ k, k < n → p k = ok (f k)) :
    (scan n p (n + 1) 0 >>= fun k => ok (decide (k = n))) = ok (decide (∀ i, i < n → f i = true)) := by
  obtain ⟨m, hm, hm'⟩ := scan_eq hp (n + 1) 0 (by omega) (by omega)
  rw [hm, bind_ok]
  congr 1
  rw [decide_eq_decide, hm']
  exact ⟨fun h i hi => h i (by omega) hi, fun h i _ hi => h i hi⟩

theorem allTrue_eq {n : Nat} {p : Nat → Exec Bool} {f : Nat → Bool} (hp : ∀ k, k < n → p k = ok (f k)) :
    ∀ fuel k, k ≤ n → n < fuel + k → ∃ b, allTrue n p fuel k = ok b ∧ (b = true ↔ ∀ i, k ≤ i → i < n → f i = true) := by
  intro fuel
  induction fuel with
  | zero => intro k h1 h2; omega
  | succ fuel ih =>
    intro k h1 h2
    unfold allTrue
    by_cases h : k < n
    · rw [if_pos h, hp k h, bind_ok]
      cases hf : f k
      · simp only [Bool.false_eq_true, if_false]
        refine ⟨false, rfl, ?_⟩
        constructor
        · intro e; cases e
        · intro e; rw [e k (Nat.le_refl k) h] at hf; cases hf
      · simp only [if_true]
        obtain ⟨m, hm, hm'⟩ := ih (k + 1) h (by omega)
        refine ⟨m, hm, hm'.trans ?_⟩
        constructor
        · intro e i hi hn
          by_cases e' : k = i
          · subst e'; exact hf
          · exact e i (by omega) hn
        · intro e i hi hn; exact e i (by omega) hn
    · rw [if_neg h]
      exact ⟨true, rfl, fun _ i _ _ => by omega, fun _ => rfl⟩

theorem same_eq {α : Type _} [DecidableEq α] {x : List α} {a b : Nat} (ha : a < x.length) (hb : b < x.length) :
    same x a b = ok (decide (x[a]? = x[b]?)) := by
  unfold same
  rw [rd_lt ha, bind_ok, rd_lt hb, bind_ok]
  congr 1
  rw [List.getElem?_eq_getElem ha, List.getElem?_eq_getElem hb, decide_eq_decide, Option.some.injEq]

theorem isCodeword_sat {α : Type _} [DecidableEq α] {e : Enc} {x : List α} (hx : x.length = e.K * (e.rep + 1)) :
    ∃ b, e.isCodeword x = ok b ∧ (b = true ↔ ∀ k r, k < e.K → r ≤ e.rep →
      x[pos e.K e.rep e.buffered k r]? = x[pos e.K e.rep e.buffered k 0]?) := by
  unfold Enc.isCodeword
  cases hb : e.buffered
  · simp only [Bool.false_eq_true, if_false]
    have hin : ∀ k, k < e.K → (scan e.rep (fun r => same x (k * (e.rep + 1)) (k * (e.rep + 1) + r + 1)) (e.rep + 1) 0 >>=
        fun r => ok (decide (r = e.rep))) =
        ok (decide (∀ r, r < e.rep → decide (x[k * (e.rep + 1)]? = x[k * (e.rep + 1) + r + 1]?) = true)) := by
      intro k hk
      refine scan_all fun r hr => ?_
      have := pos_lt (b := false) hk (show r + 1 ≤ e.rep by omega)
      simp only [pos, Bool.false_eq_true, if_false] at this
      exact same_eq (by omega) (by omega)
    obtain ⟨b, h1, h2⟩ := allTrue_eq hin (e.K + 1) 0 (by omega) (by omega)
    refine ⟨b, h1, h2.trans ?_⟩
    simp only [decide_eq_true_eq, pos, Bool.false_eq_true, if_false, Nat.add_zero]
    constructor
    · intro h k r hk hr
      cases r with
      | zero => rfl
      | succ r => exact (h k (by omega) hk r (by omega)).symm
    · intro h k _ hk r hr
      exact (h k (r + 1) hk (by omega)).symm
  · simp only [if_true]
    have hin : ∀ r, r < e.rep → (scan e.K (fun k => same x k ((r + 1) * e.K + k)) (e.K + 1) 0 >>=
        fun k => ok (decide (k = e.K))) = ok (decide (∀ k, k < e.K → decide (x[k]? = x[(r + 1) * e.K + k]?) = true)) := by
      intro r hr
      refine scan_all fun k hk => ?_
      have h0 := pos_lt (b := true) hk (show 0 ≤ e.rep by omega)
      have := pos_lt (b := true) hk (show r + 1 ≤ e.rep by omega)
      simp only [pos, if_true, Nat.zero_mul, Nat.zero_add] at this h0
      exact same_eq (by omega) (by omega)
    obtain ⟨b, h1, h2⟩ := allTrue_eq hin (e.rep + 1) 0 (by omega) (by omega)
    refine ⟨b, h1, h2.trans ?_⟩
    simp only [decide_eq_true_eq, pos, if_true, Nat.zero_mul, Nat.zero_add]
    constructor
    · intro h k r hk hr
      cases r with
      | zero => rw [Nat.zero_mul, Nat.zero_add]
      | succ r => exact (h r (by omega) (by omega) k hk).symm
    · intro h r _ hr k hk
      exact (h k (r + 1) hk (by omega)).symm

/-! ## Decoder -/

section
variable {R : Type}

/-- What `_load` leaves in the two member arrays. -/
def Loaded (K rep : Nat) (b : Bool) (Y : Nat → R) (sys par : List R) : Prop :=
  sys.length = K ∧ par.length = K * rep ∧ (∀ k, k < K → sys[k]? = some (Y (pos K rep b k 0))) ∧
    ∀ k j, k < K → j < rep → par[j * K + k]? = some (Y (pos K rep b k (j + 1)))

theorem jK_lt {K rep j k : Nat} (hk : k < K) (hj : j < rep) : j * K + k < K * rep := by
  have : (j + 1) * K ≤ rep * K := Nat.mul_le_mul_right _ hj
  rw [Nat.succ_mul, Nat.mul_comm rep] at this; omega

theorem jK_inj {K j k j' k' : Nat} (hk : k < K) (hk' : k' < K) (h : j * K + k = j' * K + k') : j = j' ∧ k = k' := by
  have h1 : (j * K + k) / K = j := by
    rw [Nat.mul_comm, Nat.mul_add_div (by omega), Nat.div_eq_of_lt hk, Nat.add_zero]
  have h2 : (j' * K + k') / K = j' := by
    rw [Nat.mul_comm, Nat.mul_add_div (by omega), Nat.div_eq_of_lt hk', Nat.add_zero]
  have : j = j' := by rw [← h1, h, h2]
  subst this
  exact ⟨rfl, by omega⟩

theorem load_sat {K rep : Nat} {b : Bool} {Y : Nat → R} {y sys par : List R} (hy : y.length = K * (rep + 1))
    (hY : ∀ i, i < K * (rep + 1) → y[i]? = some (Y i)) (hs : sys.length = K) (hp : par.length = K * rep) :
    (load K rep b y (sys, par)).Sat fun s => Loaded K rep b Y s.1 s.2 := by
  unfold load
  cases b
  · simp only [Bool.false_eq_true, if_false]
    refine (forN_inv (fun i (s : List R × List R) => s.1.length = K ∧ s.2.length = K * rep ∧
      (∀ k, k < i → s.1[k]? = some (Y (pos K rep false k 0))) ∧
      ∀ k j, k < i → j < rep → s.2[j * K + k]? = some (Y (pos K rep false k (j + 1))))
      ⟨hs, hp, fun k hk => by omega, fun k j hk => by omega⟩ ?_).mono fun s h => h
    rintro i ⟨s1, s2⟩ hi ⟨h1, h2, h3, h4⟩
    simp only at h1 h2 h3 h4
    unfold loadBit
    have hp0 := pos_lt (b := false) hi (show 0 ≤ rep by omega)
    simp only [pos, Bool.false_eq_true, if_false, Nat.add_zero] at hp0
    rw [rd_eq (hY _ hp0), bind_ok]
    simp only
    rw [wr_lt (by omega), bind_ok]
    have hfill : (forN rep (fun j par => rd y (i * (rep + 1) + 1 + j) >>= fun v => wr par (j * K + i) v) s2).Sat fun o =>
        o.length = s2.length ∧ (∀ j, j < rep → o[j * K + i]? = some (Y (i * (rep + 1) + 1 + j))) ∧
        ∀ p : Nat, (∀ j, j < rep → j * K + i ≠ p) → o[p]? = s2[p]? := by
      have : ∀ j o, j < rep → (rd y (i * (rep + 1) + 1 + j) >>= fun v => wr o (j * K + i) v) =
          wr o (j * K + i) (Y (i * (rep + 1) + 1 + j)) := by
        intro j o hj
        have := pos_lt (b := false) hi (show j + 1 ≤ rep by omega)
        simp only [pos, Bool.false_eq_true, if_false] at this
        rw [rd_eq (hY _ (by omega)), bind_ok]
      rw [forN_congr (fun j o hj => this j o hj)]
      refine forN_scatter (fun j hj => by rw [h2]; exact jK_lt hi hj) fun a c ha hc h => (jK_inj hi hi h).1
    refine hfill.bind ?_
    rintro o ⟨l1, l2, l3⟩
    refine sat_ok.mpr ⟨by simpa using h1, l1.trans h2, fun k hk => ?_, fun k j hk hj => ?_⟩
    · simp only
      rcases Nat.lt_succ_iff_lt_or_eq.mp hk with hk | rfl
      · rw [List.getElem?_set_ne (by omega), h3 k hk]
      · rw [List.getElem?_set_self (by omega)]; simp [pos]
    · simp only
      rcases Nat.lt_succ_iff_lt_or_eq.mp hk with hk | rfl
      · rw [l3 _ fun j' hj' h => by have := (jK_inj hi (by omega) h).2; omega, h4 k j hk hj]
      · rw [l2 j hj]; simp only [pos, Bool.false_eq_true, if_false]; congr 2; omega
  · simp only [if_true]
    unfold loadBuffered
    have hle0 : K ≤ K * (rep + 1) := by rw [Nat.mul_succ]; omega
    refine (copyTo_sat (by omega) (by simp only; omega)).bind ?_
    rintro s1 ⟨l1, v1⟩
    have hpar : (forN rep (fun i par => copyTo y ((i + 1) * K) K par (i * K)) par).Sat fun o => o.length = K * rep ∧
        ∀ k j, k < K → j < rep → o[j * K + k]? = some (Y ((j + 1) * K + k)) := by
      refine forN_inv (fun i (o : List R) => o.length = K * rep ∧ ∀ k j, k < K → j < i →
        o[j * K + k]? = some (Y ((j + 1) * K + k))) ⟨hp, fun k j _ hj => by omega⟩ ?_
      rintro i o hi ⟨h1, h2⟩
      have e1 : (i + 1) * K ≤ rep * K := Nat.mul_le_mul_right _ hi
      have e2 : (i + 1) * K = i * K + K := Nat.succ_mul _ _
      have e3 : K * (rep + 1) = rep * K + K := by rw [Nat.mul_succ, Nat.mul_comm]
      have e4 : K * rep = rep * K := Nat.mul_comm _ _
      refine (copyTo_sat (by omega) (by omega)).mono ?_
      rintro o' ⟨h3, h4⟩
      refine ⟨by omega, fun k j hk hj => ?_⟩
      rw [h4]
      rcases Nat.lt_succ_iff_lt_or_eq.mp hj with hj | rfl
      · have : (j + 1) * K ≤ i * K := Nat.mul_le_mul_right _ hj
        rw [Nat.succ_mul] at this
        rw [if_neg (by omega), h2 k j hk hj]
      · rw [if_pos (by omega), ← hY _ (by omega)]
        congr 1; omega
    refine hpar.bind ?_
    rintro o ⟨h1, h2⟩
    refine sat_ok.mpr ⟨by simpa [hs] using l1, h1, fun k hk => ?_, fun k j hk hj => ?_⟩
    · simp only [pos, if_true, Nat.zero_mul, Nat.zero_add]
      rw [v1, if_pos (by omega), ← hY _ (by omega)]
      congr 1; omega
    · simpa [pos] using h2 k j hk hj

/-- Left-to-right combination of the copies of bit `k`. -/
def combine (add : R → R → R) (K rep : Nat) (b : Bool) (Y : Nat → R) (k : Nat) : R :=
  (List.range rep).foldl (fun v j => add v (Y (pos K rep b k (j + 1)))) (Y (pos K rep b k 0))

theorem sisoStd_sat {add : R → R → R} {K rep : Nat} {b : Bool} {Y : Nat → R} {sys par ext : List R}
    (h : Loaded K rep b Y sys par) (he : ext.length = K) :
    (sisoStd add K rep sys par ext).Sat fun o => o.length = K ∧ ∀ k, k < K → o[k]? = some (combine add K rep b Y k) := by
  obtain ⟨h1, h2, h3, h4⟩ := h
  unfold sisoStd
  refine forN_inv (fun i (o : List R) => o.length = K ∧ ∀ k, k < i → o[k]? = some (combine add K rep b Y k))
    ⟨he, fun k hk => by omega⟩ ?_
  rintro i o hi ⟨h5, h6⟩
  unfold sisoBit
  rw [rd_eq (h3 i hi), bind_ok]
  have : (forN rep (fun j v => rd par (j * K + i) >>= fun p => ok (add v p)) (Y (pos K rep b i 0))).Sat fun v =>
      v = combine add K rep b Y i := by
    refine forN_inv (fun j v => v = (List.range j).foldl (fun v j => add v (Y (pos K rep b i (j + 1)))) (Y (pos K rep b i 0)))
      rfl ?_
    rintro j v hj rfl
    rw [rd_eq (h4 i j hi hj), bind_ok, sat_ok, List.range_succ, List.foldl_append]
    rfl
  refine this.bind ?_
  rintro v rfl
  rw [wr_lt (by omega), sat_ok]
  refine ⟨by simpa using h5, fun k hk => ?_⟩
  rcases Nat.lt_succ_iff_lt_or_eq.mp hk with hk | rfl
  · rw [List.getElem?_set_ne (by omega), h6 k hk]
  · rw [List.getElem?_set_self (by omega)]

theorem sisoFast_sat {add : R → R → R} {L K rep : Nat} {b : Bool} {Y : Nat → R} {sys par ext : List R}
    (h : Loaded K rep b Y sys par) (he : ext.length = K) (hL : L ∣ K) :
    (sisoFast add L K rep sys par ext).Sat fun o => o.length = K ∧ ∀ k, k < K → o[k]? = some (combine add K rep b Y k) := by
  obtain ⟨h1, h2, h3, h4⟩ := h
  have hdiv : K / L * L = K := Nat.div_mul_cancel hL
  unfold sisoFast
  refine (forN_inv (fun i (o : List R) => o.length = K ∧ ∀ k, k < i * L → o[k]? = some (combine add K rep b Y k))
    ⟨he, fun k hk => by omega⟩ ?_).mono ?_
  · rintro i o hi ⟨h5, h6⟩
    have hle : (i + 1) * L ≤ K / L * L := Nat.mul_le_mul_right _ hi
    rw [hdiv, Nat.succ_mul] at hle
    unfold sisoReg loadReg
    rw [if_pos (by omega), bind_ok]
    have : (forN rep (fun j r => (if j * K + i * L + L ≤ par.length then ok ((par.drop (j * K + i * L)).take L) else ub) >>=
        fun p => ok (List.zipWith add r p)) ((sys.drop (i * L)).take L)).Sat fun r =>
        r.length = L ∧ ∀ l, l < L → r[l]? = some (combine add K rep b Y (i * L + l)) := by
      refine forN_inv (fun j (r : List R) => r.length = L ∧ ∀ l, l < L → r[l]? = some ((List.range j).foldl
        (fun v j => add v (Y (pos K rep b (i * L + l) (j + 1)))) (Y (pos K rep b (i * L + l) 0)))) ⟨?_, fun l hl => ?_⟩ ?_
      · rw [List.length_take, List.length_drop]; omega
      · rw [List.getElem?_take, if_pos hl, List.getElem?_drop, h3 _ (by omega)]
        rfl
      · rintro j r hj ⟨r1, r2⟩
        have hjK : (j + 1) * K ≤ rep * K := Nat.mul_le_mul_right _ hj
        rw [Nat.succ_mul, Nat.mul_comm rep] at hjK
        rw [if_pos (by omega), bind_ok, sat_ok]
        refine ⟨?_, fun l hl => ?_⟩
        · rw [List.length_zipWith, List.length_take, List.length_drop]; omega
        · rw [List.getElem?_zipWith, r2 l hl, List.getElem?_take, if_pos hl, List.getElem?_drop, Nat.add_assoc,
            h4 _ j (by omega) hj, List.range_succ, List.foldl_append]
          rfl
    refine this.bind ?_
    rintro r ⟨r1, r2⟩
    refine (copyTo_sat (by omega) (by omega)).mono ?_
    rintro o' ⟨o1, o2⟩
    refine ⟨by omega, fun k hk => ?_⟩
    rw [Nat.succ_mul] at hk
    rw [o2]
    by_cases e : i * L ≤ k
    · rw [if_pos (by omega), Nat.zero_add, r2 _ (by omega)]
      congr 2; omega
    · rw [if_neg (by omega), h6 k (by omega)]
  · rw [hdiv]; exact fun o h => h

theorem decide'_sat {neg : R → Bool} {K : Nat} {V : Nat → R} {x : List R} {out : List Nat} (ho : out.length = K)
    (hx : ∀ k, k < K → x[k]? = some (V k)) :
    decide' neg x K out = ok ((List.range K).map fun k => if neg (V k) then 1 else 0) := by
  have : (decide' neg x K out).Sat fun o => o.length = K ∧ ∀ k, k < K → o[k]? = some (if neg (V k) then 1 else 0) := by
    unfold decide'
    refine forN_inv (fun i (o : List Nat) => o.length = K ∧ ∀ k, k < i → o[k]? = some (if neg (V k) then 1 else 0))
      ⟨ho, fun k hk => by omega⟩ ?_
    rintro i o hi ⟨h1, h2⟩
    rw [rd_eq (hx i hi), bind_ok, wr_lt (by omega), sat_ok]
    refine ⟨by simpa using h1, fun k hk => ?_⟩
    rcases Nat.lt_succ_iff_lt_or_eq.mp hk with hk | rfl
    · rw [List.getElem?_set_ne (by omega), h2 k hk]
    · rw [List.getElem?_set_self (by omega)]
  obtain ⟨o, ho, h1, h2⟩ := this
  rw [ho]; congr 1
  exact eq_mapRange h1 h2

theorem decodeSiho_eq {neg : R → Bool} {add : R → R → R} {siso : List R → List R → List R → Exec (List R)} {K rep : Nat}
    {b : Bool} {Y : Nat → R} {y sys par ext : List R} {v : List Nat} (hy : y.length = K * (rep + 1))
    (hY : ∀ i, i < K * (rep + 1) → y[i]? = some (Y i)) (hs : sys.length = K) (hp : par.length = K * rep)
    (he : ext.length = K) (hv : v.length = K)
    (hsiso : ∀ sys par, Loaded K rep b Y sys par →
      (siso sys par ext).Sat fun o => o.length = K ∧ ∀ k, k < K → o[k]? = some (combine add K rep b Y k)) :
    decodeSiho neg siso K rep b y sys par ext v =
      ok ((List.range K).map fun k => if neg (combine add K rep b Y k) then 1 else 0) := by
  unfold decodeSiho
  obtain ⟨⟨s1, s2⟩, h1, h2⟩ := load_sat (b := b) hy hY hs hp
  rw [h1, bind_ok]
  simp only
  obtain ⟨o, h3, -, h4⟩ := hsiso s1 s2 h2
  rw [h3, bind_ok]
  exact decide'_sat hv h4

end

end Verif.Repetition
