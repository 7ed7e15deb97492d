import Verif.Spec.Gallager
import Verif.Proof.LDPCBF
import Mathlib.Algebra.BigOperators.Group.List.Basic
import Mathlib.Data.List.Perm.Basic
import Mathlib.Tactic.Ring
import Mathlib.Tactic.Linarith
import Mathlib.Tactic.Tauto

namespace Verif.Gallager
open Exec Verif.Sparse Verif.LDPCBP

/-! ## Lists without one element -/

theorem others_perm {l : List Nat} (hn : l.Nodup) {c : Nat} (hc : c ∈ l) : l.Perm (c :: others l c) := by
  unfold others
  have : (l.filter fun a => decide (a ≠ c)) = l.erase c := by
    rw [hn.erase_eq_filter]
    congr 1
    funext a
    simp [bne]
    cases h : a == c <;> simp_all
  rw [this]
  exact List.perm_cons_erase hc

theorem sum_split {l : List Nat} (hn : l.Nodup) {c : Nat} (hc : c ∈ l) (f : Nat → Int) :
    (l.map f).sum = f c + ((others l c).map f).sum := by
  rw [((others_perm hn hc).map f).sum_eq, List.map_cons, List.sum_cons]

theorem prod_split {l : List Nat} (hn : l.Nodup) {c : Nat} (hc : c ∈ l) (f : Nat → Int) :
    (l.map f).prod = f c * ((others l c).map f).prod := by
  rw [((others_perm hn hc).map f).prod_eq, List.map_cons, List.prod_cons]

theorem length_split {l : List Nat} (hn : l.Nodup) {c : Nat} (hc : c ∈ l) : l.length = (others l c).length + 1 := by
  rw [(others_perm hn hc).length_eq, List.length_cons]

theorem count_split {l : List Nat} (hn : l.Nodup) {c : Nat} (hc : c ∈ l) (p : Nat → Bool) :
    l.countP p = (others l c).countP p + if p c then 1 else 0 := by
  rw [(others_perm hn hc).countP_eq, List.countP_cons]

theorem mem_others {l : List Nat} {c x : Nat} : x ∈ others l c ↔ x ∈ l ∧ x ≠ c := by
  unfold others; simp

/-! ## Encoding of the signs -/

/-- The values of the messages. -/
def Val (a : Algo) (s : Int) : Prop := s = 1 ∨ s = -1 ∨ (a = .E ∧ s = 0)

/-- The stored value of a sign. -/
def enc (a : Algo) (s : Int) : Int :=
  match a with
  | .E => s
  | _ => if s = -1 then 1 else 0

theorem val_sgn (a : Algo) (b : Bool) : Val a (sgn b) := by cases b <;> simp [Val, sgn]

theorem val_i8 {a : Algo} {s : Int} (h : Val a s) : i8 (enc a s) = enc a s := by
  rcases h with rfl | rfl | ⟨rfl, rfl⟩
  · cases a <;> decide
  · cases a <;> decide
  · decide

theorem sum_enc {a : Algo} (ha : a ≠ .E) (l : List Nat) (m : Nat → Int) :
    (l.map fun c => enc a (m c)).sum = (l.countP (fun c => decide (m c = -1)) : Int) := by
  induction l with
  | nil => rfl
  | cons x l ih =>
    rw [List.map_cons, List.sum_cons, ih, List.countP_cons]
    have : enc a (m x) = if m x = -1 then 1 else 0 := by cases a <;> first | rfl | exact absurd rfl ha
    rw [this]
    by_cases h : m x = -1
    · simp [h]; omega
    · simp [h]

theorem count_pm {a : Algo} (ha : a ≠ .E) (l : List Nat) (m : Nat → Int) (hm : ∀ c ∈ l, Val a (m c)) :
    l.countP (fun c => decide (m c = -1)) + l.countP (fun c => decide (m c = 1)) = l.length := by
  induction l with
  | nil => rfl
  | cons x l ih =>
    rw [List.countP_cons, List.countP_cons, List.length_cons, ← ih fun c hc => hm c (List.mem_cons_of_mem _ hc)]
    rcases hm x (List.mem_cons_self ..) with h | h | h
    · simp [h]; omega
    · simp [h]; omega
    · exact absurd h.1 ha

theorem sgn_cases (b : Bool) : sgn b = 1 ∨ sgn b = -1 := by cases b <;> simp [sgn]

theorem varMsg_val (a : Algo) (n : Nat) {y : Int} (hy : y = 1 ∨ y = -1) (l : List Nat) (m : Nat → Int) (c : Nat) : Val a (varMsg a n y l m c) := by
  unfold varMsg
  split
  · rcases hy with rfl | rfl <;> simp [Val]
  · cases a with
    | A => dsimp only; split <;> rcases hy with rfl | rfl <;> simp [Val]
    | B => dsimp only; split <;> rcases hy with rfl | rfl <;> simp [Val]
    | E =>
      dsimp only
      generalize (_ + _ : Int) = s
      unfold Val
      rcases lt_trichotomy s 0 with h | h | h
      · rw [Int.sign_eq_neg_one_of_neg h]; simp
      · rw [h]; simp
      · rw [Int.sign_eq_one_of_pos h]; simp

/-- The message of a variable. -/
theorem newMsg_eq (a : Algo) {n : Nat} (hn : n ≠ 0) {y : Int} (hy : y = 1 ∨ y = -1) {l : List Nat} (hl : l.Nodup) {m : Nat → Int}
    (hm : ∀ c ∈ l, Val a (m c)) {c : Nat} (hc : c ∈ l) :
    newMsg a n (enc a y) ((l.map fun c => enc a (m c)).sum) (enc a (m c)) l.length = enc a (varMsg a n y l m c) := by
  have hlen := length_split hl hc
  unfold varMsg newMsg
  rw [if_neg hn]
  cases a with
  | A =>
    dsimp only
    rw [sum_enc (by simp), count_split hl hc, hlen]
    have hpm := count_pm (a := .A) (by simp) (others l c) m fun x hx => hm x (mem_others.1 hx).1
    have h1 : (∀ x ∈ others l c, m x = -1) ↔ (others l c).countP (fun c => decide (m c = -1)) = (others l c).length := by
      rw [List.countP_eq_length]; simp
    have h2 : (∀ x ∈ others l c, m x = 1) ↔ (others l c).countP (fun c => decide (m c = 1)) = (others l c).length := by
      rw [List.countP_eq_length]; simp
    generalize (others l c).countP (fun c => decide (m c = -1)) = P at *
    generalize (others l c).countP (fun c => decide (m c = 1)) = Q at *
    rcases hy with rfl | rfl
    · have e1 : (∀ c' ∈ others l c, m c' = -1) ↔ _ := h1
      rcases hm c hc with h | h | h
      · rw [h]
        simp only [enc, e1]
        simp
        split <;> split <;> first | rfl | omega | (exfalso; clear h1 h2 e1 hm; generalize (others l c = []) = z at *; by_cases hz : z <;> simp [hz] at * <;> omega)
      · rw [h]
        simp only [enc, e1]
        simp
        split <;> split <;> first | rfl | omega | (exfalso; clear h1 h2 e1 hm; generalize (others l c = []) = z at *; by_cases hz : z <;> simp [hz] at * <;> omega)
      · exact absurd h.1 (by simp)
    · have e1 : (∀ c' ∈ others l c, m c' = - -1) ↔ Q = (others l c).length := by rw [show - -1 = (1 : Int) by rfl]; exact h2
      rcases hm c hc with h | h | h
      · rw [h]
        simp only [enc, e1]
        simp
        split <;> split <;> first | rfl | omega | (exfalso; clear h1 h2 e1 hm; generalize (others l c = []) = z at *; by_cases hz : z <;> simp [hz] at * <;> omega)
      · rw [h]
        simp only [enc, e1]
        simp
        split <;> split <;> first | rfl | omega | (exfalso; clear h1 h2 e1 hm; generalize (others l c = []) = z at *; by_cases hz : z <;> simp [hz] at * <;> omega)
      · exact absurd h.1 (by simp)
  | B =>
    dsimp only
    rw [sum_enc (by simp), count_split hl hc, count_split hl hc, hlen]
    have hpm := count_pm (a := .B) (by simp) (others l c) m fun x hx => hm x (mem_others.1 hx).1
    rcases hy with rfl | rfl
    · rcases hm c hc with h | h | h
      · rw [h]
        simp only [enc]
        simp
        split <;> split <;> (try split) <;> first | rfl | omega
      · rw [h]
        simp only [enc]
        simp
        split <;> split <;> (try split) <;> first | rfl | omega
      · exact absurd h.1 (by simp)
    · rcases hm c hc with h | h | h
      · rw [h]
        simp only [enc]
        simp
        split <;> split <;> (try split) <;> first | rfl | omega
      · rw [h]
        simp only [enc]
        simp
        split <;> split <;> (try split) <;> first | rfl | omega
      · exact absurd h.1 (by simp)
  | E =>
    have hv : Val .E (varMsg .E n y l m c) := varMsg_val .E n hy l m c
    unfold varMsg at hv
    rw [if_neg hn] at hv
    dsimp only [enc] at hv ⊢
    rw [sum_split hl hc (fun c => m c)]
    have e : (m c + ((others l c).map fun c => m c).sum + (if n < 2 then 2 else 1) * y - m c) =
        (if n = 1 then 2 else 1) * y + ((others l c).map m).sum := by
      have : (if n < 2 then (2 : Int) else 1) = if n = 1 then 2 else 1 := by
        by_cases h : n = 1
        · rw [if_pos (by omega), if_pos h]
        · rw [if_neg (by omega), if_neg h]
      rw [this]
      ring
    rw [e]
    exact val_i8 (a := .E) hv

/-- The vote of a variable. -/
theorem voteOf_eq (a : Algo) {w : Bool} (hw : a = .E → w = false) {y : Int} (hy : y = 1 ∨ y = -1) (l : List Nat) {m : Nat → Int} (hm : ∀ c ∈ l, Val a (m c)) :
    voteOf a w (enc a y) ((l.map fun c => enc a (m c)).sum) l.length = bit (decide (vote a y l m = -1)) ∧ (vote a y l m = 1 ∨ vote a y l m = -1) := by
  have hpm1 : ∀ s : Int, (if s = 0 then y else s.sign) = 1 ∨ (if s = 0 then y else s.sign) = -1 := by
    intro s
    split
    · exact hy
    · rcases lt_trichotomy s 0 with h | h | h
      · rw [Int.sign_eq_neg_one_of_neg h]; simp
      · exact absurd h (by assumption)
      · rw [Int.sign_eq_one_of_pos h]; simp
  refine ⟨?_, hpm1 _⟩
  have key : ∀ a, a ≠ Algo.E → (∀ c ∈ l, Val a (m c)) → (l.map m).sum = (l.length : Int) - 2 * (l.map fun c => enc a (m c)).sum := by
    clear hm
    intro a ha hm
    induction l with
    | nil => rfl
    | cons x l ih =>
      simp only [List.map_cons, List.sum_cons, List.length_cons]
      rw [ih fun c hc => hm c (List.mem_cons_of_mem _ hc)]
      have : m x = 1 - 2 * enc a (m x) := by
        rcases hm x (List.mem_cons_self ..) with h | h | h
        · rw [h]; cases a <;> first | rfl | exact absurd rfl ha
        · rw [h]; cases a <;> first | rfl | exact absurd rfl ha
        · exact absurd h.1 ha
      push_cast
      omega
  have main : ∀ a, a ≠ Algo.E → (∀ c ∈ l, Val a (m c)) → voteOf .A w (enc a y) ((l.map fun c => enc a (m c)).sum) l.length =
      bit (decide (vote a y l m = -1)) := by
    intro a ha hm
    have h1 := key a ha hm
    unfold voteOf vote
    dsimp only
    rw [if_neg ha, Int.add_zero, h1]
    have e : ((l.length : Int) - (l.map fun c => enc a (m c)).sum - (l.map fun c => enc a (m c)).sum) =
        (l.length : Int) - 2 * (l.map fun c => enc a (m c)).sum := by omega
    rw [e]
    generalize ((l.length : Int) - 2 * (l.map fun c => enc a (m c)).sum) = s
    by_cases h0 : s = 0
    · rw [if_pos h0, if_pos h0]
      rcases hy with rfl | rfl <;> cases a <;> first | rfl | exact absurd rfl ha
    · rw [if_neg h0, if_neg h0]
      rcases lt_trichotomy s 0 with h | h | h
      · rw [if_pos h, Int.sign_eq_neg_one_of_neg h]; rfl
      · exact absurd h h0
      · rw [if_neg (by omega), Int.sign_eq_one_of_pos h]; rfl
  cases a with
  | A => exact main .A (by simp) hm
  | B => exact main .B (by simp) hm
  | E =>
    unfold voteOf vote
    dsimp only [enc]
    rw [if_pos rfl, hw rfl]
    have := hpm1 ((l.map m).sum + y)
    rcases this with h | h
    · rw [h]; rfl
    · rw [h]; rfl

/-! ## Checks -/

theorem xor_enc {a b : Int} (ha : a = 1 ∨ a = -1) (hb : b = 1 ∨ b = -1) : xorI (enc .A a) (enc .A b) = enc .A (a * b) := by
  rcases ha with rfl | rfl <;> rcases hb with rfl | rfl <;> decide

theorem prod_pm {l : List Nat} {q : Nat → Int} (hq : ∀ v ∈ l, q v = 1 ∨ q v = -1) : (l.map q).prod = 1 ∨ (l.map q).prod = -1 := by
  induction l with
  | nil => exact Or.inl rfl
  | cons x l ih =>
    rw [List.map_cons, List.prod_cons]
    rcases ih fun v hv => hq v (List.mem_cons_of_mem _ hv) with h | h <;> rcases hq x (List.mem_cons_self ..) with h' | h' <;> rw [h, h'] <;> simp

theorem prod_val {a : Algo} {l : List Nat} {q : Nat → Int} (hq : ∀ v ∈ l, Val a (q v)) : Val a (l.map q).prod := by
  induction l with
  | nil => exact Or.inl rfl
  | cons x l ih =>
    rw [List.map_cons, List.prod_cons]
    unfold Val at *
    rcases ih fun v hv => hq v (List.mem_cons_of_mem _ hv) with h | h | h <;> rcases hq x (List.mem_cons_self ..) with h' | h' | h' <;>
      simp [h, h']

theorem val_pm {a : Algo} (ha : a ≠ .E) {s : Int} (h : Val a s) : s = 1 ∨ s = -1 := by
  rcases h with h | h | h
  · exact Or.inl h
  · exact Or.inr h
  · exact absurd h.1 ha

theorem enc_hard {a : Algo} (ha : a ≠ .E) (s : Int) : enc a s = enc .A s := by cases a <;> first | rfl | exact absurd rfl ha

theorem xor_fold {l : List Nat} {q : Nat → Int} (hq : ∀ v ∈ l, q v = 1 ∨ q v = -1) {s : Int} (hs : s = 1 ∨ s = -1) :
    l.foldl (fun s v => xorI s (enc .A (q v))) (enc .A s) = enc .A (s * (l.map q).prod) := by
  induction l generalizing s with
  | nil => simp
  | cons x l ih =>
    have hx := hq x (List.mem_cons_self ..)
    rw [List.foldl_cons, xor_enc hs hx, ih (fun v hv => hq v (List.mem_cons_of_mem _ hv)), List.map_cons, List.prod_cons, mul_assoc]
    rcases hs with rfl | rfl <;> rcases hx with h | h <;> rw [h] <;> simp

theorem mul_fold {a : Algo} {l : List Nat} {q : Nat → Int} (hq : ∀ v ∈ l, Val a (q v)) (x : Nat) {s : Int} (hs : Val a s) :
    l.foldl (fun s v => if v ≠ x then i8 (s * q v) else s) s = s * chkMsg l q x := by
  unfold chkMsg others
  induction l generalizing s with
  | nil => simp
  | cons v l ih =>
    have hv := hq v (List.mem_cons_self ..)
    rw [List.foldl_cons]
    by_cases h : v ≠ x
    · have hv2 : Val a (s * q v) := by
        unfold Val at *
        rcases hs with h | h | h <;> rcases hv with h' | h' | h' <;> simp [h, h']
      have e : i8 (s * q v) = s * q v := by
        rcases hv2 with h | h | h
        · rw [h]; rfl
        · rw [h]; rfl
        · rw [h.2]; rfl
      rw [if_pos h, e, ih (fun v hv => hq v (List.mem_cons_of_mem _ hv)) hv2, List.filter_cons_of_pos (by simpa using h), List.map_cons,
        List.prod_cons, mul_assoc]
    · rw [if_neg h, ih (fun v hv => hq v (List.mem_cons_of_mem _ hv)) hs, List.filter_cons_of_neg (by simpa using h)]

/-! ## Layout -/

/-- A loop that writes the messages of the variables. -/
theorem layV_sat {H : Mat} (h : Good H) {g : Nat → Nat → List Nat → List Int → Exec (List Int)} {q : Nat → Nat → Int} {b : List Int}
    (hb : b.length = H.nConn) (hg : ∀ v, v < H.nRows → ∀ b1 : List Int, b1.length = H.nConn → g v (off H v) (rowOf H v) b1 =
      forN (chks H v).length (fun k b2 => wr b2 (off H v + k) (q ((chks H v).getD k 0) v)) b1) :
    (forN H.nRows (fun v (s : Nat × List Int) => rd H.r2c v >>= fun row => g v s.1 row s.2 >>= fun v2c => ok (s.1 + row.length, v2c)) (0, b)).Sat
      fun s => RepV H s.2 q := by
  refine Sat.mono (forN_inv (fun n (s : Nat × List Int) => s.1 = off H n ∧ s.2.length = H.nConn ∧
    ∀ c v, v ∈ vars H c → v < n → s.2[slot H c v]? = some (q c v)) ⟨rfl, hb, fun c v _ hv => absurd hv (by omega)⟩ ?_) ?_
  · rintro v ⟨p, b1⟩ hv ⟨e1, e2, e3⟩
    dsimp only at e1 e2 e3 ⊢
    subst e1
    rw [rd_r2c h hv, bind_ok, hg v hv b1 e2]
    refine Sat.bind (forN_inv (fun n (b2 : List Int) => b2.length = H.nConn ∧
      (∀ c w, w ∈ vars H c → w < v → b2[slot H c w]? = some (q c w)) ∧
      ∀ k (hk : k < (chks H v).length), k < n → b2[off H v + k]? = some (q (chks H v)[k] v))
      ⟨e2, e3, fun k _ hk => absurd hk (by omega)⟩ ?_) ?_
    · rintro k b2 hk ⟨f1, f2, f3⟩
      have hm := (mem_chks h).1 (List.getElem_mem hk)
      have hlt : off H v + k < H.nConn := by
        have := slot_lt h hm
        unfold slot at this
        rwa [(chks_nodup H v).idxOf_getElem k hk] at this
      rw [wr_lt (by omega)]
      refine sat_ok.2 ⟨by rw [List.length_set]; exact f1, ?_, ?_⟩
      · intro c w hw hwv
        rw [List.getElem?_set_ne, f2 c w hw hwv]
        intro e
        have h1 : (chks H w).idxOf c < (rowOf H w).length := by
          rw [← chks_length h]; exact List.idxOf_lt_length_of_mem ((mem_chks h).2 hw)
        have := psum_inj (f := fun v => (rowOf H v).length) (v := v) (w := w) (k := k) (l := (chks H w).idxOf c)
          (by rw [← chks_length h]; exact hk) h1 e
        omega
      · intro k' hk' hlt'
        by_cases e : k' = k
        · subst e
          rw [List.getElem?_set_self (by omega), getD_lt _ hk]
        · rw [List.getElem?_set_ne (by omega)]
          exact f3 k' hk' (by omega)
    · rintro b2 ⟨f1, f2, f3⟩
      refine sat_ok.2 ⟨?_, f1, ?_⟩
      · unfold off; rw [psum_succ]
      · intro c w hw hwv
        by_cases e : w = v
        · subst e
          have hc := (mem_chks h).2 hw
          have hi := List.idxOf_lt_length_of_mem hc
          have := f3 _ hi hi
          rw [List.getElem_idxOf] at this
          exact this
        · exact f2 c w hw (by omega)
  · rintro ⟨p, b'⟩ ⟨_, e2, e3⟩
    exact ⟨e2, fun c v hv => e3 c v hv (h.lt c v hv).1⟩

/-- A loop that writes the messages of the checks. -/
theorem layC_sat {H : Mat} (h : Good H) {g : Nat → List Nat → List Int → Exec (List Int)} {m : Nat → Nat → Int} {a : List Int}
    (ha : a.length = H.nConn) (hg : ∀ c, c < H.nCols → ∀ a1 : List Int, a1.length = H.nConn → g (coff H c) (vars H c) a1 =
      forN (vars H c).length (fun j a2 => wr a2 (slot H c ((vars H c).getD j 0)) (m c ((vars H c).getD j 0))) a1) :
    (forN H.nCols (fun c (s : Nat × List Int) => rd H.c2r c >>= fun col => g s.1 col s.2 >>= fun c2v => ok (s.1 + col.length, c2v)) (0, a)).Sat
      fun s => RepV H s.2 m := by
  refine Sat.mono (forN_inv (fun n (s : Nat × List Int) => s.1 = coff H n ∧ s.2.length = H.nConn ∧
    ∀ c v, v ∈ vars H c → c < n → s.2[slot H c v]? = some (m c v)) ⟨rfl, ha, fun c v _ hv => absurd hv (by omega)⟩ ?_) ?_
  · rintro c ⟨p, a1⟩ hc ⟨e1, e2, e3⟩
    dsimp only at e1 e2 e3 ⊢
    subst e1
    rw [rd_c2r h hc, bind_ok, hg c hc a1 e2]
    refine Sat.bind (forN_inv (fun n (a2 : List Int) => a2.length = H.nConn ∧
      (∀ c' w, w ∈ vars H c' → c' < c → a2[slot H c' w]? = some (m c' w)) ∧
      ∀ j (hj : j < (vars H c).length), j < n → a2[slot H c (vars H c)[j]]? = some (m c (vars H c)[j]))
      ⟨e2, e3, fun k _ hk => absurd hk (by omega)⟩ ?_) ?_
    · rintro j a2 hj ⟨f1, f2, f3⟩
      have hm := List.getElem_mem hj
      have hlt := slot_lt h hm
      rw [getD_lt _ hj, wr_lt (by omega)]
      refine sat_ok.2 ⟨by rw [List.length_set]; exact f1, ?_, ?_⟩
      · intro c' w hw hwv
        rw [List.getElem?_set_ne, f2 c' w hw hwv]
        intro e
        have := (slot_inj h hm hw e).1
        omega
      · intro k hk hlt'
        by_cases e : k = j
        · subst e
          rw [List.getElem?_set_self (by omega)]
        · rw [List.getElem?_set_ne, f3 k hk (by omega)]
          intro e'
          have := (slot_inj h hm (List.getElem_mem hk) e').2
          exact e ((List.Nodup.getElem_inj_iff (h.nodup c)).1 this).symm
    · rintro a2 ⟨f1, f2, f3⟩
      refine sat_ok.2 ⟨?_, f1, ?_⟩
      · unfold coff; rw [psum_succ]
      · intro c' w hw hlt
        by_cases e : c' = c
        · subst e
          have hi := List.idxOf_lt_length_of_mem hw
          have := f3 _ hi hi
          rw [List.getElem_idxOf] at this
          exact this
        · exact f2 c' w hw (by omega)
  · rintro ⟨p, b'⟩ ⟨_, e2, e3⟩
    exact ⟨e2, fun c v hv => e3 c v hv (h.lt c v hv).2⟩

theorem foldl_sum (l : List Nat) (f : Nat → Int) (s : Int) : l.foldl (fun s c => s + f c) s = s + (l.map f).sum := by
  induction l generalizing s with
  | nil => simp
  | cons x l ih => rw [List.foldl_cons, ih, List.map_cons, List.sum_cons]; omega

theorem acc_eq {H : Mat} (h : Good H) {a : List Int} {m : Nat → Nat → Int} (ha : RepV H a m) (v : Nat) :
    acc a (off H v) (rowOf H v).length = ok (((chks H v).map fun c => m c v).sum) := by
  unfold acc
  rw [← chks_length h, forN_foldl (l := chks H v) (f := fun s c => s + m c v), foldl_sum, Int.zero_add]
  intro k hk s
  rw [rd_some (repV_at h ha hk)]
  rfl

/-- The received values. -/
def yl (a : Algo) (n : Nat) (y : Nat → Bool) : List Int := (List.range n).map fun v => enc a (sgn (y v))

theorem rd_yl {a : Algo} {n v : Nat} (y : Nat → Bool) (hv : v < n) : rd (yl a n y) v = ok (enc a (sgn (y v))) := by
  apply rd_some
  unfold yl
  rw [getElem?_mapRange, if_pos hv]

theorem initV2C_sat {H : Mat} (h : Good H) (a : Algo) (n : Nat) (y : Nat → Bool) {m : Nat → Nat → Int} {c2v v2c : List Int}
    (hb : v2c.length = H.nConn) (hm : n ≠ 0 → RepV H c2v fun c v => enc a (m c v)) (hv : n ≠ 0 → ∀ c v, v ∈ vars H c → Val a (m c v)) :
    (initV2C a H n (yl a H.nRows y) c2v v2c).Sat fun b => RepV H b fun c v =>
      enc a (varMsg a n (sgn (y v)) (chks H v) (fun c' => m c' v) c) := by
  unfold initV2C
  refine Sat.bind (layV_sat (q := fun c v => enc a (varMsg a n (sgn (y v)) (chks H v) (fun c' => m c' v) c))
    (g := fun v p row b => rd (yl a H.nRows y) v >>= fun y => varMsgs a n c2v (i8 y) p row.length b) h hb ?_) fun s hs => sat_ok.2 hs
  intro v hvl b1 hb1
  rw [rd_yl y hvl, bind_ok, val_i8 (val_sgn a (y v))]
  unfold varMsgs
  by_cases h0 : n = 0
  · rw [if_pos h0, chks_length h]
    congr 1
    funext k b2
    unfold varMsg
    rw [if_pos h0]
  · rw [if_neg h0, acc_eq h (hm h0), bind_ok, ← chks_length h]
    refine forN_congr fun k b2 hk => ?_
    rw [rd_some (repV_at h (hm h0) hk), bind_ok, getD_lt _ hk]
    rw [newMsg_eq a h0 (sgn_cases _) (chks_nodup H v) (m := fun c => m c v) (fun c hc => hv h0 c v ((mem_chks h).1 hc)) (List.getElem_mem hk)]

theorem singleIte_sat {H : Mat} (h : Good H) (a : Algo) {tr : List Nat} (ht : RepT H tr) {b c2v : List Int} {q : Nat → Nat → Int}
    (hb : RepV H b fun c v => enc a (q c v)) (hq : ∀ c v, v ∈ vars H c → Val a (q c v)) (hc : c2v.length = H.nConn) :
    (singleIte a H tr b c2v).Sat fun a' => RepV H a' fun c v => enc a (chkMsg (vars H c) (q c) v) := by
  unfold singleIte
  refine Sat.bind (layC_sat (m := fun c v => enc a (chkMsg (vars H c) (q c) v)) (g := fun p col c2v => chkMsgs a tr b p col.length c2v) h hc ?_)
    fun s hs => sat_ok.2 hs
  intro c hcl a1 ha1
  have hard : a ≠ .E → (do
      let acc ← forN (vars H c).length (fun v acc => rd tr (coff H c + v) >>= fun t => rd b t >>= fun x => ok (xorI acc x)) 0
      forN (vars H c).length (fun v c2v => do
        let t ← rd tr (coff H c + v)
        let x ← rd b t
        wr c2v t (i8 (xorI acc x))) a1) =
      forN (vars H c).length (fun j a2 => wr a2 (slot H c ((vars H c).getD j 0)) (enc a (chkMsg (vars H c) (q c) ((vars H c).getD j 0)))) a1 := by
    intro ha
    have hpm : ∀ v ∈ vars H c, q c v = 1 ∨ q c v = -1 := fun v hv => val_pm ha (hq c v hv)
    have e : forN (vars H c).length (fun v acc => rd tr (coff H c + v) >>= fun t => rd b t >>= fun x => ok (xorI acc x)) 0 =
        ok (enc .A (((vars H c).map (q c)).prod)) := by
      rw [forN_foldl (l := vars H c) (f := fun s v => xorI s (enc .A (q c v)))]
      · have := xor_fold hpm (s := 1) (Or.inl rfl)
        rw [Int.one_mul] at this
        exact congrArg ok this
      · intro k hk s
        rw [rd_some (ht c k hk), bind_ok, rd_some (hb.2 c _ (List.getElem_mem hk)), bind_ok]
        dsimp only
        rw [enc_hard ha]
    rw [e, bind_ok]
    refine forN_congr fun j a2 hj => ?_
    have hm := List.getElem_mem hj
    rw [rd_some (ht c j hj), bind_ok, rd_some (hb.2 c _ hm), bind_ok, getD_lt _ hj]
    dsimp only
    rw [enc_hard ha, enc_hard ha, xor_enc (prod_pm hpm) (hpm _ hm)]
    have e2 : ((vars H c).map (q c)).prod * q c (vars H c)[j] = chkMsg (vars H c) (q c) (vars H c)[j] := by
      rw [prod_split (h.nodup c) hm]
      unfold chkMsg
      rcases hpm _ hm with h' | h' <;> rw [h'] <;> ring
    rw [e2, val_i8 (a := .A)]
    unfold chkMsg
    rcases prod_pm (l := others (vars H c) (vars H c)[j]) (q := q c) fun v hv => hpm v (mem_others.1 hv).1 with h' | h'
    · exact Or.inl h'
    · exact Or.inr (Or.inl h')
  cases a with
  | A => exact hard (by simp)
  | B => exact hard (by simp)
  | E =>
    unfold chkMsgs
    dsimp only
    refine forN_congr fun j a2 hj => ?_
    have e : forN (vars H c).length (fun vv acc => if j ≠ vv then rd tr (coff H c + vv) >>= fun t => rd b t >>= fun x => ok (i8 (acc * x)) else ok acc) 1 =
        ok (chkMsg (vars H c) (q c) (vars H c)[j]) := by
      rw [forN_foldl (l := vars H c) (f := fun s v => if v ≠ (vars H c)[j] then i8 (s * q c v) else s)]
      · rw [mul_fold (a := .E) (fun v hv => hq c v hv) _ (Or.inl rfl), Int.one_mul]
      · intro k hk s
        by_cases hjk : j = k
        · subst hjk
          rw [if_neg (by simp), if_neg (by simp)]
        · rw [if_pos hjk, if_pos (fun e => hjk ((List.Nodup.getElem_inj_iff (h.nodup c)).1 e).symm), rd_some (ht c k hk), bind_ok,
            rd_some (hb.2 c _ (List.getElem_mem hk)), bind_ok]
          rfl
    rw [e, bind_ok, rd_some (ht c j hj), bind_ok, getD_lt _ hj]
    rfl

theorem majority_eq {H : Mat} (h : Good H) (a : Algo) {w : Bool} (hw : a = .E → w = false) (y : Nat → Bool) {m : Nat → Nat → Int} {c2v V : List Int}
    (hm : RepV H c2v fun c v => enc a (m c v)) (hv : ∀ c v, v ∈ vars H c → Val a (m c v)) (hV : V.length = H.nRows) :
    majority a w H (yl a H.nRows y) c2v V =
      ok (bits H.nRows fun v => decide (vote a (sgn (y v)) (chks H v) (fun c => m c v) = -1)) := by
  have : (majority a w H (yl a H.nRows y) c2v V).Sat fun p => p = bits H.nRows fun v => decide (vote a (sgn (y v)) (chks H v) (fun c => m c v) = -1) := by
    unfold majority
    refine Sat.bind (forN_inv (fun n (s : Nat × List Int) => s.1 = off H n ∧ s.2.length = H.nRows ∧
      ∀ v, v < n → s.2[v]? = some (bit (decide (vote a (sgn (y v)) (chks H v) (fun c => m c v) = -1)))) ⟨rfl, hV, fun v hv => absurd hv (by omega)⟩ ?_) ?_
    · rintro v ⟨p, b1⟩ hvl ⟨e1, e2, e3⟩
      dsimp only at e1 e2 e3 ⊢
      subst e1
      rw [rd_r2c h hvl, bind_ok, rd_yl y hvl, bind_ok, acc_eq h hm, bind_ok, wr_lt (by omega), bind_ok]
      refine sat_ok.2 ⟨?_, by rw [List.length_set]; exact e2, ?_⟩
      · unfold off; rw [psum_succ]
      · intro u hu
        by_cases e : u = v
        · subst e
          rw [List.getElem?_set_self (by omega), ← chks_length h,
            (voteOf_eq a hw (sgn_cases _) (chks H u) (m := fun c => m c u) fun c hc => hv c u ((mem_chks h).1 hc)).1]
        · rw [List.getElem?_set_ne (by omega)]
          exact e3 u (by omega)
    · rintro ⟨p, b'⟩ ⟨_, e2, e3⟩
      exact sat_ok.2 (eq_mapRange e2 e3)
  obtain ⟨p, e, rfl⟩ := this
  exact e

theorem msgs_val (a : Algo) {H : Mat} {y : Nat → Bool} : ∀ n c v, v ∈ vars H c → Val a (msgs a H (fun v => sgn (y v)) n c v) := by
  intro n c v hv
  cases n with
  | zero => exact Or.inl rfl
  | succ n =>
    unfold msgs chkMsg
    exact prod_val fun v' _ => varMsg_val a n (sgn_cases _) _ _ _

/-! ## Iterations -/

/-- What every call keeps. -/
structure GOk (A : Conns) (d : Gal) : Prop where
  rep : Represents d.cfg.H A
  tr : RepT d.cfg.H d.tr
  HY : d.HY.length = d.cfg.H.nRows
  V : d.V.length = d.cfg.H.nRows
  c2v : d.c2v.length = d.cfg.H.nConn
  v2c : d.v2c.length = d.cfg.H.nConn
  N : d.cfg.N = d.cfg.H.nRows
  nIte : 0 < d.cfg.nIte
  depth : 0 < d.cfg.depth
  cur : d.cur < d.cfg.depth
  K : d.cfg.info.length = d.cfg.K
  info : ∀ p ∈ d.cfg.info, p < d.cfg.H.nRows
  wide : d.algo = .E → d.wide = false

theorem gal_mk {A : Conns} {a : Algo} {w : Bool} (hw : a = .E → w = false) {K N nIte depth : Int} {H : Mat} {info : List Nat} {syn : Bool} {d : Gal}
    (hA : Represents H A) (hdeg : ∀ v, v < A.rows → A.rowDeg v ≤ 256) (hi : ∀ p ∈ info, p < A.rows)
    (h : Gal.mk? a w K N nIte H info syn depth = ok d) :
    GOk A d ∧ d.cfg = ⟨K.toNat, N.toNat, nIte.toNat, H, syn, depth.toNat, info⟩ ∧ d.cur = 0 ∧ d.algo = a ∧ d.wide = w ∧ N = A.rows := by
  unfold Gal.mk? at h
  obtain ⟨g, hg, h⟩ := bind_ok_inv h
  obtain ⟨tr, ht, h⟩ := bind_ok_inv h
  obtain ⟨⟨h1, h2, h3, h4, h5, h6, h7⟩, rfl⟩ := cfg_iff.1 hg
  cases h
  have hN : N.toNat = H.nRows := by omega
  have hdeg' : ∀ v, v < H.nRows → (rowOf H v).length ≤ 256 := by
    intro v hv
    have hv' : v < A.rows := by rw [← hA.nRows]; exact hv
    rw [← card_row (nodup_rowOf hA v) (fun c => mem_rowOf hA v c)]
    exact hdeg v hv'
  obtain ⟨tr', ht', hr⟩ := buildTr_sat (good hA) hdeg'
  rw [ht] at ht'
  cases ht'
  refine ⟨⟨hA, hr, ?_, ?_, ?_, ?_, hN, ?_, ?_, ?_, h6, ?_, hw⟩, rfl, rfl, rfl, rfl, by rw [h5, hA.nRows]⟩
  · simpa using hN
  · simpa using hN
  · simp
  · simp
  · show 0 < nIte.toNat; omega
  · show 0 < depth.toNat; omega
  · show 0 < depth.toNat; omega
  · intro p hp
    show p < H.nRows
    rw [hA.nRows]
    exact hi p hp

theorem ite_sat {A : Conns} {d : Gal} (y : Nat → Bool) (n : Nat) (hd : GOk A d)
    (hm : n ≠ 0 → RepV d.cfg.H d.c2v fun c v => enc d.algo (msgs d.algo d.cfg.H (fun v => sgn (y v)) n c v)) :
    (d.ite n (yl d.algo d.cfg.H.nRows y)).Sat fun d' => (∃ c2v v2c, d' = { d with c2v, v2c }) ∧ GOk A d' ∧
      RepV d.cfg.H d'.c2v fun c v => enc d.algo (msgs d.algo d.cfg.H (fun v => sgn (y v)) (n + 1) c v) := by
  unfold Gal.ite
  refine Sat.bind (initV2C_sat (good hd.rep) d.algo n y hd.v2c hm fun _ => msgs_val d.algo n) fun b hb => ?_
  refine Sat.bind (singleIte_sat (good hd.rep) d.algo hd.tr hb (fun c v _ => varMsg_val d.algo n (sgn_cases _) _ _ _) hd.c2v)
    fun a ha => sat_ok.2 ⟨⟨_, _, rfl⟩, ?_, ha⟩
  exact ⟨hd.rep, hd.tr, hd.HY, hd.V, ha.1, hb.1, hd.N, hd.nIte, hd.depth, hd.cur, hd.K, hd.info, hd.wide⟩

theorem vote_eq {A : Conns} {d : Gal} (y : Nat → Bool) {n : Nat} (hd : GOk A d)
    (hm : RepV d.cfg.H d.c2v fun c v => enc d.algo (msgs d.algo d.cfg.H (fun v => sgn (y v)) n c v)) :
    d.vote (yl d.algo d.cfg.H.nRows y) = ok { d with V := bits d.cfg.H.nRows (decision d.algo d.cfg.H y n) } := by
  unfold Gal.vote
  rw [majority_eq (good hd.rep) d.algo hd.wide y hm (msgs_val d.algo n) hd.V, bind_ok]
  rfl

/-- The operations for which the check of the hard decisions is the one of `check_eq`. -/
def hardOps : Ops Int := ⟨0, 0, (· + ·), (· - ·), id, fun _ => false, fun x _ => x, fun _ _ => false, fun _ _ => false, fun b => decide (b ≠ 0), fun _ => true⟩

theorem checkH_eq (g : Cfg) (cur : Nat) (V : List Int) : checkH g cur V = g.check hardOps cur V := rfl

theorem valid_hard {A : Conns} (x : Nat → Bool) : Valid hardOps A (fun v => bit (x v)) ↔ Codeword A x := by
  unfold Valid
  have : (fun v => hardOps.isNeg (bit (x v))) = x := by
    funext v
    cases h : x v <;> simp [hardOps, bit]
  rw [this]

theorem loop_sat {A : Conns} (y : Nat → Bool) (g : Cfg) (a : Algo) (k : Nat) :
    ∀ n i (d : Gal) (b : Bool), GOk A d → d.cfg = g → d.algo = a → i + n = g.nIte →
      (i ≠ 0 → RepV g.H d.c2v fun c v => enc a (msgs a g.H (fun v => sgn (y v)) i c v)) →
      (g.syndrome = true → i < g.nIte → RunInv (fun n => Codeword A (decision a g.H y n)) g.depth k i d.cur) →
      (g.syndrome = true → ∀ j, 1 ≤ j → j < g.nIte → j ≤ i → ¬ Run (fun n => Codeword A (decision a g.H y n)) g.depth k j) →
      (b = true ↔ g.syndrome = false ∨ i = 0 ∨ g.nIte = 1) →
      (Gal.loop (yl a g.H.nRows y) n i d b).Sat fun q => GOk A q.1 ∧ q.1.cfg = g ∧ q.1.algo = a ∧ q.1.HY = d.HY ∧ ∃ N,
        StopsAt g.syndrome (Run (fun n => Codeword A (decision a g.H y n)) g.depth k) g.nIte N ∧
        q.1.V = bits g.H.nRows (decision a g.H y N) ∧
        (q.2 = true ↔ g.syndrome = false ∨ N < g.nIte ∨ g.nIte = 1) ∧
        (N < g.nIte → Codeword A (decision a g.H y N)) := by
  intro n
  induction n with
  | zero =>
    rintro i d b hd rfl rfl hi hm _ hb hf
    have hp := hd.nIte
    unfold Gal.loop
    rw [vote_eq y hd (hm (by omega)), bind_ok]
    refine sat_ok.2 ⟨⟨hd.rep, hd.tr, hd.HY, by simp [bits], hd.c2v, hd.v2c, hd.N, hd.nIte, hd.depth, hd.cur, hd.K, hd.info, hd.wide⟩, rfl, rfl, rfl,
      d.cfg.nIte, ⟨by omega, le_refl _, fun hs j h1 h2 => hb hs j h1 h2 (by omega), fun h => absurd h (by omega)⟩, ?_, ?_,
      fun h => absurd h (by omega)⟩
    · rw [show d.cfg.nIte = i by omega]
    · refine hf.trans ?_
      constructor
      · rintro (h | h | h)
        · exact Or.inl h
        · omega
        · exact Or.inr (Or.inr h)
      · rintro (h | h | h)
        · exact Or.inl h
        · omega
        · exact Or.inr (Or.inr h)
  | succ n ih =>
    rintro i d b hd rfl rfl hi hm hr hb hf
    have hp := hd.nIte
    unfold Gal.loop
    refine Sat.bind (ite_sat y i hd hm) ?_
    rintro d1 ⟨⟨c2v, v2c, rfl⟩, hd1, hm1⟩
    dsimp only
    by_cases hs : d.cfg.syndrome = true
    · by_cases hn : n = 0
      · subst hn
        rw [if_neg (by simp)]
        refine ih (i + 1) _ b hd1 rfl rfl (by omega) (fun _ => hm1) (fun _ h => absurd h (by omega)) ?_ ?_
        · intro h j h1 h2 h3
          exact hb h j h1 h2 (by omega)
        · rw [hf]
          constructor
          · rintro (h | h | h)
            · exact Or.inl h
            · exact Or.inr (Or.inr (by omega))
            · exact Or.inr (Or.inr h)
          · rintro (h | h | h)
            · exact Or.inl h
            · omega
            · exact Or.inr (Or.inr h)
      · rw [if_pos (by simp [hs, hn]), vote_eq y hd1 hm1, bind_ok]
        dsimp only
        have hr' : RunInv (fun n => Valid hardOps A (fun v => bit (decision d.algo d.cfg.H y n v))) d.cfg.depth k i d.cur := by
          simp only [valid_hard]
          exact hr hs (by omega)
        obtain ⟨cur', v, ec, hcur, ht, hfalse⟩ := check_eq hardOps hd.rep (fun n v => bit (decision d.algo d.cfg.H y n v)) hs hr'
        simp only [valid_hard] at ht hfalse
        have ec' : checkH d.cfg d.cur (bits d.cfg.H.nRows (decision d.algo d.cfg.H y (i + 1))) = ok (cur', v) := ec
        rw [ec', bind_ok]
        dsimp only
        cases v with
        | true =>
          rw [if_pos rfl]
          obtain ⟨h1, h2, h3⟩ := ht rfl
          refine sat_ok.2 ⟨⟨hd.rep, hd.tr, hd.HY, by simp [bits], hd1.c2v, hd1.v2c, hd.N, hd.nIte, hd.depth, hcur, hd.K, hd.info, hd.wide⟩, rfl, rfl, rfl,
            i + 1, ⟨by omega, by omega, fun hs j h1 h2 => hb hs j h1 (by omega) (by omega), fun _ => ⟨hs, h2⟩⟩, rfl, ?_, fun _ => h3⟩
          simp only [true_iff]
          exact Or.inr (Or.inl (by omega))
        | false =>
          rw [if_neg (by simp)]
          obtain ⟨h1, h2⟩ := hfalse rfl
          refine ih (i + 1) _ false ⟨hd.rep, hd.tr, hd.HY, by simp [bits], hd1.c2v, hd1.v2c, hd.N, hd.nIte, hd.depth, hcur, hd.K, hd.info, hd.wide⟩
            rfl rfl (by omega) (fun _ => hm1) (fun _ _ => h1) ?_ ?_
          · intro h j h3 h4 h5
            by_cases e : j = i + 1
            · subst e; exact h2
            · exact hb h j h3 h4 (by omega)
          · simp [hs]
            omega
    · have hs' : d.cfg.syndrome = false := by simpa using hs
      rw [if_neg (by simp [hs'])]
      refine ih (i + 1) _ b hd1 rfl rfl (by omega) (fun _ => hm1) (fun h => absurd h hs) (fun h => absurd h hs) ?_
      rw [hf]
      simp [hs']

/-- What a decoding gives: `d` is the decoder before the call. -/
def Out (A : Conns) (d : Gal) (y : Nat → Bool) (q : Gal × Bool) : Prop :=
  GOk A q.1 ∧ q.1.cfg = d.cfg ∧ q.1.algo = d.algo ∧ ∃ N,
    StopsAt d.cfg.syndrome (Run (fun n => Codeword A (decision d.algo d.cfg.H y n)) d.cfg.depth d.cur) d.cfg.nIte N ∧
    q.1.V = bits d.cfg.H.nRows (decision d.algo d.cfg.H y N) ∧
    (q.2 = false ↔ d.cfg.syndrome = false ∨ N < d.cfg.nIte ∨ d.cfg.nIte = 1) ∧
    (N < d.cfg.nIte → Codeword A (decision d.algo d.cfg.H y N))

theorem decode_sat {A : Conns} {d : Gal} (y : Nat → Bool) (hd : GOk A d) {Y : List Int} (hY : Y = yl d.algo d.cfg.H.nRows y) :
    (d.decode Y).Sat (Out A d y) := by
  subst hY
  unfold Gal.decode
  refine Sat.bind (loop_sat (A := A) y d.cfg d.algo d.cur d.cfg.nIte 0 d true hd rfl rfl (by omega) (fun h => absurd rfl h)
    (fun _ _ => RunInv.zero hd.cur) (fun _ j h1 _ h2 => absurd h1 (by omega)) (by simp)) ?_
  rintro ⟨d', b⟩ ⟨h1, h2, h3, -, N, h4, h5, h6, h7⟩
  exact sat_ok.2 ⟨h1, h2, h3, N, h4, h5, by simpa using h6, h7⟩

theorem yl_hard {a : Algo} (ha : a ≠ .E) (n : Nat) (y : Nat → Bool) : yl a n y = bits n y := by
  unfold yl bits
  congr 1
  funext v
  cases y v <;> cases a <;> first | rfl | exact absurd rfl ha

theorem rd_bits {n v : Nat} (y : Nat → Bool) (hv : v < n) : rd (bits n y) v = ok (bit (y v)) := by
  apply rd_some
  unfold bits
  rw [getElem?_mapRange, if_pos hv]

theorem transform_eq {n : Nat} (y : Nat → Bool) {HY : List Int} (h : HY.length = n) : transform n (bits n y) HY = ok (yl .E n y) := by
  unfold transform
  refine forN_all h fun k W hk => ?_
  rw [rd_bits y hk, bind_ok]
  cases y k <;> rfl

theorem hard_sat {A : Conns} {d : Gal} (y : Nat → Bool) (hd : GOk A d) : (d.hard (bits d.cfg.N y)).Sat (Out A d y) := by
  unfold Gal.hard Gal.transforms
  by_cases ha : d.algo = .E
  · rw [if_pos (by simp [ha]), transform_eq y (hd.HY.trans hd.N.symm), bind_ok]
    have hd' : GOk A { d with HY := yl .E d.cfg.N y } :=
      ⟨hd.rep, hd.tr, by simp [yl, hd.N], hd.V, hd.c2v, hd.v2c, hd.N, hd.nIte, hd.depth, hd.cur, hd.K, hd.info, hd.wide⟩
    exact decode_sat y hd' (by rw [ha, hd.N])
  · rw [if_neg (by simpa using ha), hd.N, ← yl_hard ha]
    exact decode_sat y hd rfl

theorem hardDecide_eq {R : Type} (o : Ops R) (lanes : Nat) {n : Nat} {Y : List R} (hY : Y.length = n) {HY : List Int} (h : HY.length = n) :
    hardDecide o lanes n Y HY = ok (bits n (hardOf o lanes n Y)) := by
  unfold hardDecide
  refine forN_all h fun k W hk => ?_
  rw [rd_lt (by omega), bind_ok]
  unfold hardOf llr
  rw [getD_lt _ (by omega)]
  unfold bit
  by_cases h1 : k < n / lanes * lanes
  · rw [if_pos h1]
  · rw [if_neg h1]

theorem transform_self {n : Nat} (y : Nat → Bool) : transform n (bits n y) (bits n y) = ok (yl .E n y) :=
  transform_eq y (by simp [bits])

theorem soft_sat {R : Type} (o : Ops R) (lanes : Nat) {A : Conns} {d : Gal} {Y : List R} (hY : Y.length = d.cfg.N) (hd : GOk A d) :
    (d.soft o lanes Y).Sat (Out A d (hardOf o lanes d.cfg.N Y)) := by
  unfold Gal.soft Gal.transforms
  rw [hardDecide_eq o lanes hY (hd.HY.trans hd.N.symm), bind_ok]
  generalize hardOf o lanes d.cfg.N Y = y
  have hd' : ∀ HY : List Int, HY.length = d.cfg.H.nRows → GOk A { d with HY } := fun HY h =>
    ⟨hd.rep, hd.tr, h, hd.V, hd.c2v, hd.v2c, hd.N, hd.nIte, hd.depth, hd.cur, hd.K, hd.info, hd.wide⟩
  by_cases ha : d.algo = .E
  · simp only [ha, decide_true, if_true]
    rw [transform_self, bind_ok]
    have h1 := hd' (yl .E d.cfg.N y) (by simp [yl, hd.N])
    have := decode_sat y h1 (Y := yl .E d.cfg.N y) (by rw [ha, hd.N])
    unfold Out at this ⊢
    simp only [ha] at this ⊢
    exact this
  · simp only [ha, decide_false, if_false, Bool.false_eq_true]
    rw [bind_ok]
    exact decode_sat y (hd' (bits d.cfg.N y) (by simp [bits, hd.N])) (by rw [yl_hard ha, hd.N])

theorem store_eq {A : Conns} {d : Gal} (hd : GOk A d) {x : Nat → Bool} (hx : d.V = bits d.cfg.H.nRows x) {V : List Int} (hV : V.length = d.cfg.K) :
    d.store V = ok (d.cfg.info.map fun i => bit (x i)) := by
  have : (d.store V).Sat fun W => W = d.cfg.info.map fun i => bit (x i) := by
    unfold Gal.store
    refine Sat.mono (forN_inv (fun n (W : List Int) => W.length = d.cfg.K ∧
      ∀ k (hk : k < d.cfg.info.length), k < n → W[k]? = some (bit (x d.cfg.info[k]))) ⟨hV, fun k _ h => absurd h (by omega)⟩ ?_) ?_
    · rintro k W hk ⟨e1, e2⟩
      have hk' : k < d.cfg.info.length := by rw [hd.K]; exact hk
      rw [rd_lt hk', bind_ok, hx, rd_bits x (hd.info _ (List.getElem_mem hk')), bind_ok, wr_lt (by omega)]
      refine sat_ok.2 ⟨by rw [List.length_set]; exact e1, ?_⟩
      intro j hj hlt
      by_cases e : j = k
      · subst e; rw [List.getElem?_set_self (by omega)]
      · rw [List.getElem?_set_ne (by omega)]
        exact e2 j hj (by omega)
    · rintro W ⟨e1, e2⟩
      have hK := hd.K
      apply List.ext_getElem?
      intro k
      rw [List.getElem?_map]
      by_cases hk : k < d.cfg.info.length
      · rw [e2 k hk (by omega), List.getElem?_eq_getElem hk]; rfl
      · rw [List.getElem?_eq_none (by omega), List.getElem?_eq_none (by omega)]; rfl
  obtain ⟨W, e, rfl⟩ := this
  exact e

theorem storeCw_eq {A : Conns} {d : Gal} (hd : GOk A d) {x : Nat → Bool} (hx : d.V = bits d.cfg.H.nRows x) {V : List Int} (hV : V.length = d.cfg.N) :
    d.storeCw V = ok (bits d.cfg.N x) := by
  unfold Gal.storeCw
  refine forN_all hV fun k W hk => ?_
  rw [hx, rd_bits x (by rw [← hd.N]; exact hk), bind_ok]

theorem gal_hist {R : Type} {o : Ops R} {lanes : Nat} {A : Conns} {d0 d : Gal} (h0 : GOk A d0) (h : Gal.Hist o lanes d0 d) :
    GOk A d ∧ d.cfg = d0.cfg ∧ d.algo = d0.algo := by
  have key : ∀ {d d' : Gal} {y : Nat → Bool} {x : Exec (Gal × Bool)} {st : Gal → Exec (List Int)} {q : Res Int}, x.Sat (Out A d y) →
      (x >>= fun q => st q.1 >>= fun V => ok (q.1, res q.2 V)) = ok (d', q) → GOk A d' ∧ d'.cfg = d.cfg ∧ d'.algo = d.algo := by
    intro d d' y x st q hx e
    obtain ⟨a, ea, h⟩ := hx
    rw [ea, bind_ok] at e
    obtain ⟨V, _, e⟩ := bind_ok_inv e
    cases e
    exact ⟨h.1, h.2.1, h.2.2.1⟩
  induction h with
  | init => exact ⟨h0, rfl, rfl⟩
  | hiho _ _ e ih =>
    obtain ⟨k1, k2, k3⟩ := key (st := fun d => d.store _) (hard_sat _ ih.1) e
    exact ⟨k1, k2.trans ih.2.1, k3.trans ih.2.2⟩
  | hihoCw _ _ e ih =>
    obtain ⟨k1, k2, k3⟩ := key (st := fun d => d.storeCw _) (hard_sat _ ih.1) e
    exact ⟨k1, k2.trans ih.2.1, k3.trans ih.2.2⟩
  | siho _ hY _ e ih =>
    obtain ⟨k1, k2, k3⟩ := key (st := fun d => d.store _) (soft_sat o lanes hY ih.1) e
    exact ⟨k1, k2.trans ih.2.1, k3.trans ih.2.2⟩
  | sihoCw _ hY _ e ih =>
    obtain ⟨k1, k2, k3⟩ := key (st := fun d => d.storeCw _) (soft_sat o lanes hY ih.1) e
    exact ⟨k1, k2.trans ih.2.1, k3.trans ih.2.2⟩

/-! ## Symmetry -/

theorem varMsg_cong (a : Algo) (n : Nat) (y : Int) {l : List Nat} {m m' : Nat → Int} (h : n ≠ 0 → ∀ c ∈ l, m c = m' c) (c : Nat) :
    varMsg a n y l m c = varMsg a n y l m' c := by
  unfold varMsg
  by_cases h0 : n = 0
  · rw [if_pos h0, if_pos h0]
  · rw [if_neg h0, if_neg h0]
    have h := h h0
    have ho : ∀ x ∈ others l c, m x = m' x := fun x hx => h x (mem_others.1 hx).1
    cases a with
    | A =>
      have : (∀ c' ∈ others l c, m c' = -y) ↔ ∀ c' ∈ others l c, m' c' = -y :=
        forall_congr' fun x => forall_congr' fun hx => by rw [ho x hx]
      simp only [this]
    | B =>
      have e1 : l.countP (fun c' => decide (m c' = y)) = l.countP (fun c' => decide (m' c' = y)) :=
        List.countP_congr fun x hx => by rw [h x hx]
      have e2 : (others l c).countP (fun c' => decide (m c' = -y)) = (others l c).countP (fun c' => decide (m' c' = -y)) :=
        List.countP_congr fun x hx => by rw [ho x hx]
      simp only [e1, e2]
    | E =>
      have : (others l c).map m = (others l c).map m' := List.map_congr_left ho
      simp only [this]

theorem sum_neg (l : List Nat) (m : Nat → Int) : (l.map fun c => -m c).sum = -(l.map m).sum := by
  induction l with
  | nil => rfl
  | cons x l ih => rw [List.map_cons, List.sum_cons, ih, List.map_cons, List.sum_cons]; omega

theorem varMsg_sym (a : Algo) (n : Nat) (y : Int) (l : List Nat) (m : Nat → Int) (c : Nat) {s : Int} (hs : s = 1 ∨ s = -1) :
    varMsg a n (s * y) l (fun c => s * m c) c = s * varMsg a n y l m c := by
  rcases hs with rfl | rfl
  · simp
  · simp only [Int.neg_mul, Int.one_mul]
    unfold varMsg
    by_cases h0 : n = 0
    · rw [if_pos h0, if_pos h0]
    · rw [if_neg h0, if_neg h0]
      cases a with
      | A =>
        simp only [Int.neg_inj]
        split <;> rfl
      | B =>
        simp only [Int.neg_inj]
        split <;> rfl
      | E =>
        dsimp only
        rw [sum_neg, ← Int.sign_neg]
        congr 1
        ring

theorem sgn_xor (a b : Bool) : sgn (a ^^ b) = sgn b * sgn a := by cases a <;> cases b <;> rfl

theorem parity_acc (z : Nat → Bool) (l : List Nat) : ∀ b, l.foldl (fun b v => b ^^ z v) b = (b ^^ parity z l) := by
  unfold parity
  induction l with
  | nil => simp
  | cons x l ih =>
    intro b
    rw [List.foldl_cons, List.foldl_cons, ih, ih (false ^^ z x)]
    simp

theorem prod_sgn (z : Nat → Bool) (l : List Nat) : (l.map fun v => sgn (z v)).prod = sgn (parity z l) := by
  induction l with
  | nil => rfl
  | cons x l ih =>
    rw [List.map_cons, List.prod_cons, ih]
    show _ = sgn (List.foldl _ _ _)
    rw [List.foldl_cons, parity_acc, Bool.false_xor, Bool.xor_comm, sgn_xor]

theorem prod_mul (l : List Nat) (f g : Nat → Int) : (l.map fun v => f v * g v).prod = (l.map f).prod * (l.map g).prod := by
  induction l with
  | nil => rfl
  | cons x l ih => simp only [List.map_cons, List.prod_cons, ih]; ring

theorem chkMsg_sym {H : Mat} {A : Conns} (h : Represents H A) {z : Nat → Bool} (hz : Codeword A z) {c v : Nat} (hv : v ∈ vars H c) (q : Nat → Int) :
    chkMsg (vars H c) (fun v => sgn (z v) * q v) v = sgn (z v) * chkMsg (vars H c) q v := by
  unfold chkMsg
  rw [prod_mul]
  have h1 := prod_split ((good h).nodup c) hv fun v => sgn (z v)
  rw [prod_sgn, Verif.LDPCBF.parity_vars h] at h1
  have hc : c < A.cols := by rw [← h.nCols]; exact ((good h).lt c v hv).2
  rw [decide_eq_true (hz c hc)] at h1
  have h2 : (1 : Int) = sgn (z v) * ((others (vars H c) v).map fun v => sgn (z v)).prod := h1
  have h3 : ((others (vars H c) v).map fun v => sgn (z v)).prod = sgn (z v) := by
    rcases sgn_cases (z v) with e | e <;> rw [e] at h2 ⊢ <;> omega
  rw [h3]

theorem chkMsg_cong {l : List Nat} {q q' : Nat → Int} (h : ∀ v ∈ l, q v = q' v) (v : Nat) : chkMsg l q v = chkMsg l q' v := by
  unfold chkMsg
  rw [List.map_congr_left fun x hx => h x (mem_others.1 hx).1]

theorem msgs_sym (a : Algo) {H : Mat} {A : Conns} (h : Represents H A) {y z : Nat → Bool} (hz : Codeword A z) : ∀ n, n ≠ 0 → ∀ c v, v ∈ vars H c →
    msgs a H (fun v => sgn (y v ^^ z v)) n c v = sgn (z v) * msgs a H (fun v => sgn (y v)) n c v := by
  intro n
  induction n with
  | zero => intro h0; exact absurd rfl h0
  | succ n ih =>
    intro _ c v hv
    unfold msgs
    rw [← chkMsg_sym h hz hv]
    refine chkMsg_cong (fun v' hv' => ?_) v
    rw [sgn_xor, ← varMsg_sym a n _ _ _ c (sgn_cases _)]
    refine varMsg_cong a n _ (fun h0 c' hc' => ?_) c
    exact ih h0 c' v' ((mem_chks (good h)).1 hc')

theorem vote_cong (a : Algo) (y : Int) {l : List Nat} {m m' : Nat → Int} (h : ∀ c ∈ l, m c = m' c) : vote a y l m = vote a y l m' := by
  unfold vote
  rw [List.map_congr_left h]

theorem vote_sym (a : Algo) (y : Int) (l : List Nat) (m : Nat → Int) {s : Int} (hs : s = 1 ∨ s = -1) :
    vote a (s * y) l (fun c => s * m c) = s * vote a y l m := by
  rcases hs with rfl | rfl
  · simp
  · simp only [Int.neg_mul, Int.one_mul]
    unfold vote
    dsimp only
    rw [sum_neg]
    have e : (-(l.map m).sum + if a = .E then -y else 0) = -((l.map m).sum + if a = .E then y else 0) := by
      split <;> omega
    rw [e, Int.sign_neg]
    generalize (l.map m).sum + (if a = .E then y else 0) = t
    by_cases h : t = 0
    · rw [if_pos (by omega), if_pos h]
    · rw [if_neg (by omega), if_neg h]

theorem vote_pm (a : Algo) {y : Int} (hy : y = 1 ∨ y = -1) (l : List Nat) (m : Nat → Int) : vote a y l m = 1 ∨ vote a y l m = -1 := by
  unfold vote
  dsimp only
  generalize (l.map m).sum + (if a = .E then y else 0) = t
  split
  · exact hy
  · rcases lt_trichotomy t 0 with h | h | h
    · rw [Int.sign_eq_neg_one_of_neg h]; simp
    · exact absurd h (by assumption)
    · rw [Int.sign_eq_one_of_pos h]; simp

theorem decision_sym (a : Algo) {H : Mat} {A : Conns} (h : Represents H A) {y z : Nat → Bool} (hz : Codeword A z) {n : Nat} (hn : n ≠ 0) (v : Nat) :
    decision a H (fun v => y v ^^ z v) n v = (decision a H y n v ^^ z v) := by
  unfold decision
  rw [vote_cong (m' := fun c => sgn (z v) * msgs a H (fun v => sgn (y v)) n c v) a _ fun c hc => msgs_sym a h hz n hn c v ((mem_chks (good h)).1 hc),
    sgn_xor, vote_sym a _ _ _ (sgn_cases _)]
  rcases vote_pm a (sgn_cases (y v)) (chks H v) fun c => msgs a H (fun v => sgn (y v)) n c v with e | e <;> rw [e] <;> cases z v <;> rfl

/-! ## The null word -/

theorem prod_ones {l : List Nat} {q : Nat → Int} (h : ∀ v ∈ l, q v = 1) : (l.map q).prod = 1 := by
  induction l with
  | nil => rfl
  | cons x l ih =>
    rw [List.map_cons, List.prod_cons, ih fun v hv => h v (List.mem_cons_of_mem _ hv), h x (List.mem_cons_self ..)]
    rfl

theorem sum_ones {l : List Nat} {q : Nat → Int} (h : ∀ v ∈ l, q v = 1) : (l.map q).sum = l.length := by
  induction l with
  | nil => rfl
  | cons x l ih =>
    rw [List.map_cons, List.sum_cons, ih fun v hv => h v (List.mem_cons_of_mem _ hv), h x (List.mem_cons_self ..), List.length_cons]
    push_cast
    omega

theorem varMsg_ones (a : Algo) (n : Nat) {l : List Nat} (hl : l.Nodup) {m : Nat → Int} (h : n ≠ 0 → ∀ c ∈ l, m c = 1) {c : Nat} (hc : c ∈ l) :
    varMsg a n 1 l m c = 1 := by
  unfold varMsg
  by_cases h0 : n = 0
  · rw [if_pos h0]
  · rw [if_neg h0]
    have h := h h0
    have ho : ∀ x ∈ others l c, m x = 1 := fun x hx => h x (mem_others.1 hx).1
    cases a with
    | A =>
      dsimp only
      rw [if_neg]
      rintro ⟨h1, h2⟩
      have hlen := length_split hl hc
      cases e : others l c with
      | nil => rw [e] at hlen; simp at hlen; omega
      | cons x t =>
        have hx : x ∈ others l c := by rw [e]; exact List.mem_cons_self ..
        have := h2 x hx
        rw [ho x hx] at this
        omega
    | B =>
      dsimp only
      rw [if_neg]
      have : (others l c).countP (fun c' => decide (m c' = -1)) = 0 := by
        rw [List.countP_eq_zero]
        intro x hx
        rw [ho x hx]
        decide
      omega
    | E =>
      dsimp only
      rw [sum_ones ho]
      apply Int.sign_eq_one_of_pos
      split <;> omega

theorem msgs_zero (a : Algo) {H : Mat} {A : Conns} (h : Represents H A) : ∀ n c v, v ∈ vars H c → msgs a H (fun _ => 1) n c v = 1 := by
  intro n
  induction n with
  | zero => intro c v _; rfl
  | succ n ih =>
    intro c v hv
    unfold msgs chkMsg
    refine prod_ones fun v' hv' => ?_
    have hv2 := (mem_others.1 hv').1
    exact varMsg_ones a n (chks_nodup H v') (fun _ c' hc' => ih c' v' ((mem_chks (good h)).1 hc')) ((mem_chks (good h)).2 hv2)

theorem decision_zero (a : Algo) {H : Mat} {A : Conns} (h : Represents H A) (n v : Nat) : decision a H (fun _ => false) n v = false := by
  unfold decision
  have e : (fun v : Nat => sgn ((fun _ => false) v)) = fun _ => 1 := rfl
  rw [e, vote_cong (m' := fun _ => 1) a _ fun c hc => msgs_zero a h n c v ((mem_chks (good h)).1 hc)]
  apply decide_eq_false
  unfold vote
  dsimp only
  rw [sum_ones (fun _ _ => rfl)]
  have hs : sgn false = 1 := rfl
  have h0 : (0 : Int) ≤ ↑(chks H v).length + if a = .E then sgn false else 0 := by rw [hs]; split <;> omega
  revert h0
  generalize (↑(chks H v).length + if a = .E then sgn false else 0 : Int) = t
  intro h0
  by_cases h1 : t = 0
  · rw [if_pos h1]; decide
  · rw [if_neg h1, Int.sign_eq_one_of_pos (by omega)]; decide

theorem decision_codeword (a : Algo) {H : Mat} {A : Conns} (h : Represents H A) {z : Nat → Bool} (hz : Codeword A z) {n : Nat} (hn : n ≠ 0) :
    decision a H z n = z := by
  funext v
  have := decision_sym a h (y := fun _ => false) hz hn v
  rw [decision_zero a h] at this
  simpa using this

end Verif.Gallager
