import Verif.Spec.RSCDB
import Verif.Prelude.Loops

/-! # Lemmas on the double-binary convolutional encoder -/

namespace Verif.RSCDB
open Exec Verif.RSC

def toStd : Standard → Std
  | .rcs1 => rcs1
  | .rcs2 => rcs2

def tN : Standard → List (List Nat)
  | .rcs1 => [[0, 4, 1, 5, 6, 2, 7, 3], [7, 3, 6, 2, 1, 5, 0, 4], [4, 0, 5, 1, 2, 6, 3, 7], [3, 7, 2, 6, 5, 1, 4, 0]]
  | .rcs2 => [[0, 8, 9, 1, 2, 10, 11, 3, 4, 12, 13, 5, 6, 14, 15, 7], [13, 5, 4, 12, 15, 7, 6, 14, 9, 1, 0, 8, 11, 3, 2, 10],
    [8, 0, 1, 9, 10, 2, 3, 11, 12, 4, 5, 13, 14, 6, 7, 15], [5, 13, 12, 4, 7, 15, 14, 6, 1, 9, 8, 0, 3, 11, 10, 2]]

def tP : Standard → List (List Nat)
  | .rcs1 => [[0, 0, 2, 2, 3, 3, 1, 1], [3, 3, 1, 1, 0, 0, 2, 2], [3, 3, 1, 1, 0, 0, 2, 2], [0, 0, 2, 2, 3, 3, 1, 1]]
  | .rcs2 => [[0, 0, 2, 2, 3, 3, 1, 1, 2, 2, 0, 0, 1, 1, 3, 3], [3, 3, 1, 1, 0, 0, 2, 2, 1, 1, 3, 3, 2, 2, 0, 0],
    [3, 3, 1, 1, 0, 0, 2, 2, 1, 1, 3, 3, 2, 2, 0, 0], [0, 0, 2, 2, 3, 3, 1, 1, 2, 2, 0, 0, 1, 1, 3, 3]]

theorem tables_ok (S : Standard) : tables (toStd S) = ok (tN S, tP S) := by cases S <;> decide +kernel

theorem nff_eq (S : Standard) : (toStd S).nff = S.memory := by cases S <;> rfl

/-- The input of a couple of bits. -/
def inp (a b : Bool) : Nat := 2 * a.toNat + b.toNat

def nx (S : Standard) (i s : Nat) : Nat := ((tN S).getD i []).getD s 0
def py (S : Standard) (i s : Nat) : Nat := ((tP S).getD i []).getD s 0

theorem look_nx (S : Standard) (a b : Bool) {s : Nat} (h : s < 2 ^ S.memory) : look (tN S) (b2i a * 2 + b2i b) s = ok (nx S (inp a b) s) := by
  cases S
  · have key : ∀ a b : Bool, ∀ s, s < 8 → look (tN .rcs1) (b2i a * 2 + b2i b) s = ok (nx .rcs1 (inp a b) s) := by decide +kernel
    exact key a b s h
  · have key : ∀ a b : Bool, ∀ s, s < 16 → look (tN .rcs2) (b2i a * 2 + b2i b) s = ok (nx .rcs2 (inp a b) s) := by decide +kernel
    exact key a b s h

theorem look_py (S : Standard) (a b : Bool) {s : Nat} (h : s < 2 ^ S.memory) : look (tP S) (b2i a * 2 + b2i b) s = ok (py S (inp a b) s) := by
  cases S
  · have key : ∀ a b : Bool, ∀ s, s < 8 → look (tP .rcs1) (b2i a * 2 + b2i b) s = ok (py .rcs1 (inp a b) s) := by decide +kernel
    exact key a b s h
  · have key : ∀ a b : Bool, ∀ s, s < 16 → look (tP .rcs2) (b2i a * 2 + b2i b) s = ok (py .rcs2 (inp a b) s) := by decide +kernel
    exact key a b s h

theorem nx_lt (S : Standard) (a b : Bool) {s : Nat} (h : s < 2 ^ S.memory) : nx S (inp a b) s < 2 ^ S.memory := by
  cases S
  · have key : ∀ a b : Bool, ∀ s, s < 8 → nx .rcs1 (inp a b) s < 8 := by decide +kernel
    exact key a b s h
  · have key : ∀ a b : Bool, ∀ s, s < 16 → nx .rcs2 (inp a b) s < 16 := by decide +kernel
    exact key a b s h

/-- States as numbers and as contents of the register. -/
theorem num_lt {S : Standard} {l : List Bool} (h : l.length = S.memory) : num l < 2 ^ S.memory := by
  cases S
  · match l, h with
    | [s1, s2, s3], _ => cases s1 <;> cases s2 <;> cases s3 <;> decide
  · match l, h with
    | [s1, s2, s3, s4], _ => cases s1 <;> cases s2 <;> cases s3 <;> cases s4 <;> decide

theorem num_inj {S : Standard} {l l' : List Bool} (h : l.length = S.memory) (h' : l'.length = S.memory) (e : num l = num l') : l = l' := by
  cases S
  · match l, h, l', h' with
    | [s1, s2, s3], _, [t1, t2, t3], _ => revert s1 s2 s3 t1 t2 t3; decide
  · match l, h, l', h' with
    | [s1, s2, s3, s4], _, [t1, t2, t3, t4], _ => revert s1 s2 s3 s4 t1 t2 t3 t4; decide +kernel

theorem num_surj {S : Standard} {s : Nat} (h : s < 2 ^ S.memory) : ∃ l : List Bool, l.length = S.memory ∧ num l = s := by
  cases S
  · have key : ∀ s, s < 8 → num [s.testBit 2, s.testBit 1, s.testBit 0] = s := by decide +kernel
    exact ⟨_, rfl, key s h⟩
  · have key : ∀ s, s < 16 → num [s.testBit 3, s.testBit 2, s.testBit 1, s.testBit 0] = s := by decide +kernel
    exact ⟨_, rfl, key s h⟩

theorem step_len {S : Standard} {l : List Bool} (h : l.length = S.memory) (a b : Bool) : (step S l a b).1.length = S.memory := by
  cases S
  · match l, h with
    | [s1, s2, s3], _ => rfl
  · match l, h with
    | [s1, s2, s3, s4], _ => rfl

theorem step_num {S : Standard} {l : List Bool} (h : l.length = S.memory) (a b : Bool) :
    nx S (inp a b) (num l) = num (step S l a b).1 ∧ ((bit (py S (inp a b) (num l)) 1 : Nat) : Int) = b2i (step S l a b).2.1 ∧
      ((bit (py S (inp a b) (num l)) 0 : Nat) : Int) = b2i (step S l a b).2.2 := by
  cases S
  · match l, h with
    | [s1, s2, s3], _ => revert s1 s2 s3 a b; decide +kernel
  · match l, h with
    | [s1, s2, s3, s4], _ => revert s1 s2 s3 s4 a b; decide +kernel

/-! ## Linear algebra -/

/-- The state after `k` steps. -/
def run (S : Standard) (a b : Nat → Bool) (s : Nat) : Nat → Nat
  | 0 => s
  | k + 1 => nx S (inp (a k) (b k)) (run S a b s k)

def pow (S : Standard) (t : Nat) : Nat → Nat := run S (fun _ => false) (fun _ => false) t

theorem run_lt {S : Standard} {a b : Nat → Bool} {s : Nat} (h : s < 2 ^ S.memory) (k : Nat) : run S a b s k < 2 ^ S.memory := by
  induction k with
  | zero => exact h
  | succ k ih => exact nx_lt S _ _ ih

theorem nx_xor (S : Standard) (a b : Bool) {s t : Nat} (hs : s < 2 ^ S.memory) (ht : t < 2 ^ S.memory) :
    nx S (inp a b) (s ^^^ t) = nx S (inp a b) s ^^^ nx S (inp false false) t := by
  cases S
  · have key : ∀ a b : Bool, ∀ s, s < 8 → ∀ t, t < 8 → nx .rcs1 (inp a b) (s ^^^ t) = nx .rcs1 (inp a b) s ^^^ nx .rcs1 (inp false false) t := by
      decide +kernel
    exact key a b s hs t ht
  · have key : ∀ a b : Bool, ∀ s, s < 16 → ∀ t, t < 16 → nx .rcs2 (inp a b) (s ^^^ t) = nx .rcs2 (inp a b) s ^^^ nx .rcs2 (inp false false) t := by
      decide +kernel
    exact key a b s hs t ht

theorem run_xor {S : Standard} {a b : Nat → Bool} {s t : Nat} (hs : s < 2 ^ S.memory) (ht : t < 2 ^ S.memory) (k : Nat) :
    run S a b (s ^^^ t) k = run S a b s k ^^^ pow S t k := by
  induction k with
  | zero => rfl
  | succ k ih =>
    show nx S _ (run S a b (s ^^^ t) k) = _
    rw [ih, nx_xor S (a k) (b k) (run_lt hs k) (t := pow S t k) (run_lt ht k)]
    rfl

theorem pow_add (S : Standard) (t j k : Nat) : pow S t (j + k) = pow S (pow S t j) k := by
  induction k with
  | zero => rfl
  | succ k ih => exact congrArg (nx S (inp false false)) ih

theorem pow_period {S : Standard} {t : Nat} (h : t < 2 ^ S.memory) : pow S t (2 ^ S.memory - 1) = t := by
  cases S
  · have key : ∀ t, t < 8 → pow .rcs1 t 7 = t := by decide +kernel
    exact key t h
  · have key : ∀ t, t < 16 → pow .rcs2 t 15 = t := by decide +kernel
    exact key t h

theorem pow_mod {S : Standard} {t : Nat} (h : t < 2 ^ S.memory) (k : Nat) : pow S t k = pow S t (k % (2 ^ S.memory - 1)) := by
  induction k using Nat.strongRecOn with
  | ind k ih =>
    by_cases hk : k < 2 ^ S.memory - 1
    · rw [Nat.mod_eq_of_lt hk]
    · have hp : 0 < 2 ^ S.memory - 1 := by cases S <;> decide
      obtain ⟨j, rfl⟩ : ∃ j, k = (2 ^ S.memory - 1) + j := ⟨k - (2 ^ S.memory - 1), by omega⟩
      rw [pow_add, pow_period h, ih j (by omega), Nat.add_mod_left]

/-- The circulation state. -/
def circ (S : Standard) (r c : Nat) : Nat := ((toStd S).circ.getD (r - 1) []).getD c 0

theorem circ_look {S : Standard} {r c : Nat} (h0 : r ≠ 0) (h1 : r < 2 ^ S.memory - 1) (hc : c < 2 ^ S.memory) :
    look (toStd S).circ ((r : Nat) - 1) c = ok (circ S r c) := by
  cases S
  · have key : ∀ r, r < 7 → ∀ c, c < 8 → r ≠ 0 → look (toStd .rcs1).circ ((r : Nat) - 1) c = ok (circ .rcs1 r c) := by decide +kernel
    exact key r h1 c hc h0
  · have key : ∀ r, r < 15 → ∀ c, c < 16 → r ≠ 0 → look (toStd .rcs2).circ ((r : Nat) - 1) c = ok (circ .rcs2 r c) := by decide +kernel
    exact key r h1 c hc h0

theorem circ_lt {S : Standard} {r c : Nat} (h0 : r ≠ 0) (h1 : r < 2 ^ S.memory - 1) (hc : c < 2 ^ S.memory) : circ S r c < 2 ^ S.memory := by
  cases S
  · have key : ∀ r, r < 7 → ∀ c, c < 8 → r ≠ 0 → circ .rcs1 r c < 8 := by decide +kernel
    exact key r h1 c hc h0
  · have key : ∀ r, r < 15 → ∀ c, c < 16 → r ≠ 0 → circ .rcs2 r c < 16 := by decide +kernel
    exact key r h1 c hc h0

theorem circ_fix {S : Standard} {r c t : Nat} (h0 : r ≠ 0) (h1 : r < 2 ^ S.memory - 1) (hc : c < 2 ^ S.memory) (ht : t < 2 ^ S.memory) :
    c ^^^ pow S t r = t ↔ t = circ S r c := by
  cases S
  · have key : ∀ r, r < 7 → ∀ c, c < 8 → ∀ t, t < 8 → r ≠ 0 → (c ^^^ pow .rcs1 t r = t ↔ t = circ .rcs1 r c) := by decide +kernel
    exact key r h1 c hc t ht h0
  · have key : ∀ r, r < 15 → ∀ c, c < 16 → ∀ t, t < 16 → r ≠ 0 → (c ^^^ pow .rcs2 t r = t ↔ t = circ .rcs2 r c) := by decide +kernel
    exact key r h1 c hc t ht h0

/-- The state that a message of `K` bits starts from and comes back to. -/
def init (S : Standard) (K : Nat) (a b : Nat → Bool) : Nat := circ S ((K / 2) % (2 ^ S.memory - 1)) (run S a b 0 (K / 2))

theorem mod_lt (S : Standard) (k : Nat) : k % (2 ^ S.memory - 1) < 2 ^ S.memory - 1 := Nat.mod_lt _ (by cases S <;> decide)

theorem zero_lt (S : Standard) : 0 < 2 ^ S.memory := by cases S <;> decide

theorem init_lt {S : Standard} {K : Nat} (hK : Circular S K) (a b : Nat → Bool) : init S K a b < 2 ^ S.memory :=
  circ_lt hK (mod_lt S _) (run_lt (zero_lt S) _)

theorem fix_iff {S : Standard} {K : Nat} (hK : Circular S K) (a b : Nat → Bool) {t : Nat} (ht : t < 2 ^ S.memory) :
    run S a b t (K / 2) = t ↔ t = init S K a b := by
  have e : run S a b t (K / 2) = run S a b 0 (K / 2) ^^^ pow S t ((K / 2) % (2 ^ S.memory - 1)) := by
    have := run_xor (a := a) (b := b) (zero_lt S) ht (K / 2)
    rw [Nat.zero_xor] at this
    rw [this, ← pow_mod ht]
  rw [e]
  exact circ_fix hK (mod_lt S _) (run_lt (zero_lt S) _) ht

/-! ## Paths -/

def path (S : Standard) (a b : Nat → Bool) (l : List Bool) : Nat → List Bool
  | 0 => l
  | k + 1 => (step S (path S a b l k) (a k) (b k)).1

theorem path_len {S : Standard} {a b : Nat → Bool} {l : List Bool} (h : l.length = S.memory) (k : Nat) : (path S a b l k).length = S.memory := by
  induction k with
  | zero => exact h
  | succ k ih => exact step_len ih _ _

theorem path_num {S : Standard} {a b : Nat → Bool} {l : List Bool} (h : l.length = S.memory) (k : Nat) :
    num (path S a b l k) = run S a b (num l) k := by
  induction k with
  | zero => rfl
  | succ k ih =>
    show num (step S (path S a b l k) (a k) (b k)).1 = nx S _ (run S a b (num l) k)
    rw [← ih, (step_num (path_len h k) _ _).1]

theorem path_of {S : Standard} {a b : Nat → Bool} {σ : Nat → List Bool} {n : Nat} (h : ∀ k, k < n → σ (k + 1) = (step S (σ k) (a k) (b k)).1) :
    ∀ k, k ≤ n → σ k = path S a b (σ 0) k := by
  intro k
  induction k with
  | zero => exact fun _ => rfl
  | succ k ih =>
    intro hk
    rw [h k hk, ih (by omega)]
    rfl

/-! ## The encoder -/

/-- An encoder of the standard `S` for `K` bits. -/
structure EncOk (e : Enc) (S : Standard) (bf : Bool) (K : Nat) : Prop where
  pos : 0 < K
  even : K % 2 = 0
  hK : e.K = K
  hN : e.N = 2 * K
  hstd : e.std = toStd S
  hbf : e.buffered = bf
  hnx : e.nx = tN S
  hpy : e.py = tP S
  infoPos : e.infoPos.length = K ∧ ∀ k, k < K / 2 → e.infoPos[2 * k]? = some (posA bf k) ∧ e.infoPos[2 * k + 1]? = some (posB bf k)

theorem initPos_sat {K : Nat} (hK : K % 2 = 0) (bf : Bool) : (initPos K bf).Sat fun p =>
    p.length = K ∧ ∀ k, k < K / 2 → p[2 * k]? = some (posA bf k) ∧ p[2 * k + 1]? = some (posB bf k) := by
  unfold initPos
  cases bf
  · simp only [Bool.not_false, if_true]
    refine (forN_inv (fun m (p : List Nat) => p.length = K ∧ ∀ k, k < m → p[2 * k]? = some (posA false k) ∧ p[2 * k + 1]? = some (posB false k))
      ⟨by simp, fun k hk => absurd hk (by omega)⟩ ?_).mono fun p h => h
    rintro i p hi ⟨hl, h⟩
    rw [wr_lt (by omega), bind_ok, wr_lt (by simp; omega), sat_ok]
    refine ⟨by simp [hl], fun k hk => ?_⟩
    simp only [List.getElem?_set, List.length_set, posA, posB, Bool.false_eq_true, if_false]
    by_cases e : k = i
    · subst e
      rw [if_neg (by omega), if_pos rfl, if_pos (by omega), if_pos rfl, if_pos (by omega)]
      exact ⟨congrArg some (by omega), congrArg some (by omega)⟩
    · rw [if_neg (by omega), if_neg (by omega), if_neg (by omega), if_neg (by omega)]
      have := h k (by omega)
      simpa only [posA, posB, Bool.false_eq_true, if_false] using this
  · simp only [Bool.not_true, Bool.false_eq_true, if_false, sat_ok]
    refine ⟨by simp, fun k hk => ?_⟩
    simp only [posA, posB, if_true]
    exact ⟨by rw [List.getElem?_range (by omega)], by rw [List.getElem?_range (by omega)]⟩

theorem std_name (S : Standard) : std? S.name = ok (toStd S) := by cases S <;> rfl

theorem std_inv {s : String} {c : Std} (h : std? s = ok c) : ∃ S : Standard, s = S.name ∧ c = toStd S := by
  unfold std? at h
  split at h
  · next e => cases h; exact ⟨.rcs1, e, rfl⟩
  · split at h
    · next e => cases h; exact ⟨.rcs2, e, rfl⟩
    · cases h

theorem mk_ok {K : Nat} (hK : 0 < K) (he : K % 2 = 0) (S : Standard) (bf : Bool) : (Enc.mk? K (2 * K) S.name bf).Sat fun e => EncOk e S bf K := by
  unfold Enc.mk?
  rw [if_neg (by omega), if_neg (by omega), if_neg (by omega), if_neg (by omega), std_name, bind_ok, if_neg (by omega), tables_ok, bind_ok]
  refine (initPos_sat he bf).bind fun p hp => sat_ok.2 ?_
  exact ⟨hK, he, rfl, by show ((2 * (K : Int)).toNat) = 2 * K; omega, rfl, rfl, rfl, rfl, hp⟩

theorem mk_inv {K N : Int} {s : String} {bf : Bool} {e : Enc} (h : Enc.mk? K N s bf = ok e) :
    ∃ (S : Standard) (k : Nat), K = k ∧ N = 2 * k ∧ s = S.name ∧ EncOk e S bf k := by
  have h' := h
  unfold Enc.mk? at h
  split at h
  · cases h
  next h1 =>
  split at h
  · cases h
  next h2 =>
  split at h
  · cases h
  next h3 =>
  split at h
  · cases h
  next h4 =>
  cases hs : std? s with
  | exc => rw [hs, bind_exc] at h; cases h
  | ub => rw [hs, bind_ub] at h; cases h
  | ok c =>
    obtain ⟨S, rfl, rfl⟩ := std_inv hs
    rw [hs, bind_ok] at h
    split at h
    · cases h
    next h5 =>
    obtain ⟨k, rfl⟩ : ∃ k : Nat, K = k := ⟨K.toNat, by omega⟩
    obtain rfl : N = 2 * k := by omega
    obtain ⟨e', h6, h7⟩ := mk_ok (K := k) (by omega) (by omega) S bf
    rw [h'] at h6
    cases h6
    exact ⟨S, k, rfl, rfl, rfl, h7⟩

theorem initState_ok {e : Enc} {S : Standard} {bf : Bool} {K : Nat} (he : EncOk e S bf K) (hK : Circular S K) (a b : Nat → Bool) :
    e.initState (run S a b 0 (K / 2)) = ok (init S K a b) := by
  unfold Enc.initState
  rw [he.hstd, he.hK, nff_eq, Nat.one_shiftLeft]
  exact circ_look hK (mod_lt S _) (run_lt (zero_lt S) _)

theorem preEncode_ok {e : Enc} {S : Standard} {bf : Bool} {K : Nat} (he : EncOk e S bf K) {a b : Nat → Bool} {u : List Int}
    (hu : ∀ k, k < K / 2 → u[2 * k]? = some (b2i (a k)) ∧ u[2 * k + 1]? = some (b2i (b k))) :
    e.preEncode u = ok (run S a b 0 (K / 2)) := by
  unfold Enc.preEncode
  rw [he.hK, he.hnx]
  have key : ∀ n, n ≤ K / 2 → forN n (fun k st => do
      let a ← rd u (2 * k)
      let b ← rd u (2 * k + 1)
      look (tN S) (a * 2 + b) st) 0 = ok (run S a b 0 n) := by
    intro n
    induction n with
    | zero => exact fun _ => rfl
    | succ n ih =>
      intro hn
      rw [forN_succ, ih (by omega), bind_ok, rd_eq (hu n (by omega)).1, bind_ok, rd_eq (hu n (by omega)).2, bind_ok,
        look_nx S _ _ (run_lt (zero_lt S) _)]
      rfl
  exact key _ (Nat.le_refl _)

/-- What the loop of `__encode_from_state` writes. -/
theorem emit_sat {e : Enc} {S : Standard} {bf : Bool} {K : Nat} (he : EncOk e S bf K) {a b : Nat → Bool} {u : List Int} (hul : u.length = K)
    (hu : ∀ k, k < K / 2 → u[2 * k]? = some (b2i (a k)) ∧ u[2 * k + 1]? = some (b2i (b k))) {s : Nat} (hs : s < 2 ^ S.memory) {x : List Int}
    (hx : x.length = 2 * K) :
    (e.emit u x s).Sat fun r => r.2.1 = run S a b s (K / 2) ∧ r.2.2.length = 2 * K ∧ ∀ k, k < K / 2 →
      r.2.2[posA bf k]? = some (b2i (a k)) ∧ r.2.2[posB bf k]? = some (b2i (b k)) ∧
      r.2.2[posY bf K k]? = some ((bit (py S (inp (a k) (b k)) (run S a b s k)) 1 : Nat) : Int) ∧
      r.2.2[posW bf K k]? = some ((bit (py S (inp (a k) (b k)) (run S a b s k)) 0 : Nat) : Int) := by
  have hev := he.even
  unfold Enc.emit
  rw [he.hbf, he.hK]
  cases bf
  · simp only [Bool.false_eq_true, if_false]
    refine (forN_inv (fun m (r : Nat × Nat × List Int) => r.1 = 4 * m ∧ r.2.1 = run S a b s m ∧ r.2.2.length = 2 * K ∧ ∀ k, k < m →
      r.2.2[posA false k]? = some (b2i (a k)) ∧ r.2.2[posB false k]? = some (b2i (b k)) ∧
      r.2.2[posY false K k]? = some ((bit (py S (inp (a k) (b k)) (run S a b s k)) 1 : Nat) : Int) ∧
      r.2.2[posW false K k]? = some ((bit (py S (inp (a k) (b k)) (run S a b s k)) 0 : Nat) : Int))
      ⟨rfl, rfl, hx, fun k hk => absurd hk (by omega)⟩ ?_).mono fun r h => h.2
    rintro i ⟨j, st, y⟩ hi ⟨hj, hst, hl, h⟩
    dsimp only at hj hst hl h
    subst hst
    subst hj
    unfold Enc.encodeStep writeSys
    dsimp only
    rw [rd_eq (hu i hi).1, bind_ok, rd_eq (hu i hi).2, bind_ok, he.hpy, look_py S _ _ (run_lt hs _), bind_ok, he.hnx, look_nx S _ _ (run_lt hs _),
      bind_ok, if_pos (by rfl), wr_lt (by omega), bind_ok, wr_lt (by simp; omega), bind_ok, bind_ok]
    dsimp only
    rw [wr_lt (by simp; omega), bind_ok, wr_lt (by simp; omega), bind_ok, sat_ok]
    refine ⟨by dsimp only; omega, rfl, by simp [hl], fun k hk => ?_⟩
    simp only [List.getElem?_set, List.length_set, posA, posB, posY, posW, Bool.false_eq_true, if_false]
    by_cases e : k = i
    · subst e
      refine ⟨?_, ?_, ?_, ?_⟩
      · rw [if_neg (by omega), if_neg (by omega), if_neg (by omega), if_pos (by omega), if_pos (by omega)]
      · rw [if_neg (by omega), if_neg (by omega), if_pos (by omega), if_pos (by omega)]
      · rw [if_neg (by omega), if_pos (by omega), if_pos (by omega)]
      · rw [if_pos (by omega), if_pos (by omega)]
    · have := h k (by omega)
      simp only [posA, posB, posY, posW, Bool.false_eq_true, if_false] at this
      refine ⟨?_, ?_, ?_, ?_⟩
      · rw [if_neg (by omega), if_neg (by omega), if_neg (by omega), if_neg (by omega)]; exact this.1
      · rw [if_neg (by omega), if_neg (by omega), if_neg (by omega), if_neg (by omega)]; exact this.2.1
      · rw [if_neg (by omega), if_neg (by omega), if_neg (by omega), if_neg (by omega)]; exact this.2.2.1
      · rw [if_neg (by omega), if_neg (by omega), if_neg (by omega), if_neg (by omega)]; exact this.2.2.2
  · simp only [if_true]
    refine (copyTo_sat (by omega) (by omega)).bind fun x0 hx0 => ?_
    refine (forN_inv (fun m (r : Nat × Nat × List Int) => r.1 = 2 * m ∧ r.2.1 = run S a b s m ∧ r.2.2.length = 2 * K ∧
      (∀ k, k < K → r.2.2[k]? = u[k]?) ∧ ∀ k, k < m →
      r.2.2[posY true K k]? = some ((bit (py S (inp (a k) (b k)) (run S a b s k)) 1 : Nat) : Int) ∧
      r.2.2[posW true K k]? = some ((bit (py S (inp (a k) (b k)) (run S a b s k)) 0 : Nat) : Int))
      ⟨rfl, rfl, by dsimp only; rw [hx0.1, hx], fun k hk => ?_, fun k hk => absurd hk (by omega)⟩ ?_).mono fun r h => ?_
    · dsimp only
      rw [hx0.2, if_pos (by omega)]
      congr 1
      omega
    · rintro i ⟨j, st, y⟩ hi ⟨hj, hst, hl, h0, h⟩
      dsimp only at hj hst hl h h0
      subst hst
      subst hj
      unfold Enc.encodeStep writeSys
      dsimp only
      rw [rd_eq (hu i hi).1, bind_ok, rd_eq (hu i hi).2, bind_ok, he.hpy, look_py S _ _ (run_lt hs _), bind_ok, he.hnx, look_nx S _ _ (run_lt hs _),
        bind_ok, if_neg (by decide), bind_ok]
      dsimp only
      rw [wr_lt (by omega), bind_ok, wr_lt (by simp; omega), bind_ok, sat_ok]
      refine ⟨by dsimp only; omega, rfl, by simp [hl], fun k hk => ?_, fun k hk => ?_⟩
      · simp only [List.getElem?_set]
        rw [if_neg (by omega), if_neg (by omega)]
        exact h0 k hk
      simp only [List.getElem?_set, List.length_set, posY, posW, if_true]
      by_cases e : k = i
      · subst e
        refine ⟨?_, ?_⟩
        · rw [if_neg (by omega), if_pos (by omega), if_pos (by omega)]
        · rw [if_pos (by omega), if_pos (by omega)]
      · have := h k (by omega)
        simp only [posY, posW, if_true] at this
        refine ⟨?_, ?_⟩
        · rw [if_neg (by omega), if_neg (by omega)]; exact this.1
        · rw [if_neg (by omega), if_neg (by omega)]; exact this.2
    · refine ⟨h.2.1, h.2.2.1, fun k hk => ?_⟩
      refine ⟨?_, ?_, (h.2.2.2.2 k hk).1, (h.2.2.2.2 k hk).2⟩
      · simp only [posA, if_true]; rw [h.2.2.2.1 _ (by omega), (hu k hk).1]
      · simp only [posB, if_true]; rw [h.2.2.2.1 _ (by omega), (hu k hk).2]

/-- A word with the right bits at all couples is a codeword. -/
theorem codeword_of {S : Standard} {bf : Bool} {K : Nat} (hK : Circular S K) {a b : Nat → Bool} {x : List Int} (hl : x.length = 2 * K)
    (h : ∀ k, k < K / 2 → x[posA bf k]? = some (b2i (a k)) ∧ x[posB bf k]? = some (b2i (b k)) ∧
      x[posY bf K k]? = some ((bit (py S (inp (a k) (b k)) (run S a b (init S K a b) k)) 1 : Nat) : Int) ∧
      x[posW bf K k]? = some ((bit (py S (inp (a k) (b k)) (run S a b (init S K a b) k)) 0 : Nat) : Int)) : IsCodeword bf S K x := by
  have hi := init_lt hK a b
  obtain ⟨l, hl1, hl2⟩ := num_surj hi
  refine ⟨hl, path S a b l, a, b, hl1, ?_, fun k hk => ⟨rfl, ?_⟩⟩
  · apply num_inj (path_len hl1 _) hl1
    rw [path_num hl1, hl2]
    exact (fix_iff hK a b hi).2 rfl
  · obtain ⟨h1, h2, h3, h4⟩ := h k hk
    have e := step_num (path_len hl1 k) (a k) (b k) (l := path S a b l k)
    rw [path_num hl1, hl2] at e
    exact ⟨h1, h2, by rw [h3, e.2.1], by rw [h4, e.2.2]⟩

theorem b2i_inj {a b : Bool} (h : b2i a = b2i b) : a = b := by cases a <;> cases b <;> first | rfl | cases h

/-- The bits of a codeword are determined by its couples. -/
theorem of_codeword {S : Standard} {bf : Bool} {K : Nat} (hK : Circular S K) {a b : Nat → Bool} {x : List Int} (h : IsCodeword bf S K x)
    (hab : ∀ k, k < K / 2 → x[posA bf k]? = some (b2i (a k)) ∧ x[posB bf k]? = some (b2i (b k))) :
    ∀ k, k < K / 2 → x[posY bf K k]? = some ((bit (py S (inp (a k) (b k)) (run S a b (init S K a b) k)) 1 : Nat) : Int) ∧
      x[posW bf K k]? = some ((bit (py S (inp (a k) (b k)) (run S a b (init S K a b) k)) 0 : Nat) : Int) := by
  obtain ⟨hl, σ, a', b', h0, hc, h⟩ := h
  have ea : ∀ k, k < K / 2 → a' k = a k ∧ b' k = b k := by
    intro k hk
    have h1 := (h k hk).2.1
    have h2 := (h k hk).2.2.1
    rw [(hab k hk).1] at h1
    rw [(hab k hk).2] at h2
    exact ⟨(b2i_inj (Option.some.inj h1)).symm, (b2i_inj (Option.some.inj h2)).symm⟩
  have hp := path_of (S := S) (a := a) (b := b) (σ := σ) (n := K / 2) fun k hk => by rw [(h k hk).1, (ea k hk).1, (ea k hk).2]
  have hi : num (σ 0) = init S K a b := by
    rw [← fix_iff hK a b (num_lt h0), ← path_num h0, ← hp _ (Nat.le_refl _), hc]
  intro k hk
  have e := step_num (path_len h0 k) (a k) (b k) (l := path S a b (σ 0) k)
  rw [path_num h0, hi, ← hp k (by omega)] at e
  obtain ⟨_, _, _, h3, h4⟩ := h k hk
  rw [(ea k hk).1, (ea k hk).2] at h3 h4
  exact ⟨by rw [h3, e.2.1], by rw [h4, e.2.2]⟩

theorem encode_sat {e : Enc} {S : Standard} {bf : Bool} {K : Nat} (he : EncOk e S bf K) (hK : Circular S K) {a b : Nat → Bool} {u : List Int}
    (hul : u.length = K) (hu : ∀ k, k < K / 2 → u[2 * k]? = some (b2i (a k)) ∧ u[2 * k + 1]? = some (b2i (b k))) {x : List Int}
    (hx : x.length = 2 * K) :
    (e.encode u x).Sat fun y => IsCodeword bf S K y ∧ ∀ k, k < K / 2 → y[posA bf k]? = some (b2i (a k)) ∧ y[posB bf k]? = some (b2i (b k)) := by
  unfold Enc.encode
  rw [preEncode_ok he hu, bind_ok, initState_ok he hK, bind_ok]
  refine (emit_sat he hul hu (init_lt hK a b) hx).bind fun r hr => ?_
  rw [if_neg (by rw [hr.1, (fix_iff hK a b (init_lt hK a b)).2 rfl]; simp), sat_ok]
  exact ⟨codeword_of hK hr.2.1 hr.2.2, fun k hk => ⟨(hr.2.2 k hk).1, (hr.2.2 k hk).2.1⟩⟩

theorem at4_eq {e : Enc} {S : Standard} {bf : Bool} {K : Nat} (he : EncOk e S bf K) (k : Nat) :
    e.at4 k = (posA bf k, posB bf k, posY bf K k, posW bf K k) := by
  unfold Enc.at4
  rw [he.hbf, he.hK]
  cases bf
  · simp only [Bool.false_eq_true, if_false, posA, posB, posY, posW]
    rw [show 2 * k * 2 = 4 * k by omega]
  · rfl

theorem pos_lt {bf : Bool} {K k : Nat} (hK : K % 2 = 0) (hk : k < K / 2) : posY bf K k < 2 * K ∧ posW bf K k < 2 * K := by
  cases bf <;> simp only [posY, posW, Bool.false_eq_true, if_false, if_true] <;> omega

theorem isCodeword_sat {e : Enc} {S : Standard} {bf : Bool} {K : Nat} (he : EncOk e S bf K) (hK : Circular S K) {a b : Nat → Bool} {x : List Int}
    (hx : x.length = 2 * K) (hab : ∀ k, k < K / 2 → x[posA bf k]? = some (b2i (a k)) ∧ x[posB bf k]? = some (b2i (b k))) :
    (e.isCodeword x).Sat fun r => r = true ↔ IsCodeword bf S K x := by
  unfold Enc.isCodeword
  rw [he.hK]
  have key : ∀ n, n ≤ K / 2 → forN n (fun k st => do
      let a ← rd x (e.at4 k).1
      let b ← rd x (e.at4 k).2.1
      look e.nx (a * 2 + b) st) 0 = ok (run S a b 0 n) := by
    intro n
    induction n with
    | zero => exact fun _ => rfl
    | succ n ih =>
      intro hn
      rw [forN_succ, ih (by omega), bind_ok, at4_eq he]
      dsimp only
      rw [rd_eq (hab n (by omega)).1, bind_ok, rd_eq (hab n (by omega)).2, bind_ok, he.hnx, look_nx S _ _ (run_lt (zero_lt S) _)]
      rfl
  rw [key _ (Nat.le_refl _), bind_ok, initState_ok he hK, bind_ok]
  have hi := init_lt hK a b
  let M (k : Nat) : Prop := x[posY bf K k]? = some ((bit (py S (inp (a k) (b k)) (run S a b (init S K a b) k)) 1 : Nat) : Int) ∧
      x[posW bf K k]? = some ((bit (py S (inp (a k) (b k)) (run S a b (init S K a b) k)) 0 : Nat) : Int)
  refine (forN_inv (fun m (s : Option Nat) => (s = some (run S a b (init S K a b) m) ∧ ∀ k, k < m → M k) ∨ (s = none ∧ ∃ k, k < m ∧ ¬ M k))
    (Or.inl ⟨rfl, fun k hk => absurd hk (by omega)⟩) ?_).bind fun s hs => ?_
  · rintro i s hi' (⟨rfl, h⟩ | ⟨rfl, k, hk, h⟩)
    · unfold Enc.check
      dsimp only
      rw [at4_eq he]
      dsimp only
      have hp := pos_lt (bf := bf) he.even hi'
      rw [rd_eq (hab i hi').1, bind_ok, rd_eq (hab i hi').2, bind_ok, he.hpy, look_py S _ _ (run_lt hi _), bind_ok, he.hnx,
        look_nx S _ _ (run_lt hi _), bind_ok, rd_lt (by rw [hx]; exact hp.1), bind_ok]
      split
      next h1 =>
        refine sat_ok.2 (Or.inr ⟨rfl, i, by omega, fun hM => h1 ?_⟩)
        have := hM.1
        rw [List.getElem?_eq_getElem (by rw [hx]; exact hp.1)] at this
        exact Option.some.inj this
      next h1 =>
        rw [rd_lt (by rw [hx]; exact hp.2), bind_ok]
        split
        next h2 =>
          refine sat_ok.2 (Or.inr ⟨rfl, i, by omega, fun hM => h2 ?_⟩)
          have := hM.2
          rw [List.getElem?_eq_getElem (by rw [hx]; exact hp.2)] at this
          exact Option.some.inj this
        next h2 =>
          refine sat_ok.2 (Or.inl ⟨rfl, fun k hk => ?_⟩)
          by_cases ek : k = i
          · subst ek
            refine ⟨?_, ?_⟩
            · rw [List.getElem?_eq_getElem (by rw [hx]; exact hp.1)]; exact congrArg some (by simpa using h1)
            · rw [List.getElem?_eq_getElem (by rw [hx]; exact hp.2)]; exact congrArg some (by simpa using h2)
          · exact h k (by omega)
    · exact sat_ok.2 (Or.inr ⟨rfl, k, by omega, h⟩)
  · rcases hs with ⟨rfl, h⟩ | ⟨rfl, k, hk, h⟩
    · dsimp only
      rw [sat_ok, (fix_iff hK a b hi).2 rfl]
      exact ⟨fun _ => codeword_of hK hx fun k hk => ⟨(hab k hk).1, (hab k hk).2, h k hk⟩, fun _ => by simp⟩
    · rw [sat_ok]
      exact ⟨(fun h => by cases h), fun hc => absurd (of_codeword hK hc hab k hk) h⟩

/-- The couples of a binary word. -/
theorem couples {u : List Int} {p q : Nat → Nat} {n : Nat} (h : ∀ k, k < n → (u[p k]? = some 0 ∨ u[p k]? = some 1) ∧ (u[q k]? = some 0 ∨ u[q k]? = some 1)) :
    ∃ a b : Nat → Bool, ∀ k, k < n → u[p k]? = some (b2i (a k)) ∧ u[q k]? = some (b2i (b k)) := by
  refine ⟨fun k => decide (u[p k]? = some 1), fun k => decide (u[q k]? = some 1), fun k hk => ⟨?_, ?_⟩⟩
  · rcases (h k hk).1 with e | e <;> dsimp only <;> rw [e] <;> rfl
  · rcases (h k hk).2 with e | e <;> dsimp only <;> rw [e] <;> rfl

theorem bits_at {u : List Int} (hb : IsBits u) {i : Nat} (hi : i < u.length) : u[i]? = some 0 ∨ u[i]? = some 1 := by
  rw [List.getElem?_eq_getElem hi]
  rcases hb _ (List.getElem_mem hi) with e | e <;> rw [e]
  · exact Or.inl rfl
  · exact Or.inr rfl

end Verif.RSCDB
