import Verif.Spec.RA
import Verif.Proof.Turbo
import Verif.Prelude.Loops

/-! # Proofs about repeat-accumulate codes -/

namespace Verif.RA
open Exec Verif.Interleaver Verif.Turbo

/-- `l` holds `F 0, ..., F (n-1)`. -/
def Tab {α : Type} (l : List α) (n : Nat) (F : Nat → α) : Prop := l.length = n ∧ ∀ i, i < n → l[i]? = some (F i)

theorem Tab.rd {α : Type} {l : List α} {n i : Nat} {F : Nat → α} (h : Tab l n F) (hi : i < n) : rd l i = ok (F i) :=
  rd_eq (h.2 i hi)

theorem Tab.eq {α : Type} {l : List α} {n : Nat} {F : Nat → α} (h : Tab l n F) : l = (List.range n).map F :=
  eq_mapRange h.1 h.2

/-! ## Encoder -/

/-- A constructed encoder, at any time. -/
structure Enc.WF (e : Enc) (K N : Nat) (core : Core) (nf : Nat) : Prop where
  k : e.K = K
  n : e.N = N
  kpos : 0 < K
  npos : 0 < N
  dvd : e.rep * K = N
  rpos : 0 < e.rep
  u : e.U.length = N
  t : e.tmp.length = N
  c : e.core = core
  f : e.nf = nf

theorem sizes_ok {K N : Int} {core : Core} {s : Nat × Nat} (h : sizes K N core = ok s) :
    s = (K.toNat, N.toNat) ∧ 0 < K.toNat ∧ 0 < N.toNat ∧ K.toNat ≤ N.toNat ∧ N.toNat / K.toNat * K.toNat = N.toNat ∧
      0 < N.toNat / K.toNat ∧ core.size = N.toNat := by
  unfold sizes at h
  by_cases h1 : K ≤ 0
  · rw [if_pos h1] at h; cases h
  by_cases h2 : N ≤ 0
  · rw [if_neg h1, if_pos h2] at h; cases h
  by_cases h3 : K > N
  · rw [if_neg h1, if_neg h2, if_pos h3] at h; cases h
  by_cases h4 : N.toNat % K.toNat ≠ 0
  · rw [if_neg h1, if_neg h2, if_neg h3, if_pos h4] at h; cases h
  by_cases h5 : core.size ≠ N.toNat
  · rw [if_neg h1, if_neg h2, if_neg h3, if_neg h4, if_pos h5] at h; cases h
  rw [if_neg h1, if_neg h2, if_neg h3, if_neg h4, if_neg h5] at h
  cases h
  have hle : K.toNat ≤ N.toNat := by omega
  refine ⟨rfl, by omega, by omega, hle, ?_, Nat.div_pos hle (by omega), not_not.1 h5⟩
  exact Nat.div_mul_cancel (Nat.dvd_of_mod_eq_zero (not_not.1 h4))

theorem Enc.mk_wf {K N : Int} {core : Core} {nf : Nat} {e : Enc} (h : Enc.mk? K N core nf = ok e) :
    e.WF K.toNat N.toNat core nf ∧ core.size = N.toNat := by
  unfold Enc.mk? at h
  cases hs : sizes K N core with
  | ok s =>
    rw [hs, bind_ok] at h
    obtain ⟨rfl, h1, h2, h3, h4, h5, h6⟩ := sizes_ok hs
    cases h
    exact ⟨⟨rfl, rfl, h1, h2, h4, h5, by simp, by simp, rfl, rfl⟩, h6⟩
  | exc x => rw [hs] at h; cases h
  | ub => rw [hs] at h; cases h

theorem div_lt_of {r K i : Nat} (h : i < r * K) : i / r < K := Nat.div_lt_of_lt_mul h

/-- The repetition loop. -/
theorem repeat_sat {r K : Nat} (hr : 0 < r) {u U : List Nat} (hu : u.length = K) (hU : U.length = r * K) :
    (forN K (fun i U => forN r (fun j U => rd u i >>= fun b => wr U (i * r + j) b) U) U).Sat fun o =>
      Tab o (r * K) fun i => u.getD (i / r) 0 := by
  rw [forN_nested]
  have : forN (K * r) (fun k U => rd u (k / r) >>= fun b => wr U (k / r * r + k % r) b) U =
      forN (K * r) (fun k U => wr U k (u.getD (k / r) 0)) U := by
    refine forN_congr fun i s hi => ?_
    have hlt : i / r < u.length := by rw [hu]; exact div_lt_of (by rwa [Nat.mul_comm])
    rw [rd_lt hlt, bind_ok, getD_lt 0 hlt, Nat.div_add_mod']
  rw [this]
  refine (forN_scatter (pos := fun k => k) (g := fun k => u.getD (k / r) 0)
    (fun k hk => by rw [hU, Nat.mul_comm r K]; exact hk) (fun a b _ _ h => h)).mono fun o ho => ⟨ho.1.trans hU, fun i hi => ?_⟩
  exact ho.2.1 i (by rwa [Nat.mul_comm])

theorem xor_bits {a b : Nat} (ha : a < 2) (hb : b < 2) : a ^^^ b = (a + b) % 2 := by
  have h : ∀ a : Fin 2, ∀ b : Fin 2, a.1 ^^^ b.1 = (a.1 + b.1) % 2 := by decide
  exact h ⟨a, ha⟩ ⟨b, hb⟩

/-- Partial sums modulo 2. -/
def X (B : Nat → Nat) (i : Nat) : Nat := ((List.range (i + 1)).map B).sum % 2

theorem X_zero {B : Nat → Nat} (h : B 0 < 2) : X B 0 = B 0 := by
  unfold X
  simp only [Nat.zero_add, List.range_one, List.map_cons, List.map_nil, List.sum_cons, List.sum_nil, Nat.add_zero]
  exact Nat.mod_eq_of_lt h

theorem X_succ (B : Nat → Nat) (i : Nat) : X B (i + 1) = (X B i + B (i + 1)) % 2 := by
  unfold X
  rw [List.range_succ (n := i + 1), List.map_append, List.sum_append]
  simp only [List.map_cons, List.map_nil, List.sum_cons, List.sum_nil, Nat.add_zero]
  omega

theorem X_lt (B : Nat → Nat) (i : Nat) : X B i < 2 := Nat.mod_lt _ (by decide)

/-- The accumulation loop. -/
theorem acc_sat {N : Nat} (hN : 0 < N) {t : List Nat} {B : Nat → Nat} (ht : Tab t N B) (hB : ∀ i, i < N → B i < 2) :
    (forRange 1 N (fun i t => do
      let a ← rd t (i - 1)
      let b ← rd t i
      wr t i (a ^^^ b)) t).Sat fun o => Tab o N (X B) := by
  refine (forRange_inv (fun k (o : List Nat) => o.length = N ∧ (∀ i, i < k → o[i]? = some (X B i)) ∧
    ∀ i, k ≤ i → i < N → o[i]? = some (B i)) (by omega) ⟨ht.1, fun i hi => ?_, fun i _ h => ht.2 i h⟩ ?_).mono
    fun o ho => ⟨ho.1, ho.2.1⟩
  · obtain rfl : i = 0 := by omega
    rw [ht.2 0 hN, X_zero (hB 0 hN)]
  · rintro i o h1 h2 ⟨g1, g2, g3⟩
    rw [rd_eq (g2 (i - 1) (by omega)), bind_ok, rd_eq (g3 i (Nat.le_refl _) h2), bind_ok, wr_lt (by omega), sat_ok]
    refine ⟨by simpa using g1, fun j hj => ?_, fun j hj hjN => ?_⟩
    · rw [List.getElem?_set]
      by_cases hij : i = j
      · subst hij
        rw [if_pos rfl, if_pos (by omega), xor_bits (X_lt _ _) (hB i h2)]
        obtain ⟨k, rfl⟩ : ∃ k, i = k + 1 := ⟨i - 1, by omega⟩
        rw [X_succ]; rfl
      · rw [if_neg hij]; exact g2 j (by omega)
    · rw [List.getElem?_set, if_neg (by omega)]
      exact g3 j (by omega) hjN

theorem getD_bit {u : List Nat} (hb : IsBits u) (i : Nat) : u.getD i 0 < 2 := by
  rw [List.getD_eq_getElem?_getD]
  cases h : u[i]? with
  | none => exact Nat.zero_lt_two
  | some b => exact hb b (List.mem_of_getElem? h)

theorem word_eq {r N : Nat} {π : Nat → Nat} {u : List Nat} :
    word r π N u = (List.range N).map (X fun i => u.getD (π i / r) 0) := rfl

theorem encode_sat {e : Enc} {K N nf f : Nat} {core : Core} {π ρ : Nat → Nat} (he : e.WF K N core nf)
    (hI : ItlOk core nf f N π ρ) {u x : List Nat} (hu : u.length = K) (hb : IsBits u) (hx : x.length = N) :
    (e.encode f u x).Sat fun r => r.1.WF K N core nf ∧ r.1.rep = e.rep ∧ r.1.pos = e.pos ∧ r.2 = word e.rep π N u := by
  unfold Enc.encode
  rw [he.k, he.n, he.c, he.f]
  refine (repeat_sat he.rpos hu (by rw [he.u, he.dvd])).bind fun U hU => ?_
  rw [he.dvd] at hU
  refine (hI.fwd Nat U e.tmp (Nat.le_of_eq hU.1.symm) (Nat.le_of_eq he.t.symm)).bind fun t ht => ?_
  have htab : Tab t N fun i => u.getD (π i / e.rep) 0 := by
    refine ⟨ht.1.trans he.t, fun i hi => ?_⟩
    rw [ht.2 i, if_pos hi, hU.2 _ (hI.lt i hi)]
  refine (acc_sat he.npos htab fun i _ => getD_bit hb _).bind fun t2 ht2 => ?_
  refine (copyTo_sat (by omega) (by rw [ht2.1]; omega)).bind fun o ho => ?_
  rw [sat_ok]
  refine ⟨⟨rfl, rfl, he.kpos, he.npos, he.dvd, he.rpos, hU.1, ht2.1, rfl, rfl⟩, rfl, rfl, ?_⟩
  rw [word_eq]
  refine eq_mapRange (by rw [ho.1, hx]) fun i hi => ?_
  rw [ho.2, if_pos (by rw [ht2.1]; omega), Nat.zero_add, Nat.sub_zero, ht2.2 i hi]

/-! ## Injectivity and linearity -/

theorem X_inj {B C : Nat → Nat} {N : Nat} (hB : ∀ i, i < N → B i < 2) (hC : ∀ i, i < N → C i < 2)
    (h : ∀ i, i < N → X B i = X C i) : ∀ i, i < N → B i = C i := by
  intro i hi
  cases i with
  | zero => have := h 0 hi; rwa [X_zero (hB 0 hi), X_zero (hC 0 hi)] at this
  | succ i =>
    have h1 := h (i + 1) hi
    rw [X_succ, X_succ, h i (by omega)] at h1
    have := hB _ hi
    have := hC _ hi
    omega

theorem X_add {B C : Nat → Nat} (i : Nat) : X (fun j => (B j + C j) % 2) i = (X B i + X C i) % 2 := by
  induction i with
  | zero =>
    unfold X
    simp only [Nat.zero_add, List.range_one, List.map_cons, List.map_nil, List.sum_cons, List.sum_nil, Nat.add_zero]
    omega
  | succ i ih => rw [X_succ, ih, X_succ, X_succ]; omega

/-! ## Decoder: what an iteration computes -/

section
variable {R : Type} (o : Ops R)

/-- Forward values. -/
def fwF (Y T : Nat → R) : Nat → R
  | 0 => T 0
  | i + 1 => chk o (o.add (fwF Y T i) (Y i)) (T (i + 1))

/-- Backward values: `bwF d` is the value at `N - 2 - d`. -/
def bwF (N : Nat) (Y T : Nat → R) : Nat → R
  | 0 => chk o (Y (N - 1)) (T (N - 1))
  | d + 1 => chk o (o.add (bwF N Y T d) (Y (N - 2 - d))) (T (N - 2 - d))

/-- Extrinsic values. -/
def tuF (N : Nat) (Y T : Nat → R) (i : Nat) : R :=
  if i = 0 then o.add (bwF o N Y T (N - 2)) (Y 0)
  else if i = N - 1 then chk o (Y (N - 1)) (o.add (Y (N - 2)) (fwF o Y T (N - 2)))
  else chk o (o.add (fwF o Y T (i - 1)) (Y (i - 1))) (o.add (bwF o N Y T (N - 2 - i)) (Y i))

/-- Sum of the `n` first values. -/
def sumF (w : Nat → R) : Nat → R
  | 0 => o.zero
  | n + 1 => o.add (sumF w n) (w n)

/-- Total of message bit `k`. -/
def totF (r N : Nat) (ρ : Nat → Nat) (Y T : Nat → R) (k : Nat) : R := sumF o (fun j => tuF o N Y T (ρ (k * r + j))) r

/-- Values sent back for the next iteration. -/
def tdF (r N : Nat) (π ρ : Nat → Nat) (Y T : Nat → R) (i : Nat) : R :=
  o.sub (totF o r N ρ Y T (π i / r)) (tuF o N Y T i)

/-- Values after some iterations. -/
def tdI (r N : Nat) (π ρ : Nat → Nat) (Y : Nat → R) : Nat → Nat → R
  | 0 => fun _ => o.zero
  | m + 1 => tdF o r N π ρ Y (tdI r N π ρ Y m)

variable {o}

theorem forward_sat {N : Nat} (hN : 0 < N) {Y Td Fw : List R} {y t : Nat → R} (hY : Tab Y N y) (hT : Tab Td N t)
    (hF : Fw.length = N) : (forward o N Y Td Fw).Sat fun F => Tab F N (fwF o y t) := by
  unfold forward
  rw [hT.rd hN, bind_ok, wr_lt (by omega), bind_ok]
  refine (forRange_inv (fun k (F : List R) => F.length = N ∧ ∀ i, i < k → F[i]? = some (fwF o y t i)) (by omega)
    ⟨by simpa using hF, fun i hi => ?_⟩ ?_).mono fun F h => h
  · obtain rfl : i = 0 := by omega
    rw [List.getElem?_set, if_pos rfl, if_pos (by omega)]; rfl
  · rintro i F h1 h2 ⟨g1, g2⟩
    rw [rd_eq (g2 (i - 1) (by omega)), bind_ok, hY.rd (by omega), bind_ok, hT.rd h2, bind_ok, wr_lt (by omega), sat_ok]
    refine ⟨by simpa using g1, fun j hj => ?_⟩
    rw [List.getElem?_set]
    by_cases hij : i = j
    · subst hij
      rw [if_pos rfl, if_pos (by omega)]
      obtain ⟨k, rfl⟩ : ∃ k, i = k + 1 := ⟨i - 1, by omega⟩
      rfl
    · rw [if_neg hij]; exact g2 j (by omega)

theorem backward_sat {N : Nat} (hN : 2 ≤ N) {Y Td Bw : List R} {y t : Nat → R} (hY : Tab Y N y) (hT : Tab Td N t)
    (hB : Bw.length = N) : (backward o N Y Td Bw).Sat fun B => B.length = N ∧
      ∀ i, i ≤ N - 2 → B[i]? = some (bwF o N y t (N - 2 - i)) := by
  unfold backward
  rw [if_neg (by omega), hY.rd (by omega), bind_ok, hT.rd (by omega), bind_ok, wr_lt (by omega), bind_ok]
  refine (forN_inv (fun k (B : List R) => B.length = N ∧ ∀ d, d ≤ k → B[N - 2 - d]? = some (bwF o N y t d))
    ⟨by simpa using hB, fun d hd => ?_⟩ ?_).mono fun B h => ⟨h.1, fun i hi => ?_⟩
  · obtain rfl : d = 0 := by omega
    rw [Nat.sub_zero, List.getElem?_set, if_pos rfl, if_pos (by omega)]; rfl
  · rintro k B hk ⟨g1, g2⟩
    have e1 : N - 3 - k + 1 = N - 2 - k := by omega
    dsimp only
    rw [e1, rd_eq (g2 k (Nat.le_refl _)), bind_ok, hY.rd (by omega), bind_ok, hT.rd (by omega), bind_ok, wr_lt (by omega), sat_ok]
    refine ⟨by simpa using g1, fun d hd => ?_⟩
    rw [List.getElem?_set]
    by_cases hdk : d = k + 1
    · subst hdk
      rw [if_pos (by omega), if_pos (by omega)]; rfl
    · rw [if_neg (by omega)]; exact g2 d (by omega)
  · have := h.2 (N - 2 - i) (by omega)
    rwa [show N - 2 - (N - 2 - i) = i by omega] at this

theorem extrinsic_sat {N : Nat} (hN : 2 ≤ N) {Y Fw Bw Tu : List R} {y t : Nat → R} (hY : Tab Y N y)
    (hF : Tab Fw N (fwF o y t)) (hB : Bw.length = N ∧ ∀ i, i ≤ N - 2 → Bw[i]? = some (bwF o N y t (N - 2 - i)))
    (hT : Tu.length = N) : (extrinsic o N Y Fw Bw Tu).Sat fun T => Tab T N (tuF o N y t) := by
  unfold extrinsic
  rw [rd_eq (hB.2 0 (by omega)), bind_ok, hY.rd (by omega), bind_ok, wr_lt (by omega), bind_ok, hY.rd (by omega), bind_ok,
    hY.rd (by omega), bind_ok, hF.rd (by omega), bind_ok, wr_lt (by rw [List.length_set]; omega), bind_ok]
  refine (forRange_inv (fun k (T : List R) => T.length = N ∧ ∀ i, i < k ∨ i = N - 1 → T[i]? = some (tuF o N y t i)) (by omega)
    ⟨by simpa using hT, fun i hi => ?_⟩ ?_).mono fun T h => ⟨h.1, fun i hi => h.2 i (by omega)⟩
  · rw [List.getElem?_set]
    by_cases h1 : N - 1 = i
    · subst h1
      rw [if_pos rfl, if_pos (by rw [List.length_set]; omega)]
      unfold tuF
      rw [if_neg (by omega), if_pos rfl]
    · obtain rfl : i = 0 := by omega
      rw [if_neg h1, List.getElem?_set, if_pos rfl, if_pos (by omega)]
      unfold tuF
      rw [if_pos rfl, Nat.sub_zero]
  · rintro i T h1 h2 ⟨g1, g2⟩
    rw [hF.rd (by omega), bind_ok, hY.rd (by omega), bind_ok, rd_eq (hB.2 i (by omega)), bind_ok, hY.rd (by omega), bind_ok,
      wr_lt (by omega), sat_ok]
    refine ⟨by simpa using g1, fun j hj => ?_⟩
    rw [List.getElem?_set]
    by_cases hij : i = j
    · subst hij
      rw [if_pos rfl, if_pos (by omega)]
      unfold tuF
      rw [if_neg (by omega), if_neg (by omega)]
    · rw [if_neg hij]; exact g2 j (by omega)

theorem sum_loop {Wu : List R} {n off : Nat} {w : Nat → R} {len : Nat} (h : Tab Wu len w) (hn : off + n ≤ len) :
    forN n (fun j t => rd Wu (off + j) >>= fun v => ok (o.add t v)) o.zero = ok (sumF o (fun j => w (off + j)) n) := by
  induction n with
  | zero => rfl
  | succ n ih =>
    rw [forN_succ, ih (by omega), bind_ok, h.rd (by omega), bind_ok]
    rfl

theorem combine_sat {K r : Nat} {Wu Wd U : List R} {w : Nat → R} (hr : 0 < r) (hw : Tab Wu (r * K) w)
    (hWd : Wd.length = r * K) (hU : U.length = K) : (combine o K r Wu Wd U).Sat fun s =>
      Tab s.1 (r * K) (fun p => o.sub (sumF o (fun j => w (p / r * r + j)) r) (w p)) ∧
      Tab s.2 K (fun k => sumF o (fun j => w (k * r + j)) r) := by
  unfold combine
  refine (forN_inv (fun k (s : List R × List R) => s.1.length = r * K ∧ s.2.length = K ∧
    (∀ p, p < k * r → s.1[p]? = some (o.sub (sumF o (fun j => w (p / r * r + j)) r) (w p))) ∧
    (∀ i, i < k → s.2[i]? = some (sumF o (fun j => w (i * r + j)) r)))
    ⟨hWd, hU, fun p hp => by omega, fun i hi => by omega⟩ ?_).mono ?_
  · rintro k ⟨W, V⟩ hk ⟨g1, g2, g3, g4⟩
    dsimp only at g1 g2 g3 g4 ⊢
    have hb : k * r + r ≤ r * K := by
      have := Nat.mul_le_mul_right r (show k + 1 ≤ K from hk)
      rw [Nat.succ_mul] at this
      rw [Nat.mul_comm r K]; exact this
    rw [sum_loop hw hb, bind_ok]
    have hin : forN r (fun j W => rd Wu (k * r + j) >>= fun v =>
          wr W (k * r + j) (o.sub (sumF o (fun j => w (k * r + j)) r) v)) W =
        forN r (fun j W => wr W (k * r + j) (o.sub (sumF o (fun j => w (k * r + j)) r) (w (k * r + j)))) W :=
      forN_congr fun j s hj => by rw [hw.rd (by omega), bind_ok]
    rw [hin]
    refine (forN_scatter (pos := fun j => k * r + j) (g := fun j => o.sub (sumF o (fun j => w (k * r + j)) r) (w (k * r + j)))
      (fun j hj => by omega) (fun a b _ _ h => by omega)).bind fun W' hW' => ?_
    rw [wr_lt (by omega), bind_ok, sat_ok]
    refine ⟨hW'.1.trans g1, by simpa using g2, fun p hp => ?_, fun i hi => ?_⟩
    · rw [Nat.succ_mul] at hp
      by_cases hpk : p < k * r
      · show W'[p]? = _
        rw [hW'.2.2 p fun j hj => by omega]
        exact g3 p hpk
      · obtain ⟨j, rfl⟩ : ∃ j, p = k * r + j := ⟨p - k * r, by omega⟩
        show W'[k * r + j]? = _
        rw [hW'.2.1 j (by omega), Nat.mul_comm k r, Nat.mul_add_div hr, Nat.div_eq_of_lt (by omega), Nat.add_zero,
          Nat.mul_comm r k]
    · show (V.set k _)[i]? = _
      rw [List.getElem?_set]
      by_cases hki : k = i
      · subst hki; rw [if_pos rfl, if_pos (by omega)]
      · rw [if_neg hki]; exact g4 i (by omega)
  · rintro s ⟨g1, g2, g3, g4⟩
    exact ⟨⟨g1, fun i hi => g3 i (by rwa [Nat.mul_comm])⟩, g2, g4⟩

/-- A constructed decoder, at any time. -/
structure Dec.WF (d : Dec R) (K N : Nat) (core : Core) (nf iters : Nat) : Prop where
  k : d.K = K
  n : d.N = N
  kpos : 0 < K
  npos : 0 < N
  dvd : d.rep * K = N
  rpos : 0 < d.rep
  it : d.iters = iters
  ipos : 0 < iters
  fw : d.Fw.length = N
  bw : d.Bw.length = N
  tu : d.Tu.length = N
  td : d.Td.length = N
  wu : d.Wu.length = N
  wd : d.Wd.length = N
  u : d.U.length = K
  c : d.core = core
  f : d.nf = nf

theorem Dec.mk_wf {K N iters : Int} {core : Core} {nf : Nat} {d : Dec R} (h : Dec.mk? o K N core nf iters = ok d) :
    d.WF K.toNat N.toNat core nf iters.toNat ∧ core.size = N.toNat := by
  unfold Dec.mk? at h
  by_cases h1 : K ≤ 0 ∨ N ≤ 0 ∨ K > N
  · rw [if_pos h1] at h; cases h
  by_cases h2 : iters ≤ 0
  · rw [if_neg h1, if_pos h2] at h; cases h
  rw [if_neg h1, if_neg h2] at h
  cases hs : sizes K N core with
  | ok s =>
    rw [hs, bind_ok] at h
    obtain ⟨rfl, h1, h2', h3, h4, h5, h6⟩ := sizes_ok hs
    cases h
    exact ⟨⟨rfl, rfl, h1, h2', h4, h5, rfl, by omega, by simp, by simp, by simp, by simp, by simp, by simp, by simp, rfl, rfl⟩, h6⟩
  | exc x => rw [hs] at h; cases h
  | ub => rw [hs] at h; cases h

theorem load_sat {d : Dec R} {K N nf iters : Nat} {core : Core} (hd : d.WF K N core nf iters) :
    (d.load o).Sat fun e => e.WF K N core nf iters ∧ e.rep = d.rep ∧ Tab e.Td N fun _ => o.zero := by
  unfold Dec.load
  rw [hd.n]
  refine (forN_inv (fun k (s : List R × List R × List R) => s.1.length = N ∧ s.2.1.length = N ∧ s.2.2.length = N ∧
    ∀ i, i < k → s.2.2[i]? = some o.zero) ⟨hd.fw, hd.bw, hd.td, fun i hi => by omega⟩ ?_).bind fun s hs => ?_
  · rintro k ⟨a, b, c⟩ hk ⟨g1, g2, g3, g4⟩
    dsimp only at g1 g2 g3 g4 ⊢
    rw [wr_lt (by omega), bind_ok, wr_lt (by omega), bind_ok, wr_lt (by omega), bind_ok, sat_ok]
    refine ⟨by simpa using g1, by simpa using g2, by simpa using g3, fun i hi => ?_⟩
    show (c.set k o.zero)[i]? = _
    rw [List.getElem?_set]
    by_cases hki : k = i
    · subst hki; rw [if_pos rfl, if_pos (by omega)]
    · rw [if_neg hki]; exact g4 i (by omega)
  · rw [sat_ok]
    exact ⟨⟨hd.k, rfl, hd.kpos, hd.npos, hd.dvd, hd.rpos, hd.it, hd.ipos, hs.1, hs.2.1, hd.tu, hs.2.2.1, hd.wu, hd.wd, hd.u,
      hd.c, hd.f⟩, rfl, hs.2.2.1, hs.2.2.2⟩

theorem iter_sat {d : Dec R} {K N nf iters f : Nat} {core : Core} {π ρ : Nat → Nat} (hd : d.WF K N core nf iters)
    (hI : ItlOk core nf f N π ρ) (hN : 2 ≤ N) {Y : List R} {y t : Nat → R} (hY : Tab Y N y) (hT : Tab d.Td N t) :
    (d.iter o f Y).Sat fun e => e.WF K N core nf iters ∧ e.rep = d.rep ∧ Tab e.Td N (tdF o d.rep N π ρ y t) ∧
      Tab e.U K (totF o d.rep N ρ y t) := by
  unfold Dec.iter
  rw [hd.n, hd.k, hd.c, hd.f]
  refine (forward_sat (by omega) hY hT hd.fw).bind fun F hF => ?_
  refine (backward_sat hN hY hT hd.bw).bind fun B hB => ?_
  refine (extrinsic_sat hN hY hF hB hd.tu).bind fun T hTu => ?_
  refine (hI.bwd R T d.Wu (Nat.le_of_eq hTu.1.symm) (Nat.le_of_eq hd.wu.symm)).bind fun W hW => ?_
  have hWt : Tab W (d.rep * K) fun i => tuF o N y t (ρ i) := by
    rw [hd.dvd]
    refine ⟨hW.1.trans hd.wu, fun i hi => ?_⟩
    rw [hW.2 i, if_pos hi, hTu.2 _ (hI.lt' i hi)]
  refine (combine_sat hd.rpos hWt (by rw [hd.wd, hd.dvd]) hd.u).bind fun s hs => ?_
  obtain ⟨h1, h2⟩ := hs
  rw [hd.dvd] at h1
  refine (hI.fwd R s.1 d.Td (Nat.le_of_eq h1.1.symm) (Nat.le_of_eq hd.td.symm)).bind fun D hD => ?_
  rw [sat_ok]
  refine ⟨⟨rfl, rfl, hd.kpos, hd.npos, hd.dvd, hd.rpos, hd.it, hd.ipos, hF.1, hB.1, hTu.1, hD.1.trans hd.td, hW.1.trans hd.wu, h1.1,
    h2.1, rfl, rfl⟩, rfl, ⟨hD.1.trans hd.td, fun i hi => ?_⟩, h2⟩
  show D[i]? = _
  rw [hD.2 i, if_pos hi, h1.2 _ (hI.lt i hi)]
  unfold tdF totF
  dsimp only
  rw [hI.inv' i hi]

/-- What the decoder computes. -/
theorem decode_sat {d : Dec R} {K N nf iters f : Nat} {core : Core} {π ρ : Nat → Nat} (hd : d.WF K N core nf iters)
    (hI : ItlOk core nf f N π ρ) (hN : 2 ≤ N) {Y : List R} {y : Nat → R} (hY : Tab Y N y) {V : List Nat} (hV : V.length = K) :
    (d.decode o f Y V).Sat fun r => r.1.WF K N core nf iters ∧ r.1.rep = d.rep ∧
      r.2 = (List.range K).map fun k =>
        if o.isNeg (totF o d.rep N ρ y (tdI o d.rep N π ρ y (iters - 1)) k) then 1 else 0 := by
  unfold Dec.decode
  refine (load_sat hd).bind fun e he => ?_
  obtain ⟨he, er, eT⟩ := he
  rw [he.it]
  refine (forN_inv (fun m (g : Dec R) => g.WF K N core nf iters ∧ g.rep = d.rep ∧ Tab g.Td N (tdI o d.rep N π ρ y m) ∧
    (0 < m → Tab g.U K (totF o d.rep N ρ y (tdI o d.rep N π ρ y (m - 1)))))
    ⟨he, er, eT, fun h => absurd h (Nat.lt_irrefl 0)⟩ ?_).bind fun g hg => ?_
  · rintro m g hm ⟨g1, g2, g3, g4⟩
    refine (iter_sat g1 hI hN hY g3).mono fun g' h => ?_
    rw [g2] at h
    exact ⟨h.1, h.2.1, h.2.2.1, fun _ => h.2.2.2⟩
  · obtain ⟨g1, g2, g3, g4⟩ := hg
    have g4 := g4 he.ipos
    rw [g1.k]
    have hl : forN K (fun i V => rd g.U i >>= fun v => wr V i (if o.isNeg v then 1 else 0)) V =
        forN K (fun i V => wr V i (if o.isNeg (totF o d.rep N ρ y (tdI o d.rep N π ρ y (iters - 1)) i) then 1 else 0)) V :=
      forN_congr fun i s hi => by rw [g4.rd hi, bind_ok]
    rw [hl]
    refine (forN_scatter (pos := fun i => i)
      (g := fun i => if o.isNeg (totF o d.rep N ρ y (tdI o d.rep N π ρ y (iters - 1)) i) then 1 else 0)
      (fun k hk => by omega) (fun a b _ _ h => h)).bind fun V' hV' => ?_
    rw [sat_ok]
    exact ⟨g1, g2, eq_mapRange (hV'.1.trans hV) fun i hi => hV'.2.1 i hi⟩

end

end Verif.RA
