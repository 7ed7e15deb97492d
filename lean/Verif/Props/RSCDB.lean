import Verif.Proof.RSCDBTurbo
import Verif.Props.RSC

/-! # C99–C102: double-binary convolutional and turbo encoders

Encoding and checking a word change nothing in the convolutional encoder (`Enc.encode` and `Enc.isCodeword` give no new encoder), so
C99 has no history; those of C101 hold after any sequence of calls, with an interleaver reached by any sequence of operations. -/

namespace Verif.RSCDB
open Exec Verif.RSC Verif.Interleaver

/-- **C99**, construction: an encoder is constructed exactly for a positive even `K`, `N = 2 K` and one of the two standards. -/
theorem C99_constructor {K N : Int} {s : String} {bf : Bool} :
    (∃ e, Enc.mk? K N s bf = ok e) ↔ 0 < K ∧ K % 2 = 0 ∧ N = 2 * K ∧ (s = "DVB-RCS1" ∨ s = "DVB-RCS2") := by
  constructor
  · rintro ⟨e, h⟩
    obtain ⟨S, k, rfl, rfl, rfl, he⟩ := mk_inv h
    have h1 := he.pos
    have h2 := he.even
    refine ⟨by omega, by omega, rfl, ?_⟩
    cases S
    · exact Or.inl rfl
    · exact Or.inr rfl
  · rintro ⟨h1, h2, rfl, h⟩
    obtain ⟨k, rfl⟩ : ∃ k : Nat, K = k := ⟨K.toNat, by omega⟩
    obtain ⟨S, rfl⟩ : ∃ S : Standard, s = S.name := h.elim (fun e => ⟨.rcs1, e⟩) fun e => ⟨.rcs2, e⟩
    obtain ⟨e, he, _⟩ := mk_ok (K := k) (by omega) (by omega) S bf
    exact ⟨e, he⟩

theorem encOk {K : Nat} {N : Int} {S : Standard} {bf : Bool} {e : Enc} (h : Enc.mk? K N S.name bf = ok e) : EncOk e S bf K ∧ N = 2 * K := by
  obtain ⟨S', k, h1, h2, h3, he⟩ := mk_inv h
  obtain rfl : K = k := by omega
  have : S' = S := by cases S <;> cases S' <;> first | rfl | exact absurd h3 (by decide)
  subst this
  exact ⟨he, h2⟩

/-- **C99**, codewords: if the number of couples is not a multiple of the period of the register, any message of `K` bits is encoded, without
an exception, as a circular codeword whose couples are those of the message. -/
theorem C99_encode {K : Nat} {N : Int} {S : Standard} {bf : Bool} {e : Enc} (he : Enc.mk? K N S.name bf = ok e) (hK : Circular S K)
    {u x : List Int} (hu : u.length = K) (hb : IsBits u) (hx : x.length = e.N) :
    ∃ y, e.encode u x = ok y ∧ IsCodeword bf S K y ∧ y.length = e.N ∧
      ∀ k, k < K / 2 → y[posA bf k]? = u[2 * k]? ∧ y[posB bf k]? = u[2 * k + 1]? := by
  obtain ⟨h, -⟩ := encOk he
  have hev := h.even
  obtain ⟨a, b, hab⟩ := couples (u := u) (p := fun k => 2 * k) (q := fun k => 2 * k + 1) (n := K / 2)
    fun k hk => ⟨bits_at hb (by omega), bits_at hb (by omega)⟩
  obtain ⟨y, hy, h1, h2⟩ := encode_sat h hK hu hab (x := x) (by rw [hx, h.hN])
  exact ⟨y, hy, h1, by rw [h1.1, h.hN], fun k hk => ⟨by rw [(h2 k hk).1]; exact (hab k hk).1.symm, by rw [(h2 k hk).2]; exact (hab k hk).2.symm⟩⟩

/-- **C99**, membership: `is_codeword` accepts exactly the circular codewords, among the words of `N` elements whose couples are binary. -/
theorem C99_is_codeword {K : Nat} {N : Int} {S : Standard} {bf : Bool} {e : Enc} (he : Enc.mk? K N S.name bf = ok e) (hK : Circular S K)
    {x : List Int} (hx : x.length = e.N)
    (hb : ∀ k, k < K / 2 → (x[posA bf k]? = some 0 ∨ x[posA bf k]? = some 1) ∧ (x[posB bf k]? = some 0 ∨ x[posB bf k]? = some 1)) :
    ∃ r, e.isCodeword x = ok r ∧ (r = true ↔ IsCodeword bf S K x) := by
  obtain ⟨h, -⟩ := encOk he
  obtain ⟨a, b, hab⟩ := couples (u := x) (p := posA bf) (q := posB bf) (n := K / 2) hb
  exact isCodeword_sat h hK (by rw [hx, h.hN]) hab

theorem cases_pos {bf : Bool} {K : Nat} (hK : K % 2 = 0) {j : Nat} (hj : j < 2 * K) :
    ∃ k, k < K / 2 ∧ (j = posA bf k ∨ j = posB bf k ∨ j = posY bf K k ∨ j = posW bf K k) := by
  cases bf
  · refine ⟨j / 4, by omega, ?_⟩
    simp only [posA, posB, posY, posW, Bool.false_eq_true, if_false]
    omega
  · simp only [posA, posB, posY, posW, if_true]
    by_cases h : j < K
    · exact ⟨j / 2, by omega, by omega⟩
    · exact ⟨(j - K) / 2, by omega, by omega⟩

/-- **C99**, uniqueness: a codeword is determined by its couples, so that the codeword of `C99_encode` is the only one. -/
theorem C99_unique {S : Standard} {bf : Bool} {K : Nat} (hev : K % 2 = 0) (hK : Circular S K) {x y : List Int} (hx : IsCodeword bf S K x)
    (hy : IsCodeword bf S K y) (h : ∀ k, k < K / 2 → x[posA bf k]? = y[posA bf k]? ∧ x[posB bf k]? = y[posB bf k]?) : x = y := by
  obtain ⟨lx, σ, a, b, h0, hc, hs⟩ := hx
  have hx' : IsCodeword bf S K x := ⟨lx, σ, a, b, h0, hc, hs⟩
  have ha : ∀ k, k < K / 2 → x[posA bf k]? = some (b2i (a k)) ∧ x[posB bf k]? = some (b2i (b k)) := fun k hk => ⟨(hs k hk).2.1, (hs k hk).2.2.1⟩
  have hb : ∀ k, k < K / 2 → y[posA bf k]? = some (b2i (a k)) ∧ y[posB bf k]? = some (b2i (b k)) := fun k hk => by
    rw [← (h k hk).1, ← (h k hk).2]; exact ha k hk
  have p := of_codeword hK hx' ha
  have q := of_codeword hK hy hb
  apply List.ext_getElem?
  intro j
  by_cases hj : j < 2 * K
  · obtain ⟨k, hk, e⟩ := cases_pos (bf := bf) hev hj
    rcases e with e | e | e | e
    · rw [e]; exact (h k hk).1
    · rw [e]; exact (h k hk).2
    · rw [e, (p k hk).1, (q k hk).1]
    · rw [e, (p k hk).2, (q k hk).2]
  · rw [List.getElem?_eq_none (by omega), List.getElem?_eq_none (by rw [hy.1]; omega)]

theorem step_xor {S : Standard} {l l' : List Bool} (h : l.length = S.memory) (h' : l'.length = S.memory) (a b a' b' : Bool) :
    step S (List.zipWith (· ^^ ·) l l') (a ^^ a') (b ^^ b') = (List.zipWith (· ^^ ·) (step S l a b).1 (step S l' a' b').1,
      (step S l a b).2.1 ^^ (step S l' a' b').2.1, (step S l a b).2.2 ^^ (step S l' a' b').2.2) := by
  cases S
  · match l, h, l', h' with
    | [s1, s2, s3], _, [t1, t2, t3], _ => revert s1 s2 s3 t1 t2 t3 a b a' b'; decide +kernel
  · match l, h, l', h' with
    | [s1, s2, s3, s4], _, [t1, t2, t3, t4], _ =>
      revert s1 s2 s3 s4 t1 t2 t3 t4 a b a' b'; decide +kernel

theorem zip_at {x y : List Int} {i : Nat} {p q : Bool} (h : x[i]? = some (b2i p)) (h' : y[i]? = some (b2i q)) :
    (List.zipWith xorI x y)[i]? = some (b2i (p ^^ q)) := by
  rw [List.getElem?_zipWith, h, h']
  exact congrArg some (xorI_b2i p q)

/-- **C99**, linearity: the codewords are closed under exclusive or. -/
theorem C99_linear {S : Standard} {bf : Bool} {K : Nat} {x y : List Int} (hx : IsCodeword bf S K x) (hy : IsCodeword bf S K y) :
    IsCodeword bf S K (List.zipWith xorI x y) := by
  obtain ⟨lx, σ, a, b, h0, hc, hs⟩ := hx
  obtain ⟨ly, τ, a', b', h0', hc', hs'⟩ := hy
  have len : ∀ (σ : Nat → List Bool) (a b : Nat → Bool), (σ 0).length = S.memory → (∀ k, k < K / 2 → σ (k + 1) = (step S (σ k) (a k) (b k)).1) →
      ∀ k, k ≤ K / 2 → (σ k).length = S.memory := by
    intro σ a b h0 h k hk
    rw [path_of h k hk]
    exact path_len h0 k
  have l1 := len σ a b h0 fun k hk => (hs k hk).1
  have l2 := len τ a' b' h0' fun k hk => (hs' k hk).1
  refine ⟨by rw [List.length_zipWith, lx, ly]; omega, fun k => List.zipWith (· ^^ ·) (σ k) (τ k), fun k => a k ^^ a' k, fun k => b k ^^ b' k, ?_, ?_, ?_⟩
  · rw [List.length_zipWith, h0, h0']; omega
  · dsimp only; rw [hc, hc']
  · intro k hk
    obtain ⟨g1, g2, g3, g4, g5⟩ := hs k hk
    obtain ⟨k1, k2, k3, k4, k5⟩ := hs' k hk
    dsimp only
    rw [step_xor (l1 k (by omega)) (l2 k (by omega)), g1, k1]
    exact ⟨rfl, zip_at g2 k2, zip_at g3 k3, zip_at g4 k4, zip_at g5 k5⟩

/-- **C99**, systematic positions: `get_info_bits_pos` gives where `encode` writes the bits of the message. -/
theorem C99_info_bits_pos {K : Nat} {N : Int} {S : Standard} {bf : Bool} {e : Enc} (he : Enc.mk? K N S.name bf = ok e) (hK : Circular S K)
    {u x : List Int} (hu : u.length = K) (hb : IsBits u) (hx : x.length = e.N) :
    e.infoPos.length = K ∧ ∃ y, e.encode u x = ok y ∧ ∀ j p : Nat, e.infoPos[j]? = some p → y[p]? = u[j]? := by
  obtain ⟨h, -⟩ := encOk he
  have hev := h.even
  obtain ⟨y, hy, -, -, h2⟩ := C99_encode he hK hu hb hx
  refine ⟨h.infoPos.1, y, hy, fun j p hp => ?_⟩
  have hj : j < K := by
    rw [← h.infoPos.1]
    exact (List.getElem?_eq_some_iff.1 hp).1
  have q := h.infoPos.2 (j / 2) (by omega)
  rcases Nat.mod_two_eq_zero_or_one j with e | e
  · rw [show j = 2 * (j / 2) by omega, q.1] at hp
    cases hp
    rw [(h2 _ (by omega)).1, show 2 * (j / 2) = j by omega]
  · rw [show j = 2 * (j / 2) + 1 by omega, q.2] at hp
    cases hp
    rw [(h2 _ (by omega)).2, show 2 * (j / 2) + 1 = j by omega]

/-- The tables of `get_trellis`. -/
def trellis (S : Standard) : List (List Int) :=
  match (toStd S).getTrellis with
  | ok t => t
  | _ => []

theorem trellis_ok (S : Standard) : (toStd S).getTrellis = ok (trellis S) := by cases S <;> decide +kernel

/-- The entry `i` of the `r`-th table. -/
def entry (t : List (List Int)) (r i : Nat) : Option Int := (t[r]?).bind (·[i]?)

/-- **C99**, trellis: `get_trellis` gives four tables, with one entry for each state and couple: the next state, the state before, and the
two parities as signs. -/
theorem C99_trellis {K : Nat} {N : Int} {S : Standard} {bf : Bool} {e : Enc} (he : Enc.mk? K N S.name bf = ok e) :
    ∃ t, e.std.getTrellis = ok t ∧ t.length = 4 ∧ (∀ r ∈ t, r.length = 4 * 2 ^ S.memory) ∧ ∀ (l : List Bool) (a b : Bool), l.length = S.memory →
      entry t 0 (num l * 4 + (2 * a.toNat + b.toNat)) = some (num (step S l a b).1 : Nat) ∧
      entry t 1 (num (step S l a b).1 * 4 + (2 * a.toNat + b.toNat)) = some (num l : Nat) ∧
      entry t 2 (num l * 4 + (2 * a.toNat + b.toNat)) = some (if (step S l a b).2.1 then -1 else 1) ∧
      entry t 3 (num l * 4 + (2 * a.toNat + b.toNat)) = some (if (step S l a b).2.2 then -1 else 1) := by
  obtain ⟨h, -⟩ := encOk he
  rw [h.hstd]
  refine ⟨_, trellis_ok S, by cases S <;> decide +kernel, by cases S <;> decide +kernel, fun l a b hl => ?_⟩
  cases S
  · match l, hl with
    | [s1, s2, s3], _ => revert s1 s2 s3 a b; decide +kernel
  · match l, hl with
    | [s1, s2, s3, s4], _ => revert s1 s2 s3 s4 a b; decide +kernel

/-- The hypotheses of the theorems above are met: 8 couples of the second standard, both layouts. -/
example : ∃ e y, Enc.mk? (16 : Nat) 32 Standard.rcs2.name false = ok e ∧ Circular .rcs2 16 ∧
    e.encode [1,0,1,1,0,0,1,0,0,1,1,1,0,1,1,0] (List.replicate 32 0) = ok y ∧ (y.take 6).drop 4 = [1,1] ∧ e.isCodeword y = ok true ∧
    e.isCodeword (y.set 2 (1 - y.getD 2 0)) = ok false := by
  refine ⟨_, _, rfl, by decide, rfl, ?_, ?_, ?_⟩ <;> decide +kernel

example : ∃ e y, Enc.mk? (8 : Nat) 16 Standard.rcs1.name true = ok e ∧ Circular .rcs1 8 ∧
    e.encode [1,0,1,1,0,0,1,0] (List.replicate 16 0) = ok y ∧ y.take 8 = [1,0,1,1,0,0,1,0] ∧ 1 ∈ y.drop 8 ∧ e.isCodeword y = ok true := by
  refine ⟨_, _, rfl, by decide, rfl, ?_, ?_, ?_⟩ <;> decide +kernel

/-! ## C100 -/

theorem initState_ub {e : Enc} {S : Standard} {bf : Bool} {K : Nat} (he : EncOk e S bf K) (hK : ¬ Circular S K) (c : Nat) : e.initState c = ub := by
  unfold Enc.initState look rdI
  rw [he.hstd, he.hK, nff_eq, Nat.one_shiftLeft]
  unfold Circular at hK
  rw [not_not.1 hK, if_pos (by decide)]
  rfl

/-- **C100**: if the number of couples is a multiple of the period of the register (7 or 15), the constructor accepts, and encoding reads before the
beginning of the table of circulation states, for every message. -/
theorem C100_encode {K : Nat} {S : Standard} {bf : Bool} (h0 : 0 < K) (hev : K % 2 = 0) (hK : ¬ Circular S K) :
    ∃ e, Enc.mk? K (2 * K) S.name bf = ok e ∧ ∀ u x : List Int, u.length = K → IsBits u → e.encode u x = ub := by
  obtain ⟨e, he, h⟩ := mk_ok h0 hev S bf
  refine ⟨e, he, fun u x hu hb => ?_⟩
  obtain ⟨a, b, hab⟩ := couples (u := u) (p := fun k => 2 * k) (q := fun k => 2 * k + 1) (n := K / 2)
    fun k hk => ⟨bits_at hb (by omega), bits_at hb (by omega)⟩
  unfold Enc.encode
  rw [preEncode_ok h hab, bind_ok, initState_ub h hK]
  rfl

/-- **C100**: so does `is_codeword`: it never returns, even for the null word, which is a codeword. -/
theorem C100_is_codeword {K : Nat} {S : Standard} {bf : Bool} (h0 : 0 < K) (hev : K % 2 = 0) (hK : ¬ Circular S K) :
    ∃ e, Enc.mk? K (2 * K) S.name bf = ok e ∧ ∀ (x : List Int) (r : Bool), e.isCodeword x ≠ ok r := by
  obtain ⟨e, he, h⟩ := mk_ok h0 hev S bf
  refine ⟨e, he, fun x r hr => ?_⟩
  unfold Enc.isCodeword at hr
  generalize forN (e.K / 2) _ 0 = c at hr
  cases c with
  | ok c => rw [bind_ok, initState_ub h hK] at hr; cases hr
  | exc _ => cases hr
  | ub => cases hr

theorem C100_sizes : ¬ Circular .rcs1 14 ∧ ¬ Circular .rcs2 30 := by decide

/-! ## C101 -/

/-- A call of a turbo encoder: a frame of index `f` is encoded into the buffer `x`, or a word is checked. -/
inductive Call where
  | encode (f : Nat) (u x : List Int)
  | isCodeword (x : List Int)

/-- Admissible calls: message of `K` bits, word of `3 K` elements whose first `K` ones are binary. -/
def Call.Valid (K nf : Nat) : Call → Prop
  | .encode f u x => f < nf ∧ u.length = K ∧ IsBits u ∧ x.length = 3 * K
  | .isCodeword x => x.length = 3 * K ∧ ∀ k, k < K → x[k]? = some 0 ∨ x[k]? = some 1

def TEnc.call (e : TEnc) : Call → Exec TEnc
  | .encode f u x => do let r ← e.encode f u x; ok r.1
  | .isCodeword x => do let r ← e.isCodeword x; ok r.1

/-- **C101**: the order of the couples is a permutation of the `n` couples, whatever operations were applied to the interleaver. -/
theorem C101_permutation {n : Nat} {uniform : Bool} {gen : GenLut} {ops : List Op} {core : Core} (hs : 0 < n) (hgen : ValidGen n gen)
    (hops : OpsValid n ops) (hc : history n uniform gen ops = ok core) :
    (∀ i, i < n → order core i < n) ∧ ∀ i j, i < n → j < n → order core i = order core j → i = j := by
  have h := lutOk hs hgen hops hc
  exact ⟨h.lt, h.inj⟩

theorem trun {Sn Si : Standard} {K nf : Nat} {core : Core} (hc : LutOk core (K / 2)) (hn : Circular Sn K) (hi : Circular Si K) (hnf : 0 < nf) :
    ∀ (cs : List Call) (e : TEnc), TInv e Sn Si K nf core → (∀ c ∈ cs, c.Valid K nf) →
      ∃ e', cs.foldlM TEnc.call e = ok e' ∧ TInv e' Sn Si K nf core := by
  intro cs
  induction cs with
  | nil => exact fun e he _ => ⟨e, rfl, he⟩
  | cons c cs ih =>
    intro e he hv
    have hv0 := hv c (List.mem_cons_self ..)
    have hstep : ∃ e', e.call c = ok e' ∧ TInv e' Sn Si K nf core := by
      cases c with
      | encode f u x =>
        obtain ⟨r, hr, h⟩ := tencode_sat he hc hn hi hv0.1 hv0.2.1 hv0.2.2.1 hv0.2.2.2
        exact ⟨r.1, by simp only [TEnc.call]; rw [hr, bind_ok], h.1⟩
      | isCodeword x =>
        obtain ⟨r, hr, h⟩ := tisc_sat he hc hn hi hnf hv0.1 hv0.2
        exact ⟨r.1, by simp only [TEnc.call]; rw [hr, bind_ok], h.1⟩
    obtain ⟨e1, h1, h2⟩ := hstep
    obtain ⟨e2, h3, h4⟩ := ih e1 h2 fun c' hc' => hv c' (List.mem_cons_of_mem _ hc')
    exact ⟨e2, by rw [List.foldlM_cons, h1]; exact h3, h4⟩

/-- **C101**, codewords: with two encoders of `K` bits, a turbo encoder that constructs encodes, after any sequence of calls, any message of `K`
bits as the turbo codeword whose first `K` elements are the message. -/
theorem C101_encode {K nf : Nat} {N Nn Ni : Int} {Sn Si : Standard} {bn bi : Bool} {en ei : Enc} {uniform : Bool} {gen : GenLut} {ops : List Op} {core : Core} {e : TEnc}
    (hen : Enc.mk? K Nn Sn.name bn = ok en) (hei : Enc.mk? K Ni Si.name bi = ok ei) (hn : Circular Sn K) (hi : Circular Si K)
    (hgen : ValidGen (K / 2) gen) (hops : OpsValid (K / 2) ops) (hc : history (K / 2) uniform gen ops = ok core)
    (he : TEnc.mk? K N en ei core nf = ok e) {cs : List Call} (hcs : ∀ c ∈ cs, c.Valid K nf) {f : Nat} (hf : f < nf) {u x : List Int}
    (hu : u.length = K) (hb : IsBits u) (hx : x.length = e.N) :
    ∃ e1 e2 y, cs.foldlM TEnc.call e = ok e1 ∧ e1.encode f u x = ok (e2, y) ∧ IsTurbo Sn Si K (order core) y ∧ y.length = e.N ∧
      ∀ k, k < K → y[k]? = u[k]? := by
  obtain ⟨on, -⟩ := encOk hen
  obtain ⟨oi, -⟩ := encOk hei
  obtain ⟨ti, _, _⟩ := tmk_inv' on oi he
  have hl := lutOk (n := K / 2) (by have := on.pos; have := on.even; omega) hgen hops hc
  obtain ⟨e1, h1, i1⟩ := trun hl hn hi (by omega) cs e ti hcs
  obtain ⟨r, hr, h⟩ := tencode_sat i1 hl hn hi hf hu hb (by rw [hx, ti.hN])
  exact ⟨e1, r.1, r.2, h1, hr, h.2.1, by rw [h.2.1.1, ti.hN], h.2.2⟩

/-- **C101**, membership: `is_codeword` accepts exactly the turbo codewords, among the words whose first `K` elements are binary. -/
theorem C101_is_codeword {K nf : Nat} {N Nn Ni : Int} {Sn Si : Standard} {bn bi : Bool} {en ei : Enc} {uniform : Bool} {gen : GenLut} {ops : List Op} {core : Core} {e : TEnc}
    (hen : Enc.mk? K Nn Sn.name bn = ok en) (hei : Enc.mk? K Ni Si.name bi = ok ei) (hn : Circular Sn K) (hi : Circular Si K)
    (hgen : ValidGen (K / 2) gen) (hops : OpsValid (K / 2) ops) (hc : history (K / 2) uniform gen ops = ok core)
    (he : TEnc.mk? K N en ei core nf = ok e) {cs : List Call} (hcs : ∀ c ∈ cs, c.Valid K nf) (hnf : 0 < nf) {x : List Int} (hx : x.length = e.N)
    (hb : ∀ k, k < K → x[k]? = some 0 ∨ x[k]? = some 1) :
    ∃ e1 e2 r, cs.foldlM TEnc.call e = ok e1 ∧ e1.isCodeword x = ok (e2, r) ∧ (r = true ↔ IsTurbo Sn Si K (order core) x) := by
  obtain ⟨on, -⟩ := encOk hen
  obtain ⟨oi, -⟩ := encOk hei
  obtain ⟨ti, _, _⟩ := tmk_inv' on oi he
  have hl := lutOk (n := K / 2) (by have := on.pos; have := on.even; omega) hgen hops hc
  obtain ⟨e1, h1, i1⟩ := trun hl hn hi hnf cs e ti hcs
  obtain ⟨r, hr, h⟩ := tisc_sat i1 hl hn hi hnf (by rw [hx, ti.hN]) hb
  exact ⟨e1, r.1, r.2, h1, hr, h.2⟩

/-- **C101**, uniqueness: a turbo codeword is determined by its message. -/
theorem C101_unique {Sn Si : Standard} {K : Nat} {ρ : Nat → Nat} (hev : K % 2 = 0) (hn : Circular Sn K) (hi : Circular Si K)
    (hρ : ∀ k, k < K / 2 → ρ k < K / 2) {x y : List Int} (hx : IsTurbo Sn Si K ρ x) (hy : IsTurbo Sn Si K ρ y)
    (h : ∀ k, k < K → x[k]? = y[k]?) : x = y := by
  obtain ⟨lx, xn, xi, a1, a2, a3, a4, a5⟩ := hx
  obtain ⟨ly, yn, yi, b1, b2, b3, b4, b5⟩ := hy
  have e0 : ∀ k, k < K → xn[k]? = yn[k]? := fun k hk => by rw [← a4 k hk, ← b4 k hk, h k hk]
  have e1 : xn = yn := C99_unique hev hn a1 b1 fun k hk => by
    simp only [posA, posB, if_true]
    exact ⟨e0 _ (by omega), e0 _ (by omega)⟩
  have e2 : xi = yi := C99_unique hev hi a2 b2 fun k hk => by
    rw [(a3 k hk).1, (a3 k hk).2, (b3 k hk).1, (b3 k hk).2, e1]
    exact ⟨rfl, rfl⟩
  subst e1 e2
  apply List.ext_getElem?
  intro j
  by_cases h1 : j < K
  · exact h j h1
  by_cases h2 : j < 2 * K
  · have p := a5 ((j - K) / 2) (by omega)
    have q := b5 ((j - K) / 2) (by omega)
    rcases Nat.mod_two_eq_zero_or_one (j - K) with e | e
    · rw [show j = K + 2 * ((j - K) / 2) by omega, p.1, q.1]
    · rw [show j = K + 2 * ((j - K) / 2) + 1 by omega, p.2.1, q.2.1]
  by_cases h3 : j < 3 * K
  · have p := a5 ((j - 2 * K) / 2) (by omega)
    have q := b5 ((j - 2 * K) / 2) (by omega)
    rcases Nat.mod_two_eq_zero_or_one (j - 2 * K) with e | e
    · rw [show j = 2 * K + 2 * ((j - 2 * K) / 2) by omega, p.2.2.1, q.2.2.1]
    · rw [show j = 2 * K + 2 * ((j - 2 * K) / 2) + 1 by omega, p.2.2.2, q.2.2.2]
  · rw [List.getElem?_eq_none (by omega), List.getElem?_eq_none (by omega)]

theorem zip_eq {x y v w : List Int} {i j : Nat} (h : x[i]? = v[j]?) (h' : y[i]? = w[j]?) : (List.zipWith xorI x y)[i]? = (List.zipWith xorI v w)[j]? := by
  rw [List.getElem?_zipWith, List.getElem?_zipWith, h, h']

/-- **C101**, linearity: the turbo codewords are closed under exclusive or. -/
theorem C101_linear {Sn Si : Standard} {K : Nat} {ρ : Nat → Nat} {x y : List Int} (hx : IsTurbo Sn Si K ρ x) (hy : IsTurbo Sn Si K ρ y) :
    IsTurbo Sn Si K ρ (List.zipWith xorI x y) := by
  obtain ⟨lx, xn, xi, a1, a2, a3, a4, a5⟩ := hx
  obtain ⟨ly, yn, yi, b1, b2, b3, b4, b5⟩ := hy
  refine ⟨by rw [List.length_zipWith, lx, ly]; omega, _, _, C99_linear a1 b1, C99_linear a2 b2, fun k hk => ?_, fun k hk => zip_eq (a4 k hk) (b4 k hk),
    fun k hk => ?_⟩
  · have p := a3 k hk
    have q := b3 k hk
    unfold shuffledA shuffledB at p q ⊢
    split
    next e =>
      rw [if_pos e, if_pos e] at p q
      exact ⟨zip_eq p.1 q.1, zip_eq p.2 q.2⟩
    next e =>
      rw [if_neg e, if_neg e] at p q
      exact ⟨zip_eq p.1 q.1, zip_eq p.2 q.2⟩
  · obtain ⟨p1, p2, p3, p4⟩ := a5 k hk
    obtain ⟨q1, q2, q3, q4⟩ := b5 k hk
    exact ⟨zip_eq p1 q1, zip_eq p2 q2, zip_eq p3 q3, zip_eq p4 q4⟩

/-- **C101**, construction: with encoders of `K` bits, a turbo encoder is constructed exactly when `N = 3 K`, the interleaver has one element per
couple, and the encoders have the buffered layout. -/
theorem C101_constructor {K nf : Nat} {N Nn Ni : Int} {Sn Si : Standard} {bn bi : Bool} {en ei : Enc} (core : Core)
    (hen : Enc.mk? K Nn Sn.name bn = ok en) (hei : Enc.mk? K Ni Si.name bi = ok ei) :
    (∃ e, TEnc.mk? K N en ei core nf = ok e) ↔ N = 3 * K ∧ core.size = K / 2 ∧ bn = true ∧ bi = true := by
  obtain ⟨on, -⟩ := encOk hen
  obtain ⟨oi, -⟩ := encOk hei
  have h0 := on.pos
  have hev := on.even
  unfold TEnc.mk?
  rw [on.hbf, oi.hbf]
  constructor
  · rintro ⟨e, h⟩
    split at h
    · cases h
    split at h
    · cases h
    split at h
    · cases h
    split at h
    · cases h
    split at h
    · cases h
    split at h
    · cases h
    split at h
    · cases h
    next hb =>
    refine ⟨by omega, by omega, ?_⟩
    cases bn <;> cases bi <;> simp at hb ⊢
  · rintro ⟨rfl, h2, rfl, rfl⟩
    rw [if_neg (by omega), if_neg (by omega), if_neg (by omega), if_neg (by omega), if_neg (by omega), if_neg (by omega), if_neg (by decide)]
    exact ⟨_, rfl⟩

/-- The hypotheses of the theorems above are met: 4 couples, two frames, the second one after the first one. -/
example : ∃ en core e y r, Enc.mk? (8 : Nat) 16 Standard.rcs1.name true = ok en ∧ Circular .rcs1 8 ∧ ValidGen (8 / 2) (genRowColumn 2 2 .bottomLeft) ∧
    history (8 / 2) false (genRowColumn 2 2 .bottomLeft) [] = ok core ∧ TEnc.mk? (8 : Nat) 24 en en core 2 = ok e ∧
    order core 0 ≠ 0 ∧ e.N = 24 ∧ (do let (e, _) ← e.encode 0 [1, 0, 1, 1, 0, 1, 0, 0] (List.replicate 24 0)
                                      let (e, y) ← e.encode 1 [0, 1, 1, 1, 0, 1, 0, 0] (List.replicate 24 0)
                                      let (_, r) ← e.isCodeword y
                                      ok (y, r)) = ok (y, r) ∧ y.take 8 = [0, 1, 1, 1, 0, 1, 0, 0] ∧ 1 ∈ y.drop 16 ∧ r = true :=
  ⟨_, _, _, _, _, rfl, by decide, genRowColumn_valid 2 2 _, rfl, rfl, by decide +kernel, rfl, rfl, by decide +kernel, by decide +kernel, rfl⟩

/-! ## C102 -/

/-- **C102**: the turbo encoder does not check the sizes of its two encoders: with `K = 8` and encoders of 32 bits it is constructed, and encoding
reads after the end of the message; with an encoder of 4 bits for the second one, it returns a word that its own `is_codeword` refuses. -/
theorem C102_component_size : ∃ en es el core e e', Enc.mk? 8 16 "DVB-RCS1" true = ok en ∧ Enc.mk? 4 8 "DVB-RCS1" true = ok es ∧
    Enc.mk? 32 64 "DVB-RCS1" true = ok el ∧ history 4 false (genRowColumn 2 2 .bottomLeft) [] = ok core ∧
    TEnc.mk? 8 24 el el core 1 = ok e ∧ e.encode 0 [1, 0, 1, 1, 0, 1, 0, 0] (List.replicate 24 0) = ub ∧
    TEnc.mk? 8 24 en es core 1 = ok e' ∧ (do let (e, y) ← e'.encode 0 [1, 0, 1, 1, 0, 1, 0, 0] (List.replicate 24 0)
                                             let (_, r) ← e.isCodeword y
                                             ok r) = ok false :=
  ⟨_, _, _, _, _, _, rfl, rfl, rfl, rfl, rfl, rfl, rfl, by decide +kernel⟩

/-- **C102**: with an interleaver that has one permutation per frame, the frames are all encoded with the permutation of the first frame. -/
theorem C102_first_frame {K nf : Nat} {N Nn Ni : Int} {Sn Si : Standard} {bn bi : Bool} {en ei : Enc} {gen : GenLut} {ops : List Op} {core : Core} {e : TEnc}
    (hen : Enc.mk? K Nn Sn.name bn = ok en) (hei : Enc.mk? K Ni Si.name bi = ok ei) (hn : Circular Sn K) (hi : Circular Si K)
    (hgen : ValidGen (K / 2) gen) (hops : OpsValid (K / 2) ops) (hc : history (K / 2) true gen ops = ok core)
    (he : TEnc.mk? K N en ei core nf = ok e) {f g : Nat} (hf : f < nf) (hg : g < nf) {u x : List Int} (hu : u.length = K) (hb : IsBits u)
    (hx : x.length = e.N) : ∃ e1 e2 y, e.encode f u x = ok (e1, y) ∧ e.encode g u x = ok (e2, y) := by
  obtain ⟨e0, e1, y, h0, h1, h2, -, h3⟩ := C101_encode hen hei hn hi hgen hops hc he (cs := []) (by simp) hf hu hb hx
  obtain ⟨e0', e1', y', h0', h1', h2', -, h3'⟩ := C101_encode hen hei hn hi hgen hops hc he (cs := []) (by simp) hg hu hb hx
  cases h0
  cases h0'
  obtain ⟨on, -⟩ := encOk hen
  have hp := (C101_permutation (n := K / 2) (by have := on.pos; have := on.even; omega) hgen hops hc).1
  have : y = y' := C101_unique on.even hn hi hp h2 h2' fun k hk => by rw [h3 k hk, h3' k hk]
  exact ⟨e1, e1', y, h1, this ▸ h1'⟩

end Verif.RSCDB
