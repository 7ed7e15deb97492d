import Verif.Proof.PolarSCLOne
import Mathlib.Data.List.Sort

/-!
# C87, C88: the polar list decoders

`Decoder_polar_SCL_naive`, `Decoder_polar_SCL_naive_sys`, `Decoder_polar_SCL_naive_CA` and `Decoder_polar_SCL_naive_CA_sys`, for any code, any list size and any history.
-/

namespace Verif.PolarSCL
open Exec Verif.Polar
open Verif.PolarSC (Fns soft int8 int16 flt dbl VotesInt VotesFl)
open Verif.Float (Fl)

variable {R : Type} {w : Nat}

/-- **C87**, the constructor accepts exactly: a positive `K`, `N` and `L` powers of two, `N` frozen bits of which `K` are of information, and a CRC of at most `K` bits. -/
theorem C87_constructor (F : Fns R w) (A : Ar R) (K N L : Int) (frozen : List Bool) (sys : Bool) (crc : Option (List (BitVec w) → Bool)) (crcSize : Nat) :
    (∃ d, Dec.mk? F A K N L frozen sys crc crcSize = .ok d) ↔ 0 < K ∧ (∃ n : Nat, N = ((2 ^ n : Nat) : Int)) ∧ (∃ k : Nat, L = ((2 ^ k : Nat) : Int)) ∧ N = frozen.length ∧
      K = (frozen.filter (· = false)).length ∧ (crc.isSome = true → (crcSize : Int) ≤ K) :=
  ⟨fun ⟨_, h⟩ => (mk?_iff.1 h).1, fun h => ⟨_, mk?_iff.2 ⟨h, rfl⟩⟩⟩

/-- **C87**, decoding is list decoding: whatever the history, the calls succeed, and their outputs are those of a best path (that passes the CRC) of a list of paths which starts from the empty one, and whose paths
are extended by the null bit at the frozen bits and by both bits at the others, the best half of them being kept when they are more than `L`.  The parameters do not change. -/
theorem C87_decode (F : Fns R w) (A : Ar R) (sort : List (Cand R w) → List (Cand R w)) (hw : 0 < w) (hA : Strict A) (hsort : SortOk A sort) (d : Dec R w) (hr : Reach F A sort d) :
    ∃ n : Nat, d.N = 2 ^ n ∧ d.frozen.length = 2 ^ n ∧ ∀ y : List R, y.length = d.N → ∃ V u, Lists F A n y d.L d.frozen V ∧ Chosen A d.crc d.sys d.frozen n V u ∧
      (∀ v : List (BitVec w), v.length = d.K → ∃ d', d.siho F A sort y v = .ok (d', unplace d.frozen (if d.sys then polarTransform n (bits w u) else bits w u)) ∧
        d'.K = d.K ∧ d'.N = d.N ∧ d'.L = d.L ∧ d'.sys = d.sys ∧ d'.crc = d.crc ∧ d'.frozen = d.frozen) ∧
      ∀ v : List (BitVec w), v.length = d.N → ∃ d', d.sihoCw F A sort y v = .ok (d', if d.sys then polarTransform n (bits w u) else marked (polarTransform n (bits w u))) ∧
        d'.K = d.K ∧ d'.N = d.N ∧ d'.L = d.L ∧ d'.sys = d.sys ∧ d'.crc = d.crc ∧ d'.frozen = d.frozen := by
  have h := hr.ok hw hA hsort
  have hf : d.frozen.length = 2 ^ d.m := h.frozen.trans h.N
  refine ⟨d.m, h.N, hf, fun y hy => ?_⟩
  obtain ⟨V, hV, hc⟩ := result_chosen (F := F) (y := y) hA hsort h
  have hul : (aResult F A sort d y).length = 2 ^ d.m := by
    obtain ⟨mu, hm, _⟩ := hc
    rw [← hf]; exact (hV.fits _ hm).length_eq.symm
  refine ⟨V, aResult F A sort d y, hV, hc, fun v hv => ?_, fun v hv => ?_⟩
  · obtain ⟨r, e, _, s, e2⟩ := siho_ok (F := F) hA hsort h hy hv
    exact ⟨r.1, by rw [e]; congr 1; exact Prod.ext rfl e2, s.K, s.N, s.L, s.sys, s.crc, s.frozen⟩
  · obtain ⟨r, e, _, s, e2⟩ := sihoCw_ok (F := F) hA hsort h hy hv
    refine ⟨r.1, ?_, s.K, s.N, s.L, s.sys, s.crc, s.frozen⟩
    rw [e]; congr 1
    refine Prod.ext rfl ?_
    rw [e2, word_transform hul, bits_transform hul, marked_bits hw]

/-- **C87**, the outputs do not depend on the history: two decoders of the same parameters, each after any calls, give the same outputs. -/
theorem C87_history (F : Fns R w) (A : Ar R) (sort : List (Cand R w) → List (Cand R w)) (hw : 0 < w) (hA : Strict A) (hsort : SortOk A sort) (d e : Dec R w) (hd : Reach F A sort d) (he : Reach F A sort e)
    (hN : d.N = e.N) (hL : d.L = e.L) (hs : d.sys = e.sys) (hc : d.crc = e.crc) (hf : d.frozen = e.frozen) (y : List R) (hy : y.length = d.N) :
    (∀ v : List (BitVec w), v.length = d.K → ∃ d' e' out, d.siho F A sort y v = .ok (d', out) ∧ e.siho F A sort y v = .ok (e', out)) ∧
      ∀ v : List (BitVec w), v.length = d.N → ∃ d' e' out, d.sihoCw F A sort y v = .ok (d', out) ∧ e.sihoCw F A sort y v = .ok (e', out) := by
  have h1 := hd.ok hw hA hsort
  have h2 := he.ok hw hA hsort
  obtain ⟨hm, hres⟩ := result_same (F := F) (A := A) (sort := sort) (y := y) hN h1 h2 hL hs hc hf
  have hK : d.K = e.K := by rw [h1.K, h2.K, hf]
  constructor
  · intro v hv
    obtain ⟨r, e1, _, _, g1⟩ := siho_ok (F := F) hA hsort h1 hy hv
    obtain ⟨r', e2, _, _, g2⟩ := siho_ok (F := F) hA hsort h2 (hN ▸ hy) (hK ▸ hv)
    exact ⟨r.1, r'.1, r.2, e1, by rw [e2]; congr 1; exact Prod.ext rfl (by rw [g1, g2, hres, hm, hs, hf])⟩
  · intro v hv
    obtain ⟨r, e1, _, _, g1⟩ := sihoCw_ok (F := F) hA hsort h1 hy hv
    obtain ⟨r', e2, _, _, g2⟩ := sihoCw_ok (F := F) hA hsort h2 (hN ▸ hy) (hN ▸ hv)
    exact ⟨r.1, r'.1, r.2, e1, by rw [e2]; congr 1; exact Prod.ext rfl (by rw [g1, g2, hres, hm, hs])⟩

/-- **C87**, new frozen bits, of the same numbers, replace the previous ones, and nothing else changes. -/
theorem C87_set_frozen (F : Fns R w) (A : Ar R) (sort : List (Cand R w) → List (Cand R w)) (hw : 0 < w) (hA : Strict A) (hsort : SortOk A sort) (d : Dec R w) (hr : Reach F A sort d) (fb : List Bool)
    (hl : fb.length = d.N) (hc : (fb.filter (· = false)).length = d.K) : ∃ d', d.setFrozen fb = .ok d' ∧ Reach F A sort d' ∧ d'.frozen = fb ∧
      d'.K = d.K ∧ d'.N = d.N ∧ d'.L = d.L ∧ d'.sys = d.sys ∧ d'.crc = d.crc :=
  have e := setFrozen_ok (hr.ok hw hA hsort) hl hc
  ⟨_, e, hr.frozen hl hc e, rfl, rfl, rfl, rfl, rfl, rfl⟩

/-- **C87**, the list: the paths are distinct, their frozen bits are null, the words they encode are codewords, and they are `L`, or all the paths if there are fewer. -/
theorem C87_list (F : Fns R w) (A : Ar R) (hw : 0 < w) (n k : Nat) (y : List R) (frozen : List Bool) (hf : frozen.length = 2 ^ n) (V : List (List Bool × R)) (h : Lists F A n y (2 ^ k) frozen V) :
    (V.map Prod.fst).Nodup ∧ V.length = min (2 ^ (frozen.filter (· = false)).length) (2 ^ k) ∧
      ∀ p ∈ V, Fits frozen p.1 ∧ IsCodeword n frozen (polarTransform n (bits w p.1)) ∧ ∀ b ∈ polarTransform n (bits w p.1), b = 0 ∨ b = 1 := by
  refine ⟨h.nodup, h.length rfl, fun p hp => ?_⟩
  have hfit := h.fits _ hp
  have hl : p.1.length = 2 ^ n := by rw [← hf]; exact hfit.length_eq.symm
  have := (codeword_iff hw hf (x := bits w (boolT n p.1))).2 ⟨p.1, hl, hfit, rfl⟩
  rw [← bits_transform hl] at this
  exact ⟨hfit, this.1, this.2⟩

/-! ## Maximum likelihood -/

theorem strict_int {A : Ar Int} (h : A.lt = fun a b => decide (a < b)) : Strict A := by
  refine ⟨fun a => by rw [h]; simp, fun a b c h1 h2 => ?_⟩
  rw [h] at *
  simp only [decide_eq_true_eq] at *
  omega

theorem strict_fl {A : Ar Fl} (h : A.lt = Fl.lt) : Strict A := by
  refine ⟨fun a => ?_, fun a b c => ?_⟩
  · rw [h]
    rcases a with q | s | _
    · simp [Fl.lt]
    · cases s <;> rfl
    · rfl
  · rw [h]
    rcases a with a | a | _ <;> rcases b with b | b | _ <;> rcases c with c | c | _ <;> simp only [Fl.lt, decide_eq_true_eq, Bool.and_eq_true, Bool.not_eq_true', reduceCtorEq, false_implies, implies_true] <;>
      first
        | exact fun h1 h2 => lt_trans h1 h2
        | grind

/-- **C87**, without CRC, and with a list of at least `2^K` paths, the decoder is a maximum likelihood decoder: no codeword has a greater correlation with the input than its output, when the sum of the magnitudes of
the input is at most 63 (`int8_t`), 16382 (`int16_t`), `(2^24 - 1) 2^e` (`float`, inputs multiple of `2^e`) or `(2^53 - 1) 2^e` (`double`). -/
theorem C87_maximum_likelihood :
    (∀ sort, SortOk ar8 sort → MaxLik int8 ar8 sort (fun r z => r = z) 63) ∧
    (∀ sort, SortOk ar16 sort → MaxLik int16 ar16 sort (fun r z => r = z) 16382) ∧
    (∀ sort, SortOk arFlt sort → ∀ e : Int, -74 ≤ e → e ≤ 100 → MaxLik flt arFlt sort (fun r z => r = .fin (z * 2 ^ e)) (2 ^ 24 - 1)) ∧
    (∀ sort, SortOk arDbl sort → ∀ e : Int, -537 ≤ e → e ≤ 900 → MaxLik dbl arDbl sort (fun r z => r = .fin (z * 2 ^ e)) (2 ^ 53 - 1)) :=
  ⟨fun _ hs => maxLik (by decide) (strict_int rfl) hs exact_int8, fun _ hs => maxLik (by decide) (strict_int rfl) hs exact_int16,
    fun _ hs _ h1 h2 => maxLik (by decide) (strict_fl rfl) hs (exact_flt h1 h2), fun _ hs _ h1 h2 => maxLik (by decide) (strict_fl rfl) hs (exact_dbl h1 h2)⟩

/-! ## Recovery -/

theorem votes_bool {Votes : R → BitVec w → Prop} {y : List R} {x : List Bool} (h : List.Forall₂ Votes y (bits w x)) : List.Forall₂ (vB Votes) y x := (List.forall₂_map_right_iff (R := Votes)).1 h

theorem votes_length {Votes : R → BitVec w → Prop} {y : List R} {x : List (BitVec w)} (h : List.Forall₂ Votes y x) : y.length = x.length := h.length_eq

/-- **C87**, `int8_t`: for any list size, the decoder is the inverse of the encoder for all inputs whose signs are those of a codeword, except the value `-128`, if the first bit is frozen; otherwise, if the sum of
their magnitudes is at most 63. -/
theorem C87_int8 (sort : List (Cand Int 8) → List (Cand Int 8)) (hsort : SortOk ar8 sort) :
    Recovers int8 ar8 sort (fun frozen y x => List.Forall₂ (VotesInt 8) y x ∧ (frozen[0]? = some true ∨ (y.map abs).sum ≤ 63)) ∧
      RecoversSys int8 ar8 sort (fun frozen y x => List.Forall₂ (VotesInt 8) y x ∧ (frozen[0]? = some true ∨ (y.map abs).sum ≤ 63)) := by
  refine recovers (by decide) (strict_int rfl) hsort (fun {m L frozen u y V} hf hu hz hg hV => ?_) (fun h => votes_length h.1)
  have hy := votes_bool hg.1
  rcases hg.2 with h0 | hB
  · exact wins_robust (strict_int rfl) robust_int8 hu hy hV hf hz (Or.inr h0)
  · exact wins_exact exact_int8 (keeps_of_sound PolarSC.sound_int8 fun a b => rfl) (fun h1 h2 => link_int (by decide) h1 h2) (List.forall₂_same.2 fun _ _ => rfl)
      (by rw [hy.length_eq, boolT_length hu]) hB hu hy hV hf hz

/-- **C87**, `int16_t`: if the sum of the magnitudes is at most 16382. -/
theorem C87_int16 (sort : List (Cand Int 16) → List (Cand Int 16)) (hsort : SortOk ar16 sort) :
    Recovers int16 ar16 sort (fun _ y x => List.Forall₂ (VotesInt 16) y x ∧ (y.map abs).sum ≤ 16382) ∧
      RecoversSys int16 ar16 sort (fun _ y x => List.Forall₂ (VotesInt 16) y x ∧ (y.map abs).sum ≤ 16382) := by
  refine recovers (by decide) (strict_int rfl) hsort (fun {m L frozen u y V} hf hu hz hg hV => ?_) (fun h => votes_length h.1)
  have hy := votes_bool hg.1
  exact wins_exact exact_int16 (keeps_of_sound PolarSC.sound_int16 fun a b => rfl) (fun h1 h2 => link_int (by decide) h1 h2) (List.forall₂_same.2 fun _ _ => rfl)
      (by rw [hy.length_eq, boolT_length hu]) hg.2 hu hy hV hf hz

/-- **C87**, `float`: for all inputs, infinities included, whose signs are those of a codeword, and of magnitude at least `2^-74`. -/
theorem C87_float (sort : List (Cand Fl 32) → List (Cand Fl 32)) (hsort : SortOk arFlt sort) :
    Recovers flt arFlt sort (fun _ y x => List.Forall₂ (VotesFl (-74)) y x) ∧ RecoversSys flt arFlt sort (fun _ y x => List.Forall₂ (VotesFl (-74)) y x) :=
  recovers (by decide) (strict_fl rfl) hsort (fun {_ _ _ _ _ _} hf hu hz hg hV => wins_robust (strict_fl rfl) robust_flt hu (votes_bool hg) hV hf hz (Or.inl rfl)) votes_length

/-- **C87**, `double`: of magnitude at least `2^-537`. -/
theorem C87_double (sort : List (Cand Fl 64) → List (Cand Fl 64)) (hsort : SortOk arDbl sort) :
    Recovers dbl arDbl sort (fun _ y x => List.Forall₂ (VotesFl (-537)) y x) ∧ RecoversSys dbl arDbl sort (fun _ y x => List.Forall₂ (VotesFl (-537)) y x) :=
  recovers (by decide) (strict_fl rfl) hsort (fun {_ _ _ _ _ _} hf hu hz hg hV => wins_robust (strict_fl rfl) robust_dbl hu (votes_bool hg) hV hf hz (Or.inl rfl)) votes_length

/-! ## One path -/

theorem h_int {w : Nat} (hw : 0 < w) {x z : Int} (h : x = z) : PolarSC.hInt w x ≠ 0 ↔ z < 0 := by
  subst h
  have hb : ¬ BitVec.ofNat w (2 ^ (w - 1)) = 0#w := bitInit_ne hw
  unfold PolarSC.hInt
  by_cases hx : x < 0 <;> simp [hx, hb]

theorem h_fl {w : Nat} (hw : 0 < w) {e : Int} {x : Fl} {z : Int} (h : x = .fin (z * 2 ^ e)) : PolarSC.hFl w x ≠ 0 ↔ z < 0 := by
  subst h
  have hb : ¬ BitVec.ofNat w (2 ^ (w - 1)) = 0#w := bitInit_ne hw
  have h2 : ((z : ℚ) * 2 ^ e < 0) ↔ z < 0 := by
    rw [← not_le, ← not_le]
    refine not_congr ⟨fun h => ?_, fun h => mul_nonneg (by exact_mod_cast h) (Float.two_zpow_pos e).le⟩
    exact_mod_cast nonneg_of_mul_nonneg_left h (Float.two_zpow_pos e)
  unfold PolarSC.hFl
  simp only [Fl.lt, decide_eq_true_eq, h2]
  by_cases hx : z < 0 <;> simp [hx, hb]

/-- **C87**, with a list of one path, the outputs are those of the successive cancellation decoder (C73), unless an information bit is decided on a null soft value, when the sum of the magnitudes of the input is
bounded as in `C87_maximum_likelihood`. -/
theorem C87_one_path :
    (∀ sort, SortOk ar8 sort → LikeSC int8 ar8 sort (fun r z => r = z) 63) ∧
    (∀ sort, SortOk ar16 sort → LikeSC int16 ar16 sort (fun r z => r = z) 16382) ∧
    (∀ sort, SortOk arFlt sort → ∀ e : Int, -74 ≤ e → e ≤ 100 → LikeSC flt arFlt sort (fun r z => r = .fin (z * 2 ^ e)) (2 ^ 24 - 1)) ∧
    (∀ sort, SortOk arDbl sort → ∀ e : Int, -537 ≤ e → e ≤ 900 → LikeSC dbl arDbl sort (fun r z => r = .fin (z * 2 ^ e)) (2 ^ 53 - 1)) :=
  ⟨fun _ hs => likeSC (by decide) (strict_int rfl) hs exact_int8 (fun _ _ => rfl) (fun h => h_int (by decide) h),
    fun _ hs => likeSC (by decide) (strict_int rfl) hs exact_int16 (fun _ _ => rfl) (fun h => h_int (by decide) h),
    fun _ hs _ h1 h2 => likeSC (by decide) (strict_fl rfl) hs (exact_flt h1 h2) (fun _ _ => rfl) (fun h => h_fl (by decide) h),
    fun _ hs _ h1 h2 => likeSC (by decide) (strict_fl rfl) hs (exact_dbl h1 h2) (fun _ _ => rfl) (fun h => h_fl (by decide) h)⟩

/-! ## The hypotheses are met -/

/-- A sort. -/
def sortInt {w : Nat} (l : List (Cand Int w)) : List (Cand Int w) := l.insertionSort fun a b => a.met ≤ b.met

theorem sortInt_ok {w : Nat} {A : Ar Int} (h : A.lt = fun a b => decide (a < b)) : SortOk A (sortInt (w := w)) := by
  intro l
  have : Std.Total (fun a b : Cand Int w => a.met ≤ b.met) := ⟨fun a b => le_total a.met b.met⟩
  have : IsTrans _ (fun a b : Cand Int w => a.met ≤ b.met) := ⟨fun a b c => le_trans⟩
  refine ⟨List.perm_insertionSort _ _, (List.pairwise_insertionSort _ l).imp fun {a b} hab => ?_⟩
  rw [h]
  simpa using hab

example : SortOk (w := 8) ar8 sortInt ∧ SortOk (w := 16) ar16 sortInt ∧ Strict ar8 ∧ Strict ar16 ∧ Strict arFlt ∧ Strict arDbl :=
  ⟨sortInt_ok rfl, sortInt_ok rfl, strict_int rfl, strict_int rfl, strict_fl rfl, strict_fl rfl⟩

/-- The order of the floating point numbers, the NaN being the least. -/
def leFl (a b : Fl) : Bool := match a with | .nan => true | _ => match b with | .nan => false | _ => !Fl.lt b a

/-- There is a sort of the floating point metrics. -/
example : ∃ sort : List (Cand Fl 32) → List (Cand Fl 32), SortOk arFlt sort := by
  refine ⟨fun l => l.insertionSort fun a b => leFl a.met b.met, fun l => ⟨List.perm_insertionSort _ _, ?_⟩⟩
  have : Std.Total (fun a b : Cand Fl 32 => leFl a.met b.met = true) := ⟨fun a b => by
    generalize a.met = a, b.met = b
    rcases a with a | a | _ <;> rcases b with b | b | _ <;> simp only [leFl, Fl.lt] <;> (try cases a) <;> (try cases b) <;> simp
    exact le_total _ _⟩
  have : IsTrans _ (fun a b : Cand Fl 32 => leFl a.met b.met = true) := ⟨fun a b c => by
    generalize a.met = a, b.met = b, c.met = c
    rcases a with a | a | _ <;> rcases b with b | b | _ <;> rcases c with c | c | _ <;> simp only [leFl, Fl.lt] <;> (try cases a) <;> (try cases b) <;> (try cases c) <;> simp
    exact fun h1 h2 => le_trans h1 h2⟩
  refine (List.pairwise_insertionSort _ l).imp fun {a b} hab => ?_
  show Fl.lt b.met a.met = false
  generalize a.met = a at hab
  generalize b.met = b at hab
  rcases a with a | a | _ <;> rcases b with b | b | _ <;> simp only [leFl, Fl.lt] at * <;> (try cases a) <;> (try cases b) <;> simp at * <;> assumption

/-- A decoder of 4 information bits among 8, with a list of 4 paths. -/
example : ∃ d, Dec.mk? int8 ar8 4 8 4 [true, true, true, false, true, false, false, false] false none 0 = .ok d ∧ Reach int8 ar8 sortInt d := by
  obtain ⟨d, h⟩ := (C87_constructor int8 ar8 4 8 4 [true, true, true, false, true, false, false, false] false none 0).2
    ⟨by decide, ⟨3, by decide⟩, ⟨2, by decide⟩, by decide, by decide, by simp⟩
  exact ⟨d, h, .make (by decide) h⟩

/-- The message `1 0 0 0` is sent as `1 1 1 1 0 0 0 0`, and decoded although the third sign is wrong. -/
example : (do
    let e ← Enc.mk? 4 8 [true, true, true, false, true, false, false, false]
    e.encode (w := 8) [1, 0, 0, 0] [0, 0, 0, 0, 0, 0, 0, 0]) = ok [1, 1, 1, 1, 0, 0, 0, 0] ∧
  (do
    let d ← Dec.mk? int8 ar8 4 8 4 [true, true, true, false, true, false, false, false] false none 0
    let r ← d.siho int8 ar8 sortInt [-9, -8, 2, -7, 9, 6, 5, 9] [0, 0, 0, 0]
    ok r.2) = ok [1, 0, 0, 0] := by decide +kernel

/-! ## C88: defects (`sortInt` is a sort: `sortInt_ok`) -/

/-- **C88**, a code of one bit is accepted, and its decoding is undefined: the tree is only a root, and the first LLR is computed from depth `-1`. -/
theorem C88_one_bit : (∃ d, Dec.mk? int8 ar8 1 1 1 [false] false none 0 = .ok d) ∧
    (do
      let d ← Dec.mk? int8 ar8 1 1 1 [false] false none 0
      let r ← d.siho int8 ar8 sortInt [5] [0]
      ok r.2) = ub :=
  ⟨(C87_constructor int8 ar8 1 1 1 [false] false none 0).2 ⟨by decide, ⟨0, by decide⟩, ⟨0, by decide⟩, by decide, by decide, by simp⟩, by decide +kernel⟩

/-- **C88**, the codeword given by `decode_siho_cw` in the classes that are not systematic is not made of bits: a 1 is given as the least integer of the type. -/
theorem C88_codeword : (do
      let d ← Dec.mk? int8 ar8 1 2 1 [true, false] false none 0
      let r ← d.sihoCw int8 ar8 sortInt [-5, -5] [0, 0]
      ok r.2) = ok [128, 128] ∧
    (do
      let d ← Dec.mk? int8 ar8 1 2 1 [true, false] true none 0
      let r ← d.sihoCw int8 ar8 sortInt [-5, -5] [0, 0]
      ok r.2) = ok [1, 1] := by decide +kernel

/-- **C88**, new frozen bits are not checked, the previous ones are: wrong ones are accepted, the output is then not written, or written out of bounds; longer ones overflow; and right ones are refused after wrong
ones. -/
theorem C88_set_frozen : (do
      let d ← Dec.mk? int8 ar8 1 2 1 [true, false] false none 0
      let d ← d.setFrozen [true, true]
      let r ← d.siho int8 ar8 sortInt [-5, -5] [7]
      ok r.2) = ok [7] ∧
    (do
      let d ← Dec.mk? int8 ar8 1 2 1 [true, false] false none 0
      let d ← d.setFrozen [false, false]
      let r ← d.siho int8 ar8 sortInt [-5, -5] [7]
      ok r.2) = ub ∧
    (do
      let d ← Dec.mk? int8 ar8 1 2 1 [true, false] false none 0
      let d ← d.setFrozen [true, false, true]
      ok d.N) = ub ∧
    (do
      let d ← Dec.mk? int8 ar8 1 2 1 [true, false] false none 0
      let d ← d.setFrozen [false, false]
      let d ← d.setFrozen [true, false]
      ok d.N) = exc .runtimeError := by decide +kernel

/-- A CRC of one bit: the parity. -/
def parity (u : List (BitVec 8)) : Bool := (u.filter (· ≠ 0)).length % 2 == 0

/-- **C88**, when no path passes the CRC, the output is not that of the best path: it is that of the path of index 0. -/
theorem C88_no_pass : (do
      let d ← Dec.mk? int8 ar8 3 4 2 [true, false, false, false] false none 0
      let r ← d.siho int8 ar8 sortInt [-5, -6, -1, 2] [0, 0, 0]
      ok r.2) = ok [1, 0, 0] ∧
    (do
      let d ← Dec.mk? int8 ar8 3 4 2 [true, false, false, false] false (some parity) 1
      let r ← d.siho int8 ar8 sortInt [-5, -6, -1, 2] [0, 0, 0]
      ok r.2) = ok [0, 0, 1] := by decide +kernel

/-- **C88**, the metrics of the integers overflow: without noise, the null codeword is not decoded (`int16_t` with inputs of 8000, `int8_t` with inputs of 127). -/
theorem C88_overflow : (do
      let d ← Dec.mk? int16 ar16 3 8 4 [false, true, true, false, true, true, true, false] false none 0
      let r ← d.siho int16 ar16 sortInt [8000, 8000, 8000, 8000, 8000, 8000, 8000, 8000] [0, 0, 0]
      ok r.2) = ok [1, 1, 1] ∧
    (do
      let d ← Dec.mk? int8 ar8 3 4 4 [false, false, true, false] false none 0
      let r ← d.siho int8 ar8 sortInt [127, 127, 127, 127] [0, 0, 0]
      ok r.2) = ok [1, 0, 1] := by decide +kernel

end Verif.PolarSCL
