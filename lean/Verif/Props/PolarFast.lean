import Verif.Proof.PolarFastTypes
import Verif.Proof.PolarFastUse
import Verif.Props.PolarSC

/-! # C97, C98: fast successive cancellation decoding of polar codes -/

namespace Verif.PolarFast
open Exec Verif.PolarSC Verif.Polar Verif.Float Verif.BCJR

variable {R : Type} {w : Nat}

/-- **C97**, construction: with the patterns of the constructor or of the parser of strings, accepted exactly when the size is a
power of two, there is one flag per bit, and `K` is the number of information bits, not null. -/
theorem C97_constructor (A : Api R w) (K N : Int) (frozen : List Bool) (pats : List Pat) (i0 i1 : Nat) (hp : PatsOk pats i0 i1) :
    (∃ d, Dec.mk? A K N frozen pats i0 i1 = ok d) ↔
      0 < K ∧ (∃ n : Nat, N = ((2 ^ n : Nat) : Int)) ∧ N = frozen.length ∧ K = (frozen.filter (· = false)).length := by
  constructor
  · rintro ⟨d, h⟩
    obtain ⟨h1, n, h2, h3, h4⟩ := mk?_ok h
    exact ⟨h1, ⟨n, h2⟩, by rw [h2, h3], h4⟩
  · rintro ⟨h1, ⟨n, h2⟩, h3, h4⟩
    obtain ⟨d, e, _⟩ := mk?_sat A hp h1 h2 (by rw [h2] at h3; exact_mod_cast h3.symm) h4
    exact ⟨d, e⟩

/-- **C97**, the patterns cover the frozen bits exactly: those of the constructor, then those given to `set_frozen_bits`. -/
theorem C97_patterns (A : Api R w) (d : Dec R w) (hd : Reach A d) :
    d.frozen.length = d.N ∧ (d.frozen.filter (· = false)).length = d.K ∧ d.lv.flatMap expand = d.frozen ∧ (∀ c ∈ d.lv, c.1.terminal = true) ∧
      (∀ (K N : Int) (frozen : List Bool) (pats : List Pat) (i0 i1 : Nat) (d0 : Dec R w), PatsOk pats i0 i1 → Dec.mk? A K N frozen pats i0 i1 = ok d0 → d0.frozen = frozen ∧ d0.pats = pats) ∧
      ∀ fb : List Bool, fb.length = d.N → (fb.filter (· = false)).length = d.K → ∃ d', d.setFrozen fb = ok d' ∧ d'.frozen = fb ∧ d'.N = d.N ∧ d'.K = d.K ∧ d'.pats = d.pats := by
  obtain ⟨n, h⟩ := hd.ok
  obtain ⟨t, t1, t2, t3⟩ := h.lab
  obtain ⟨l1, l2⟩ := t1.leaves
  refine ⟨h.frozen.trans h.N.symm, h.K.symm, by rw [t3]; exact l1, by rw [t3]; exact fun c hc => (l2 c hc).1, ?_, ?_⟩
  · intro K N frozen pats i0 i1 d0 hp e
    obtain ⟨h1, m, h2, h3, h4⟩ := mk?_ok e
    obtain ⟨_, g1, g2, _⟩ := PolarSC.Sat.of_ok (mk?_sat A hp h1 h2 h3 h4) e
    exact ⟨g1, g2⟩
  · intro fb h1 h2
    obtain ⟨d', e, _, g1, g2, g3, g4⟩ := setFrozen_sat h (by rw [h1, h.N]) h2.symm
    exact ⟨d', e, g1, g3, g2, g4⟩

/-! ## Results -/

theorem unplace_map : ∀ (fr : List Bool) (x : List (BitVec w)), unplace fr (x.map word) = (unplace fr x).map word
  | [], _ => rfl
  | true :: fr, x => by
    simp only [unplace]
    rw [← List.map_tail, unplace_map fr]
  | false :: fr, x => by
    simp only [unplace, List.map_cons]
    rw [← List.map_tail, unplace_map fr]
    congr 1
    cases x with
    | nil => exact word_zero.symm
    | cons a x => rfl

theorem le_six {n N : Nat} (h : N = 2 ^ n) (h64 : 64 ≤ N) : 6 ≤ n := by
  by_contra hc
  have : 2 ^ n ≤ 2 ^ 5 := Nat.pow_le_pow_right (by norm_num) (by omega)
  omega

/-- The two calls, from the result of the tree. -/
theorem calls {A : Api R w} {d : Dec R w} {n : Nat} (h : Ok n d) (h64 : 64 ≤ d.N) {t : Bin (NT × Nat)} (t1 : Lab n d.frozen t) (t2 : d.ty = types t) (t3 : d.lv = leaves t) {y : List R}
    (hy : y.length = d.N) {x : List (BitVec w)} (hx : dec A n t y = some (x.map word)) {v vc : List (BitVec w)} (hv : v.length = d.K) (hvc : vc.length = d.N) :
    (∃ d', d.siho A y v = ok (d', (unplace d.frozen x).map word)) ∧ ∃ d', d.sihoCw A y vc = ok (d', x.map word) := by
  have hN := h.N
  obtain ⟨d1, e1, _⟩ := siho_eq A h (le_six h.N h64) (by omega) t1 t2 t3 hx hv
  obtain ⟨d2, e2, _⟩ := sihoCw_eq A h (le_six h.N h64) (by omega) t1 t2 hx hvc
  rw [unplace_map] at e1
  exact ⟨⟨d1, e1⟩, ⟨d2, e2⟩⟩

theorem agrees {A : Api R w} {e : Int → R} {M : Int} (E : Emb A e M) (h10 : (1 : BitVec w) ≠ 0) (hh : bitInit w ≠ 0) : Agrees A (fun y => ∃ q : List Int, y = q.map e ∧ tot q ≤ M) := by
  rintro d n y u v vc hd hn h64 hy ⟨q, rfl, hq⟩ hu ht hv hvc
  obtain ⟨m, h⟩ := hd.ok
  have : n = m := Nat.pow_right_injective (le_refl 2) (by show 2 ^ n = 2 ^ m; rw [← hn, h.N])
  subst this
  obtain ⟨t, t1, t2, t3⟩ := h.lab
  have hN := h.N
  rw [List.length_map] at hy
  have hsc : u = sc (ex (w := w)) n d.frozen q := by rw [isSC_sc A.fns hu, emb_sc E hq]
  have nt : noTie w n d.frozen q := by
    refine noTie_of h.frozen fun i hi h0 => ht i hi ?_
    rw [emb_soft E hq, hsc, h0, E.zero]
  have hx := dec_exact h10 hh (T := M + 1) t1 (by omega) (by omega) nt
  rw [← emb_dec E hq, ← hsc] at hx
  exact calls h h64 t1 t2 t3 (by rw [List.length_map]; exact hy) hx hv hvc

theorem Agrees.mono {A : Api R w} {s s' : List R → Prop} (h : Agrees A s) (hs : ∀ y, s' y → s y) : Agrees A s' :=
  fun d n y u v vc h1 h2 h3 h4 h5 => h d n y u v vc h1 h2 h3 h4 (hs y h5)

theorem Agrees.naive {A : Api R w} {s : List R → Prop} (h : Agrees A s) : SameAsNaive A s := by
  intro d dn dn' dn'' y v vc o oc hd hdn hN hf h64 hy hs ht hv hvc e1 e2
  obtain ⟨n, c1, c2, c3, c4, _⟩ := C73_decode A.fns dn hdn
  obtain ⟨u, hu, hc⟩ := c4 y (by omega)
  have hK : dn.K = d.K := by
    obtain ⟨m, ho⟩ := hd.ok
    rw [← c3, ho.K, hf]; rfl
  obtain ⟨_, ⟨d1, s1, _⟩, ⟨d2, s2, _⟩⟩ := hc v vc (by omega) (by omega)
  rw [s1] at e1
  rw [s2] at e2
  cases e1
  cases e2
  rw [hf] at hu ⊢
  exact h d n y u v vc hd (by omega) h64 hy hs hu (ht n u (by omega) hu) hv hvc

theorem tot_sumAbs (q : List Int) : tot q = sumAbs q := by
  unfold tot sumAbs
  induction q with
  | nil => rfl
  | cons a q ih => simp only [List.map_cons, List.sum_cons, Nat.cast_add]; rw [ih]; unfold mg; omega

theorem small_int {M : Nat} (y : List Int) (h : sumAbs y ≤ M) : ∃ q : List Int, y = q.map id ∧ tot q ≤ M := ⟨y, by simp, by rw [tot_sumAbs]; exact_mod_cast h⟩

/-- **C97**, `int8_t`: when the magnitudes of the inputs have a sum of at most 63, and no information bit is decided on a null value,
the outputs are those of successive cancellation, thus of the naive decoder. -/
theorem C97_int8 : Agrees int8 (fun y => sumAbs y ≤ 63) ∧ SameAsNaive int8 (fun y => sumAbs y ≤ 63) := by
  have h : Agrees int8 (fun y => sumAbs y ≤ 63) := (agrees emb_int8 (by decide) (by decide)).mono fun y h => small_int y h
  exact ⟨h, h.naive⟩

/-- **C97**, `int16_t`: at most 16382. -/
theorem C97_int16 : Agrees int16 (fun y => sumAbs y ≤ 16382) ∧ SameAsNaive int16 (fun y => sumAbs y ≤ 16382) := by
  have h : Agrees int16 (fun y => sumAbs y ≤ 16382) := (agrees emb_int16 (by decide) (by decide)).mono fun y h => small_int y h
  exact ⟨h, h.naive⟩

/-- **C97**, `float`: when no sum of inputs can be rounded. -/
theorem C97_float : Agrees flt (SmallFl 24 (-74) 103) ∧ SameAsNaive flt (SmallFl 24 (-74) 103) := by
  have h : Agrees flt (SmallFl 24 (-74) 103) := by
    intro d n y u v vc h1 h2 h3 h4 ⟨e, q, g1, g2, g3, g4⟩
    exact agrees (emb_flt g1 g2) (by decide) (by decide) d n y u v vc h1 h2 h3 h4 ⟨q, g3, by rw [tot_sumAbs]; omega⟩
  exact ⟨h, h.naive⟩

/-- **C97**, `double`. -/
theorem C97_double : Agrees dbl (SmallFl 53 (-537) 970) ∧ SameAsNaive dbl (SmallFl 53 (-537) 970) := by
  have h : Agrees dbl (SmallFl 53 (-537) 970) := by
    intro d n y u v vc h1 h2 h3 h4 ⟨e, q, g1, g2, g3, g4⟩
    exact agrees (emb_dbl g1 g2) (by decide) (by decide) d n y u v vc h1 h2 h3 h4 ⟨q, g3, by rw [tot_sumAbs]; omega⟩
  exact ⟨h, h.naive⟩

/-! ## Round trips -/

/-- From votes to the result of the tree. -/
def Tied (A : Api R w) (V : R → BitVec w → Prop) (small : List R → Prop) : Prop :=
  ∀ {k : Nat} {fr : List Bool} {t : Bin (NT × Nat)} {y : List R} {u : List (BitVec w)}, Lab k fr t → u.length = 2 ^ k → Bits u →
    (∀ i : Nat, fr[i]? = some true → u[i]? = some 0) → List.Forall₂ V y (polarTransform k u) → small y → dec A k t y = some ((polarTransform k u).map word)

theorem tied_of {A : Api R w} {V : R → BitVec w → Prop} (S : FSound A V) (h10 : (1 : BitVec w) ≠ 0) (hh : bitInit w ≠ 0) : Tied A V (fun _ => True) :=
  fun h1 h2 h3 h4 h5 _ => dec_votes S h10 hh h1 h2 h3 h4 h5

theorem tied_int16 : Tied int16 (VotesInt 16) (fun y => sumAbs y ≤ 16382) := by
  intro k fr t y u h1 h2 h3 h4 h5 h6
  have hv : List.Forall₂ (VotesEx (w := 16)) y (polarTransform k u) := by
    have hb := transform_bits h2 h3
    rw [List.forall₂_iff_get] at h5 ⊢
    refine ⟨h5.1, fun i hi hi' => ?_⟩
    have h7 := h5.2 i hi hi'
    rw [votesInt_iff (by decide) (hb _ (List.get_mem _ _))] at h7
    rcases h7 with ⟨a, b, _⟩ | ⟨a, _, b⟩
    · exact Or.inl ⟨a, b⟩
    · exact Or.inr ⟨a, b⟩
  have := dec_votes (fsound_ex (w := 16) (by decide) (by decide) (16382 + 1)) (by decide) (by decide) h1 h2 h3 h4 hv
  rw [← emb_dec emb_int16 (by rw [tot_sumAbs]; exact_mod_cast h6), List.map_id] at this
  exact this

theorem recoversCw {A : Api R w} {V : R → BitVec w → Prop} {small : List R → Prop} (T : Tied A V small) : RecoversCw A V small := by
  rintro d n x y v vc hd hn h64 ⟨u, u1, u2, rfl⟩ hb hvt hs hv hvc
  obtain ⟨m, h⟩ := hd.ok
  have : n = m := Nat.pow_right_injective (le_refl 2) (by show 2 ^ n = 2 ^ m; rw [← hn, h.N])
  subst this
  obtain ⟨t, t1, t2, t3⟩ := h.lab
  have ub : Bits u := by
    have := transform_bits (polarTransform_length n u) hb
    rwa [transform_invol u1] at this
  refine calls h h64 t1 t2 t3 ?_ (T t1 u1 ub u2 hvt hs) hv hvc
  rw [hvt.length_eq, polarTransform_length, hn]

theorem recoversSys {A : Api R w} {V : R → BitVec w → Prop} {small : List R → Prop} (T : Tied A V small) : RecoversSys A V small := by
  intro d e m out x y v vc hr h64 he hconv hm hml hol hx hy hs hv hvc
  obtain ⟨n, h⟩ := hr.ok
  have hN := h.N
  obtain ⟨z, z1, z2, z3, rfl⟩ := encodeSys_bits he (n := n) (by simpa using hN) (by simpa using hml) (by simpa using hol) hx
  obtain ⟨x', e', _, hu⟩ := C11_systematic_partial d.K d.N n d.frozen e he (by simpa using hN) hconv m out hm (by simpa using hml) (by simpa using hol)
  rw [hx] at e'
  cases e'
  have := recoversCw T d n _ y v vc hr hN h64 ⟨z, z1, z3, rfl⟩ (transform_bits z1 z2) hy hs hv hvc
  rwa [hu] at this

theorem recoversHard {A : Api R w} {V : R → BitVec w → Prop} {small : List R → Prop} (S : Sound A.fns V) (T : Tied A V small) (B : Option Nat)
    (hB : ∀ x : List (BitVec w), (∀ b, B = some b → x.length ≤ b) → small (hard A.fns x)) : RecoversHard A B := by
  intro d e m out x v vc hr h64 hb he hconv hm hml hol hx hv hvc
  obtain ⟨n, h⟩ := hr.ok
  have hN := h.N
  obtain ⟨z, z1, z2, z3, rfl⟩ := encodeSys_bits he (n := n) (by simpa using hN) (by simpa using hml) (by simpa using hol) hx
  obtain ⟨x', e', _, hu⟩ := C11_systematic_partial d.K d.N n d.frozen e he (by simpa using hN) hconv m out hm (by simpa using hml) (by simpa using hol)
  rw [hx] at e'
  cases e'
  have tb := transform_bits z1 z2
  have tl := polarTransform_length n z
  obtain ⟨t, t1, t2, t3⟩ := h.lab
  have hdec := T t1 z1 z2 z3 (hard_votes S tb) (hB _ fun b h => by have := hb b h; omega)
  have hl : (hard A.fns (polarTransform n z)).length = d.N := by simp [hard, tl, hN]
  have key := calls (d := { d with yN := hard A.fns (polarTransform n z) }) (h.hard (by rw [hl, hN])) h64 t1 t2 t3 hl hdec hv hvc
  unfold Dec.hiho Dec.hihoCw
  rw [harden_eq A h tl, bind_ok]
  rw [hu] at key
  exact key

/-- **C97**, `int8_t`: decoding is the inverse of systematic encoding for all inputs whose signs are those of a codeword, except the value
`-128`. -/
theorem C97_recovers_int8 : RecoversCw int8 (VotesInt 8) (fun _ => True) ∧ RecoversSys int8 (VotesInt 8) (fun _ => True) ∧ RecoversHard int8 none :=
  have T : Tied int8 (VotesInt 8) (fun _ => True) := tied_of fsound_int8 (by decide) (by decide)
  ⟨recoversCw T, recoversSys T, recoversHard sound_int8 T none fun _ _ => trivial⟩

theorem sumAbs_hard : ∀ x : List (BitVec 16), sumAbs (hard int16.fns x) = x.length
  | [] => rfl
  | a :: x => by
    have ih := sumAbs_hard x
    unfold sumAbs hard at ih ⊢
    rw [List.map_cons, List.map_cons, List.sum_cons, ih, List.length_cons]
    have : ((if a ≠ 0 then int16.fns.mone else int16.fns.one : Int)).natAbs = 1 := by split <;> rfl
    rw [this]; omega

/-- **C97**, `int16_t`: when the magnitudes have a sum of at most 16382. -/
theorem C97_recovers_int16 : RecoversCw int16 (VotesInt 16) (fun y => sumAbs y ≤ 16382) ∧ RecoversSys int16 (VotesInt 16) (fun y => sumAbs y ≤ 16382) ∧ RecoversHard int16 (some 16382) :=
  ⟨recoversCw tied_int16, recoversSys tied_int16, recoversHard sound_int16 tied_int16 _ fun x h => by rw [sumAbs_hard]; exact h _ rfl⟩

/-- **C97**, `float`: for all inputs, infinities included, whose signs are those of a codeword, and of magnitude at least `2^-74`. -/
theorem C97_recovers_float : RecoversCw flt (VotesFl (-74)) (fun _ => True) ∧ RecoversSys flt (VotesFl (-74)) (fun _ => True) ∧ RecoversHard flt none :=
  have T : Tied flt (VotesFl (-74)) (fun _ => True) := tied_of fsound_flt (by decide) (by decide)
  ⟨recoversCw T, recoversSys T, recoversHard sound_flt T none fun _ _ => trivial⟩

/-- **C97**, `double`: of magnitude at least `2^-537`. -/
theorem C97_recovers_double : RecoversCw dbl (VotesFl (-537)) (fun _ => True) ∧ RecoversSys dbl (VotesFl (-537)) (fun _ => True) ∧ RecoversHard dbl none :=
  have T : Tied dbl (VotesFl (-537)) (fun _ => True) := tied_of fsound_dbl (by decide) (by decide)
  ⟨recoversCw T, recoversSys T, recoversHard sound_dbl T none fun _ _ => trivial⟩

/-! ## Any input -/

theorem total {A : Api R w} {P : R → Prop} (B : Bnd A P) (hA : HardOk A) (h10 : (1 : BitVec w) ≠ 0) (hh : bitInit w ≠ 0) : Total A P := by
  intro d d' y hd hd' hf hp h0 h1 h64 hy hP
  obtain ⟨n, h⟩ := hd.ok
  obtain ⟨m, h'⟩ := hd'.ok
  have : m = n := Nat.pow_right_injective (le_refl 2) (by show 2 ^ m = 2 ^ n; rw [← h.frozen, ← h'.frozen, hf])
  subst this
  obtain ⟨t, t1, t2, t3⟩ := h.lab
  have hpar := h'.parsed
  rw [hf, hp, h0, h1, h.parsed] at hpar
  injection hpar with hpar
  injection hpar with e1 e2
  have hN := h.N
  have hN' := h'.N
  have hK : d'.K = d.K := by rw [h.K, h'.K, hf]
  obtain ⟨x, hx⟩ := dec_total B t1 (by omega) hP
  obtain ⟨u, u1, u2, u3, rfl⟩ := dec_codeword h10 hh hA t1 (by omega) hx
  refine ⟨m, polarTransform m u, hN, ⟨u, u1, u3, rfl⟩, transform_bits u1 u2, fun v vc hv hvc => ?_⟩
  obtain ⟨a1, a2⟩ := calls h h64 t1 t2 t3 hy hx hv hvc
  obtain ⟨b1, b2⟩ := calls h' (by omega) (by rw [hf]; exact t1) (by rw [← e1]; exact t2) (by rw [← e2]; exact t3) (y := y) (by omega) hx (hv.trans hK.symm) (vc := vc) (by omega)
  rw [hf] at b1
  exact ⟨a1, b1, a2, b2⟩

/-- **C97**, `int8_t`: for all inputs between -126 and 126. -/
theorem C97_total_int8 : Total int8 (fun x => |x| ≤ 126) := by
  have := total bnd_int8 hard_int8 (by decide) (by decide)
  simpa only [mg_abs] using this

/-- **C97**, `int16_t`: for all inputs between -32766 and 32766. -/
theorem C97_total_int16 : Total int16 (fun x => |x| ≤ 32766) := by
  have := total bnd_int16 hard_int16 (by decide) (by decide)
  simpa only [mg_abs] using this

end Verif.PolarFast
