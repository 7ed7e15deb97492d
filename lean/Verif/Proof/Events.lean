import Verif.Spec.Events
import Verif.Proof.Prng
import Verif.Props.Prng

/-! # Generators of events: lemmas -/

namespace Verif.Events
open Exec Verif.Float Verif.Prng

/-- The state of the lanes: `j` numbers drawn, one more from the first `k`. -/
def Lanes (L : Nat) (s : BitVec 32) (j k : Nat) (simd : List Prng) : Prop :=
  simd.length = L ∧ ∀ l, l < L → ∃ q, simd[l]? = some q ∧ At (laneSeed s l) (if l < k then j + 1 else j) q

/-- The state between two calls. -/
def Good (L : Nat) (s : BitVec 32) (i j : Nat) (g : Gen) : Prop := At s i g.mt ∧ Lanes L s j 0 g.simd

/-- What is needed of a generator to seed it. -/
def Sized (L : Nat) (g : Gen) : Prop := g.mt.MT.length = 624 ∧ g.simd.length = L ∧ ∀ q ∈ g.simd, q.MT.length = 624

theorem Good.sized {L : Nat} {s : BitVec 32} {i j : Nat} {g : Gen} (h : Good L s i j g) : Sized L g := by
  obtain ⟨h1, h2, h3⟩ := h
  refine ⟨h1.mt.length, h2, fun q hq => ?_⟩
  obtain ⟨l, hl, rfl⟩ := List.getElem_of_mem hq
  obtain ⟨q, e, a⟩ := h3 l (by omega)
  rw [List.getElem?_eq_getElem hl] at e
  injection e with e
  rw [e]
  exact a.mt.length

theorem rand_spec {s : BitVec 32} {i : Nat} {p : Prng} (h : At s i p) :
    (Prng.rand p).Sat fun r => r.1 = ((number s i).toNat % 2 ^ 31 : Nat) ∧ At s (i + 1) r.2 := by
  unfold Prng.rand
  refine (randU32_spec h).bind fun r hr => ?_
  exact sat_ok.2 ⟨by rw [← hr.1]; exact mask_int _, hr.2⟩

theorem setSeed_spec {L : Nat} {g : Gen} (h : Sized L g) (s : BitVec 32) : (g.setSeed L s).Sat (Good L s L 0) := by
  obtain ⟨h1, h2, h3⟩ := h
  unfold Gen.setSeed
  refine (seed_spec h1 s).bind fun mt hmt => ?_
  refine (forN_inv (fun k (r : Prng × List (BitVec 32)) => At s k r.1 ∧ r.2.length = L ∧ ∀ l, l < k → r.2[l]? = some (laneSeed s l))
    ⟨hmt, by simp, fun l hl => absurd hl (by omega)⟩ ?_).bind fun r hr => ?_
  · rintro k ⟨p, sd⟩ hk ⟨a, b, c⟩
    refine (rand_spec a).bind fun x hx => ?_
    have b : sd.length = L := b
    rw [wr_lt (by omega), bind_ok, sat_ok]
    refine ⟨hx.2, by rw [List.length_set, b], fun l hl => ?_⟩
    show (sd.set k _)[l]? = _
    by_cases e : k = l
    · subst e
      rw [List.getElem?_set_self (by omega), hx.1]
      rfl
    · rw [List.getElem?_set_ne e]
      exact c l (by omega)
  · obtain ⟨a, b, c⟩ := hr
    refine (forN_inv (fun k (simd : List Prng) => simd.length = L ∧ (∀ q ∈ simd, q.MT.length = 624) ∧
      ∀ l, l < k → ∃ q, simd[l]? = some q ∧ At (laneSeed s l) 0 q) ⟨h2, h3, fun l hl => absurd hl (by omega)⟩ ?_).bind fun simd hs => ?_
    · rintro k simd hk ⟨d, e, f⟩
      have hk' : k < simd.length := by omega
      rw [rd_eq (c k hk), bind_ok, rd_lt hk', bind_ok]
      refine (seed_spec (e _ (List.getElem_mem hk')) _).bind fun q hq => ?_
      rw [wr_lt hk', sat_ok]
      refine ⟨by rw [List.length_set, d], fun q' hq' => ?_, fun l hl => ?_⟩
      · rcases List.mem_or_eq_of_mem_set hq' with h | rfl
        · exact e _ h
        · exact hq.mt.length
      · by_cases el : k = l
        · subst el
          exact ⟨q, List.getElem?_set_self hk', hq⟩
        · rw [List.getElem?_set_ne el]
          exact f l (by omega)
    · rw [sat_ok]
      refine ⟨a, hs.1, fun l hl => ?_⟩
      obtain ⟨q, e, f⟩ := hs.2.2 l hl
      exact ⟨q, e, by rw [if_neg (by omega)]; exact f⟩

theorem make_spec (L : Nat) (s : BitVec 32) : (Gen.make L s).Sat (Good L s L 0) := by
  refine setSeed_spec ⟨by rw [List.length_replicate]; rfl, by simp, fun q hq => ?_⟩ s
  rw [List.eq_of_mem_replicate hq, List.length_replicate]
  rfl

theorem generate_spec {L : Nat} (hL : 0 < L) {s : BitVec 32} {i j : Nat} {g : Gen} (h : Good L s i j g) {n : Nat} {draw : List Nat}
    (hd : draw.length = n) (p : Fl) :
    (g.generate L draw n p).Sat fun r => r.2 = events L s i j n p ∧
      Good L s (if p = .fin 0 then i else i + n % L) (if p = .fin 0 then j else j + n / L) r.1 := by
  unfold Gen.generate events
  by_cases hp : p = .fin 0
  · rw [if_pos hp, if_pos hp, if_pos hp, if_pos hp]
    refine (forN_inv (fun k (d : List Nat) => d.length = n ∧ ∀ l, l < k → d[l]? = some 0) ⟨hd, fun l hl => absurd hl (by omega)⟩ ?_).bind
      fun d hd => ?_
    · rintro k d hk ⟨a, b⟩
      rw [wr_lt (by omega), sat_ok]
      refine ⟨by rw [List.length_set, a], fun l hl => ?_⟩
      by_cases el : k = l
      · subst el
        exact List.getElem?_set_self (by omega)
      · rw [List.getElem?_set_ne el]
        exact b l (by omega)
    · rw [sat_ok]
      refine ⟨?_, h⟩
      apply List.ext_getElem?
      intro l
      by_cases hl : l < n
      · rw [hd.2 l hl, List.getElem?_replicate, if_pos hl]
      · rw [List.getElem?_eq_none (show d.length ≤ l by omega), List.getElem?_eq_none (by simp; omega)]
  · rw [if_neg hp, if_neg hp, if_neg hp, if_neg hp]
    have hle : n / L * L ≤ n := Nat.div_mul_le_self n L
    let ev := fun k => if le (value L s i j n k) p then 1 else 0
    refine (forN_inv (fun v (r : List Prng × List Nat) => Lanes L s (j + v) 0 r.1 ∧ r.2.length = n ∧
      ∀ k, k < v * L → r.2[k]? = some (ev k)) ⟨h.2, hd, fun l hl => absurd hl (by omega)⟩ ?_).bind fun r hr => ?_
    · rintro v ⟨simd, d⟩ hv ⟨⟨a1, a2⟩, b, c⟩
      have hv' : v * L + L ≤ n / L * L := by
        calc v * L + L = (v + 1) * L := by rw [Nat.succ_mul]
          _ ≤ n / L * L := Nat.mul_le_mul_right _ hv
      refine (forN_inv (fun l (r : List Prng × List Nat) => Lanes L s (j + v) l r.1 ∧ r.2.length = n ∧
        ∀ k, k < v * L + l → r.2[k]? = some (ev k)) ⟨⟨a1, a2⟩, b, c⟩ ?_).mono ?_
      · rintro l ⟨simd, d⟩ hl ⟨⟨a1, a2⟩, b, c⟩
        have a1 : simd.length = L := a1
        have b : d.length = n := b
        obtain ⟨q, e, a⟩ := a2 l hl
        rw [if_neg (by omega)] at a
        rw [rd_eq e, bind_ok]
        refine (real_spec a simdCc).bind fun x hx => ?_
        rw [wr_lt (show l < simd.length by omega), bind_ok, wr_lt (show v * L + l < d.length by omega), bind_ok, sat_ok]
        refine ⟨⟨by rw [List.length_set, a1], fun m hm => ?_⟩, by rw [List.length_set, b], fun k hk => ?_⟩
        · show ∃ q, (simd.set l x.2)[m]? = some q ∧ _
          by_cases el : l = m
          · subst el
            exact ⟨x.2, List.getElem?_set_self (by omega), by rw [if_pos (by omega)]; exact hx.2⟩
          · obtain ⟨q', e', a'⟩ := a2 m hm
            refine ⟨q', by rw [List.getElem?_set_ne el]; exact e', ?_⟩
            by_cases hlt : m < l
            · rw [if_pos (by omega)]; rwa [if_pos hlt] at a'
            · rw [if_neg (by omega)]; rwa [if_neg hlt] at a'
        · show (d.set (v * L + l) _)[k]? = _
          by_cases ek : v * L + l = k
          · subst ek
            rw [List.getElem?_set_self (by omega), hx.1]
            show _ = some (if le (value L s i j n (v * L + l)) p then 1 else 0)
            unfold value
            rw [if_pos (show v * L + l < n / L * L by omega), Nat.mul_comm v L, Nat.mul_add_div hL, Nat.mul_add_mod,
              Nat.div_eq_of_lt hl, Nat.mod_eq_of_lt hl, Nat.add_zero]
          · rw [List.getElem?_set_ne ek]
            exact c k (by omega)
      · rintro ⟨simd, d⟩ ⟨⟨a1, a2⟩, b, c⟩
        refine ⟨⟨a1, fun l hl => ?_⟩, b, fun k hk => c k (by rw [Nat.succ_mul] at hk; exact hk)⟩
        obtain ⟨q, e, a⟩ := a2 l hl
        rw [if_pos hl] at a
        exact ⟨q, e, by rw [if_neg (by omega)]; exact a⟩
    · obtain ⟨a, b, c⟩ := hr
      refine (forRange_inv (fun k (t : Prng × List Nat) => At s (i + (k - n / L * L)) t.1 ∧ t.2.length = n ∧
        ∀ m, m < k → t.2[m]? = some (ev m)) hle ⟨by rw [Nat.sub_self]; exact h.1, b, c⟩ ?_).bind fun t ht => ?_
      · rintro k ⟨q, d⟩ h1 h2 ⟨a, b, c⟩
        have b : d.length = n := b
        refine (real_spec a (cc b32)).bind fun x hx => ?_
        rw [wr_lt (show k < d.length by omega), bind_ok, sat_ok]
        refine ⟨by rw [show i + (k + 1 - n / L * L) = i + (k - n / L * L) + 1 by omega]; exact hx.2, by rw [List.length_set, b], fun m hm => ?_⟩
        show (d.set k _)[m]? = _
        by_cases ek : k = m
        · subst ek
          rw [List.getElem?_set_self (by omega), hx.1]
          show _ = some (if le (value L s i j n k) p then 1 else 0)
          unfold value
          rw [if_neg (show ¬ k < n / L * L by omega)]
        · rw [List.getElem?_set_ne ek]
          exact c m (by omega)
      · rw [sat_ok]
        obtain ⟨a', b', c'⟩ := ht
        refine ⟨?_, ?_, a⟩
        · apply List.ext_getElem?
          intro l
          by_cases hl : l < n
          · rw [c' l hl, List.getElem?_map, List.getElem?_range hl]; rfl
          · rw [List.getElem?_eq_none (show t.2.length ≤ l by omega), List.getElem?_eq_none (by simp; omega)]
        · have hm : n - n / L * L = n % L := by
            have := Nat.div_add_mod n L
            rw [Nat.mul_comm] at this
            omega
          rw [← hm]
          exact a'

/-! ## The values drawn -/

theorem max32 : b32.of (2 ^ 31 - 1) = .fin (2 ^ 31) := by decide +kernel

theorem rep31 : b32.Rep (2 ^ 31) := rep_pow b32 31 (by decide) (by decide) (by decide)

theorem rep1 : b32.Rep 1 := by
  have := rep_pow b32 0 (by decide) (by decide) (by decide)
  simpa using this

/-- Rounding keeps the bounds that are numbers of the format. -/
theorem bound {x B : ℚ} (hx : |x| ≤ B) (hB : b32.Rep B) : b32.of x = .fin (b32.rnd x) ∧ |b32.rnd x| ≤ B := by
  obtain ⟨h1, h2⟩ := abs_le.1 hx
  have u1 : b32.rnd x ≤ B := by have := rnd_mono b32 h2; rwa [rnd_rep b32 hB] at this
  have u2 : -B ≤ b32.rnd x := by have := rnd_mono b32 h1; rwa [rnd_neg, rnd_rep b32 hB] at this
  refine ⟨?_, abs_le.2 ⟨u2, u1⟩⟩
  unfold Fmt.of
  rw [if_neg]
  obtain ⟨_, _, _, _, _, h⟩ := hB
  rw [not_le]
  exact lt_of_le_of_lt (abs_le.2 ⟨u2, u1⟩) (lt_of_le_of_lt (le_abs_self B) h)

theorem int_bound (u : BitVec 32) : |(u.toInt : ℚ)| ≤ 2 ^ 31 := by
  have h1 := BitVec.le_toInt u
  have h2 := BitVec.toInt_lt (x := u)
  rw [abs_le]
  constructor
  · have : ((-2 ^ 31 : ℤ) : ℚ) ≤ u.toInt := by exact_mod_cast h1
    push_cast at this; linarith
  · have : (u.toInt : ℚ) ≤ ((2 ^ 31 : ℤ) : ℚ) := by exact_mod_cast h2.le
    push_cast at this; linarith

theorem div31 {a : ℚ} (h : |a| ≤ 2 ^ 31) :
    (b32.div (.fin a) (.fin (2 ^ 31))).abs = .fin |b32.rnd (a / 2 ^ 31)| ∧ |b32.rnd (a / 2 ^ 31)| ≤ 1 := by
  have hq : |a / 2 ^ 31| ≤ 1 := by
    rw [abs_div, abs_of_pos (show (0 : ℚ) < 2 ^ 31 by norm_num), div_le_one (by norm_num)]
    exact h
  obtain ⟨eb, hb⟩ := bound hq rep1
  refine ⟨?_, hb⟩
  unfold Fmt.div
  simp only []
  rw [if_neg (by norm_num), eb]
  rfl

/-- The values of the lanes are between 0 and 1. -/
theorem simdCc_range (u : BitVec 32) : ∃ q, simdCc u = .fin q ∧ 0 ≤ q ∧ q ≤ 1 := by
  obtain ⟨ea, ha⟩ := bound (int_bound u) rep31
  obtain ⟨eb, hb⟩ := div31 ha
  unfold simdCc
  rw [ea, max32]
  exact ⟨_, eb, abs_nonneg _, hb⟩

theorem max32' : b32.add (b32.of (2 ^ 31 - 1)) (.fin 1) = .fin (2 ^ 31) := by decide +kernel

theorem rnd_abs (x : ℚ) : |b32.rnd x| = b32.rnd |x| := by
  rcases le_total 0 x with h | h
  · have : 0 ≤ b32.rnd x := (by have := rnd_mono b32 h; rwa [show b32.rnd 0 = 0 by unfold Fmt.rnd; simp [mag_zero]] at this)
    rw [abs_of_nonneg h, abs_of_nonneg this]
  · have : b32.rnd x ≤ 0 := (by have := rnd_mono b32 h; rwa [show b32.rnd 0 = 0 by unfold Fmt.rnd; simp [mag_zero]] at this)
    rw [abs_of_nonpos h, abs_of_nonpos this, rnd_neg]

/-- The values from which the logarithm is taken are positive. -/
theorem simdOo_range (u : BitVec 32) : ∃ q, simdOo u = .fin q ∧ 1 / 2 ^ 32 ≤ q ∧ q ≤ 1 := by
  obtain ⟨ea, ha⟩ := bound (int_bound u) rep31
  have rhalf : b32.Rep (1 / 2) := ⟨1, -1, by decide, by decide, by norm_num, by norm_num [b32]⟩
  have rsmall : b32.Rep (1 / 2 ^ 32) := ⟨1, -32, by decide, by decide, by norm_num, by
    rw [abs_of_pos (by norm_num)]; exact lt_of_lt_of_le (show (1 / 2 ^ 32 : ℚ) < 1 by norm_num) (one_le_zpow₀ (by norm_num) (by decide))⟩
  have rbig : b32.rnd (2 ^ 31 + 1 / 2) = 2 ^ 31 := by decide +kernel
  -- the sum is far from 0 and still bounded
  have hlow : 1 / 2 ≤ |b32.rnd u.toInt + 1 / 2| := by
    rcases le_or_gt 0 u.toInt with h | h
    · have h' : (0 : ℚ) ≤ u.toInt := by exact_mod_cast h
      have := rnd_mono b32 h'
      rw [show b32.rnd 0 = 0 by unfold Fmt.rnd; simp [mag_zero]] at this
      exact le_trans (by linarith) (le_abs_self _)
    · have h' : (u.toInt : ℚ) ≤ -1 := by exact_mod_cast (by omega : u.toInt ≤ -1)
      have := rnd_mono b32 h'
      rw [rnd_neg, rnd_rep b32 rep1] at this
      exact le_trans (by linarith) (neg_le_abs _)
  have hup : |b32.rnd u.toInt + 1 / 2| ≤ 2 ^ 31 + 1 / 2 := by
    have := abs_add_le (b32.rnd u.toInt) (1 / 2)
    rw [abs_of_pos (show (0 : ℚ) < 1 / 2 by norm_num)] at this
    linarith
  have e2 : b32.add (.fin (b32.rnd u.toInt)) (.fin (1 / 2)) = .fin (b32.rnd (b32.rnd u.toInt + 1 / 2)) := by
    have r32 : b32.Rep (2 ^ 32) := rep_pow b32 32 (by decide) (by decide) (by decide)
    exact (bound (le_trans hup (by norm_num)) r32).1
  have h2 : |b32.rnd (b32.rnd u.toInt + 1 / 2)| ≤ 2 ^ 31 := by
    rw [rnd_abs, ← rbig]
    exact rnd_mono b32 hup
  have h3 : 1 / 2 ≤ |b32.rnd (b32.rnd u.toInt + 1 / 2)| := by
    rw [rnd_abs]
    have := rnd_mono b32 hlow
    rwa [rnd_rep b32 rhalf] at this
  obtain ⟨eb, hb⟩ := div31 h2
  unfold simdOo
  rw [ea, max32', e2]
  refine ⟨_, eb, ?_, hb⟩
  rw [rnd_abs]
  have h4 : (1 / 2 ^ 32 : ℚ) ≤ |b32.rnd (b32.rnd u.toInt + 1 / 2) / 2 ^ 31| := by
    rw [abs_div, abs_of_pos (show (0 : ℚ) < 2 ^ 31 by norm_num), le_div_iff₀ (by norm_num)]
    exact le_trans (by norm_num) h3
  have := rnd_mono b32 h4
  rwa [rnd_rep b32 rsmall] at this

theorem value_range (L : Nat) (s : BitVec 32) (i j n k : Nat) : ∃ q, value L s i j n k = .fin q ∧ 0 ≤ q ∧ q ≤ 1 := by
  unfold value
  split
  · exact simdCc_range _
  · exact (C65_cc b32 (Or.inl rfl) _).1

theorem le_fin (a b : ℚ) : le (.fin a) (.fin b) = true ↔ a ≤ b := by
  unfold le Fl.lt
  simp [le_iff_lt_or_eq]

/-! ## Histories -/

theorem At.unique {s : BitVec 32} {i : Nat} {p q : Prng} (h : At s i p) (h' : At s i q) : p = q := by
  obtain ⟨a, b⟩ := h
  obtain ⟨a', b'⟩ := h'
  obtain ⟨mt, x⟩ := p
  obtain ⟨mt', x'⟩ := q
  have e1 : x = x' := a.trans a'.symm
  have e2 : mt = mt' := by
    apply List.ext_getElem?
    intro k
    by_cases hk : k < 624
    · exact (b.get k hk).trans (b'.get k hk).symm
    · have l1 : mt.length = 624 := b.length
      have l2 : mt'.length = 624 := b'.length
      rw [List.getElem?_eq_none (by omega), List.getElem?_eq_none (by omega)]
  rw [e1, e2]

theorem Good.unique {L : Nat} {s : BitVec 32} {i j : Nat} {g g' : Gen} (h : Good L s i j g) (h' : Good L s i j g') : g = g' := by
  obtain ⟨a, b, c⟩ := h
  obtain ⟨a', b', c'⟩ := h'
  obtain ⟨mt, sd⟩ := g
  obtain ⟨mt', sd'⟩ := g'
  have e1 : mt = mt' := At.unique a a'
  have e2 : sd = sd' := by
    have b : sd.length = L := b
    have b' : sd'.length = L := b'
    apply List.ext_getElem?
    intro k
    by_cases hk : k < L
    · obtain ⟨q, e, f⟩ := c k hk
      obtain ⟨q', e', f'⟩ := c' k hk
      rw [show sd[k]? = some q from e, show sd'[k]? = some q' from e', At.unique f f']
    · rw [List.getElem?_eq_none (by omega), List.getElem?_eq_none (by omega)]
  rw [e1, e2]

theorem run_spec {L : Nat} (hL : 0 < L) : ∀ (l : List Op) {s : BitVec 32} {i j : Nat} {g : Gen}, Good L s i j g → (∀ o ∈ l, o.Fits) →
    (g.run L l).Sat fun r => r.2 = expect L s i j l ∧ ∃ s' i' j', Good L s' i' j' r.1
  | [], s, i, j, g, h, _ => sat_ok.2 ⟨rfl, s, i, j, h⟩
  | .seed s' :: l, s, i, j, g, h, hl => by
    unfold Gen.run
    refine (setSeed_spec h.sized s').bind fun g' hg => ?_
    refine (run_spec hL l hg fun o ho => hl o (List.mem_cons_of_mem _ ho)).bind fun q hq => ?_
    rw [sat_ok]
    refine ⟨?_, hq.2⟩
    show [] :: q.2 = _
    rw [hq.1]
    rfl
  | .gen n p buf :: l, s, i, j, g, h, hl => by
    unfold Gen.run
    have hb : buf.length = n := hl _ List.mem_cons_self
    refine (generate_spec hL h hb p).bind fun r hr => ?_
    refine (run_spec hL l hr.2 fun o ho => hl o (List.mem_cons_of_mem _ ho)).bind fun q hq => ?_
    rw [sat_ok]
    refine ⟨?_, hq.2⟩
    show r.2 :: q.2 = _
    rw [hq.1, hr.1]
    show _ = events L s i j n p :: (if p = .fin 0 then expect L s i j l else expect L s (i + n % L) (j + n / L) l)
    by_cases hp : p = .fin 0
    · simp only [if_pos hp]
    · simp only [if_neg hp]

end Verif.Events
