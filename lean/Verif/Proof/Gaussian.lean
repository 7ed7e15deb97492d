import Verif.Spec.Gaussian
import Verif.Proof.Events

/-! # Fast generator of Gaussian noise: lemmas -/

namespace Verif.Gaussian
open Exec Verif.Float Verif.Prng Verif.Events

theorem drawReg_spec {L : Nat} {s : BitVec 32} {j : Nat} {simd : List Prng} (h : Lanes L s j 0 simd) :
    (drawReg L simd).Sat fun r => Lanes L s (j + 1) 0 r.2 ∧ r.1.length = L ∧
      ∀ l, l < L → r.1[l]? = some (simdOo (number (laneSeed s l) j)) := by
  unfold drawReg
  refine (forN_inv (fun k (r : List Fl × List Prng) => Lanes L s j k r.2 ∧ r.1.length = L ∧
    ∀ l, l < k → r.1[l]? = some (simdOo (number (laneSeed s l) j))) ⟨h, by simp, fun l hl => absurd hl (by omega)⟩ ?_).mono ?_
  · rintro l ⟨us, simd⟩ hl ⟨⟨a1, a2⟩, b, c⟩
    have a1 : simd.length = L := a1
    have b : us.length = L := b
    obtain ⟨q, e, a⟩ := a2 l hl
    rw [if_neg (by omega)] at a
    rw [rd_eq e, bind_ok]
    refine (real_spec a simdOo).bind fun x hx => ?_
    rw [wr_lt (show l < simd.length by omega), bind_ok, wr_lt (show l < us.length by omega), bind_ok, sat_ok]
    refine ⟨⟨by rw [List.length_set, a1], fun m hm => ?_⟩, by rw [List.length_set, b], fun k hk => ?_⟩
    · show ∃ q, (simd.set l x.2)[m]? = some q ∧ _
      by_cases el : l = m
      · subst el
        exact ⟨x.2, List.getElem?_set_self (by omega), by rw [if_pos (by omega)]; exact hx.2⟩
      · obtain ⟨q', e', a'⟩ := a2 m hm
        refine ⟨q', by rw [List.getElem?_set_ne el]; exact e', ?_⟩
        by_cases hlt : m < l
        · rw [if_pos (by omega)]; rwa [if_pos hlt] at a'
        · rw [if_neg (by omega)]; rwa [if_neg hlt] at a'
    · show (us.set l _)[k]? = _
      by_cases ek : l = k
      · subst ek
        rw [List.getElem?_set_self (by omega), hx.1]
      · rw [List.getElem?_set_ne ek]
        exact c k (by omega)
  · rintro ⟨us, simd⟩ ⟨⟨a1, a2⟩, b, c⟩
    refine ⟨⟨a1, fun l hl => ?_⟩, b, c⟩
    obtain ⟨q, e, a⟩ := a2 l hl
    rw [if_pos hl] at a
    exact ⟨q, e, by rw [if_neg (by omega)]; exact a⟩

/-- A loop of stores at consecutive places, after `o` places. -/
theorem stores {L o n : Nat} {us vs : List Fl} {G : Fl → Fl → Fl} {A B : Nat → Fl} {noise : List Fl} {ev : Nat → Fl} (hn : noise.length = n)
    (ho : o + L ≤ n) (hA : ∀ l, l < L → us[l]? = some (A l)) (hB : ∀ l, l < L → vs[l]? = some (B l))
    (hev : ∀ l, l < L → ev (o + l) = G (A l) (B l)) (hd : ∀ k, k < o → noise[k]? = some (ev k)) :
    (forN L (fun l noise => do
        let u1 ← rd us l
        let u2 ← rd vs l
        wr noise (o + l) (G u1 u2)) noise).Sat fun d => d.length = n ∧ ∀ k, k < o + L → d[k]? = some (ev k) := by
  refine forN_inv (fun m (d : List Fl) => d.length = n ∧ ∀ k, k < o + m → d[k]? = some (ev k)) ⟨hn, hd⟩ ?_
  rintro l d hl ⟨a, b⟩
  rw [rd_eq (hA l hl), bind_ok, rd_eq (hB l hl), bind_ok, wr_lt (by omega), sat_ok]
  refine ⟨by rw [List.length_set, a], fun k hk => ?_⟩
  by_cases ek : o + l = k
  · subst ek
    rw [List.getElem?_set_self (by omega), hev l hl]
  · rw [List.getElem?_set_ne ek]
    exact b k (by omega)

theorem sample_eq (f : Fns) (trig : Fl → Fl) (sigma mu u1 u2 : Fl) :
    sample f trig sigma mu u1 u2 = scaled sigma mu (f.sqrt (b32.mul (f.log u1) (.fin (-2))), trig (b32.mul u2 f.twopi)) := rfl

theorem generate_spec (fv fs : Fns) {L : Nat} (hL : 0 < L) {s : BitVec 32} {i j : Nat} {g : Gen} (h : Good L s i j g) {n : Nat} {noise : List Fl}
    (hd : noise.length = n) (sigma mu : Fl) :
    (generate fv fs L true g noise n sigma mu).Sat fun r =>
      r.2 = ((List.range n).map fun k => scaled sigma mu (polar fv fs L s i j n k)) ∧
      Good L s (i + 2 * ((n - vec L n + 1) / 2)) (j + 2 * (n / (L * 2))) r.1 := by
  unfold generate
  rw [if_neg (by decide)]
  have hL2 : 0 < L * 2 := by omega
  have hle : vec L n ≤ n := Nat.div_mul_le_self n _
  have heven : vec L n % 2 = 0 := by
    unfold vec
    rw [← Nat.mul_assoc, Nat.mul_mod_left]
  let ev := fun k => scaled sigma mu (polar fv fs L s i j n k)
  have finish : ∀ (d : List Fl), d.length = n → (∀ k, k < n → d[k]? = some (ev k)) → d = (List.range n).map ev := by
    intro d h1 h2
    apply List.ext_getElem?
    intro l
    by_cases hl : l < n
    · rw [h2 l hl, List.getElem?_map, List.getElem?_range hl]; rfl
    · rw [List.getElem?_eq_none (by omega), List.getElem?_eq_none (by simp; omega)]
  refine (forN_inv (fun v (r : List Prng × List Fl) => Lanes L s (j + 2 * v) 0 r.1 ∧ r.2.length = n ∧
    ∀ k, k < v * (L * 2) → r.2[k]? = some (ev k)) ⟨h.2, hd, fun l hl => absurd hl (by omega)⟩ ?_).bind fun r hr => ?_
  · rintro v ⟨simd, d⟩ hv ⟨a, b, c⟩
    have hv' : v * (L * 2) + L * 2 ≤ vec L n := by
      calc v * (L * 2) + L * 2 = (v + 1) * (L * 2) := by rw [Nat.succ_mul]
        _ ≤ n / (L * 2) * (L * 2) := Nat.mul_le_mul_right _ hv
    refine (drawReg_spec a).bind fun x hx => (drawReg_spec hx.1).bind fun y hy => ?_
    have hev : ∀ r, r < L * 2 → ev (v * (L * 2) + r) = sample fv (if r < L then fv.cos else fv.sin) sigma mu
        (simdOo (number (laneSeed s (r % L)) (j + 2 * v))) (simdOo (number (laneSeed s (r % L)) (j + 2 * v + 1))) := by
      intro r hr
      show scaled sigma mu (polar fv fs L s i j n (v * (L * 2) + r)) = _
      unfold polar
      have e1 : (v * (L * 2) + r) / (L * 2) = v := by
        rw [Nat.mul_comm v, Nat.mul_add_div hL2, Nat.div_eq_of_lt hr, Nat.add_zero]
      have e2 : (v * (L * 2) + r) % (L * 2) = r := by
        rw [Nat.mul_comm v, Nat.mul_add_mod, Nat.mod_eq_of_lt hr]
      have e3 : (v * (L * 2) + r) % L = r % L := by
        rw [show v * (L * 2) = L * (v * 2) by rw [Nat.mul_left_comm], Nat.mul_add_mod]
      rw [if_pos (show v * (L * 2) + r < vec L n by omega), e1, e2, e3, sample_eq]
      rfl
    have st1 := stores (G := sample fv fv.cos sigma mu) (us := x.1) (vs := y.1) (noise := d) (o := v * (L * 2)) (L := L) (n := n) (ev := ev)
      b (by omega) hx.2.2 hy.2.2 (fun l hl => by
        rw [hev l (by omega), if_pos hl, Nat.mod_eq_of_lt hl]) c
    refine st1.bind fun d1 h1 => ?_
    have st2 := stores (G := sample fv fv.sin sigma mu) (us := x.1) (vs := y.1) (noise := d1) (o := v * (L * 2) + L) (L := L) (n := n) (ev := ev)
      h1.1 (by omega) hx.2.2 hy.2.2 (fun l hl => by
        rw [Nat.add_assoc, hev (L + l) (by omega), if_neg (by omega), Nat.add_mod_left, Nat.mod_eq_of_lt hl]) h1.2
    refine st2.bind fun d2 h2 => ?_
    rw [sat_ok]
    exact ⟨hy.1, h2.1, fun k hk => h2.2 k (by rw [Nat.succ_mul] at hk; omega)⟩
  · obtain ⟨a, b, c⟩ := hr
    have c : ∀ k, k < vec L n → r.2[k]? = some (ev k) := c
    change (forN ((n / 2 * 2 - vec L n) / 2) (fun i (t : Prng × List Fl) => randReal (oo b32) t.1 >>= fun a =>
      randReal (oo b32) a.2 >>= fun b => wr t.2 (vec L n + 2 * i) (sample fs fs.sin sigma mu a.1 b.1) >>= fun noise =>
      wr noise (vec L n + 2 * i + 1) (sample fs fs.cos sigma mu a.1 b.1) >>= fun noise => ok (b.2, noise)) (g.mt, r.2) >>= _).Sat _
    have hev : ∀ t m, m < 2 → ev (vec L n + 2 * t + m) = sample fs (if m = 0 then fs.sin else fs.cos) sigma mu
        (oo b32 (number s (i + 2 * t))) (oo b32 (number s (i + 2 * t + 1))) := by
      intro t m hm
      show scaled sigma mu (polar fv fs L s i j n (vec L n + 2 * t + m)) = _
      unfold polar
      rw [if_neg (by omega), show vec L n + 2 * t + m - vec L n = 2 * t + m by omega, show (2 * t + m) / 2 = t by omega,
        show (2 * t + m) % 2 = m by omega, sample_eq]
      rfl
    refine (forN_inv (fun t (x : Prng × List Fl) => At s (i + 2 * t) x.1 ∧ x.2.length = n ∧
      ∀ m, m < vec L n + 2 * t → x.2[m]? = some (ev m)) ⟨h.1, b, c⟩ ?_).bind fun t ht => ?_
    · rintro t ⟨q, d⟩ h1 ⟨a, b, c⟩
      have b : d.length = n := b
      refine (real_spec a (oo b32)).bind fun x hx => (real_spec hx.2 (oo b32)).bind fun y hy => ?_
      rw [wr_lt (show vec L n + 2 * t < d.length by omega), bind_ok,
        wr_lt (show vec L n + 2 * t + 1 < (d.set _ _).length by rw [List.length_set]; omega), bind_ok, sat_ok]
      refine ⟨hy.2, by rw [List.length_set, List.length_set, b], fun m hm => ?_⟩
      show ((d.set _ _).set _ _)[m]? = _
      by_cases e1 : vec L n + 2 * t + 1 = m
      · subst e1
        rw [List.getElem?_set_self (by rw [List.length_set]; omega), hx.1, hy.1, hev t 1 (by omega), if_neg (by decide)]
      · rw [List.getElem?_set_ne e1]
        by_cases e2 : vec L n + 2 * t = m
        · subst e2
          rw [List.getElem?_set_self (by omega), hx.1, hy.1]
          have := hev t 0 (by omega)
          rw [Nat.add_zero, if_pos rfl] at this
          rw [this]
        · rw [List.getElem?_set_ne e2]
          exact c m (by omega)
    · obtain ⟨a', b', c'⟩ := ht
      by_cases ho : n ≠ n / 2 * 2
      · rw [if_pos ho]
        have e1 : n - 1 = vec L n + 2 * ((n / 2 * 2 - vec L n) / 2) := by omega
        refine (real_spec a' (oo b32)).bind fun x hx => (real_spec hx.2 (oo b32)).bind fun y hy => ?_
        rw [wr_lt (show n - 1 < t.2.length by omega), bind_ok, sat_ok]
        refine ⟨finish _ (by rw [List.length_set, b']) fun k hk => ?_, ?_, a⟩
        · show (t.2.set _ _)[k]? = _
          by_cases ek : n - 1 = k
          · subst ek
            rw [List.getElem?_set_self (by omega), hx.1, hy.1]
            have := hev ((n / 2 * 2 - vec L n) / 2) 0 (by omega)
            rw [Nat.add_zero, if_pos rfl, ← e1] at this
            rw [this]
          · rw [List.getElem?_set_ne ek]
            exact c' k (by omega)
        · have := hy.2
          rw [show i + 2 * ((n / 2 * 2 - vec L n) / 2) + 1 + 1 = i + 2 * ((n - vec L n + 1) / 2) by omega] at this
          exact this
      · rw [if_neg ho, sat_ok]
        refine ⟨finish _ b' fun k hk => c' k (by omega), ?_, a⟩
        rw [show i + 2 * ((n / 2 * 2 - vec L n) / 2) = i + 2 * ((n - vec L n + 1) / 2) by omega] at a'
        exact a'

theorem run_spec (fv fs : Fns) {L : Nat} (hL : 0 < L) : ∀ (l : List Op) {s : BitVec 32} {i j : Nat} {g : Gen}, Good L s i j g →
    (∀ o ∈ l, o.Fits) → (run fv fs L g l).Sat fun r => r.2 = expect fv fs L s i j l ∧ ∃ s' i' j', Good L s' i' j' r.1
  | [], s, i, j, g, h, _ => sat_ok.2 ⟨rfl, s, i, j, h⟩
  | .seed s' :: l, s, i, j, g, h, hl => by
    unfold run
    refine (setSeed_spec h.sized s').bind fun g' hg => ?_
    refine (run_spec fv fs hL l hg fun o ho => hl o (List.mem_cons_of_mem _ ho)).bind fun q hq => ?_
    rw [sat_ok]
    refine ⟨?_, hq.2⟩
    show [] :: q.2 = _
    rw [hq.1]
    rfl
  | .gen n sigma mu buf :: l, s, i, j, g, h, hl => by
    unfold run
    have hb : buf.length = n := hl _ List.mem_cons_self
    refine (generate_spec fv fs hL h hb sigma mu).bind fun r hr => ?_
    refine (run_spec fv fs hL l hr.2 fun o ho => hl o (List.mem_cons_of_mem _ ho)).bind fun q hq => ?_
    rw [sat_ok]
    refine ⟨?_, hq.2⟩
    show r.2 :: q.2 = _
    rw [hq.1, hr.1]
    rfl

end Verif.Gaussian
