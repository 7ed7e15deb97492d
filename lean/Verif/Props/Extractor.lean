import Verif.Proof.Extractor
import Verif.Props.RSC

/-!
# Extractors and cosets (C109, C110)

`Extractor` takes the systematic part of the LLRs of a frame and adds extrinsic values to it; `Coset` flips the bits, or
the signs, that a reference designates.
-/

namespace Verif.Extractor
open Exec

theorem getD_of_pos {pos : List Nat} {i : Nat} (h : i < pos.length) : rd pos i = ok (pos.getD i 0) := by
  rw [rd_lt h, getD_lt 0 h]

/-- **C109.**  For every list of positions inside the frame, of the right length, `get_sys_llr` gives the LLRs at these
positions, in their order, and `get_sys_bit` their hard decisions: 0 exactly where the LLR is not negative. -/
theorem C109_systematic {Q : Type _} (nonneg : Q → Bool) (pos : List Nat) (K N : Nat) (hl : pos.length = K)
    (hp : ∀ p, p ∈ pos → p < N) (Y out : List Q) (bits : List Int) (hY : Y.length = N) (ho : out.length = K)
    (hb : bits.length = K) :
    ∃ (r : List Q) (v : List Int), getSysLlr pos K Y out = ok r ∧ getSysBit nonneg pos K Y bits = ok v ∧
      r.length = K ∧ v.length = K ∧
      ∀ (i p : Nat), pos[i]? = some p → r[i]? = Y[p]? ∧ v[i]? = Y[p]?.map fun y => if nonneg y then 0 else 1 := by
  unfold getSysLlr getSysBit
  rw [if_neg (by omega), if_neg (by omega)]
  rcases Nat.eq_zero_or_pos K with rfl | hK
  · obtain rfl : out = [] := List.eq_nil_of_length_eq_zero ho
    obtain rfl : bits = [] := List.eq_nil_of_length_eq_zero hb
    obtain rfl : pos = [] := List.eq_nil_of_length_eq_zero hl
    exact ⟨[], [], rfl, rfl, rfl, rfl, fun i p hip => by simp at hip⟩
  · have hN : 0 < N := Nat.lt_of_le_of_lt (Nat.zero_le _) (hp pos[0] (List.getElem_mem _))
    have hlt : ∀ i, i < K → pos.getD i 0 < Y.length := fun i hi => by
      rw [getD_lt 0 (by omega), hY]; exact hp _ (List.getElem_mem _)
    have y0 : Q := Y[0]'(by omega)
    have hrd : ∀ i, i < K → rd Y (pos.getD i 0) = ok (Y.getD (pos.getD i 0) y0) := fun i hi => by
      rw [rd_lt (hlt i hi), getD_lt y0 (hlt i hi)]
    refine ⟨_, _, store_eq (g := fun i => Y.getD (pos.getD i 0) y0) (fun i o hi => by
        rw [getD_of_pos (by omega), bind_ok, hrd i hi, bind_ok]) ho.symm,
      store_eq (g := fun i => if nonneg (Y.getD (pos.getD i 0) y0) then 0 else 1) (fun i o hi => by
        rw [getD_of_pos (by omega), bind_ok, hrd i hi, bind_ok]) hb.symm, by simp, by simp, fun i p hip => ?_⟩
    have hi := (List.getElem?_eq_some_iff.1 hip).1
    have e : pos.getD i 0 = p := by rw [List.getD_eq_getElem?_getD, hip]; rfl
    have hp' := hlt i (by omega)
    rw [getElem?_mapRange, getElem?_mapRange, if_pos (by omega), if_pos (by omega), e]
    rw [e] at hp'
    rw [List.getElem?_eq_getElem hp', getD_lt y0 hp']
    exact ⟨rfl, rfl⟩

/-- **C109.**  A list of positions of the wrong length is rejected by every task of the base class. -/
theorem C109_rejects {Q : Type _} (nonneg : Q → Bool) (add : Q → Q → Q) (pos : List Nat) (K N : Nat) (hl : pos.length ≠ K)
    (a b c : List Q) (v : List Int) : getSysLlr pos K a b = exc .lengthError ∧
      getSysBit nonneg pos K a v = exc .lengthError ∧ getSysAndPar pos K N a b c = exc .lengthError ∧
      addSysExt add pos K N a b c = exc .lengthError := by
  unfold getSysLlr getSysBit getSysAndPar addSysExt
  rw [if_pos hl, if_pos hl, if_pos hl, if_pos hl]
  exact ⟨rfl, rfl, rfl, rfl⟩

/-- **C109.**  For different positions inside the frame, `add_sys_and_ext_llr` adds the `i`-th extrinsic value at the
`i`-th position and leaves every other LLR unchanged. -/
theorem C109_add {Q : Type _} (add : Q → Q → Q) (pos : List Nat) (K N : Nat) (hp : ValidPos pos K N)
    (ext Y1 Y2 : List Q) (he : ext.length = K) (h1 : Y1.length = N) (h2 : Y2.length = N) :
    ∃ r, addSysExt add pos K N ext Y1 Y2 = ok r ∧ r.length = N ∧
      (∀ (i p : Nat) (y e : Q), pos[i]? = some p → Y1[p]? = some y → ext[i]? = some e → r[p]? = some (add y e)) ∧
      (∀ p : Nat, p ∉ pos → r[p]? = Y1[p]?) := by
  unfold addSysExt
  rw [if_neg (by have := hp.1; omega)]
  obtain ⟨Y, eY, hYl, hY⟩ := copyTo_sat (src := Y1) (so := 0) (n := N) (dst := Y2) (d := 0) (by omega) (by omega)
  have : Y = Y1 := by
    refine List.ext_getElem? fun j => ?_
    rw [hY]
    by_cases hj : j < N
    · rw [if_pos (by omega), Nat.zero_add, Nat.sub_zero]
    · rw [if_neg (by omega), List.getElem?_eq_none (by omega), List.getElem?_eq_none (by omega)]
  subst this
  rw [eY, bind_ok]
  exact addLoop_sat hp he h1

example : ValidPos [4, 0, 2] 3 5 ∧
    addSysExt (· + ·) [4, 0, 2] 3 5 [10, 20, 30] [1, 2, 3, 4, 5] [0, 0, 0, 0, 0] = ok [21, 2, 33, 4, 15] ∧
    getSysLlr [4, 0, 2] 3 [1, 2, 3, 4, 5] [0, 0, 0] = ok [5, 1, 3] ∧
    getSysBit (fun y : Int => decide (0 ≤ y)) [4, 0, 2] 3 [1, 2, 0, 4, -5] [7, 7, 7] = ok [1, 0, 0] := by decide

/-! ## Polar positions -/

/-- A history of changes of the frozen bits. -/
def runPolar (e : Polar) : List (List Bool) → Exec Polar
  | [] => ok e
  | fb :: fbs => e.setFrozen fb >>= fun e => runPolar e fbs

theorem setFrozen_eq {e : Polar} {fb : List Bool} (hN : fb.length = e.N) (hf : e.frozen.length = e.N) :
    (((infoSet fb).length ≤ e.pos.length → (e.setFrozen fb).Sat fun e' => e'.K = e.K ∧ e'.N = e.N ∧ e'.frozen = fb ∧
      e'.pos.length = e.pos.length ∧ ∀ j : Nat, e'.pos[j]? = if j < (infoSet fb).length then (infoSet fb)[j]? else e.pos[j]?) ∧
    (e.pos.length < (infoSet fb).length → e.setFrozen fb = ub)) := by
  unfold Polar.setFrozen
  obtain ⟨fr, ef, hfl, hfr⟩ := copyTo_sat (src := fb) (so := 0) (n := fb.length) (dst := e.frozen) (d := 0) (by omega)
    (by omega)
  have : fr = fb := by
    refine List.ext_getElem? fun j => ?_
    rw [hfr]
    by_cases hj : j < fb.length
    · rw [if_pos (by omega), Nat.zero_add, Nat.sub_zero]
    · rw [if_neg (by omega), List.getElem?_eq_none (by omega), List.getElem?_eq_none (by omega)]
  subst this
  rw [ef]
  simp only [bind_ok]
  have hloop : forN e.N (fun i (s : List Nat × Nat) => do
      let f ← rd fr i
      if f = false then do
        let p ← wr s.1 s.2 i
        ok (p, s.2 + 1)
      else ok s) (e.pos, 0) =
    forN e.N (fun i (s : List Nat × Nat) => if (decide (fr.getD i true = false)) = true
      then wr s.1 s.2 i >>= fun p => ok (p, s.2 + 1) else ok s) (e.pos, 0) := by
    refine forN_congr fun i s hi => ?_
    rw [rd_lt (by omega), bind_ok, getD_lt true (by omega)]
    by_cases hc : fr[i] = false
    · rw [if_pos hc, if_pos (by rw [hc]; rfl)]
    · rw [if_neg hc, if_neg (by simpa using hc)]
  rw [hloop]
  have hI : infoSet fr = (List.range e.N).filter fun i => decide (fr.getD i true = false) := by
    unfold infoSet; rw [hN]
  rw [hI]
  obtain ⟨c1, c2⟩ := compress (fun i => decide (fr.getD i true = false)) (fun i => i) e.pos e.N
  refine ⟨fun h => ?_, fun h => by rw [c2 h, bind_ub]⟩
  refine (c1 h).bind fun r hr => ?_
  rw [sat_ok]
  refine ⟨rfl, rfl, rfl, hr.2.1, fun j => ?_⟩
  show r.1[j]? = _
  rw [hr.2.2 j]
  split
  · rw [Option.map_id']
  · rfl

theorem polar_run {e : Polar} {last : List Bool} (fbs : List (List Bool)) : e.frozen.length = e.N → e.pos.length = e.K →
    (∀ fb, fb ∈ fbs → fb.length = e.N ∧ (infoSet fb).length = e.K) → fbs.getLast? = some last →
    (runPolar e fbs).Sat fun e' => e'.K = e.K ∧ e'.N = e.N ∧ e'.frozen = last ∧ e'.pos = infoSet last := by
  induction fbs generalizing e with
  | nil => intro _ _ _ h; simp at h
  | cons fb fbs ih =>
    intro h1 h2 h3 h4
    obtain ⟨a1, a2⟩ := h3 fb List.mem_cons_self
    obtain ⟨e', ee, g1, g2, g3, g4, g5⟩ := (setFrozen_eq a1 h1).1 (by omega)
    unfold runPolar
    rw [ee, bind_ok]
    cases fbs with
    | nil =>
      simp only [List.getLast?_singleton, Option.some.injEq] at h4
      subst h4
      refine sat_ok.2 ⟨g1, g2, g3, List.ext_getElem? fun j => ?_⟩
      rw [g5]
      split
      · rfl
      · rw [List.getElem?_eq_none (by omega), List.getElem?_eq_none (by omega)]
    | cons fb2 fbs =>
      rw [List.getLast?_cons_cons] at h4
      refine (ih (e := e') (by rw [g3, g2, a1]) (by rw [g4, g1, h2])
        (fun f hf => by rw [g1, g2]; exact h3 f (List.mem_cons_of_mem _ hf)) h4).mono fun e2 he2 => ?_
      rw [g1, g2] at he2
      exact he2

/-- **C109.**  For every history of frozen bits with `K` information positions, a polar extractor uses the positions that
the last ones leave unfrozen, in increasing order. -/
theorem C109_polar (K N : Nat) (hK : 0 < K) (hN : 0 < N) (fb : List Bool) (fbs : List (List Bool))
    (h : ∀ f, f ∈ fb :: fbs → f.length = N ∧ (infoSet f).length = K) (last : List Bool)
    (hl : (fb :: fbs).getLast? = some last) :
    ∃ e e', Polar.make K N fb = ok e ∧ runPolar e fbs = ok e' ∧ e'.K = K ∧ e'.N = N ∧ e'.frozen = last ∧
      e'.pos = infoSet last ∧ ValidPos e'.pos K N := by
  have hmk : Polar.make K N fb = runPolar ⟨K, N, fb, List.replicate K 0⟩ [fb] := by
    unfold Polar.make sizes
    rw [if_neg (by omega), if_neg (by omega), if_neg (by omega), bind_ok]
    unfold runPolar runPolar
    rw [Int.toNat_natCast, Int.toNat_natCast]
    cases Polar.setFrozen ⟨K, N, fb, List.replicate K 0⟩ fb <;> rfl
  have hall := polar_run (e := ⟨K, N, fb, List.replicate K 0⟩) (fb :: fbs) (h fb List.mem_cons_self).1
    List.length_replicate h hl
  obtain ⟨e', ee', k1, k2, k3, k4⟩ := hall
  have hsplit : runPolar ⟨K, N, fb, List.replicate K 0⟩ (fb :: fbs) =
      runPolar ⟨K, N, fb, List.replicate K 0⟩ [fb] >>= fun e => runPolar e fbs := by
    rw [runPolar.eq_2, runPolar.eq_2]
    cases Polar.setFrozen ⟨K, N, fb, List.replicate K 0⟩ fb <;> rfl
  rw [hsplit, ← hmk] at ee'
  cases hm : Polar.make K N fb with
  | ok e =>
    rw [hm, bind_ok] at ee'
    have hlast : last ∈ fb :: fbs := List.mem_of_getLast? hl
    refine ⟨e, e', rfl, ee', k1, k2, k3, k4, ?_⟩
    rw [k4]
    refine ⟨(h _ hlast).2, List.nodup_range.filter _, fun p hp => ?_⟩
    unfold infoSet at hp
    rw [List.mem_filter, List.mem_range, (h _ hlast).1] at hp
    exact hp.1
  | exc x => rw [hm, bind_exc] at ee'; cases ee'
  | ub => rw [hm, bind_ub] at ee'; cases ee'

example : Polar.make 2 4 [true, false, true, false] = ok ⟨2, 4, [true, false, true, false], [1, 3]⟩ ∧
    (∀ f, f ∈ [[true, false, true, false], [true, true, false, false]] → f.length = 4 ∧ (infoSet f).length = 2) := by decide

/-! ## Recursive systematic convolutional codes -/

/-- **C109.**  For every frame of `2 (K + m)` LLRs (`tail_length = 2 m`), buffered or not, the RSC extractor gives the
systematic and the parity LLRs at the positions where the encoder puts the systematic and the parity bits. -/
theorem C109_rsc {Q : Type _} (bf : Bool) (K m : Nat) (Y sys par : List Q) (hY : Y.length = 2 * (K + m))
    (hs : sys.length = K + m) (hp : par.length = 2 * (K + m) - K - m) :
    ∃ s p, rscSysAndPar bf K (2 * (K + m)) (2 * m) Y sys par = ok (s, p) ∧ s.length = K + m ∧ p.length = K + m ∧
      ∀ t, t < K + m → s[t]? = Y[RSC.sysPos bf t]? ∧ p[t]? = Y[RSC.parPos bf (K + m) t]? := by
  unfold rscSysAndPar
  dsimp only
  rw [show 2 * m / 2 = m by omega]
  cases bf
  · rw [if_neg (by decide)]
    suffices h : (forN (K + m) (fun i (s : List Q × List Q) => do
        let a ← rd Y (i * 2)
        let sys ← wr s.1 i a
        let b ← rd Y (i * 2 + 1)
        let par ← wr s.2 i b
        ok (sys, par)) (sys, par)).Sat fun r => r.1.length = K + m ∧ r.2.length = K + m ∧
          ∀ t : Nat, t < K + m → r.1[t]? = Y[2 * t]? ∧ r.2[t]? = Y[2 * t + 1]? by
      obtain ⟨⟨s, p⟩, e, h1, h2, h3⟩ := h
      exact ⟨s, p, e, h1, h2, fun t ht => h3 t ht⟩
    refine forN_inv (fun k (r : List Q × List Q) => r.1.length = K + m ∧ r.2.length = K + m ∧
      ∀ t : Nat, t < k → r.1[t]? = Y[2 * t]? ∧ r.2[t]? = Y[2 * t + 1]?)
      ⟨hs, by show par.length = _; omega, fun t ht => absurd ht (Nat.not_lt_zero t)⟩ ?_
    rintro k ⟨a, b⟩ hk ⟨h1, h2, h3⟩
    dsimp only at h1 h2 h3 ⊢
    rw [rd_lt (by omega), bind_ok, wr_lt (by omega), bind_ok, rd_lt (by omega), bind_ok, wr_lt (by omega), bind_ok, sat_ok]
    refine ⟨by simpa using h1, by simpa using h2, fun t ht => ?_⟩
    dsimp only
    rw [List.getElem?_set, List.getElem?_set]
    by_cases hkt : k = t
    · subst hkt
      rw [if_pos rfl, if_pos rfl, if_pos (by omega), if_pos (by omega), Nat.mul_comm 2 k,
        List.getElem?_eq_getElem (by omega), List.getElem?_eq_getElem (by omega)]
      exact ⟨rfl, rfl⟩
    · rw [if_neg hkt, if_neg hkt]
      exact h3 t (by omega)
  · rw [if_pos rfl]
    obtain ⟨s, es, hsl, hsv⟩ := copyTo_sat (src := Y) (so := 0) (n := K + m) (dst := sys) (d := 0) (by omega) (by omega)
    obtain ⟨p, ep, hpl, hpv⟩ := copyTo_sat (src := Y) (so := K + m) (n := 2 * (K + m) - (K + m)) (dst := par) (d := 0)
      (by omega) (by omega)
    rw [es, bind_ok, ep, bind_ok]
    refine ⟨s, p, rfl, by omega, by omega, fun t ht => ⟨?_, ?_⟩⟩
    · rw [hsv, if_pos (by omega), Nat.zero_add, Nat.sub_zero]; rfl
    · rw [hpv, if_pos (by omega), Nat.sub_zero]; rfl

/-- **C109.**  The bits and LLRs of the RSC extractor are those at the positions of the systematic bits, and the same as
those of the base class for the positions it declares. -/
theorem C109_rsc_systematic {Q : Type _} (nonneg : Q → Bool) (bf : Bool) (K m : Nat) (Y out : List Q) (bits : List Int)
    (hY : Y.length = 2 * (K + m)) (ho : out.length = K) (hb : bits.length = K) :
    ∃ (r : List Q) (v : List Int), rscSysLlr bf K Y out = ok r ∧ rscSysBit nonneg bf K Y bits = ok v ∧
      getSysLlr (rscPos K bf) K Y out = ok r ∧ getSysBit nonneg (rscPos K bf) K Y bits = ok v ∧
      r.length = K ∧ v.length = K ∧ ∀ t, t < K → r[t]? = Y[RSC.sysPos bf t]? ∧
        v[t]? = Y[RSC.sysPos bf t]?.map fun y => if nonneg y then 0 else 1 := by
  have hpos : ∀ t, t < K → (rscPos K bf)[t]? = some (RSC.sysPos bf t) := fun t ht => by
    unfold rscPos RSC.sysPos
    cases bf
    · rw [if_neg (by decide), if_neg (by decide), getElem?_mapRange, if_pos ht]
    · rw [if_pos rfl, if_pos rfl, getElem?_mapRange, if_pos ht]
  have hpl : (rscPos K bf).length = K := by unfold rscPos; cases bf <;> simp
  have hlt : ∀ t, t < K → RSC.sysPos bf t < Y.length := fun t ht => by
    unfold RSC.sysPos; cases bf
    · rw [if_neg (by decide)]; omega
    · rw [if_pos rfl]; omega
  obtain ⟨r, v, er, ev, hr, hv, h⟩ := C109_systematic nonneg (rscPos K bf) K (2 * (K + m)) hpl (fun p hp => by
    obtain ⟨i, hi, rfl⟩ := List.getElem_of_mem hp
    have := hpos i (by omega)
    rw [List.getElem?_eq_getElem hi] at this
    rw [Option.some.inj this, ← hY]
    exact hlt i (by omega)) Y out bits hY ho hb
  have hv' : ∀ t, t < K → r[t]? = Y[RSC.sysPos bf t]? ∧
      v[t]? = Y[RSC.sysPos bf t]?.map fun y => if nonneg y then 0 else 1 := fun t ht => h t _ (hpos t ht)
  refine ⟨r, v, ?_, ?_, er, ev, hr, hv, hv'⟩
  · suffices hs : (rscSysLlr bf K Y out).Sat fun o => o.length = K ∧ ∀ t : Nat, t < K → o[t]? = Y[RSC.sysPos bf t]? by
      obtain ⟨o, eo, ol, ov⟩ := hs
      rw [eo]
      congr 1
      refine List.ext_getElem? fun t => ?_
      by_cases ht : t < K
      · rw [ov t ht, (hv' t ht).1]
      · rw [List.getElem?_eq_none (by omega), List.getElem?_eq_none (by omega)]
    unfold rscSysLlr
    cases bf
    · rw [if_neg (by decide)]
      have key : ∀ k, k ≤ K → (forN k (fun i o => rd Y (i * 2) >>= fun y => wr o i y) out).Sat fun o => o.length = K ∧
          ∀ t : Nat, t < k → o[t]? = Y[2 * t]? := by
        intro k hk
        refine forN_inv (fun k (o : List Q) => o.length = K ∧ ∀ t : Nat, t < k → o[t]? = Y[2 * t]?)
          ⟨ho, fun t ht => absurd ht (Nat.not_lt_zero t)⟩ ?_
        rintro i o hi ⟨h1, h2⟩
        rw [rd_lt (by omega), bind_ok, wr_lt (by omega), sat_ok]
        refine ⟨by simpa using h1, fun t ht => ?_⟩
        rw [List.getElem?_set]
        by_cases hit : i = t
        · subst hit
          rw [if_pos rfl, if_pos (by omega), Nat.mul_comm 2 i, List.getElem?_eq_getElem (by omega)]
        · rw [if_neg hit, h2 t (by omega)]
      exact key K (Nat.le_refl _)
    · rw [if_pos rfl]
      refine (copyTo_sat (by omega) (by omega)).mono fun o ho' => ⟨by omega, fun t ht => ?_⟩
      rw [ho'.2, if_pos (by omega), Nat.zero_add, Nat.sub_zero]
      rfl
  · rw [← ev]
    unfold rscSysBit getSysBit
    rw [if_neg (not_not.2 hpl)]
    cases bf
    · rw [if_neg (by decide)]
      refine forN_congr fun i o hi => ?_
      rw [rd_eq (hpos i hi), bind_ok]
      rfl
    · rw [if_pos rfl]
      refine forN_congr fun i o hi => ?_
      rw [rd_eq (hpos i hi), bind_ok]
      rfl

/-- **C109.**  Encoding with any accepted RSC code, then taking the systematic bits of LLRs whose signs are those of the
codeword (not negative for 0, negative for 1), gives back every message. -/
theorem C109_rsc_message {Q : Type _} (nonneg : Q → Bool) (K N : Int) (bf : Bool) (poly : List Nat) (e : RSC.Enc)
    (h : RSC.genericEnc K N bf poly = ok e) (u xN x : List Int) (hu : u.length = K.toNat) (hb : RSC.IsBits u)
    (hx : xN.length = N.toNat) (he : e.encode u xN = ok x) (Y : List Q) (hY : Y.length = x.length)
    (hs : ∀ (i : Nat) (y : Q) (b : Int), Y[i]? = some y → x[i]? = some b → (nonneg y = true ↔ b = 0)) (bits : List Int)
    (hbl : bits.length = K.toNat) : rscSysBit nonneg bf K.toNat Y bits = ok u := by
  obtain ⟨g0, g1, m, hg0, hg1, hm, x', ex, hc, hsys⟩ := RSC.encode_generic h hu hb hx
  rw [he] at ex
  cases ex
  have hxl := hc.1
  obtain ⟨r, v, -, ev, -, -, -, hvl, hv⟩ := C109_rsc_systematic nonneg bf K.toNat m Y
    (Y.take K.toNat) bits (by omega) (by rw [List.length_take]; omega) hbl
  rw [ev]
  congr 1
  refine List.ext_getElem? fun t => ?_
  by_cases ht : t < K.toNat
  · have hut : t < u.length := by omega
    have hxs := hsys t ht
    rw [List.getElem?_eq_getElem hut] at hxs
    have hp := (List.getElem?_eq_some_iff.1 hxs).1
    rw [(hv t ht).2, List.getElem?_eq_getElem (by omega), Option.map_some, List.getElem?_eq_getElem hut]
    have hiff := hs _ _ _ (List.getElem?_eq_getElem (l := Y) (i := RSC.sysPos bf t) (by omega)) hxs
    congr 1
    rcases hb _ (List.getElem_mem hut) with h0 | h1
    · rw [if_pos (hiff.2 h0), h0]
    · rw [if_neg fun hn => by rw [hiff.1 hn] at h1; exact absurd h1 (by decide), h1]
  · rw [List.getElem?_eq_none (by omega), List.getElem?_eq_none (by omega)]

/-! ## Cosets -/

/-- **C109.**  `Coset_bit` complements exactly the bits that the reference designates: on bits it is the sum modulo 2
with the reference, and applying it twice gives back the input. -/
theorem C109_coset_bit (size : Nat) (ref inp out : List Int) (hr : ref.length = size) (hi : inp.length = size)
    (ho : out.length = size) (hb : ∀ v, v ∈ inp → v = 0 ∨ v = 1) :
    ∃ o, cosetBit size ref inp out = ok o ∧ o.length = size ∧
      (∀ (j : Nat) (r v : Int), ref[j]? = some r → inp[j]? = some v → o[j]? = some (if r = 0 then v else 1 - v)) ∧
      cosetBit size ref o out = ok inp := by
  have hstep : ∀ (l : List Int), l.length = size → cosetBit size ref l out = ok ((List.range size).map fun i =>
      if ref.getD i 0 ≠ 0 then (if l.getD i 0 = 0 then 1 else 0) else l.getD i 0) := by
    intro l hl
    refine store_eq (fun i o hi => ?_) ho.symm
    rw [rd_lt (by omega), bind_ok, rd_lt (by omega), bind_ok, getD_lt 0 (by omega), getD_lt 0 (by omega)]
  have hbit : ∀ i, i < size → inp.getD i 0 = 0 ∨ inp.getD i 0 = 1 := fun i hi' => by
    rw [getD_lt 0 (by omega)]; exact hb _ (List.getElem_mem _)
  refine ⟨_, hstep inp hi, by simp, fun j r v hj hv => ?_, ?_⟩
  · have hjs : j < size := by rw [← hr]; exact (List.getElem?_eq_some_iff.1 hj).1
    rw [getElem?_mapRange, if_pos hjs]
    have e1 : ref.getD j 0 = r := by rw [List.getD_eq_getElem?_getD, hj]; rfl
    have e2 : inp.getD j 0 = v := by rw [List.getD_eq_getElem?_getD, hv]; rfl
    have hvb := hbit j hjs
    rw [e2] at hvb
    rw [e1, e2]
    by_cases h0 : r = 0
    · rw [if_neg (by simpa using h0), if_pos h0]
    · rw [if_pos h0, if_neg h0]
      rcases hvb with rfl | rfl <;> rfl
  · rw [hstep _ (by simp)]
    congr 1
    refine (eq_mapRange hi fun i hi' => ?_).symm
    rw [List.getElem?_eq_getElem (by omega), ← getD_lt 0 (by omega)]
    conv_rhs => rw [List.getD_eq_getElem?_getD (l := List.map _ _)]
    rw [getElem?_mapRange, if_pos hi', Option.getD_some]
    by_cases h0 : ref.getD i 0 = 0
    · rw [if_neg (by simpa using h0), if_neg (by simpa using h0)]
    · rw [if_pos h0, if_pos h0]
      rcases hbit i hi' with h | h <;> rw [h] <;> rfl

/-- **C109.**  `Coset_real` negates exactly the values that the reference designates; applying it twice gives back the
input when negating twice does; and hard decisions commute with it, as long as no value is neither positive nor negative:
the decisions on the output are `Coset_bit` of the decisions on the input. -/
theorem C109_coset_real {D : Type _} (neg : D → D) (nonneg : D → Bool) (size : Nat) (ref : List Int) (inp out : List D)
    (hr : ref.length = size) (hi : inp.length = size) (ho : out.length = size)
    (hn : ∀ v, v ∈ inp → neg (neg v) = v) (hs : ∀ v, v ∈ inp → nonneg (neg v) = !nonneg v) :
    ∃ o, cosetReal neg size ref inp out = ok o ∧ o.length = size ∧
      (∀ (j : Nat) (r : Int) (v : D), ref[j]? = some r → inp[j]? = some v → o[j]? = some (if r = 0 then v else neg v)) ∧
      cosetReal neg size ref o out = ok inp ∧
      ∀ buf : List Int, buf.length = size → cosetBit size ref (inp.map fun v => if nonneg v then 0 else 1) buf =
        ok (o.map fun v => if nonneg v then 0 else 1) := by
  have hstep : ∀ (l : List D) (hl : l.length = size), ∃ o, cosetReal neg size ref l out = ok o ∧ o.length = size ∧
      ∀ (j : Nat) (r : Int) (v : D), ref[j]? = some r → l[j]? = some v → o[j]? = some (if r = 0 then v else neg v) := by
    intro l hl
    unfold cosetReal
    obtain ⟨o, eo, h1, h2⟩ : (forN size (fun i o => do
        let r ← rd ref i
        let v ← rd l i
        wr o i (if r ≠ 0 then neg v else v)) out).Sat fun o => o.length = size ∧
          ∀ j : Nat, j < size → ∃ r v, ref[j]? = some r ∧ l[j]? = some v ∧ o[j]? = some (if r = 0 then v else neg v) := by
      refine forN_inv (fun k (o : List D) => o.length = size ∧
        ∀ j : Nat, j < k → ∃ r v, ref[j]? = some r ∧ l[j]? = some v ∧ o[j]? = some (if r = 0 then v else neg v))
        ⟨ho, fun j hj => absurd hj (Nat.not_lt_zero j)⟩ ?_
      rintro k o hk ⟨h1, h2⟩
      rw [rd_lt (by omega), bind_ok, rd_lt (by omega), bind_ok, wr_lt (by omega), sat_ok]
      refine ⟨by simpa using h1, fun j hj => ?_⟩
      rw [List.getElem?_set]
      by_cases hkj : k = j
      · subst hkj
        refine ⟨ref[k], l[k], List.getElem?_eq_getElem _, List.getElem?_eq_getElem _, ?_⟩
        rw [if_pos rfl, if_pos (by omega)]
        by_cases h0 : ref[k] = 0
        · rw [if_neg (by simpa using h0), if_pos h0]
        · rw [if_pos h0, if_neg h0]
      · rw [if_neg hkj]; exact h2 j (by omega)
    refine ⟨o, eo, h1, fun j r v hj hv => ?_⟩
    obtain ⟨r', v', hr', hv', ho'⟩ := h2 j (by rw [← hr]; exact (List.getElem?_eq_some_iff.1 hj).1)
    rw [hj] at hr'
    rw [hv] at hv'
    cases hr'
    cases hv'
    exact ho'
  obtain ⟨o, eo, h1, h2⟩ := hstep inp hi
  have hval : ∀ j (hj : j < size), o[j]? = some (if ref[j]'(by omega) = 0 then inp[j]'(by omega) else neg (inp[j]'(by omega))) :=
    fun j hj => h2 j _ _ (List.getElem?_eq_getElem _) (List.getElem?_eq_getElem _)
  refine ⟨o, eo, h1, h2, ?_, fun buf hbuf => ?_⟩
  · obtain ⟨o2, eo2, g1, g2⟩ := hstep o h1
    rw [eo2]
    congr 1
    refine List.ext_getElem? fun j => ?_
    by_cases hj : j < size
    · rw [g2 j _ _ (List.getElem?_eq_getElem (by omega)) (hval j hj), List.getElem?_eq_getElem (l := inp) (by omega)]
      by_cases h0 : ref[j]'(by omega) = 0
      · rw [if_pos h0, if_pos h0]
      · rw [if_neg h0, if_neg h0, hn _ (List.getElem_mem _)]
    · rw [List.getElem?_eq_none (by omega), List.getElem?_eq_none (by omega)]
  · obtain ⟨p, ep, q1, q2, -⟩ := C109_coset_bit size ref (inp.map fun v => if nonneg v then 0 else 1) buf hr (by simp [hi])
      hbuf fun v hv => by
        obtain ⟨w, -, rfl⟩ := List.mem_map.1 hv
        split
        · exact Or.inl rfl
        · exact Or.inr rfl
    rw [ep]
    congr 1
    refine List.ext_getElem? fun j => ?_
    by_cases hj : j < size
    · rw [q2 j _ _ (List.getElem?_eq_getElem (by omega)) (by
          rw [List.getElem?_map, List.getElem?_eq_getElem (by omega), Option.map_some]), List.getElem?_map, hval j hj,
        Option.map_some]
      by_cases h0 : ref[j]'(by omega) = 0
      · rw [if_pos h0, if_pos h0]
      · rw [if_neg h0, if_neg h0, hs _ (List.getElem_mem _)]
        cases nonneg (inp[j]'(by omega)) <;> rfl
    · rw [List.getElem?_eq_none (by omega), List.getElem?_eq_none (by rw [List.length_map]; omega)]

example : cosetBit 4 [1, 0, 1, 0] [0, 1, 1, 0] [7, 7, 7, 7] = ok [1, 1, 0, 0] ∧
    cosetReal (fun v : Int => -v) 3 [1, 0, 5] [3, -4, -5] [0, 0, 0] = ok [-3, -4, 5] := by decide

/-! ## Defects -/

/-- **Finding.**  The parity output of `get_sys_and_par_llr` in the base class (LDPC, polar and uncoded extractors) is
never the parity: for every positions, it holds again the LLRs at the information positions, in increasing order of the
positions, and nothing else is written. -/
theorem C110_parity_is_systematic {Q : Type _} (pos : List Nat) (K N : Nat) (hp : ValidPos pos K N) (Y sys par : List Q)
    (hY : Y.length = N) (hs : sys.length = K) (hpar : par.length = N - K) (hK : K ≤ N - K) :
    ∃ s p, getSysAndPar pos K N Y sys par = ok (s, p) ∧
      ∀ j : Nat, p[j]? = if j < K then ((List.range N).filter fun i => decide (i ∈ pos))[j]?.bind (Y[·]?) else par[j]? := by
  have hlen : ((List.range N).filter fun i => decide (i ∈ pos)).length = K := by
    rw [(filter_mem_perm hp).length_eq, hp.1]
  obtain ⟨s, -, es, -⟩ := C109_systematic (fun _ => true) pos K N hp.1 hp.2.2 Y sys (List.replicate K 0) hY hs
    List.length_replicate
  unfold getSysLlr at es
  rw [if_neg (by have := hp.1; omega)] at es
  unfold getSysAndPar
  rw [if_neg (by have := hp.1; omega), es, bind_ok]
  rcases Nat.eq_zero_or_pos N with rfl | hN
  · refine ⟨s, par, rfl, fun j => ?_⟩
    rw [if_neg (by omega)]
  · have y0 : Q := Y[0]'(by omega)
    have hloop : forN N (fun i (s : List Q × Nat) =>
        if i ∈ pos then do
          let y ← rd Y i
          let p ← wr s.1 s.2 y
          ok (p, s.2 + 1)
        else ok s) (par, 0) = forN N (fun i (s : List Q × Nat) => if decide (i ∈ pos) = true
          then wr s.1 s.2 (Y.getD i y0) >>= fun p => ok (p, s.2 + 1) else ok s) (par, 0) := by
      refine forN_congr fun i s hi => ?_
      by_cases hc : i ∈ pos
      · rw [if_pos hc, if_pos (decide_eq_true hc), rd_lt (by omega), bind_ok, getD_lt y0 (by omega)]
      · rw [if_neg hc, if_neg (by simpa using hc)]
    rw [hloop]
    obtain ⟨⟨p, c⟩, ep, h1, h2, h3⟩ := (compress (fun i => decide (i ∈ pos)) (fun i => Y.getD i y0) par N).1 (by omega)
    rw [ep, bind_ok]
    refine ⟨s, p, rfl, fun j => ?_⟩
    rw [h3 j, hlen]
    by_cases hj : j < K
    · rw [if_pos hj, if_pos hj]
      have hjl : j < ((List.range N).filter fun i => decide (i ∈ pos)).length := by omega
      rw [List.getElem?_eq_getElem hjl, Option.map_some, Option.bind_some]
      have hm := List.getElem_mem hjl
      rw [List.mem_filter, List.mem_range] at hm
      rw [List.getElem?_eq_getElem (by omega), getD_lt y0 (by omega)]
    · rw [if_neg hj, if_neg hj]

/-- **Finding.**  For every code of rate above one half, `get_sys_and_par_llr` of the base class writes after the end of
its parity output. -/
theorem C110_parity_overflow {Q : Type _} (pos : List Nat) (K N : Nat) (hp : ValidPos pos K N) (Y sys par : List Q)
    (hY : Y.length = N) (hs : sys.length = K) (hpar : par.length = N - K) (hK : N - K < K) :
    getSysAndPar pos K N Y sys par = ub := by
  have hlen : ((List.range N).filter fun i => decide (i ∈ pos)).length = K := by
    rw [(filter_mem_perm hp).length_eq, hp.1]
  obtain ⟨s, -, es, -⟩ := C109_systematic (fun _ => true) pos K N hp.1 hp.2.2 Y sys (List.replicate K 0) hY hs
    List.length_replicate
  unfold getSysLlr at es
  rw [if_neg (by have := hp.1; omega)] at es
  unfold getSysAndPar
  rw [if_neg (by have := hp.1; omega), es, bind_ok]
  have hN : 0 < N := Nat.lt_of_le_of_lt (Nat.zero_le _)
    (hp.2.2 (pos[0]'(by have := hp.1; omega)) (List.getElem_mem _))
  have y0 : Q := Y[0]'(by omega)
  have hloop : forN N (fun i (s : List Q × Nat) =>
      if i ∈ pos then do
        let y ← rd Y i
        let p ← wr s.1 s.2 y
        ok (p, s.2 + 1)
      else ok s) (par, 0) = forN N (fun i (s : List Q × Nat) => if decide (i ∈ pos) = true
        then wr s.1 s.2 (Y.getD i y0) >>= fun p => ok (p, s.2 + 1) else ok s) (par, 0) := by
    refine forN_congr fun i s hi => ?_
    by_cases hc : i ∈ pos
    · rw [if_pos hc, if_pos (decide_eq_true hc), rd_lt (by omega), bind_ok, getD_lt y0 (by omega)]
    · rw [if_neg hc, if_neg (by simpa using hc)]
  rw [hloop, (compress (fun i => decide (i ∈ pos)) (fun i => Y.getD i y0) par N).2 (by omega), bind_ub]

example : ValidPos [1, 3] 2 4 ∧ getSysAndPar [1, 3] 2 4 [10, 11, 12, 13] [0, 0] [0, 0] = ok ([11, 13], [11, 13]) ∧
    ValidPos [0, 2, 3] 3 4 ∧ getSysAndPar [0, 2, 3] 3 4 [10, 11, 12, 13] [0, 0, 0] [0] = ub := by decide

/-- **Finding.**  Frozen bits with more than `K` information positions are not rejected: they overflow the table of
positions, for every extractor and frozen set. -/
theorem C110_polar_overflow (K N : Nat) (hK : 0 < K) (hN : 0 < N) (fb : List Bool) (h : fb.length = N)
    (hc : K < (infoSet fb).length) : Polar.make K N fb = ub := by
  unfold Polar.make sizes
  rw [if_neg (by omega), if_neg (by omega), if_neg (by omega), bind_ok]
  exact (setFrozen_eq (e := ⟨(K : Int).toNat, (N : Int).toNat, fb, List.replicate (K : Int).toNat 0⟩)
    (by simpa using h) (by simpa using h)).2 (by simpa using hc)

/-- **Finding.**  Frozen bits with fewer than `K` information positions are accepted: the missing positions are 0, here
a frozen one. -/
theorem C110_polar_too_few : Polar.make 2 4 [true, true, true, false] =
    ok ⟨2, 4, [true, true, true, false], [3, 0]⟩ := by decide

/-- **Finding.**  On integer LLRs the coset does not flip the sign of the smallest value, whose negation is itself once
stored back. -/
theorem C110_coset_min (w : Nat) (hw : 0 < w) (v : BitVec w) (hv : v = BitVec.intMin w) :
    cosetReal (negInt w) 1 [1] [v] [0#w] = ok [v] ∧ negInt w v = v := by
  have e : negInt w v = v := by
    unfold negInt
    rw [BitVec.ofInt_neg, BitVec.ofInt_toInt, hv, BitVec.neg_intMin]
  refine ⟨?_, e⟩
  show (ok [(if (1 : Int) ≠ 0 then negInt w v else v)] : Exec (List (BitVec w))) = _
  rw [if_pos (by decide), e]

example : negInt 8 0x80#8 = 0x80#8 ∧ negInt 8 5#8 = 0xFB#8 := by decide

end Verif.Extractor
