import Verif.Proof.RSDecUse
import Verif.Props.BCH

/-! # C69, C70: the algebraic Reed–Solomon decoder -/

namespace Verif.RSDec
open Exec Verif.Galois Verif.BCH Verif.BCHDec

/-! ## C69 -/

/-- Which decoders can be built. -/
theorem C69_accepted (M t : Int) (gen : RsGen) (hgen : rsGen M t = ok gen) (K N : Int) (hN : N < 2 ^ 30) :
    (∃ d, Dec.mk? K N gen = ok d) ↔ 0 < K ∧ N - K = 2 * t := by
  obtain ⟨G, hg⟩ := isRsGen_of_rsGen hgen
  obtain ⟨_, ht, et⟩ := rsGen_inv hgen
  have hm := G.hm
  have hlen := hg.len
  have htt : ((gen.t : Nat) : Int) = t := by rw [et]; exact Int.toNat_of_nonneg (by omega)
  constructor
  · rintro ⟨d, h⟩
    obtain ⟨h1, h2, h3, _⟩ := mk_dec h (by omega)
    exact ⟨h1, by omega⟩
  · rintro ⟨h1, h2⟩
    have hp : ∃ p, nextPow2 N.toNat 31 1 = ok p := by
      have hx : N.toNat < 2 ^ (Nat.log2 N.toNat + 1) := Nat.lt_log2_self
      have hl : 2 ^ Nat.log2 N.toNat ≤ N.toNat := Nat.log2_self_le (by omega)
      have hm : Nat.log2 N.toNat < 30 := by
        rw [Nat.log2_lt (by omega)]; omega
      exact ⟨_, nextPow2_sat hx (by rw [Nat.add_sub_cancel]; exact hl) 31 0 (by omega) (by omega)⟩
    obtain ⟨p, hp⟩ := hp
    have hm' : (0 : Int) < gen.gf.m := by omega
    have e1 : 0 < K * gen.gf.m := Int.mul_pos h1 hm'
    have e2 : K * gen.gf.m ≤ N * gen.gf.m := Int.mul_le_mul_of_nonneg_right (by omega) (by omega)
    unfold Dec.mk?
    simp only
    rw [if_neg (by omega), if_neg (by omega), if_neg (by omega), hp, bind_ok, if_neg (by omega)]
    exact ⟨_, rfl⟩

theorem within_of {w : Nat} {gen : RsGen} {K N : Int} {d : Dec} (F : Facts w gen K N d) {y c : List Nat} (hy : y.length = d.N) (hc : c.length = d.N)
    (hcw : IsCodeword gen c) (hh : hamming y c ≤ gen.t) : Within gen y (c ++ List.replicate (gen.gf.N - d.N) 0) := by
  haveI := fact_irr F.G
  have hle := F.len
  have hlen : (c ++ List.replicate (gen.gf.N - d.N) 0).length = gen.gf.N := by rw [List.length_append, List.length_replicate]; omega
  refine ⟨hlen, ⟨sym_iff.1 (sym_pad (sym_iff.2 hcw.sym) _), fun j h1 h2 => ?_⟩, ?_⟩
  · rw [← hcw.syn j h1 h2, syndrome_wide (c := ⟨gen.gf, 0, 0⟩) hlen.le, syndrome_wide (c := ⟨gen.gf, 0, 0⟩) (y := c) (N := gen.gf.N) (by omega)]
    refine Finset.sum_congr rfl fun p _ => ?_
    rw [pad_getD]
  · rw [hamming_diff (by omega) hlen]
    refine le_trans ?_ hh
    have e := hamming_diff (y := y) (w := c) (N := d.N) (by omega) hc
    rw [hy, Nat.sub_self, List.replicate_zero, List.append_nil] at e
    rw [e]
    refine Finset.card_le_card fun p hp => ?_
    obtain ⟨h1, h2⟩ := Finset.mem_filter.1 hp
    rw [pad_getD] at h2
    refine Finset.mem_filter.2 ⟨Finset.mem_range.2 ?_, h2⟩
    by_contra hcc
    apply h2
    rw [getD_ge (by omega), getD_ge (by omega)]

/-- Up to `t` wrong symbols are corrected, after any history of calls and for shortened codes too: when the received
symbols differ from a codeword of `N` symbols in at most `t` positions, the call succeeds, announces a codeword, and
outputs the bits of this codeword (or of its message part). -/
theorem C69_corrects (w : Nat) (M t : Int) (gen : RsGen) (K N : Int) (d : Dec) (h : Usable w M t gen K N d) (R : Type) (neg : R → Bool)
    (b : Buf) (hb : Reach neg w d b) (k : Call R) (yb : List Int) (yh : List (BitVec w)) (v : List Int) (hk : k.Ok d yb yh v)
    (c : List Nat) (hc : c.length = d.N) (hcw : IsCodeword gen c) (hnear : hamming (k.word neg d) c ≤ gen.t) :
    ∃ o, k.run neg w d b yb yh v = ok o ∧ Reach neg w d o.buf ∧ o.success = true ∧ o.cwd = 1 ∧ o.v = k.part d c := by
  have F := facts h
  have hw := within_of F (word_ok (neg := neg) F k).1 hc hcw hnear
  obtain ⟨o, h1, _, h3, h4, h5⟩ := (run_sat (neg := neg) F (reach_size F hb) hk).1 _ hw fun p hp => by
    rw [pad_getD]; exact getD_ge (by omega)
  refine ⟨o, h1, .call k yb yh v hb hk h1, h3, h4, ?_⟩
  rw [h5, ← hc, List.take_left]

/-- When no codeword of the full length is at most `t` symbols away, the failure is announced and the received bits are
output. -/
theorem C69_refuses (w : Nat) (M t : Int) (gen : RsGen) (K N : Int) (d : Dec) (h : Usable w M t gen K N d) (R : Type) (neg : R → Bool)
    (b : Buf) (hb : Reach neg w d b) (k : Call R) (yb : List Int) (yh : List (BitVec w)) (v : List Int) (hk : k.Ok d yb yh v)
    (hno : ¬ ∃ x, Within gen (k.word neg d) x) :
    ∃ o, k.run neg w d b yb yh v = ok o ∧ Reach neg w d o.buf ∧ o.success = false ∧ o.cwd = 0 ∧ o.v = k.part d (k.word neg d) := by
  have F := facts h
  obtain ⟨o, h1, _, h3⟩ := (run_sat (neg := neg) F (reach_size F hb) hk).2.2 hno
  exact ⟨o, h1, .call k yb yh v hb hk h1, h3⟩

/-- Codes of the full length: a call never goes wrong, whatever is received; it announces a success exactly when a codeword
is at most `t` symbols away, and outputs this codeword; otherwise it outputs the received bits. -/
theorem C69_full_length (w : Nat) (M t : Int) (gen : RsGen) (K N : Int) (d : Dec) (h : Usable w M t gen K N d) (hfull : N = gen.gf.N)
    (R : Type) (neg : R → Bool) (b : Buf) (hb : Reach neg w d b) (k : Call R) (yb : List Int) (yh : List (BitVec w)) (v : List Int)
    (hk : k.Ok d yb yh v) :
    ∃ o, k.run neg w d b yb yh v = ok o ∧ Reach neg w d o.buf ∧ o.cwd = (if o.success then 1 else 0) ∧
      (o.success = true ↔ ∃ c : List Nat, c.length = d.N ∧ IsCodeword gen c ∧ hamming (k.word neg d) c ≤ gen.t) ∧
      (∀ c : List Nat, c.length = d.N → IsCodeword gen c → hamming (k.word neg d) c ≤ gen.t → o.v = k.part d c) ∧
      (o.success = false → o.v = k.part d (k.word neg d)) := by
  have F := facts h
  have hdN : d.N = gen.gf.N := by rw [F.N, hfull]; rfl
  have hlen := (word_ok (neg := neg) F k).1
  by_cases hx : ∃ c : List Nat, c.length = d.N ∧ IsCodeword gen c ∧ hamming (k.word neg d) c ≤ gen.t
  · obtain ⟨c, h1, h2, h3⟩ := hx
    obtain ⟨o, g1, g2, g3, g4, g5⟩ := C69_corrects w M t gen K N d h R neg b hb k yb yh v hk c h1 h2 h3
    refine ⟨o, g1, g2, by rw [g3, g4]; rfl, ⟨fun _ => ⟨c, h1, h2, h3⟩, fun _ => g3⟩, fun c' k1 k2 k3 => ?_, fun hf => by rw [g3] at hf; cases hf⟩
    obtain ⟨o', g1', _, _, _, g5'⟩ := C69_corrects w M t gen K N d h R neg b hb k yb yh v hk c' k1 k2 k3
    rw [g1] at g1'
    injection g1' with e
    rw [e]; exact g5'
  · have hno : ¬ ∃ x, Within gen (k.word neg d) x := by
      rintro ⟨x, g1, g2, g3⟩
      rw [hlen, hdN, Nat.sub_self, List.replicate_zero, List.append_nil] at g3
      exact hx ⟨x, by omega, g2, g3⟩
    obtain ⟨o, g1, g2, g3, g4, g5⟩ := C69_refuses w M t gen K N d h R neg b hb k yb yh v hk hno
    refine ⟨o, g1, g2, by rw [g3, g4]; rfl, ⟨fun hs => absurd (g3.symm.trans hs) (by simp), fun hh => absurd hh hx⟩, fun c k1 k2 k3 => absurd ⟨c, k1, k2, k3⟩ hx, fun _ => g5⟩

/-- Encoder, then at most `t` wrong symbols, then decoder: the message comes back. -/
theorem C69_roundtrip (w : Nat) (M t : Int) (gen : RsGen) (K N : Int) (d : Dec) (h : Usable w M t gen K N d) (hfull : N = gen.gf.N)
    (e : RsEnc) (he : RsEnc.mk? w K N gen = ok e) (u x c : List Int) (hu : u.length = K.toNat * gen.gf.m) (hub : ∀ a ∈ u, a = 0 ∨ a = 1)
    (hx : x.length = N.toNat * gen.gf.m) (henc : rsEncode w e u x = ok c) (y : List Int) (hy : y.length = N.toNat * gen.gf.m)
    (herr : hamming (symbols gen.gf.m N.toNat y) (symbols gen.gf.m N.toNat c) ≤ gen.t) (b : Buf)
    (hb : Reach (R := Unit) (fun _ => false) w d b) (yh : List (BitVec w)) (v : List Int) (hyh : yh.length = N.toNat)
    (hv : v.length = K.toNat * gen.gf.m) :
    ∃ o, decodeHiho w d b y yh v = ok o ∧ o.success = true ∧ o.cwd = 1 ∧ o.v = u := by
  have F := facts h
  have hm := F.G.hm
  obtain ⟨c', hc', q1, q2, _, q4⟩ := C19_encode w M t gen h.made K N e he hfull h.width u x hu hx
  rw [henc] at hc'
  injection hc' with hc'
  subst hc'
  have hdN := F.N
  have hdK := F.K
  have hKN := F.KN
  have hr := F.r
  have hgf : d.core.gf = gen.gf := by rw [F.core]
  have hwd : (Call.hiho (R := Unit) y).word (fun _ => false) d = symbols gen.gf.m N.toNat y := by
    unfold Call.word; rw [hgf, hdN]; rfl
  obtain ⟨o, g1, _, g2, g3, g4⟩ := C69_corrects w M t gen K N d h Unit (fun _ => false) b hb (.hiho y) (List.replicate (d.N * d.core.gf.m) 0) yh v
    ⟨by rw [hdN, hgf]; exact hy, by simp, by omega, by rw [hgf]; show v.length = d.K * _; rw [hdK]; exact hv⟩ (symbols gen.gf.m N.toNat c)
    (by rw [symbols_length, hdN]) ⟨sym_iff.1 (symbols_sym _ _ _), q4⟩ (by rw [hwd]; exact herr)
  refine ⟨o, g1, g2, g3, ?_⟩
  rw [g4]
  show bits d.core.gf.m ((symbols gen.gf.m N.toNat c).drop (d.N - d.K)) = u
  rw [hgf, show d.N - d.K = 2 * gen.t by omega]
  have hdl : ((symbols gen.gf.m N.toNat c).drop (2 * gen.t)).length = K.toNat := by rw [List.length_drop, symbols_length]; omega
  refine List.ext_getElem? fun i => ?_
  unfold bits
  rw [hdl]
  by_cases hi : i < K.toNat * gen.gf.m
  · rw [List.getElem?_map, List.getElem?_range hi, Option.map_some, List.getElem?_eq_getElem (by omega)]
    congr 1
    have hd : i / gen.gf.m < K.toNat := (Nat.div_lt_iff_lt_mul (by omega)).2 hi
    have hmod : i % gen.gf.m < gen.gf.m := Nat.mod_lt i (by omega)
    rw [List.getD_eq_getElem?_getD, List.getElem?_drop, ← List.getD_eq_getElem?_getD, symbols_getD _ _ _ (by omega), testBit_symbolAt, decide_eq_true hmod,
      Bool.true_and]
    unfold BitPacker.bitAt
    have ei : (2 * gen.t + i / gen.gf.m) * gen.gf.m + i % gen.gf.m = 2 * gen.t * gen.gf.m + i := by
      rw [Nat.add_mul, Nat.add_assoc, Nat.mul_comm (i / gen.gf.m), Nat.div_add_mod]
    have e2 := q2 i hi
    rw [List.getElem?_eq_getElem (show i < u.length by omega)] at e2
    rw [ei, List.getD_eq_getElem?_getD, e2, Option.getD_some]
    rcases hub _ (List.getElem_mem (show i < u.length by omega)) with e | e <;> rw [e] <;> decide
  · rw [List.getElem?_eq_none (by simp; omega), List.getElem?_eq_none (by omega)]

/-- A decoder of the (7, 5) code over GF(8), `t = 1`. -/
def dec7 : Dec := ⟨5, 7, 2, gen7.gf, 7, 1⟩

/-- A decoder of the same code shortened to (6, 4). -/
def dec6 : Dec := ⟨4, 6, 2, gen7.gf, 7, 1⟩

theorem usable7 : Usable 32 7 1 gen7 5 7 dec7 where
  made := by decide +kernel
  width := by decide
  dec := by decide +kernel
  low := by decide
  high := by decide
  int := by decide

theorem usable6 : Usable 32 7 1 gen7 4 6 dec6 where
  made := by decide +kernel
  width := by decide
  dec := by decide +kernel
  low := by decide
  high := by decide
  int := by decide

/-- What a caller sees. -/
def seen (x : Exec Out) : Option (Bool × Nat × List Int) := match x with | .ok o => some (o.success, o.cwd, o.v) | _ => none

/-- One wrong symbol (two wrong bits), on the codeword of the example of C19; then two wrong symbols, detected. -/
example : seen (decodeHiho 32 dec7 dec7.fresh [1,1,0, 1,0,0, 1,0,1, 0,1,1, 1,1,0, 1,1,1, 0,1,0] (List.replicate 7 9) (List.replicate 15 9)) =
    some (true, 1, [1,0,1, 0,1,1, 0,0,0, 1,1,1, 0,1,0]) ∧
  hamming (symbols 3 7 [1,1,0, 1,0,0, 1,0,1, 0,1,1, 1,1,0, 1,1,1, 0,1,0]) (symbols 3 7 [1,1,0, 1,0,0, 1,0,1, 0,1,1, 0,0,0, 1,1,1, 0,1,0]) = 1 ∧
  seen (decodeHihoCw 32 dec7 dec7.fresh [0,1,0, 1,0,0, 0,0,0, 0,0,0, 0,0,0, 0,0,0, 0,0,0] (List.replicate 7 9) (List.replicate 21 9)) =
    some (false, 0, [0,1,0, 1,0,0, 0,0,0, 0,0,0, 0,0,0, 0,0,0, 0,0,0]) := by decide +kernel

/-- Soft inputs and a shortened code, one wrong symbol on the word of all zeros. -/
example : seen (decodeSiho (fun v : Int => decide (v < 0)) 32 dec6 dec6.fresh [3, 1, 2, 2, 1, 4, 5, 7, 1, -1, 1, -8, 1, 1, 1, 2, 2, 2] (List.replicate 18 9)
    (List.replicate 6 9) (List.replicate 12 9)) = some (true, 1, [0, 0, 0, 0, 0, 0, 0, 0, 0, 0, 0, 0]) := by decide +kernel

/-! ## C70: defects -/

/-- Shortened codes: when a codeword of the full code with a non-zero symbol in the removed positions is at most `t` symbols
away from the received ones, the decoder writes beyond the end of its frame. -/
theorem C70_shortened_overrun (w : Nat) (M t : Int) (gen : RsGen) (K N : Int) (d : Dec) (h : Usable w M t gen K N d) (R : Type) (neg : R → Bool)
    (b : Buf) (hb : Reach neg w d b) (k : Call R) (yb : List Int) (yh : List (BitVec w)) (v : List Int) (hk : k.Ok d yb yh v)
    (x : List Nat) (hx : Within gen (k.word neg d) x) (q : Nat) (hq : d.N ≤ q) (h0 : x.getD q 0 ≠ 0) : k.run neg w d b yb yh v = ub :=
  (run_sat (neg := neg) (facts h) (reach_size (facts h) hb) hk).2.1 x q hx hq h0

/-- Such a frame, for the (6, 4) code: the first six symbols of a codeword of the (7, 5) code. -/
theorem C70_overrun_witness : Usable 32 7 1 gen7 4 6 dec6 ∧
    (Call.hiho (R := Unit) [1,1,0, 1,0,0, 1,0,1, 0,1,1, 0,0,0, 1,1,1]).Ok dec6 (List.replicate 18 0) (List.replicate 6 (0 : BitVec 32)) (List.replicate 12 0) ∧
    decodeHiho 32 dec6 dec6.fresh [1,1,0, 1,0,0, 1,0,1, 0,1,1, 0,0,0, 1,1,1] (List.replicate 6 0) (List.replicate 12 0) = ub :=
  ⟨usable6, ⟨by decide, by decide, by decide, by decide⟩, by decide +kernel⟩

/-- The generator of the (15, 13) code. -/
def gen15 : RsGen := ⟨⟨15, 4, [1, 2, 4, 8, 3, 6, 12, 11, 5, 10, 7, 14, 15, 13, 9, 0], [-1, 0, 1, 4, 2, 8, 5, 10, 3, 14, 9, 7, 6, 13, 11, 12], [1, 1, 0, 0, 1]⟩,
  1, [3, 5, 0]⟩

/-- A code shortened below half of its length is accepted, but the decoder computes with the wrong order of the field: a
codeword received without any error is refused. -/
theorem C70_short_refused : rsGen 15 1 = ok gen15 ∧ IsCodeword gen15 [8, 6, 1, 0, 0] ∧
    seen (Dec.mk? 3 5 gen15 >>= fun d => decodeHihoCw 32 d d.fresh (bits 4 [8, 6, 1, 0, 0]) (List.replicate 5 0) (List.replicate 20 0)) =
      some (false, 0, bits 4 [8, 6, 1, 0, 0]) := by
  refine ⟨by decide +kernel, ⟨by decide, fun j h1 h2 => ?_⟩, by decide +kernel⟩
  have h2 : j ≤ 2 := h2
  rw [syndrome_num (by decide) (by decide)]
  rcases (by omega : j = 1 ∨ j = 2) with rfl | rfl
  · rw [show synNum gen15.gf.m (lowNum gen15.gf.p gen15.gf.m) [8, 6, 1, 0, 0] 1 [8, 6, 1, 0, 0].length = 0 by decide +kernel, el_zero]
  · rw [show synNum gen15.gf.m (lowNum gen15.gf.p gen15.gf.m) [8, 6, 1, 0, 0] 2 [8, 6, 1, 0, 0].length = 0 by decide +kernel, el_zero]

/-- The decoder does not compare the width of the symbols with that of the type of the bits: with symbols as wide as the
type, every frame with a symbol whose top bit is set indexes a table with a negative number. -/
theorem C70_full_width_ub (w : Nat) (M t : Int) (gen : RsGen) (hgen : rsGen M t = ok gen) (K N : Int) (d : Dec) (h : Dec.mk? K N gen = ok d)
    (hw : gen.gf.m = w) (b : Buf) (y v : List Int) (yh : List (BitVec w)) (hy : y.length = N.toNat * w) (hyh : yh.length = N.toNat) (s : Nat)
    (hs : s < N.toNat) (hbig : 2 ^ (w - 1) ≤ symbolAt w y s) : decodeHiho w d b y yh v = ub := by
  obtain ⟨G, hg⟩ := isRsGen_of_rsGen hgen
  have hm := G.hm
  obtain ⟨_, _, _, p, _, e⟩ := mk_dec h (by omega)
  have hgf : d.core.gf = gen.gf := by rw [e]
  have hN : d.N = N.toNat := by rw [e]
  unfold decodeHiho
  rw [hgf, hN, ← Exec.bind_assoc', symVals_ub (by omega) (by omega) (by rw [hw]; exact hy) hyh hs (by rw [hw]; exact hbig)]
  rfl

end Verif.RSDec
