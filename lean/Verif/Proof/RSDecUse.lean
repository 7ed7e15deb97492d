import Verif.Proof.RSDecTop
import Verif.Proof.BCHDecUse
import Verif.Proof.RS
import Verif.Spec.RSDec

/-! # The tasks of the Reed–Solomon decoder -/

namespace Verif.RSDec
open Exec Finset Verif.Galois Verif.BCH Verif.BM Verif.BCHDec

theorem mk_dec {K N : Int} {gen : RsGen} {d : Dec} (h : Dec.mk? K N gen = ok d) (hm : 0 < gen.gf.m) :
    0 < K ∧ K ≤ N ∧ N - K = (gen.g.length : Int) - 1 ∧ ∃ p, nextPow2 N.toNat 31 1 = ok p ∧
      d = ⟨K.toNat, N.toNat, gen.g.length - 1, gen.gf, p - 1, gen.t⟩ := by
  have hm' : (0 : Int) < gen.gf.m := by omega
  unfold Dec.mk? at h
  simp only at h
  split at h
  · cases h
  · rename_i h1
    split at h
    · cases h
    · split at h
      · cases h
      · rename_i h3
        have hK : 0 < K := by
          rcases Int.lt_or_le 0 K with hk | hk
          · exact hk
          · exact absurd (Int.mul_nonpos_of_nonpos_of_nonneg hk (Int.le_of_lt hm')) h1
        have hKN : K ≤ N := Int.le_of_mul_le_mul_right (Int.not_lt.mp h3) hm'
        cases hp : nextPow2 N.toNat 31 1 with
        | ok p =>
          rw [hp, bind_ok] at h
          split at h
          · cases h
          · injection h with h
            exact ⟨hK, hKN, by omega, p, rfl, h.symm⟩
        | exc e => rw [hp, bind_exc] at h; cases h
        | ub => rw [hp, bind_ub] at h; cases h

/-- What the hypotheses give. -/
structure Facts (w : ℕ) (gen : RsGen) (K N : Int) (d : Dec) : Prop where
  G : Good gen.gf
  width : gen.gf.m < w
  g : IsRsGen gen.gf gen.t gen.g
  K : d.K = K.toNat
  N : d.N = N.toNat
  core : d.core = ⟨gen.gf, gen.gf.N, gen.t⟩
  len : d.N ≤ gen.gf.N
  KN : d.N = d.r + d.K
  r : d.r = 2 * gen.t
  K1 : 1 ≤ d.K
  t1 : 1 ≤ gen.t
  t2 : 2 * gen.t < gen.gf.N
  small : Small ⟨gen.gf, gen.gf.N, gen.t⟩

theorem facts {w : Nat} {M t : Int} {gen : RsGen} {K N : Int} {d : Dec} (h : Usable w M t gen K N d) : Facts w gen K N d := by
  obtain ⟨h1, h2, h4, h5, h6, h7⟩ := h
  obtain ⟨G, hg⟩ := isRsGen_of_rsGen h1
  obtain ⟨_, ht, et⟩ := rsGen_inv h1
  obtain ⟨k1, k2, k3, q, k4, k5⟩ := mk_dec h4 (by have := G.hm; omega)
  have hlen := hg.len
  have ht1 := hg.t1
  have hN : ((N.toNat : ℕ) : Int) = N := by omega
  have l1 : 2 ^ (gen.gf.m - 1) ≤ N.toNat := by
    have : ((2 ^ (gen.gf.m - 1) : ℕ) : Int) ≤ N := by push_cast; exact h5
    omega
  have l2 : N.toNat < 2 ^ gen.gf.m := by
    have : N < ((2 ^ gen.gf.m : ℕ) : Int) := by push_cast; exact h6
    omega
  have hov : (2 * gen.t + 1) * 2 ^ gen.gf.m ≤ 2 ^ 31 := by
    have e : (((2 * gen.t + 1) * 2 ^ gen.gf.m : ℕ) : Int) = (2 * t + 1) * 2 ^ gen.gf.m := by
      rw [et]
      push_cast
      rw [Int.toNat_of_nonneg (by omega)]
    omega
  have hm : gen.gf.m < 31 := by
    by_contra hc
    have h30 : 2 ^ 30 ≤ 2 ^ (gen.gf.m - 1) := Nat.pow_le_pow_right (by omega) (by omega)
    have := nextPow2_ub (x := N.toNat) 31 0 (by omega)
    rw [Nat.pow_zero, k4] at this
    cases this
  have hq := nextPow2_sat l2 l1 31 0 (by omega) (by omega)
  rw [Nat.pow_zero, k4] at hq
  injection hq with hq
  have hgN := G.hN
  have hle : N.toNat ≤ gen.gf.N := by omega
  have hK : d.K = K.toNat := by rw [k5]
  have hdN : d.N = N.toNat := by rw [k5]
  have hdr : d.r = gen.g.length - 1 := by rw [k5]
  have hqe : q - 1 = gen.gf.N := by omega
  refine ⟨G, h2, hg, hK, hdN, by rw [k5, hqe], by omega, by omega, by omega, by omega, by omega, by omega, ?_⟩
  refine Nat.lt_of_lt_of_le ?_ hov
  refine (Nat.mul_lt_mul_left (by omega)).2 ?_
  show gen.gf.N < 2 ^ gen.gf.m
  omega

theorem symbols_length (m n : ℕ) (x : List Int) : (symbols m n x).length = n := by unfold symbols; simp

theorem symbols_getD (m n : ℕ) (x : List Int) {i : ℕ} (h : i < n) : (symbols m n x).getD i 0 = symbolAt m x i := by
  unfold symbols
  rw [List.getD_eq_getElem?_getD, List.getElem?_map, List.getElem?_range h]; rfl

theorem symbols_sym (g : GF) (n : ℕ) (x : List Int) : Sym g (symbols g.m n x) := by
  intro p
  by_cases h : p < n
  · rw [symbols_getD _ _ _ h]; exact symbolAt_lt _ _ _
  · rw [getD_ge (by rw [symbols_length]; omega)]; exact Nat.two_pow_pos _

theorem sym_iff {g : GF} {x : List ℕ} : Sym g x ↔ ∀ v ∈ x, v < 2 ^ g.m := by
  constructor
  · intro h v hv
    obtain ⟨i, hi, rfl⟩ := List.mem_iff_getElem.1 hv
    have := h i
    rwa [getD_lt 0 hi] at this
  · intro h p
    by_cases hp : p < x.length
    · rw [getD_lt 0 hp]; exact h _ (List.getElem_mem hp)
    · rw [getD_ge (by omega)]; exact Nat.two_pow_pos _

theorem within_close {gen : RsGen} {y w : List ℕ} (hy : y.length ≤ gen.gf.N) :
    Within gen y w ↔ Close ⟨gen.gf, gen.gf.N, gen.t⟩ y w := by
  constructor
  · rintro ⟨h1, ⟨h2, h3⟩, h4⟩
    exact ⟨h1, sym_iff.2 h2, h3, by rw [← hamming_diff hy h1]; exact h4⟩
  · rintro ⟨h1, h2, h3, h4⟩
    exact ⟨h1, ⟨sym_iff.1 h2, h3⟩, by rw [hamming_diff hy h1]; exact h4⟩

theorem case_sat {w : ℕ} {gen : RsGen} {K N : Int} {d : Dec} (F : Facts w gen K N d) {y : List ℕ} {b : Buf} (hb : BufSize d.core b)
    (hy : y.length = d.N) (sy : Sym gen.gf y) : haveI := fact_irr F.G
    Case ⟨gen.gf, gen.gf.N, gen.t⟩ y (decodeCore d.core d.N y b) := by
  haveI := fact_irr F.G
  have hle := F.len
  rw [F.core] at hb ⊢
  exact decodeCore_case (c := ⟨gen.gf, gen.gf.N, gen.t⟩) F.G rfl hb F.t1 F.t2 hy hle sy F.small

theorem harden_sat {R : Type} {neg : R → Bool} {y : List R} {yh : List Int} {n : ℕ} (hy : y.length = n) (h : yh.length = n) :
    harden neg y n yh = ok (y.map fun v => if neg v then 1 else 0) := by
  unfold harden
  have hs : (forN n (fun i o => rd y i >>= fun v => wr o i (if neg v then 1 else 0)) yh).Sat fun o => o = y.map fun v => if neg v then 1 else 0 := by
    refine (forN_inv (fun k (o : List Int) => o.length = n ∧ ∀ i, i < k → o[i]? = (y.map fun v => if neg v then 1 else 0)[i]?) ⟨h, fun i hi => by omega⟩ ?_).mono ?_
    · rintro k o hk ⟨h1, h2⟩
      rw [rd_lt (by omega), bind_ok, wr_lt (by omega), sat_ok]
      refine ⟨by rw [List.length_set]; exact h1, fun i hi => ?_⟩
      rw [List.getElem?_set]
      by_cases e : k = i
      · subst e
        rw [if_pos rfl, if_pos (by omega), List.getElem?_map, List.getElem?_eq_getElem (by omega)]
        rfl
      · rw [if_neg e]; exact h2 i (by omega)
    · rintro o ⟨h1, h2⟩
      refine List.ext_getElem? fun i => ?_
      by_cases hi : i < n
      · exact h2 i hi
      · rw [List.getElem?_eq_none (by omega), List.getElem?_eq_none (by rw [List.length_map]; omega)]
  obtain ⟨o, ho, rfl⟩ := hs
  exact ho

/-- Packing, then reading the symbols. -/
theorem pack_eq {w m n : ℕ} (hm : 0 < m) (hw : m < w) {y : List Int} (hy : y.length = n * m) {yh : List (BitVec w)} (hyh : yh.length = n) :
    (BitPacker.pack w false m (n * m) 1 y yh >>= symVals) = ok (symbols m n y) := by
  obtain ⟨o, h1, h2, h3⟩ := syms_sat hm hw (by omega : n * m ≤ y.length) hyh
  rw [h1]
  congr 1
  refine List.ext_getElem? fun i => ?_
  by_cases hi : i < n
  · rw [h3 i hi]
    unfold symbols
    rw [List.getElem?_map, List.getElem?_range hi]; rfl
  · rw [List.getElem?_eq_none (by omega), List.getElem?_eq_none (by rw [symbols_length]; omega)]

/-- Symbols as wide as their type: a set top bit is a negative number. -/
theorem symVals_ub {w m n : ℕ} (hm : 0 < m) (hw : m = w) {y : List Int} (hy : y.length = n * m) {yh : List (BitVec w)} (hyh : yh.length = n)
    {s : ℕ} (hs : s < n) (hbig : 2 ^ (m - 1) ≤ symbolAt m y s) : (BitPacker.pack w false m (n * m) 1 y yh >>= symVals) = ub := by
  obtain ⟨o, h1, h2, h3⟩ := pack_symbols hm (Nat.le_of_eq hw) (by omega : n * m ≤ y.length) hyh
  rw [h1, bind_ok]
  unfold symVals
  rw [h2]
  refine forN_ub (k0 := s) (fun l => l.length = n) (by simp; omega) hs ?_ ?_
  · intro k l hk hl
    obtain ⟨b, hb, _⟩ := h3 k hk
    rw [rd_eq hb, bind_ok]
    unfold symVal toI
    split
    · right
      rw [bind_ok, wr_lt (by omega)]
      exact ⟨_, rfl, by simpa using hl⟩
    · left; rfl
  · intro l hl
    obtain ⟨b, hb, hb2⟩ := h3 s hs
    subst hw
    rw [rd_eq hb, bind_ok]
    unfold symVal toI
    rw [if_neg (by omega)]
    rfl

/-- Writing the bits of symbols. -/
theorem unpack_eq {w m n : ℕ} (hm : 0 < m) (hw : m < w) {x : List ℕ} (hx : x.length = n) {v : List Int} (hv : v.length = n * m) :
    BitPacker.unpack false m (n * m) 1 (x.map (BitVec.ofNat w)) v = ok (bits m x) := by
  obtain ⟨o, h1, h2, h3, _⟩ := BitPacker.unpack_sat (msb := false) (vin := x.map (BitVec.ofNat w)) (nFrames := 1) (nBits := n * m) (out := v) hm (Nat.le_of_lt hw)
    (by rw [nSymbols_mul hm]; simp; omega) (by omega)
  rw [h1]
  congr 1
  refine List.ext_getElem? fun i => ?_
  unfold bits
  by_cases hi : i < n * m
  · obtain ⟨s, h4, h5⟩ := h3 0 (by omega) i hi
    rw [Nat.zero_mul, Nat.zero_add] at h4 h5
    rw [h5, List.getElem?_map, List.getElem?_range (by rw [hx]; exact hi), Option.map_some]
    congr 1
    have hd : i / m < n := (Nat.div_lt_iff_lt_mul hm).2 hi
    rw [List.getElem?_map, List.getElem?_eq_getElem (by omega)] at h4
    simp only [Option.map_some, Option.some.injEq] at h4
    subst h4
    have hmod := Nat.mod_lt i hm
    unfold BitPacker.bitPos BitPacker.ofBit
    rw [getD_lt 0 (by omega)]
    simp only [Bool.false_eq_true, if_false]
    rw [BitVec.getLsbD_ofNat, decide_eq_true (by omega), Bool.true_and]
  · rw [List.getElem?_eq_none (by omega), List.getElem?_eq_none (by simp [hx]; omega)]

/-- The end of a task. -/
def emit {R : Type} (w : ℕ) (d : Dec) (k : Call R) (v : List Int) (r : Res) : Exec Out :=
  (if k.cw then BitPacker.unpack false d.core.gf.m (d.N * d.core.gf.m) 1 (r.y.map (BitVec.ofNat w)) v
    else BitPacker.unpack false d.core.gf.m (d.K * d.core.gf.m) 1 ((r.y.map (BitVec.ofNat w)).drop d.r) v) >>= fun v =>
  ok ⟨r.success, cwdOf r, v, r.buf⟩

theorem hard_length {R : Type} (neg : R → Bool) (k : Call R) : (k.hard neg).length = k.size := by
  cases k <;> simp [Call.hard, Call.size]

/-- All tasks at once. -/
theorem run_eq {R : Type} {neg : R → Bool} {w : ℕ} {gen : RsGen} {K N : Int} {d : Dec} (F : Facts w gen K N d) {b : Buf} {yb : List Int}
    {yh : List (BitVec w)} {v : List Int} {k : Call R} (hk : k.Ok d yb yh v) :
    k.run neg w d b yb yh v = (decodeCore d.core d.N (k.word neg d) b >>= emit w d k v) := by
  have hm := F.G.hm
  have hw := F.width
  have hgf : d.core.gf = gen.gf := by rw [F.core]
  have hp := pack_eq (w := w) (m := d.core.gf.m) (n := d.N) (y := k.hard neg) (yh := yh) (by rw [hgf]; omega) (by rw [hgf]; exact hw)
    (by rw [hard_length]; exact hk.size) hk.yh
  unfold Call.word
  have hc : ∀ f : List ℕ → Exec Out, (BitPacker.pack w false d.core.gf.m (d.N * d.core.gf.m) 1 (k.hard neg) yh >>= fun yh => symVals yh >>= f) =
      f (symbols d.core.gf.m d.N (k.hard neg)) := by
    intro f
    rw [← Exec.bind_assoc', hp, bind_ok]
  cases k with
  | hiho y =>
    show decodeHiho w d b y yh v = _
    exact hc _
  | hihoCw y =>
    show decodeHihoCw w d b y yh v = _
    exact hc _
  | siho y =>
    show decodeSiho neg w d b y yb yh v = _
    unfold decodeSiho
    rw [harden_sat hk.size hk.yb, bind_ok]
    exact hc _
  | sihoCw y =>
    show decodeSihoCw neg w d b y yb yh v = _
    unfold decodeSihoCw
    rw [harden_sat hk.size hk.yb, bind_ok]
    exact hc _

theorem emit_eq {R : Type} {w : ℕ} {gen : RsGen} {K N : Int} {d : Dec} (F : Facts w gen K N d) {k : Call R} {v : List Int}
    (hv : v.length = k.outSize d * d.core.gf.m) {r : Res} (hr : r.y.length = d.N) :
    emit w d k v r = ok ⟨r.success, if r.success then 1 else 0, k.part d r.y, r.buf⟩ := by
  have hm := F.G.hm
  have hw := F.width
  have hgf : d.core.gf = gen.gf := by rw [F.core]
  have hKN := F.KN
  unfold emit Call.part
  unfold Call.outSize at hv
  by_cases hc : k.cw
  · rw [if_pos hc] at hv ⊢
    rw [if_pos hc, unpack_eq (by rw [hgf]; omega) (by rw [hgf]; exact hw) hr hv]
    rfl
  · rw [if_neg hc] at hv ⊢
    rw [if_neg hc, ← List.map_drop, unpack_eq (by rw [hgf]; omega) (by rw [hgf]; exact hw) (by rw [List.length_drop]; omega) hv,
      show d.N - d.K = d.r by omega]
    rfl

theorem word_ok {R : Type} {neg : R → Bool} {w : ℕ} {gen : RsGen} {K N : Int} {d : Dec} (F : Facts w gen K N d) (k : Call R) :
    (k.word neg d).length = d.N ∧ Sym gen.gf (k.word neg d) := by
  unfold Call.word
  have hgf : d.core.gf = gen.gf := by rw [F.core]
  rw [hgf]
  exact ⟨symbols_length _ _ _, symbols_sym _ _ _⟩

/-- The three outcomes of a call. -/
theorem run_sat {R : Type} {neg : R → Bool} {w : ℕ} {gen : RsGen} {K N : Int} {d : Dec} (F : Facts w gen K N d) {b : Buf} (hb : BufSize d.core b)
    {yb : List Int} {yh : List (BitVec w)} {v : List Int} {k : Call R} (hk : k.Ok d yb yh v) :
    (∀ x, Within gen (k.word neg d) x → (∀ p, d.N ≤ p → x.getD p 0 = 0) → (k.run neg w d b yb yh v).Sat fun o => BufSize d.core o.buf ∧
      o.success = true ∧ o.cwd = 1 ∧ o.v = k.part d (x.take d.N)) ∧
    (∀ x q, Within gen (k.word neg d) x → d.N ≤ q → x.getD q 0 ≠ 0 → k.run neg w d b yb yh v = ub) ∧
    ((¬ ∃ x, Within gen (k.word neg d) x) → (k.run neg w d b yb yh v).Sat fun o => BufSize d.core o.buf ∧
      o.success = false ∧ o.cwd = 0 ∧ o.v = k.part d (k.word neg d)) := by
  obtain ⟨hl, sy⟩ := word_ok (neg := neg) F k
  have hle := F.len
  haveI := fact_irr F.G
  have hcase := case_sat F hb hl sy
  have hcl : ∀ x, Within gen (k.word neg d) x ↔ Close ⟨gen.gf, gen.gf.N, gen.t⟩ (k.word neg d) x := fun x => within_close (by omega)
  rw [run_eq F hk]
  refine ⟨fun x hx h0 => ?_, fun x q hx hq h0 => ?_, fun hno => ?_⟩
  · refine (finds (c := ⟨gen.gf, gen.gf.N, gen.t⟩) F.G rfl F.small (by rw [hl]; exact hle) sy hcase ((hcl x).1 hx) (by rw [hl]; exact h0)).bind ?_
    rintro r ⟨r1, r2, _, r4⟩
    rw [hl] at r4
    rw [emit_eq F hk.v (by rw [r4, List.length_take, hx.len]; omega), sat_ok, r2, r4]
    exact ⟨by rw [F.core]; exact r1, rfl, rfl, rfl⟩
  · rw [overruns (c := ⟨gen.gf, gen.gf.N, gen.t⟩) F.G rfl F.small (by rw [hl]; exact hle) sy hcase ((hcl x).1 hx) (by rw [hl]; exact hq) h0]
    rfl
  · refine (refuses (c := ⟨gen.gf, gen.gf.N, gen.t⟩) F.G rfl F.small (by rw [hl]; exact hle) sy hcase
      (fun ⟨x, hx⟩ => hno ⟨x, (hcl x).2 hx⟩)).bind ?_
    rintro r ⟨r1, r2, _, r4⟩
    rw [emit_eq F hk.v (by rw [r4]; exact hl), sat_ok, r2, r4]
    exact ⟨by rw [F.core]; exact r1, rfl, rfl, rfl⟩

theorem fresh_size (d : Dec) : BufSize d.core d.fresh := by
  unfold Dec.fresh
  refine ⟨⟨⟨by simp, fun i hi => ?_⟩, by simp, by simp, by simp, by simp⟩, by simp, by simp, by simp, by simp, by simp⟩
  rw [List.getD_eq_getElem?_getD, List.getElem?_replicate, if_pos hi]
  simp

theorem reach_size {R : Type} {neg : R → Bool} {w : ℕ} {gen : RsGen} {K N : Int} {d : Dec} (F : Facts w gen K N d) {b : Buf} (h : Reach neg w d b) :
    BufSize d.core b := by
  induction h with
  | fresh => exact fresh_size d
  | call k yb yh v _ h2 h5 ih =>
    obtain ⟨g1, g2, g3⟩ := run_sat (neg := neg) F ih h2
    by_cases hx : ∃ x, Within gen (k.word neg d) x
    · obtain ⟨x, hx⟩ := hx
      by_cases h0 : ∀ p, d.N ≤ p → x.getD p 0 = 0
      · obtain ⟨o, h6, h7⟩ := g1 x hx h0
        rw [h5] at h6
        injection h6 with h6
        subst h6
        exact h7.1
      · push Not at h0
        obtain ⟨q, hq, h0⟩ := h0
        have := g2 x q hx hq h0
        rw [h5] at this
        cases this
    · obtain ⟨o, h6, h7⟩ := g3 hx
      rw [h5] at h6
      injection h6 with h6
      subst h6
      exact h7.1

end Verif.RSDec
