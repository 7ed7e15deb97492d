import Verif.Proof.BitPacker
import Verif.Spec.BitFile
import Verif.Prelude.Loops
import Mathlib.Tactic.Ring

/-! # Proofs about binary files of bits -/

namespace Verif.BitFile
open Exec BitPacker

theorem nSymbols_eight (n : Nat) : nSymbols (n * 8) 8 = n := by unfold nSymbols; omega

/-- Bit `t` of a sequence of bytes. -/
def bytesBit (b : Nat → BitVec 8) (t : Nat) : Int := ofBit ((b (t / 8)).getLsbD (t % 8))

theorem unpackAt_sat {bytes : List (BitVec 8)} {U : List Int} {off n : Nat} {b : Nat → BitVec 8} {nb : Nat}
    (hn : n ≤ nb * 8) (hb : ∀ i, i < nb → bytes[i]? = some (b i)) (hU : off + n ≤ U.length) :
    (unpackAt bytes U off n).Sat fun o => o.length = U.length ∧ ∀ j : Nat,
      o[j]? = if off ≤ j ∧ j < off + n then some (bytesBit b (j - off)) else U[j]? := by
  unfold unpackAt
  have hs : nSymbols n 8 ≤ nb := by unfold nSymbols; omega
  have hbl : nb ≤ bytes.length := by
    by_contra hc
    have := hb bytes.length (by omega)
    rw [List.getElem?_eq_none (Nat.le_refl _)] at this
    cases this
  refine (unpack_sat (msb := false) (nb := 8) (nBits := n) (nFrames := 1) (vin := bytes) (out := U.drop off) (by omega)
    (by omega) (by omega) (by rw [List.length_drop]; omega)).bind fun o ho => ?_
  obtain ⟨h1, h2, h3⟩ := ho
  rw [List.length_drop] at h1
  refine sat_ok.2 ⟨by rw [List.length_append, List.length_take, h1]; omega, fun j => ?_⟩
  by_cases hj : j < off
  · rw [if_neg (by omega), List.getElem?_append_left (by rw [List.length_take]; omega), List.getElem?_take, if_pos hj]
  · rw [List.getElem?_append_right (by rw [List.length_take]; omega), List.length_take, Nat.min_eq_left (by omega)]
    by_cases hj2 : j < off + n
    · rw [if_pos ⟨by omega, hj2⟩]
      obtain ⟨s, hs1, hs2⟩ := h2 0 (by omega) (j - off) (by omega)
      rw [Nat.zero_mul, Nat.zero_add] at hs1 hs2
      rw [hs2]
      rw [hb _ (by omega)] at hs1
      cases hs1
      rfl
    · rw [if_neg (by omega), h3 _ (by omega), List.getElem?_drop]
      congr 1; omega

theorem fillZero_sat {U : List Int} {a b : Nat} (hb : b ≤ U.length) :
    (fillZero U a b).Sat fun o => o.length = U.length ∧ ∀ j : Nat,
      o[j]? = if a ≤ j ∧ j < b then some 0 else U[j]? := by
  unfold fillZero
  by_cases h : a ≤ b
  · refine (forN_fill (g := fun _ => 0) (off := a) (n := b - a) (out := U) (by omega)).mono fun o ho => ⟨ho.1, fun j => ?_⟩
    rw [ho.2 j]
    by_cases hj : a ≤ j ∧ j < b
    · rw [if_pos hj, if_pos (by omega)]
    · rw [if_neg hj, if_neg (by omega)]
  · rw [show b - a = 0 by omega, forN_zero, sat_ok]
    exact ⟨rfl, fun j => by rw [if_neg (by omega)]⟩

/-- Shifting the last `nl` entries of an array of 8 to its beginning. -/
theorem shift_sat {l : List Int} (hl : l.length = 8) {nl : Nat} (h : nl ≤ 8) :
    (forN nl (fun i l => rd l (i + 8 - nl) >>= fun v => wr l i v) l).Sat fun o =>
      o.length = 8 ∧ ∀ i : Nat, i < nl → o[i]? = l[i + 8 - nl]? := by
  refine (forN_inv (fun k (o : List Int) => o.length = 8 ∧ (∀ i : Nat, i < k → o[i]? = l[i + 8 - nl]?) ∧
    (∀ i : Nat, k ≤ i → o[i]? = l[i]?)) ⟨hl, fun i hi => absurd hi (Nat.not_lt_zero i), fun _ _ => rfl⟩ ?_).mono
    fun o ho => ⟨ho.1, ho.2.1⟩
  rintro k o hk ⟨h1, h2, h3⟩
  rw [rd_lt (by omega), bind_ok, wr_lt (by omega), sat_ok]
  refine ⟨by simpa using h1, fun i hi => ?_, fun i hi => ?_⟩
  · rw [List.getElem?_set]
    by_cases hik : k = i
    · subst hik
      rw [if_pos rfl, if_pos (by omega), ← h3 _ (by omega), List.getElem?_eq_getElem]
    · rw [if_neg hik, h2 i (by omega)]
  · rw [List.getElem?_set, if_neg (by omega), h3 i (by omega)]

/-! ## Source -/

/-- The part of the source that the constructor fixes. -/
structure Source.Wf (s : Source) (K : Nat) (file : List (BitVec 8)) (ar : Bool) : Prop where
  k : s.K = K
  f : s.file = file
  a : s.autoReset = ar
  ml : s.memblk.length = K
  ll : s.left.length = 8

theorem finish_sat {s : Source} {K : Nat} {file : List (BitVec 8)} {ar : Bool} (hw : s.Wf K file ar) {U : List Int}
    (hU : U.length = K) {needed nRead : Nat} {b : Nat → BitVec 8} (hK : s.nLeft ≤ K) (hl8 : s.nLeft < 8)
    (hneed : needed = (K + 8 - 1 - s.nLeft) / 8) (hr : nRead ≤ needed)
    (hb : ∀ i, i < nRead → s.memblk[i]? = some (b i)) :
    (s.finish U needed nRead).Sat fun p => p.1.length = K ∧
      (∀ j : Nat, j < K → p.1[j]? = if j < s.nLeft then U[j]? else
        if j < s.nLeft + nRead * 8 then some (bytesBit b (j - s.nLeft)) else some 0) ∧
      p.2.Wf K file ar ∧ p.2.pos = s.pos ∧ p.2.eof = s.eof ∧ p.2.nLeft = nRead * 8 + s.nLeft - K ∧
      (∀ i : Nat, i < p.2.nLeft → p.2.left[i]? = some (bytesBit b (K - s.nLeft + i))) ∧
      p.2.done = (s.done || (decide (s.nLeft + nRead * 8 ≤ K) && (!ar && s.eof))) := by
  have hla : leftAfter s.K s.nLeft nRead = nRead * 8 + s.nLeft - K := by unfold leftAfter; rw [hw.k]; omega
  obtain rfl := hw.k
  unfold Source.finish
  by_cases hc : s.nLeft + nRead * 8 ≤ s.K
  · rw [if_pos hc]
    refine (unpackAt_sat (nb := nRead) (b := b) (Nat.le_refl _) hb (by omega)).bind fun U1 h1 => ?_
    refine (fillZero_sat (by omega)).bind fun U2 h2 => ?_
    rw [sat_ok]
    refine ⟨by show U2.length = s.K; omega, fun j hj => ?_, ⟨hw.1, hw.2, hw.3, hw.4, hw.5⟩, rfl, rfl, hla, fun i hi => ?_, ?_⟩
    · show U2[j]? = _
      rw [h2.2, h1.2]
      by_cases c1 : j < s.nLeft
      · rw [if_neg (by omega), if_neg (by omega), if_pos c1]
      · by_cases c2 : j < s.nLeft + nRead * 8
        · rw [if_neg (by omega), if_pos (by omega), if_neg c1, if_pos c2]
        · rw [if_pos (by omega), if_neg c1, if_neg c2]
    · have : i < leftAfter s.K s.nLeft nRead := hi
      omega
    · show (s.done || (!s.autoReset && s.eof)) = _
      rw [hw.a, decide_eq_true hc, Bool.true_and]
  · rw [if_neg hc]
    refine (unpackAt_sat (nb := nRead) (b := b) (by omega) hb (by omega)).bind fun U1 h1 => ?_
    have hnr : nRead = needed := by omega
    have hp : 0 < leftAfter s.K s.nLeft nRead := by omega
    dsimp only
    rw [if_pos (by omega), if_neg (by omega)]
    have hd : ∀ i, i < 1 → (s.memblk.drop (needed - 1))[i]? = some (b (needed - 1)) := by
      intro i hi
      obtain rfl : i = 0 := by omega
      rw [List.getElem?_drop, Nat.add_zero, hb _ (by omega)]
    have hmb : needed ≤ s.memblk.length := by
      have := hw.ml
      omega
    refine (unpack_sat (msb := false) (nb := 8) (nBits := 8) (nFrames := 1) (vin := s.memblk.drop (needed - 1))
      (out := s.left) (by omega) (by omega) (by rw [List.length_drop]; unfold nSymbols; omega)
      (by rw [hw.ll])).bind fun l hl => ?_
    obtain ⟨g1, g2, -⟩ := hl
    refine (shift_sat (by rw [g1, hw.ll]) (by omega)).bind fun l2 hl2 => ?_
    rw [sat_ok]
    refine ⟨by show U1.length = s.K; omega, fun j hj => ?_, ⟨hw.1, hw.2, hw.3, hw.4, hl2.1⟩, rfl, rfl, hla, fun i hi => ?_, ?_⟩
    · show U1[j]? = _
      rw [h1.2]
      by_cases c1 : j < s.nLeft
      · rw [if_neg (by omega), if_pos c1]
      · rw [if_pos (by omega), if_neg c1, if_pos (by omega)]
    · have hi' : i < leftAfter s.K s.nLeft nRead := hi
      show l2[i]? = _
      rw [hl2.2 i hi']
      obtain ⟨sy, hs1, hs2⟩ := g2 0 (by omega) (i + 8 - leftAfter s.K s.nLeft nRead) (by omega)
      rw [Nat.zero_mul, Nat.zero_add] at hs1 hs2
      rw [hs2, hd _ (by omega)] at *
      cases hs1
      unfold bytesBit
      have e1 : (s.K - s.nLeft + i) / 8 = needed - 1 := by omega
      have e2 : (s.K - s.nLeft + i) % 8 = (i + 8 - leftAfter s.K s.nLeft nRead) % 8 := by omega
      rw [e1, e2]
      rfl
    · show s.done = _
      rw [decide_eq_false hc, Bool.false_and, Bool.or_false]

theorem fileBit_eq {file : List (BitVec 8)} {t : Nat} {x : BitVec 8} (h : file[t / 8]? = some x) :
    fileBit file t = ofBit (x.getLsbD (t % 8)) := by
  obtain ⟨hlt, rfl⟩ := List.getElem?_eq_some_iff.1 h
  unfold fileBit ofBit
  rw [dif_pos hlt]

theorem fileBit_ge {file : List (BitVec 8)} {t : Nat} (h : file.length * 8 ≤ t) : fileBit file t = 0 := by
  unfold fileBit
  rw [dif_neg (by omega)]

/-- The copy of the bits left by the previous call. -/
theorem copyLeft_sat {l U : List Int} {n : Nat} (hl : n ≤ l.length) (hU : n ≤ U.length) :
    (forN n (fun i U => rd l i >>= fun v => wr U i v) U).Sat fun o => o.length = U.length ∧
      (∀ j : Nat, j < n → o[j]? = l[j]?) := by
  refine (forN_inv (fun k (o : List Int) => o.length = U.length ∧ ∀ j : Nat, j < k → o[j]? = l[j]?)
    ⟨rfl, fun j hj => absurd hj (Nat.not_lt_zero j)⟩ ?_)
  rintro k o hk ⟨h1, h2⟩
  rw [rd_lt (by omega), bind_ok, wr_lt (by omega), sat_ok]
  refine ⟨by simpa using h1, fun j hj => ?_⟩
  rw [List.getElem?_set]
  by_cases hjk : k = j
  · subst hjk; rw [if_pos rfl, if_pos (by omega), List.getElem?_eq_getElem]
  · rw [if_neg hjk, h2 j (by omega)]

/-! ### Without automatic reset -/

theorem readLoop_end {fuel needed : Nat} {s : Source} {n : Nat} (h : needed ≤ n) :
    s.readLoop fuel needed n = ok (some (s, n)) := by
  unfold Source.readLoop
  rw [if_neg (by omega)]

theorem read_sat {s : Source} {K : Nat} {file : List (BitVec 8)} {ar : Bool} (hw : s.Wf K file ar) {off n : Nat}
    (he : s.eof = false) (hon : off + n ≤ K) (hp : s.pos ≤ file.length) :
    (s.read off n).Sat fun r => r.2 = min n (file.length - s.pos) ∧ r.1.Wf K file ar ∧ r.1.pos = s.pos + r.2 ∧
      r.1.eof = decide (r.2 < n) ∧ r.1.done = s.done ∧ r.1.nLeft = s.nLeft ∧ r.1.left = s.left ∧
      (∀ i : Nat, i < off → r.1.memblk[i]? = s.memblk[i]?) ∧
      (∀ i : Nat, i < r.2 → r.1.memblk[off + i]? = file[s.pos + i]?) := by
  obtain rfl := hw.f
  unfold Source.read
  rw [he]
  simp only [Bool.false_eq_true, if_false]
  refine (copyTo_sat (by omega) (by rw [hw.ml]; omega)).bind fun m hm => ?_
  rw [sat_ok]
  refine ⟨rfl, ⟨hw.1, rfl, hw.3, by rw [hm.1, hw.ml], hw.5⟩, rfl, rfl, rfl, rfl, rfl, fun i hi => ?_, fun i hi => ?_⟩
  · show m[i]? = _
    rw [hm.2, if_neg (by omega)]
  · show m[off + i]? = _
    have hi' : i < min n (s.file.length - s.pos) := hi
    rw [hm.2, if_pos (by omega), Nat.add_sub_cancel_left]

/-- The reading loop without automatic reset. -/
theorem readLoop_plain {s : Source} {K : Nat} {file : List (BitVec 8)} (hw : s.Wf K file false) {needed fuel : Nat}
    (hf : 2 ≤ fuel) (he : s.eof = false) (hn : needed ≤ K) (hp : s.pos ≤ file.length) :
    (s.readLoop fuel needed 0).Sat fun r => ∃ s' n, r = some (s', n) ∧ n = min needed (file.length - s.pos) ∧
      s'.Wf K file false ∧ s'.pos = s.pos + n ∧ s'.eof = decide (n < needed) ∧ s'.done = s.done ∧ s'.nLeft = s.nLeft ∧
      s'.left = s.left ∧ (∀ i : Nat, i < n → s'.memblk[i]? = file[s.pos + i]?) := by
  by_cases h0 : needed = 0
  · subst h0
    rw [readLoop_end (Nat.le_refl _), sat_ok]
    exact ⟨s, 0, rfl, by omega, hw, rfl, he, rfl, rfl, rfl, fun i hi => absurd hi (Nat.not_lt_zero i)⟩
  · obtain ⟨fuel, rfl⟩ : ∃ f, fuel = f + 1 := ⟨fuel - 1, by omega⟩
    unfold Source.readLoop
    rw [if_pos (by omega)]
    dsimp only
    refine (read_sat hw he (by omega) hp).bind fun r hr => ?_
    obtain ⟨h1, h2, h3, h4, h5, h6, h7, -, h9⟩ := hr
    rw [Nat.sub_zero] at h1 h4
    simp only [Nat.zero_add] at h9 ⊢
    by_cases hlt : r.2 < needed
    · rw [decide_eq_true hlt] at h4
      rw [if_pos h4, if_neg (by rw [h2.a]; decide), sat_ok]
      exact ⟨r.1, r.2, rfl, h1, h2, h3, by rw [h4, decide_eq_true hlt], h5, h6, h7, h9⟩
    · rw [decide_eq_false hlt] at h4
      rw [if_neg (by rw [h4]; decide), readLoop_end (by omega), sat_ok]
      exact ⟨r.1, r.2, rfl, h1, h2, h3, by rw [h4, decide_eq_false hlt], h5, h6, h7, h9⟩

/-- The state of a source without automatic reset after `n` frames. -/
structure Source.At (s : Source) (K : Nat) (file : List (BitVec 8)) (n : Nat) : Prop where
  wf : s.Wf K file false
  over : file.length * 8 < n * K → s.done = true
  live : n * K ≤ file.length * 8 → s.done = false ∧ s.eof = false ∧ s.pos = (n * K + 7) / 8 ∧
    s.nLeft = s.pos * 8 - n * K ∧ ∀ i : Nat, i < s.nLeft → s.left[i]? = some (fileBit file (n * K + i))

/-- Frame lengths for which the bits left by a call always fit in the next frame. -/
theorem left_le {K : Nat} (hK : K = 4 ∨ 6 ≤ K) (n : Nat) : (n * K + 7) / 8 * 8 - n * K ≤ K := by
  rcases hK with rfl | hK
  · omega
  · by_cases h6 : K = 6
    · subst h6; omega
    · omega

theorem generate_plain {s : Source} {K : Nat} {file : List (BitVec 8)} {n : Nat} (h : s.At K file n)
    (hK : (n * K + 7) / 8 * 8 - n * K ≤ K) {fuel : Nat} (hf : 2 ≤ fuel) {U : List Int} (hU : U.length = K) :
    ∃ s', s.generate fuel U = ok (some (slice file K n, s')) ∧ s'.At K file (n + 1) ∧
      s'.isDone = decide (file.length * 8 < (n + 1) * K) := by
  have hn1 : (n + 1) * K = n * K + K := by ring
  unfold Source.generate
  by_cases hov : file.length * 8 < n * K
  · have hd := h.over hov
    rw [if_pos (show s.isDone = true from hd), h.wf.k]
    obtain ⟨U1, e1, h1, h2⟩ := fillZero_sat (U := U) (a := 0) (b := K) (by omega)
    rw [e1, bind_ok]
    refine ⟨s, ?_, ⟨h.wf, fun _ => hd, fun hc => by omega⟩, by rw [decide_eq_true (by omega)]; exact hd⟩
    congr 3
    refine eq_mapRange (by omega) fun i hi => ?_
    rw [h2, if_pos ⟨Nat.zero_le _, hi⟩, fileBit_ge (by omega)]
  · obtain ⟨hd, he, hp, hl, hb⟩ := h.live (by omega)
    have hl8 : s.nLeft < 8 := by omega
    have hlK : s.nLeft ≤ K := by rw [hl, hp]; exact hK
    rw [if_neg (show ¬ s.isDone = true by rw [show s.isDone = s.done from rfl, hd]; decide), h.wf.k]
    obtain ⟨U1, e1, h1, h2⟩ := copyLeft_sat (l := s.left) (U := U) (n := s.nLeft) (by rw [h.wf.ll]; omega) (by omega)
    dsimp only
    rw [e1, bind_ok]
    generalize hne : (K + 8 - 1 - s.nLeft) / 8 = needed
    obtain ⟨r, e2, s', m, rfl, g1, g2, g3, g4, g5, g6, g7, g8⟩ := readLoop_plain h.wf (needed := needed) hf he (by omega)
      (by omega)
    rw [e2, bind_ok]
    dsimp only
    obtain ⟨p, e3, k1, k2, k3, k4, k5, k6, k7, k8⟩ := finish_sat g2 (U := U1) (by omega) (needed := needed) (nRead := m)
      (b := fun i => file.getD (s.pos + i) 0) (by omega) (by omega) (by rw [g6, hne]) (by omega)
      (fun i hi => by rw [g8 i hi, List.getElem?_eq_getElem (by omega), getD_lt _ (by omega)])
    rw [e3, bind_ok]
    rw [g6] at k2 k6 k7 k8
    have hbit : ∀ t, t < m * 8 → bytesBit (fun i => file.getD (s.pos + i) 0) t = fileBit file (s.pos * 8 + t) := by
      intro t ht
      have hx : s.pos + t / 8 < file.length := by omega
      rw [fileBit_eq (x := file.getD (s.pos + t / 8) 0) (by
        rw [show (s.pos * 8 + t) / 8 = s.pos + t / 8 by omega, List.getElem?_eq_getElem hx, getD_lt _ hx])]
      unfold bytesBit
      rw [show (s.pos * 8 + t) % 8 = t % 8 by omega]
    have hframe : p.1 = slice file K n := by
      refine eq_mapRange k1 fun j hj => ?_
      rw [k2 j hj]
      by_cases c1 : j < s.nLeft
      · rw [if_pos c1, h2 j c1, hb j c1]
      · rw [if_neg c1]
        by_cases c2 : j < s.nLeft + m * 8
        · rw [if_pos c2, hbit _ (by omega)]
          congr 2; omega
        · rw [if_neg c2, fileBit_ge (by omega)]
    have hdone : p.2.done = decide (file.length * 8 < (n + 1) * K) := by
      rw [k8, g5, hd, g4, Bool.false_or, Bool.not_false, Bool.true_and]
      by_cases c : m < needed
      · rw [decide_eq_true c, decide_eq_true (by omega), decide_eq_true (by omega)]; rfl
      · rw [decide_eq_false c, Bool.and_false, decide_eq_false (by omega)]
    refine ⟨p.2, ?_, ⟨k3, fun hc => ?_, fun hc => ?_⟩, hdone⟩
    · rw [← hframe]
    · rw [hdone, decide_eq_true hc]
    · have hm : m = needed := by omega
      refine ⟨by rw [hdone, decide_eq_false (by omega)], by rw [k5, g4, hm, decide_eq_false (by omega)], ?_, ?_, fun i hi => ?_⟩
      · rw [k4, g3]; omega
      · rw [k6, k4, g3]; omega
      · rw [k7 i hi, hbit _ (by omega)]
        congr 2; omega

/-- When more bits are left than the frame has, they are written after its end. -/
theorem generate_ub {s : Source} {K : Nat} {file : List (BitVec 8)} {n : Nat} (h : s.At K file n)
    (hn : n * K ≤ file.length * 8) (hK : K < (n * K + 7) / 8 * 8 - n * K) (fuel : Nat) {U : List Int}
    (hU : U.length = K) : s.generate fuel U = ub := by
  obtain ⟨hd, he, hp, hl, hb⟩ := h.live hn
  unfold Source.generate
  rw [if_neg (show ¬ s.isDone = true by rw [show s.isDone = s.done from rfl, hd]; decide)]
  dsimp only
  have : forN s.nLeft (fun i U => rd s.left i >>= fun v => wr U i v) U = ub := by
    refine forN_ub (k0 := K) (fun o => o.length = K) hU (by omega) (fun i o hi ho => ?_) (fun o ho => ?_)
    · rw [rd_lt (by rw [h.wf.ll]; omega), bind_ok]
      by_cases hc : i < o.length
      · rw [wr_lt hc]
        exact Or.inr ⟨_, rfl, by simpa using ho⟩
      · rw [wr_ge (by omega)]
        exact Or.inl rfl
    · rw [rd_lt (by rw [h.wf.ll]; omega), bind_ok, wr_ge (by omega)]
  rw [this, bind_ub]

theorem make_at (K : Nat) (file : List (BitVec 8)) : (Source.make K file false).At K file 0 := by
  refine ⟨⟨rfl, rfl, rfl, List.length_replicate, List.length_replicate⟩, fun h => by omega, fun _ => ⟨rfl, rfl, ?_, ?_, ?_⟩⟩
  · show 0 = (0 * K + 7) / 8; omega
  · show 0 = 0 * 8 - 0 * K; omega
  · exact fun i hi => absurd hi (Nat.not_lt_zero i)

theorem reset_at {s : Source} {K : Nat} {file : List (BitVec 8)} (h : s.Wf K file false) : s.reset.At K file 0 := by
  refine ⟨⟨h.1, h.2, h.3, h.4, h.5⟩, fun h => by omega, fun _ => ⟨rfl, rfl, ?_, ?_, ?_⟩⟩
  · show 0 = (0 * K + 7) / 8; omega
  · show 0 = 0 * 8 - 0 * K; omega
  · exact fun i hi => absurd hi (Nat.not_lt_zero i)

/-! ### With automatic reset -/

/-- The reading loop with automatic reset: it goes through the file again and again. -/
theorem readLoop_auto {K : Nat} {file : List (BitVec 8)} (hL : 0 < file.length) (needed : Nat) (hn : needed ≤ K) :
    ∀ (fuel : Nat) (s : Source) (nRead : Nat), s.Wf K file true → s.eof = false → s.done = false → s.pos ≤ file.length →
      nRead ≤ needed → needed - nRead + (if s.pos = file.length then 1 else 0) ≤ fuel →
      (s.readLoop fuel needed nRead).Sat fun r => ∃ s', r = some (s', needed) ∧ s'.Wf K file true ∧ s'.eof = false ∧
        s'.done = false ∧ s'.pos ≤ file.length ∧ (s.pos + (needed - nRead)) % file.length = s'.pos % file.length ∧
        s'.nLeft = (if s.pos + (needed - nRead) ≤ file.length then s.nLeft else 0) ∧ s'.left = s.left ∧
        (∀ i : Nat, i < nRead → s'.memblk[i]? = s.memblk[i]?) ∧
        (∀ i : Nat, i < needed - nRead → s'.memblk[nRead + i]? = file[(s.pos + i) % file.length]?) := by
  intro fuel
  induction fuel with
  | zero =>
    intro s nRead hw he hd hp hr hf
    obtain rfl : nRead = needed := by omega
    rw [readLoop_end (Nat.le_refl _), sat_ok, Nat.sub_self, Nat.add_zero, if_pos hp]
    exact ⟨s, rfl, hw, he, hd, hp, rfl, rfl, rfl, fun _ _ => rfl, fun i hi => absurd hi (Nat.not_lt_zero i)⟩
  | succ fuel ih =>
    intro s nRead hw he hd hp hr hf
    by_cases hend : nRead = needed
    · subst hend
      rw [readLoop_end (Nat.le_refl _), sat_ok, Nat.sub_self, Nat.add_zero, if_pos hp]
      exact ⟨s, rfl, hw, he, hd, hp, rfl, rfl, rfl, fun _ _ => rfl, fun i hi => absurd hi (Nat.not_lt_zero i)⟩
    · unfold Source.readLoop
      rw [if_pos (by omega)]
      dsimp only
      refine (read_sat hw he (by omega) hp).bind fun r hr => ?_
      obtain ⟨h1, h2, h3, h4, h5, h6, h7, h8, h9⟩ := hr
      by_cases hlt : r.2 < needed - nRead
      · rw [decide_eq_true hlt] at h4
        rw [if_pos h4, if_pos h2.a]
        have hrp : r.1.reset.pos = 0 := rfl
        have hr2 : r.2 = file.length - s.pos := by omega
        have hfu : needed - (nRead + r.2) + (if r.1.reset.pos = file.length then 1 else 0) ≤ fuel := by
          rw [hrp, if_neg (by omega)]
          by_cases hpl : s.pos = file.length
          · rw [if_pos hpl] at hf; omega
          · omega
        refine (ih r.1.reset (nRead + r.2) ⟨h2.1, h2.2, h2.3, h2.4, h2.5⟩ rfl rfl (Nat.zero_le _) (by omega) hfu).mono
          fun o ho => ?_
        obtain ⟨s', rfl, k1, k2, k3, k4, k5, k6, k7, k8, k9⟩ := ho
        rw [hrp] at k5 k6 k9
        refine ⟨s', rfl, k1, k2, k3, k4, ?_, ?_, by rw [k7]; exact h7, fun i hi => ?_, fun i hi => ?_⟩
        · rw [← k5, show s.pos + (needed - nRead) = 0 + (needed - (nRead + r.2)) + file.length by omega,
            Nat.add_mod_right]
        · rw [if_neg (by omega), k6]
          split <;> rfl
        · rw [k8 i (by omega)]
          exact h8 i hi
        · by_cases hi2 : i < r.2
          · rw [k8 _ (by omega)]
            show r.1.memblk[nRead + i]? = _
            rw [h9 i hi2, Nat.mod_eq_of_lt (by omega)]
          · have := k9 (i - r.2) (by omega)
            rw [show nRead + r.2 + (i - r.2) = nRead + i by omega] at this
            rw [this, show s.pos + i = 0 + (i - r.2) + file.length by omega, Nat.add_mod_right]
      · rw [decide_eq_false hlt] at h4
        have hr2 : r.2 = needed - nRead := by omega
        rw [if_neg (by rw [h4]; decide), readLoop_end (by omega), sat_ok]
        refine ⟨r.1, by rw [show nRead + r.2 = needed by omega], h2, h4, by rw [h5, hd], by omega, by rw [h3, hr2],
          by rw [if_pos (by omega), h6], h7, h8, fun i hi => ?_⟩
        rw [h9 i (by omega), Nat.mod_eq_of_lt (by omega)]

/-- The state of a source with automatic reset after `n` frames. -/
structure Source.Cyc (s : Source) (K : Nat) (file : List (BitVec 8)) (n : Nat) : Prop where
  wf : s.Wf K file true
  nd : s.done = false
  ne : s.eof = false
  le : s.pos ≤ file.length
  po : s.pos % file.length = ((n * K + 7) / 8) % file.length
  nl : s.nLeft = (n * K + 7) / 8 * 8 - n * K
  bits : ∀ i : Nat, i < s.nLeft → s.left[i]? = some (fileBit file ((n * K + i) % (8 * file.length)))

theorem mod_eight (L a : Nat) : (a % (8 * L)) / 8 = a / 8 % L ∧ (a % (8 * L)) % 8 = a % 8 := by
  refine ⟨?_, Nat.mod_mul_right_mod _ _ _⟩
  rw [Nat.mod_mul_right_div_self]

theorem generate_cyc {s : Source} {K : Nat} {file : List (BitVec 8)} {n : Nat} (h : s.Cyc K file n)
    (hL : 0 < file.length) (hK0 : 0 < K) (hK : 8 ∣ K ∨ K ∣ 8 * file.length) (hK2 : K = 4 ∨ 6 ≤ K) {fuel : Nat}
    (hf : K + 1 ≤ fuel) {U : List Int} (hU : U.length = K) :
    ∃ s', s.generate fuel U = ok (some (cyclicSlice file K n, s')) ∧ s'.Cyc K file (n + 1) ∧ s'.isDone = false := by
  have hn1 : (n + 1) * K = n * K + K := by ring
  have hnl := h.nl
  have hl8 : s.nLeft < 8 := by omega
  have hlK : s.nLeft ≤ K := by rw [hnl]; exact left_le hK2 n
  unfold Source.generate
  rw [if_neg (show ¬ s.isDone = true by rw [show s.isDone = s.done from rfl, h.nd]; decide), h.wf.k]
  obtain ⟨U1, e1, h1, h2⟩ := copyLeft_sat (l := s.left) (U := U) (n := s.nLeft) (by rw [h.wf.ll]; omega) (by omega)
  dsimp only
  rw [e1, bind_ok]
  generalize hne : (K + 8 - 1 - s.nLeft) / 8 = needed
  obtain ⟨r, e2, s', rfl, g2, g3, g4, g5, g6, g7, g8, -, g9⟩ := readLoop_auto hL needed (by omega) fuel s 0 h.wf h.ne h.nd
    h.le (Nat.zero_le _) (by split <;> omega)
  rw [e2, bind_ok]
  dsimp only
  rw [Nat.sub_zero] at g6 g7 g9
  simp only [Nat.zero_add] at g9
  -- the bits left by the previous call survive
  have hkeep : s'.nLeft = s.nLeft := by
    rw [g7]
    split
    · rfl
    · rename_i hover
      rcases hK with ⟨q, rfl⟩ | ⟨q, hq⟩
      · have : n * (8 * q) = 8 * (n * q) := by ring
        omega
      · -- a frame never straddles the end of the file
        have hq0 : 0 < q := by
          rcases Nat.eq_zero_or_pos q with rfl | h0
          · rw [Nat.mul_zero] at hq; omega
          · exact h0
        have hmod : (n * K) % (8 * file.length) = (n % q) * K := by
          rw [hq, Nat.mul_comm K q, Nat.mul_mod_mul_right]
        have hlt : n % q < q := Nat.mod_lt _ hq0
        have hle : (n % q) * K + K ≤ 8 * file.length := by
          rw [hq, Nat.mul_comm K q]
          calc (n % q) * K + K = (n % q + 1) * K := by ring
            _ ≤ q * K := Nat.mul_le_mul_right _ hlt
        have hT := Nat.mod_add_div (n * K) (8 * file.length)
        rw [hmod] at hT
        generalize n * K / (8 * file.length) = w at hT
        generalize (n % q) * K = T at hT hle
        have hT' : n * K = T + 8 * (file.length * w) := by rw [← hT]; ring
        have hpos := h.po
        rw [show (n * K + 7) / 8 = (T + 7) / 8 + file.length * w by omega, Nat.add_mul_mod_self_left] at hpos
        have hple := h.le
        -- the position is that of the frame, or the end of the file when the frame is the first one
        by_cases hc : s.pos = file.length
        · rw [hc, Nat.mod_self] at hpos
          have := Nat.div_add_mod ((T + 7) / 8) file.length
          rw [← hpos] at this
          have hd : (T + 7) / 8 / file.length ≤ 1 := by
            rw [Nat.div_le_iff_le_mul_add_pred hL]; omega
          rcases Nat.lt_or_ge ((T + 7) / 8 / file.length) 1 with hd1 | hd1
          · rw [Nat.lt_one_iff.1 hd1] at this
            omega
          · rw [Nat.le_antisymm hd hd1] at this
            omega
        · rw [Nat.mod_eq_of_lt (by omega)] at hpos
          by_cases hc2 : (T + 7) / 8 < file.length
          · rw [Nat.mod_eq_of_lt hc2] at hpos
            omega
          · have : (T + 7) / 8 = file.length := by omega
            omega
  obtain ⟨p, e3, k1, k2, k3, k4, k5, k6, k7, k8⟩ := finish_sat g2 (U := U1) (by omega) (needed := needed)
    (nRead := needed) (b := fun i => file.getD ((s.pos + i) % file.length) 0) (by omega) (by omega) (by rw [hkeep, hne])
    (Nat.le_refl _)
    (fun i hi => by
      have := Nat.mod_lt (s.pos + i) hL
      rw [g9 i hi, List.getElem?_eq_getElem this, getD_lt _ this])
  rw [e3, bind_ok]
  rw [hkeep] at k2 k6 k7 k8
  have hbit : ∀ t, bytesBit (fun i => file.getD ((s.pos + i) % file.length) 0) t =
      fileBit file ((n * K + s.nLeft + t) % (8 * file.length)) := by
    intro t
    have hx := Nat.mod_lt (s.pos + t / 8) hL
    have hb := h.po
    have e : (n * K + s.nLeft + t) / 8 = (n * K + 7) / 8 + t / 8 := by omega
    rw [fileBit_eq (x := file.getD ((s.pos + t / 8) % file.length) 0) (by
      rw [(mod_eight _ _).1, e, Nat.add_mod, ← hb, ← Nat.add_mod, List.getElem?_eq_getElem hx, getD_lt _ hx])]
    unfold bytesBit
    rw [(mod_eight _ _).2, show (n * K + s.nLeft + t) % 8 = t % 8 by omega]
  have hframe : p.1 = cyclicSlice file K n := by
    refine eq_mapRange k1 fun j hj => ?_
    rw [k2 j hj]
    by_cases c1 : j < s.nLeft
    · rw [if_pos c1, h2 j c1, h.bits j c1]
    · rw [if_neg c1, if_pos (by omega), hbit]
      congr 3; omega
  have hdone : p.2.done = false := by
    rw [k8, g4]
    simp
  refine ⟨p.2, by rw [← hframe], ⟨k3, hdone, by rw [k5, g3], by rw [k4]; exact g5, ?_, ?_, fun i hi => ?_⟩, hdone⟩
  · rw [k4, ← g6, Nat.add_mod, h.po, ← Nat.add_mod]
    congr 1; omega
  · rw [k6]; omega
  · rw [k7 i hi, hbit]
    congr 3; omega

theorem make_cyc (K : Nat) (file : List (BitVec 8)) : (Source.make K file true).Cyc K file 0 := by
  refine ⟨⟨rfl, rfl, rfl, List.length_replicate, List.length_replicate⟩, rfl, rfl, Nat.zero_le _, ?_, ?_, ?_⟩
  · rw [Nat.zero_mul]; rfl
  · rw [Nat.zero_mul]; rfl
  · exact fun i hi => absurd hi (Nat.not_lt_zero i)

theorem reset_cyc {s : Source} {K : Nat} {file : List (BitVec 8)} (h : s.Wf K file true) : s.reset.Cyc K file 0 := by
  refine ⟨⟨h.1, h.2, h.3, h.4, h.5⟩, rfl, rfl, Nat.zero_le _, ?_, ?_, ?_⟩
  · rw [Nat.zero_mul]; rfl
  · rw [Nat.zero_mul]; rfl
  · exact fun i hi => absurd hi (Nat.not_lt_zero i)

/-- With automatic reset, the loop never ends on an empty file. -/
theorem readLoop_empty (needed : Nat) (hn : 0 < needed) : ∀ (fuel : Nat) (s : Source), s.file = [] → s.autoReset = true →
    s.readLoop fuel needed 0 = ok none := by
  intro fuel
  induction fuel with
  | zero => intro s _ _; unfold Source.readLoop; rw [if_pos hn]
  | succ fuel ih =>
    intro s hf ha
    unfold Source.readLoop
    rw [if_pos hn]
    dsimp only
    unfold Source.read
    by_cases he : s.eof = true
    · rw [if_pos he, bind_ok]
      dsimp only
      rw [if_pos he, if_pos ha]
      exact ih _ hf ha
    · rw [if_neg he, hf]
      simp only [List.length_nil, Nat.zero_sub, Nat.min_zero, copyTo, forN_zero, bind_ok, Nat.sub_zero, hn, decide_true,
        if_true, ha, Nat.add_zero]
      exact ih _ rfl rfl

end Verif.BitFile
