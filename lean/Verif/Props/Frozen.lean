import Mathlib.Tactic.Ring
import Mathlib.Algebra.BigOperators.Ring.List
import Verif.Proof.Frozen

/-!
# C121–C122: frozen bits of polar codes

`true` is a frozen bit, `false` an information bit.  `l` is the order in which the channels are chosen: `l.Perm (List.range N)`
says that it contains each channel once.
-/

namespace Verif.Frozen
open Exec AList

/-- When the evaluation orders the channels, the information bits are exactly the `K` first ones, whatever the vector contained and
whatever the generator computed before, and the result is accepted by `fb_assert`. -/
theorem C121_generate {K N : Nat} (hK : K ≤ N) {old l : List Nat} {ev : List Nat → Exec (List Nat)} (he : ev old = ok l)
    (hl : l.Perm (List.range N)) {fb : List Bool} (hf : fb.length = N) :
    ∃ fb', Gen.generate ⟨K, N, old⟩ ev fb = ok (⟨K, N, l⟩, fb') ∧ fb'.length = N ∧
      (∀ c, c < N → (fb'[c]? = some false ↔ c ∈ l.take K)) ∧ fb'.countP (fun b => b == false) = K ∧ fbAssert fb' K N = ok () := by
  have hlen : l.length = N := by simpa using hl.length_eq
  obtain ⟨fb', e, h1, h2⟩ := mark_sat (l := l) (N := N) (k := K) (fun c hc => List.mem_range.1 (hl.mem_iff.1 hc)) (by omega)
  have hc : fb'.countP (fun b => b == false) = K := by
    rw [count_info h1 ((hl.nodup_iff.2 List.nodup_range).sublist (List.take_sublist K l))
      (fun c hc => List.mem_range.1 (hl.mem_iff.1 (List.mem_of_mem_take hc))) h2, List.length_take]
    omega
  refine ⟨fb', ?_, h1, fun c hc => ?_, hc, ?_⟩
  · unfold Gen.generate
    rw [if_neg (by simp [hf])]
    simp only [he, bind_ok, hf, Int.toNat_natCast, e]
  · rw [h2 c hc]
    simp
  · unfold fbAssert
    rw [if_neg (by simp [h1]), hc, if_neg (by simp)]

/-- With the same order, the information bits for `K` are information bits for every larger `K'`. -/
theorem C121_nested {K K' N : Nat} (hK : K ≤ K') (hK' : K' ≤ N) {old l : List Nat} {ev : List Nat → Exec (List Nat)}
    (he : ev old = ok l) (hl : l.Perm (List.range N)) {fb fb' : List Bool} (hf : fb.length = N) (hf' : fb'.length = N) :
    ∃ a b, Gen.generate ⟨K, N, old⟩ ev fb = ok (⟨K, N, l⟩, a) ∧ Gen.generate ⟨K', N, old⟩ ev fb' = ok (⟨K', N, l⟩, b) ∧
      ∀ c : Nat, a[c]? = some false → b[c]? = some false := by
  obtain ⟨a, e, a1, a2, -⟩ := C121_generate (Nat.le_trans hK hK') he hl hf
  obtain ⟨b, e', b1, b2, -⟩ := C121_generate hK' he hl hf'
  refine ⟨a, b, e, e', fun c hc => ?_⟩
  have hlt : c < N := by
    rw [← a1]
    exact (List.getElem?_eq_some_iff.1 hc).1
  rw [b2 c hlt]
  exact (List.take_subset_take_left l hK) ((a2 c hlt).1 hc)

example : (List.range 4).Perm (List.range 4) ∧ Gen.generate ⟨2, 4, [9, 9, 9, 9]⟩ (fun _ => ok [3, 1, 2, 0]) [false, false, true, true] =
    ok (⟨2, 4, [3, 1, 2, 0]⟩, [true, false, true, false]) ∧ [3, 1, 2, 0].Perm (List.range 4) := by decide +kernel

/-- A vector of another size is refused. -/
theorem C121_size {g : Gen} {ev : List Nat → Exec (List Nat)} {fb : List Bool} (h : (fb.length : Int) ≠ g.N) :
    g.generate ev fb = exc .lengthError := by
  unfold Gen.generate
  rw [if_pos h]

/-- `fb_assert` accepts exactly the vectors of `N` bits with `K` information bits. -/
theorem C121_assert (fb : List Bool) (K N : Int) :
    fbAssert fb K N = ok () ↔ (fb.length : Int) = N ∧ (fb.count false : Int) = K := by
  unfold fbAssert
  rw [List.count]
  split
  · simp; omega
  · split
    · rename_i h1 h2
      simp only [reduceCtorEq, false_iff, not_and]
      exact fun _ h => h2 h.symm
    · rename_i h1 h2
      simp only [true_iff]
      omega

/-- Channels that were dumped to a file are read back, whatever the vector contained. -/
theorem C121_file {N : Nat} (hN : N < 2 ^ 31) {l old : List Nat} (hl : l.Perm (List.range N)) (ho : old.length = N) :
    evalFile (some (dump N l)) old = ok l := by
  have hlen : l.length = N := by simpa using hl.length_eq
  have hb : ∀ c ∈ l, c < 2 ^ 32 := fun c hc => by
    have := List.mem_range.1 (hl.mem_iff.1 hc)
    omega
  have e : load (some (dump N l)) old = ok (some l) := by
    show (if (N : Int) ≠ old.length then _ else _) = _
    rw [if_neg (by rw [ho]; simp)]
    have := readVals_all l old [] (by omega) hb
    rw [List.append_nil] at this
    show ok (some (readVals old (l.map fun (c : Nat) => Word.num c))) = _
    rw [this]
  unfold evalFile
  rw [e]
  rfl

/-- From a file that orders the 1024 mother channels, the 5G generator keeps the channels smaller than `N` in the same order: each
of them is there once. -/
theorem C121_5G {N : Nat} (hN : N ≤ 1024) {mother old : List Nat} (hm : mother.Perm (List.range 1024)) (ho : old.length = N) :
    eval5G (some (dump 1024 mother)) N old = ok (mother.filter fun c => decide (c < N)) ∧
    (mother.filter fun c => decide (c < N)).Perm (List.range N) := by
  have hp : (mother.filter fun c => decide (c < N)).Perm (List.range N) := by
    refine (List.perm_ext_iff_of_nodup ((hm.nodup_iff.2 List.nodup_range).filter _) List.nodup_range).2 fun c => ?_
    simp only [List.mem_filter, hm.mem_iff, List.mem_range, decide_eq_true_eq]
    omega
  have hl : (mother.filter fun c => decide (c < N)).length = N := by simpa using hp.length_eq
  refine ⟨?_, hp⟩
  have hlen : mother.length = 1024 := by simpa using hm.length_eq
  have hb : ∀ c ∈ mother, c < 2 ^ 32 := fun c hc => by
    have := List.mem_range.1 (hm.mem_iff.1 hc)
    omega
  have e : load (some (dump 1024 mother)) (List.replicate 1024 0) = ok (some mother) := by
    have h0 : (List.replicate 1024 0).length = 1024 := List.length_replicate
    generalize List.replicate 1024 0 = z at h0
    have := readVals_all mother z [] (by rw [h0, hlen]) hb
    rw [List.append_nil] at this
    unfold dump load
    dsimp only
    rw [if_neg (by rw [h0]; simp)]
    show ok (some (readVals z (mother.map fun (c : Nat) => Word.num c))) = _
    rw [this]
  have e2 := pick_ok N mother [] old (by omega)
  rw [List.length_nil, List.nil_append, hl, Nat.zero_add, List.nil_append, List.drop_eq_nil_of_le (by omega), List.append_nil] at e2
  unfold eval5G
  rw [e, bind_ok]
  dsimp only
  rw [e2, bind_ok]
  simp

/-- The 5G generator followed by the choice of the `K` first channels, for every length up to 1024. -/
theorem C121_5G_generate {K N : Nat} (hK : K ≤ N) (hN : N ≤ 1024) {mother old : List Nat} (hm : mother.Perm (List.range 1024))
    (ho : old.length = N) {fb : List Bool} (hf : fb.length = N) :
    ∃ fb', Gen.generate ⟨K, N, old⟩ (eval5G (some (dump 1024 mother)) N) fb =
        ok (⟨K, N, mother.filter fun c => decide (c < N)⟩, fb') ∧ fb'.count false = K := by
  obtain ⟨e, hp⟩ := C121_5G hN hm ho
  obtain ⟨fb', h1, -, -, h2, -⟩ := C121_generate hK e hp hf
  exact ⟨fb', h1, h2⟩

example : (List.range 1024).reverse.Perm (List.range 1024) ∧ mk5G? 3 8 = ok ⟨3, 8, List.range 8⟩ :=
  ⟨List.reverse_perm _, by decide +kernel⟩

/-- For a length that is a power of two the BEC generator computes the quality of each polarised channel, whatever its buffer
contained. -/
theorem C121_BEC {α : Type} (fm fp : α → α) (m : Nat) (x : α) (z : List α) (hz : z.length = 2 ^ m) :
    polarBEC fm fp (2 ^ m) x z = ok ((List.range (2 ^ m)).map (chan fm fp m x)) := by
  unfold polarBEC
  have hp : 0 < 2 ^ m := Nat.pow_pos (by omega)
  rw [wr_lt (by omega), bind_ok, Nat.log2_two_pow]
  obtain ⟨z', e, h1, h2⟩ := stages_sat (fm := fm) (fp := fp) (idx := fun l k => k * 2 ^ m / 2 ^ (l + 1)) (m := m) (z := z.set 0 x) (x := x)
    (fun l k hl _ => by
      have : 2 ^ m = 2 ^ (m - (l + 1)) * 2 ^ (l + 1) := by rw [← Nat.pow_add]; congr 1; omega
      show k * 2 ^ m / _ = _
      rw [this, ← Nat.mul_assoc, Nat.mul_div_cancel _ (Nat.pow_pos (by omega))])
    (by simpa using hz) (by rw [List.getElem?_set_self (by omega)])
  rw [e]
  congr 1
  refine List.ext_getElem? fun i => ?_
  by_cases hi : i < 2 ^ m
  · rw [h2 i hi, List.getElem?_map, List.getElem?_range hi]
    rfl
  · rw [List.getElem?_eq_none (by omega), List.getElem?_eq_none (by simpa using hi)]

/-- The same for the Gaussian approximation. -/
theorem C121_GA {α : Type} (fm fp : α → α) (m : Nat) (x : α) :
    polarGA fm fp (2 ^ m) x = ok ((List.range (2 ^ m)).map (chan fm fp m x)) := by
  unfold polarGA
  rw [Nat.log2_two_pow]
  have hp : 0 < 2 ^ m := Nat.pow_pos (by omega)
  obtain ⟨z', e, h1, h2⟩ := stages_sat (fm := fm) (fp := fp) (idx := fun l k => k * 2 ^ (m - (l + 1))) (m := m)
    (z := List.replicate (2 ^ m) x) (x := x) (fun l k _ _ => rfl) (by simp) (by rw [List.getElem?_replicate, if_pos hp])
  rw [e]
  congr 1
  refine List.ext_getElem? fun i => ?_
  by_cases hi : i < 2 ^ m
  · rw [h2 i hi, List.getElem?_map, List.getElem?_range hi]
    rfl
  · rw [List.getElem?_eq_none (by omega), List.getElem?_eq_none (by simpa using hi)]

example : polarBEC (fun x : Int => 2 * x) (fun x => x + 1) 8 1 [7, 7, 7, 7, 7, 7, 7, 7] = ok [8, 5, 6, 4, 8, 5, 6, 4] := by decide +kernel

/-- When the qualities are sorted, every information channel is at least as good as every frozen channel. -/
theorem C121_best {α : Type} {sort : (Nat → Nat → Bool) → List Nat → List Nat} {better : α → α → Bool} {q : Nat → α} {K N : Nat}
    (hK : K ≤ N) (hs : ∀ c : Nat → Nat → Bool, (∀ a b, a < N → b < N → c a b = better (q a) (q b)) →
      (sort c (List.range N)).Perm (List.range N) ∧ (sort c (List.range N)).Pairwise fun a b => better (q b) (q a) = false)
    {old : List Nat} {fb : List Bool} (hf : fb.length = N) :
    ∃ l fb', Gen.generate ⟨K, N, old⟩ (fun _ => sortBy sort better ((List.range N).map q) N) fb = ok (⟨K, N, l⟩, fb') ∧
      fb'.count false = K ∧ ∀ i j : Nat, fb'[i]? = some false → fb'[j]? = some true → better (q j) (q i) = false := by
  obtain ⟨h1, h2⟩ := hs (cmp better ((List.range N).map q)) (fun a b ha hb => by
    simp only [cmp, List.getElem?_map, List.getElem?_range ha, List.getElem?_range hb, Option.map_some])
  have e : sortBy sort better ((List.range N).map q) N = ok (sort (cmp better ((List.range N).map q)) (List.range N)) := by
    unfold sortBy
    rw [if_neg (by simp)]
  generalize sort _ _ = l at h1 h2 e
  obtain ⟨fb', g1, g2, g3, g4, -⟩ :=
    C121_generate (ev := fun _ => sortBy sort better ((List.range N).map q) N) (old := old) hK e h1 hf
  refine ⟨l, fb', g1, g4, fun i j hi hj => ?_⟩
  have li : i < N := by rw [← g2]; exact (List.getElem?_eq_some_iff.1 hi).1
  have lj : j < N := by rw [← g2]; exact (List.getElem?_eq_some_iff.1 hj).1
  have mi := (g3 i li).1 hi
  have mj : j ∈ l.drop K := by
    have : j ∈ l.take K ++ l.drop K := by
      rw [List.take_append_drop]
      exact h1.mem_iff.2 (List.mem_range.2 lj)
    rcases List.mem_append.1 this with h | h
    · rw [(g3 j lj).2 h] at hj
      cases hj
    · exact h
  rw [← List.take_append_drop K l, List.pairwise_append] at h2
  exact h2.2.2 i mi j mj

example : ∀ c : Nat → Nat → Bool, (∀ a b, a < 4 → b < 4 → c a b = decide ([8, 5, 6, 4].getD a 0 < [8, 5, 6, 4].getD b 0)) →
    ((fun (_ : Nat → Nat → Bool) (_ : List Nat) => [3, 1, 2, 0]) c (List.range 4)).Perm (List.range 4) ∧
    ((fun (_ : Nat → Nat → Bool) (_ : List Nat) => [3, 1, 2, 0]) c (List.range 4)).Pairwise fun a b =>
      decide ([8, 5, 6, 4].getD b 0 < [8, 5, 6, 4].getD a 0) = false := by
  have h : [3, 1, 2, 0].Perm (List.range 4) ∧ [3, 1, 2, 0].Pairwise fun a b =>
      decide ([8, 5, 6, 4].getD b 0 < [8, 5, 6, 4].getD a 0) = false := by decide +kernel
  exact fun _ _ => h

/-- Whatever the arithmetic, if `e` turns qualities into erasure probabilities on which the transforms act as `2 p - p ^ 2` and
`p ^ 2`, then the mean of the erasure probabilities of the channels is the erasure probability of the symbols. -/
theorem C121_BEC_mean {α R : Type} [CommRing R] (fm fp : α → α) (e : α → R) (hm : ∀ t, e (fm t) = 2 * e t - e t ^ 2)
    (hp : ∀ t, e (fp t) = e t ^ 2) (m : Nat) (x : α) (z : List α) (hz : z.length = 2 ^ m) :
    (polarBEC fm fp (2 ^ m) x z).Sat fun z' => (z'.map e).sum = 2 ^ m * e x := by
  rw [C121_BEC fm fp m x z hz, sat_ok]
  clear hz z
  have key : ∀ (n : Nat) (f : Nat → R), ((List.range (2 * n)).map f).sum =
      ((List.range n).map fun i => f (2 * i) + f (2 * i + 1)).sum := by
    intro n f
    induction n with
    | zero => rfl
    | succ n ih =>
      rw [show 2 * (n + 1) = 2 * n + 1 + 1 by omega, List.range_succ, List.range_succ, List.range_succ (n := n)]
      simp only [List.map_append, List.sum_append, List.map_cons, List.map_nil, List.sum_cons, List.sum_nil, ih, add_zero]
      ring
  induction m with
  | zero => simp [chan]
  | succ m ih =>
    rw [List.map_map] at ih ⊢
    rw [Nat.pow_succ', key]
    have : ∀ i, (e ∘ chan fm fp (m + 1) x) (2 * i) + (e ∘ chan fm fp (m + 1) x) (2 * i + 1) = 2 * (e ∘ chan fm fp m x) i := by
      intro i
      simp only [Function.comp, chan, Nat.mul_mod_right, if_true, Nat.mul_add_mod, Nat.mul_div_cancel_left i (show 0 < 2 by omega),
        show (2 * i + 1) / 2 = i by omega]
      rw [if_neg (by omega), hm, hp]
      ring
    simp only [this]
    rw [List.sum_map_mul_left, ih, pow_succ]
    ring

example : (polarBEC (fun x : Int => 2 * x - x ^ 2) (fun x => x ^ 2) 4 3 [0, 0, 0, 0]).Sat fun z => (z.map id).sum = 2 ^ 2 * 3 := by
  exact C121_BEC_mean _ _ id (fun _ => rfl) (fun _ => rfl) 2 3 _ rfl

/-! ## Defects -/

/-- The constructor accepts more information bits than channels; `generate` then reads past the end of the channels, for every
evaluation that orders the channels. -/
theorem C122_too_many {K N : Nat} (hK : N < K) {old l : List Nat} {ev : List Nat → Exec (List Nat)} (he : ev old = ok l)
    (hl : l.Perm (List.range N)) {fb : List Bool} (hf : fb.length = N) :
    mk? K N = ok ⟨K, N, List.range N⟩ ∧ Gen.generate ⟨K, N, old⟩ ev fb = ub := by
  refine ⟨by unfold mk?; rw [if_neg (by omega)]; rfl, ?_⟩
  have hlen : l.length = N := by simpa using hl.length_eq
  obtain ⟨fb', e, -, -⟩ := mark_sat (l := l) (N := N) (k := N) (fun c hc => List.mem_range.1 (hl.mem_iff.1 hc)) (by omega)
  unfold Gen.generate
  rw [if_neg (by simp [hf])]
  simp only [he, bind_ok, hf, Int.toNat_natCast]
  rw [show K = N + 1 + (K - N - 1) by omega, forN_add, forN_succ, e, bind_ok, rd_ge (by omega)]
  rfl

/-- A negative number of information bits is accepted, all the bits are frozen. -/
theorem C122_negative : (mk? (-1) 4 >>= fun g => g.generate ok [false, false, false, false]) =
    ok (⟨-1, 4, [0, 1, 2, 3]⟩, [true, true, true, true]) := by decide +kernel

/-- A file that ends after `cs` is accepted: the channels it does not give are those that the vector contained. -/
theorem C122_truncated {N : Nat} {cs old : List Nat} (hc : ∀ c ∈ cs, c < 2 ^ 32) (hl : cs.length ≤ N) (ho : old.length = N) :
    evalFile (some (dump N cs)) old = ok (cs ++ old.drop cs.length) := by
  have e : load (some (dump N cs)) old = ok (some (cs ++ old.drop cs.length)) := by
    unfold dump load
    dsimp only
    rw [if_neg (by rw [ho]; simp)]
    show ok (some (readVals old (cs.map fun (c : Nat) => Word.num c))) = _
    rw [readVals_short cs old (by omega) hc]
  unfold evalFile
  rw [e]
  rfl

/-- A file that gives a channel twice, or that is cut after its first channel, is accepted: there is one information bit instead
of two; a file that gives a channel out of range makes `generate` write past the end of the vector. -/
theorem C122_file :
    (mk? 2 4 >>= fun g => g.generate (evalFile (some (dump 4 [3, 3, 2, 1]))) [true, true, true, true]) =
      ok (⟨2, 4, [3, 3, 2, 1]⟩, [true, true, true, false]) ∧
    (mk? 2 4 >>= fun g => g.generate (evalFile (some (dump 4 [1]))) [true, true, true, true]) =
      ok (⟨2, 4, [1, 1, 2, 3]⟩, [true, false, true, true]) ∧
    (mk? 2 4 >>= fun g => g.generate (evalFile (some (dump 4 [3, 4, 2, 1]))) [true, true, true, true]) = ub := by decide +kernel

/-- With a mother file that gives too many small channels, the 5G generator writes past the end of its vector before it tests the
number of channels. -/
theorem C122_5G_ub : eval5G (some (dump 1024 (List.replicate 1024 0))) 1 [0] = ub := by decide +kernel

/-- The lengths that are not powers of two are accepted by the constructors; the computation of the channels is then out of
bounds: always for the Gaussian approximation, here for the BEC with 6 channels. -/
theorem C122_length {α : Type} (sort : (Nat → Nat → Bool) → List Nat → List Nat) (better : α → α → Bool) (fm fp : α → α) (x : α) :
    (∀ N, 2 ^ Nat.log2 N < N → (polarGA fm fp N x >>= fun z => sortBy sort better z N) = ub) ∧
    polarBEC fm fp 6 x [x, x, x, x] = ub ∧ ∃ g, mk? 3 6 = ok g := by
  refine ⟨fun N hN => ?_, rfl, ⟨_, rfl⟩⟩
  unfold polarGA
  obtain ⟨z', e, h1, -⟩ := stages_sat (fm := fm) (fp := fp) (idx := fun l k => k * 2 ^ (Nat.log2 N - (l + 1))) (m := Nat.log2 N)
    (z := List.replicate (2 ^ Nat.log2 N) x) (x := x) (fun l k _ _ => rfl) (by simp)
    (by rw [List.getElem?_replicate, if_pos (Nat.pow_pos (by omega))])
  rw [e, bind_ok]
  unfold sortBy
  have : 0 < 2 ^ Nat.log2 N := Nat.pow_pos (by omega)
  rw [if_pos ⟨by omega, by omega⟩]

example : 2 ^ Nat.log2 12 < 12 := by decide +kernel

end Verif.Frozen
