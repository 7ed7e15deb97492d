import Verif.Proof.PolarFastExact

/-! # Exact arithmetic: fast decoding is successive cancellation (nodes) -/

namespace Verif.PolarFast
open Exec Verif.PolarSC Verif.Polar

variable {w : Nat}

theorem word_zero : word (0 : BitVec w) = 0 := if_pos rfl

theorem word_one (h10 : (1 : BitVec w) ≠ 0) : word (1 : BitVec w) = bitInit w := if_neg h10

theorem word_xor (hh : bitInit w ≠ 0) (h10 : (1 : BitVec w) ≠ 0) {a b : BitVec w} (ha : a = 0 ∨ a = 1) (hb : b = 0 ∨ b = 1) : word (a ^^^ b) = word a ^^^ word b := by
  rcases ha with rfl | rfl <;> rcases hb with rfl | rfl <;> simp [word, h10]

theorem word_xors (hh : bitInit w ≠ 0) (h10 : (1 : BitVec w) ≠ 0) : ∀ {x y : List (BitVec w)}, Bits x → Bits y →
    List.zipWith (· ^^^ ·) (x.map word) (y.map word) = (List.zipWith (· ^^^ ·) x y).map word
  | [], _, _, _ => rfl
  | _ :: _, [], _, _ => rfl
  | a :: x, b :: y, hx, hy => by
    simp only [List.map_cons, List.zipWith_cons_cons]
    rw [word_xors hh h10 (fun c hc => hx c (List.mem_cons_of_mem _ hc)) (fun c hc => hy c (List.mem_cons_of_mem _ hc)), word_xor hh h10 (hx a List.mem_cons_self) (hy b List.mem_cons_self)]

theorem word_zero_iff (hh : bitInit w ≠ 0) (b : BitVec w) : word b = 0 ↔ b = 0 := by
  unfold word
  by_cases h : b = 0
  · rw [if_pos h]; exact ⟨fun _ => h, fun _ => rfl⟩
  · rw [if_neg h]; exact ⟨fun e => absurd e hh, fun e => absurd e h⟩

theorem zip3_word {R : Type} {g : R → R → BitVec w → R} (hg : ∀ a b u, g a b (word u) = g a b u) : ∀ (a b : List R) (x : List (BitVec w)), zip3 g a b (x.map word) = zip3 g a b x
  | [], _, _ => rfl
  | _ :: _, [], _ => rfl
  | _ :: _, _ :: _, [] => rfl
  | a :: as, b :: bs, x :: xs => by
    have := zip3_word hg as bs xs
    simp only [zip3, List.map_cons, List.zip_cons_cons, List.zipWith_cons_cons, hg] at this ⊢
    rw [this]

theorem flip_word (h10 : (1 : BitVec w) ≠ 0) (hh : bitInit w ≠ 0) {b : BitVec w} (hb : b = 0 ∨ b = 1) : flip (word b) = word (b ^^^ 1) := by
  rcases hb with rfl | rfl
  · rw [word_zero, show (0 : BitVec w) ^^^ 1 = 1 from BitVec.zero_xor, word_one h10]; exact if_pos rfl
  · rw [word_one h10, BitVec.xor_self]; exact (if_neg hh).trans word_zero.symm

theorem map_h (h10 : (1 : BitVec w) ≠ 0) (y : List Int) : y.map (hInt w) = (sg y).map word := by
  unfold sg
  rw [List.map_map]
  apply List.map_congr_left
  intro v _
  rw [hInt_eq, Function.comp_apply]
  by_cases h : v < 0
  · rw [if_pos h, if_pos h, word_one h10]
  · rw [if_neg h, if_neg h, word_zero]

/-! ## The scan of a single parity check -/

/-- What the scan computes: the least magnitude, its position, the parity of the signs. -/
def ScanOk (T : Int) (y : List Int) (p : Int × Option Nat × Bool) : Prop :=
  ((y = [] ∧ p.1 = T ∧ p.2.1 = none) ∨ ∃ q v, p.2.1 = some q ∧ y[q]? = some v ∧ p.1 = mg v ∧ ∀ z ∈ y, mg v ≤ mg z) ∧
    xorAll (sg (w := w) y) = if p.2.2 then 1 else 0

theorem scan_ok (h10 : (1 : BitVec w) ≠ 0) (hh : bitInit w ≠ 0) {T : Int} (y : List Int) (hT : ∀ v ∈ y, mg v < T) : ScanOk (w := w) T y (spcScan (exA (w := w) T) y) := by
  induction y using List.reverseRecOn with
  | nil => exact ⟨Or.inl ⟨rfl, rfl, rfl⟩, rfl⟩
  | append_singleton y x ih =>
    have ih := ih fun v hv => hT v (List.mem_append_left _ hv)
    have hx := hT x (by simp)
    rw [spcScan_snoc]
    obtain ⟨i1, i2⟩ := ih
    generalize spcScan (exA (w := w) T) y = p at i1 i2
    have hn : decide ((exA (w := w) T).fns.h x ≠ 0) = decide (x < 0) := by
      show decide (hInt w x ≠ 0) = _
      rw [hInt_eq]
      by_cases h : x < 0
      · rw [if_pos h]; simp only [h, hh, ne_eq, not_false_eq_true]
      · rw [if_neg h]; simp [h]
    have hm : (exA (w := w) T).smul (decide (x < 0)) x = mg x := by
      show smulInt _ x = _
      unfold smulInt mg
      by_cases h : x < 0
      · simp only [h, decide_true, if_true]; omega
      · simp only [h, decide_false, Bool.false_eq_true, if_false]; omega
    have hpar : xorAll (sg (w := w) (y ++ [x])) = if (p.2.2 ^^ decide (x < 0)) then 1 else 0 := by
      have : sg (w := w) (y ++ [x]) = sg y ++ [if x < 0 then 1 else 0] := by simp [sg]
      rw [this, xorAll_append, i2]
      by_cases h : x < 0 <;> cases p.2.2 <;> simp [h, xorAll]
    have hstep : spcStep (exA (w := w) T) p (x, y.length) = if p.1 > mg x then (mg x, some y.length, p.2.2 ^^ decide (x < 0)) else (p.1, p.2.1, p.2.2 ^^ decide (x < 0)) := by
      unfold spcStep
      simp only [hn, hm]
      show (if decide (p.1 > mg x) = true then _ else _) = _
      simp only [decide_eq_true_eq]
    rw [hstep]
    have hlast : (y ++ [x])[y.length]? = some x := by simp
    by_cases hc : p.1 > mg x
    · rw [if_pos hc]
      refine ⟨Or.inr ⟨y.length, x, rfl, hlast, rfl, ?_⟩, hpar⟩
      intro z hz
      rcases List.mem_append.1 hz with hz | hz
      · rcases i1 with ⟨rfl, _, _⟩ | ⟨q, v, _, _, h3, h4⟩
        · cases hz
        · have := h4 z hz; omega
      · rw [List.mem_singleton.1 hz]
    · rw [if_neg hc]
      rcases i1 with ⟨_, h1, _⟩ | ⟨q, v, h1, h2, h3, h4⟩
      · omega
      · refine ⟨Or.inr ⟨q, v, h1, ?_, h3, ?_⟩, hpar⟩
        · obtain ⟨hq, _⟩ := List.getElem?_eq_some_iff.1 h2
          rw [List.getElem?_append_left hq, h2]
        · intro z hz
          rcases List.mem_append.1 hz with hz | hz
          · exact h4 z hz
          · rw [List.mem_singleton.1 hz]; omega

/-! ## Flipping a bit -/

theorem xorAll_modify : ∀ {x : List (BitVec w)} {p : Nat}, p < x.length → xorAll (x.modify p (· ^^^ 1)) = xorAll x ^^^ 1
  | [], _, h => by simp at h
  | a :: x, 0, _ => by
    simp only [List.modify_zero_cons, xorAll, List.foldr_cons]
    rw [BitVec.xor_assoc, BitVec.xor_comm 1, ← BitVec.xor_assoc]
  | a :: x, p + 1, h => by
    have := xorAll_modify (x := x) (p := p) (by simpa using h)
    simp only [List.modify_succ_cons, xorAll, List.foldr_cons] at this ⊢
    rw [this, BitVec.xor_assoc]

theorem corr_flip (h10 : (1 : BitVec w) ≠ 0) : ∀ {y : List Int} {p : Nat} {v : Int}, y[p]? = some v → corr ((sg (w := w) y).modify p (· ^^^ 1)) y = tot y - 2 * mg v
  | [], _, _, h => by simp at h
  | z :: y, 0, v, h => by
    simp only [List.getElem?_cons_zero, Option.some.injEq] at h
    subst h
    have h1 := corr_sg h10 y
    simp only [sg, List.map_cons, List.modify_zero_cons] at h1 ⊢
    rw [corr_cons, h1]
    simp only [tot, List.map_cons, List.sum_cons, mg]
    by_cases h : z < 0
    · simp only [h, if_true, BitVec.xor_self]
      rw [if_pos (show (0#w) = 0 from rfl)]; omega
    · simp only [h, if_false, BitVec.zero_xor]
      rw [if_neg (by simpa using h10)]; omega
  | z :: y, p + 1, v, h => by
    have h1 := corr_flip h10 (y := y) (p := p) (v := v) (by simpa using h)
    simp only [sg, List.map_cons, List.modify_succ_cons] at h1 ⊢
    rw [corr_cons, h1]
    simp only [tot, List.map_cons, List.sum_cons, mg]
    by_cases h : z < 0
    · simp only [h, if_true]
      rw [if_neg h10]; omega
    · simp only [h, if_false, if_true]; omega

theorem modify_bits {x : List (BitVec w)} {p : Nat} (hx : Bits x) : Bits (x.modify p (· ^^^ 1)) := by
  intro b hb
  obtain ⟨i, hi⟩ := List.mem_iff_getElem?.1 hb
  rw [List.getElem?_modify] at hi
  simp only [Option.map_eq_map, Option.map_eq_some_iff] at hi
  obtain ⟨c, hc, rfl⟩ := hi
  have := hx c (List.mem_of_getElem? hc)
  split
  · rcases this with rfl | rfl <;> simp
  · exact this

theorem map_modify {x : List (BitVec w)} {p : Nat} (h10 : (1 : BitVec w) ≠ 0) (hh : bitInit w ≠ 0) (hx : Bits x) : (x.map word).modify p flip = (x.modify p (· ^^^ 1)).map word := by
  apply List.ext_getElem?
  intro i
  rw [List.getElem?_modify, List.getElem?_map, List.getElem?_map, List.getElem?_modify]
  cases hi : x[i]? with
  | none => rfl
  | some c =>
    simp only [Option.map_eq_map, Option.map_some]
    split
    · rw [flip_word h10 hh (hx c (List.mem_of_getElem? hi))]
    · rfl

/-- Two words of bits of different parities differ at some index. -/
theorem ne_of_parity {x z : List (BitVec w)} (hl : x.length = z.length) (h : xorAll x ≠ xorAll z) : ∃ j, j < x.length ∧ x[j]? ≠ z[j]? := by
  by_contra hn
  apply h
  congr 1
  apply List.ext_getElem?
  intro j
  by_cases hj : j < x.length
  · by_contra hc; exact hn ⟨j, hj, hc⟩
  · rw [List.getElem?_eq_none (by omega), List.getElem?_eq_none (by omega)]

section
variable (h10 : (1 : BitVec w) ≠ 0) (hh : bitInit w ≠ 0)
include h10 hh

theorem spc_exact {k : Nat} {y : List Int} {T : Int} (hy : y.length = 2 ^ k) (hT : ∀ v ∈ y, mg v < T) (ht : noTie w k (expand (.spc, 2 ^ k)) y) :
    term (exA (w := w) T) .spc y = some ((polarTransform k (sc ex k (expand (.spc, 2 ^ k)) y)).map word) := by
  obtain ⟨s1, s2⟩ := scan_ok h10 hh y hT
  have hpos := Nat.two_pow_pos k
  have hf0 : (expand (.spc, 2 ^ k))[0]? = some true := rfl
  have hfl : (expand (.spc, 2 ^ k)).length = 2 ^ k := expand_length (c := (.spc, 2 ^ k)) rfl hpos
  have lsg : (sg (w := w) y).length = 2 ^ k := by simp [sg, hy]
  have bsg : Bits (sg (w := w) y) := sg_bits h10 hh y
  -- an even word of largest correlation is that of the decoder
  have key : ∀ {r : List (BitVec w)}, r.length = 2 ^ k → Bits r → xorAll r = 0 → (∀ x : List (BitVec w), x.length = 2 ^ k → Bits x → xorAll x = 0 → corr x y ≤ corr r y) →
      polarTransform k (sc ex k (expand (.spc, 2 ^ k)) y) = r := by
    intro r hr br er hmax
    by_cases e : polarTransform k r = sc ex k (expand (.spc, 2 ^ k)) y
    · rw [← e, transform_invol hr]
    · have h1 := ml h10 hh (good_spc k) hy ht (polarTransform_length _ _) (transform_bits hr br) ?_ e
      · rw [transform_invol hr] at h1
        have hlen := sc_length (ex (w := w)) k (expand (.spc, 2 ^ k)) y
        have h2 := hmax (polarTransform k (sc ex k (expand (.spc, 2 ^ k)) y)) (polarTransform_length _ _) (transform_bits hlen (sc_bits _ _ _ _)) ?_
        · omega
        · have h3 := transform_head (x := polarTransform k (sc (ex (w := w)) k (expand (.spc, 2 ^ k)) y)) (polarTransform_length _ _)
          rw [transform_invol hlen, sc_frozen _ hfl hf0] at h3
          exact (Option.some.inj h3).symm
      · intro i hi
        have : i = 0 := by
          cases i with
          | zero => rfl
          | succ i =>
            simp only [expand, List.getElem?_cons_succ, List.getElem?_replicate] at hi
            split at hi <;> simp at hi
        subst this
        rw [transform_head hr, er]
  unfold term
  simp only
  have hfn : (exA (w := w) T).fns.h = hInt w := rfl
  rw [hfn, map_h h10]
  split
  · rename_i hodd
    rw [if_pos hodd] at s2
    rcases s1 with ⟨h1, _⟩ | ⟨q, v, q1, q2, _, q4⟩
    · rw [h1] at hy; simp at hy; omega
    · have hq := (List.getElem?_eq_some_iff.1 q2).1
      rw [q1, Option.map_some, map_modify h10 hh bsg]
      congr 2
      refine (key (by rw [List.length_modify, lsg]) (modify_bits bsg) ?_ ?_).symm
      · rw [xorAll_modify (by omega), s2, BitVec.xor_self]; rfl
      · intro x hx bx ex'
        rw [corr_flip h10 q2]
        obtain ⟨j, hj, hne⟩ := ne_of_parity (x := x) (z := sg y) (by omega) (by rw [ex', s2]; exact fun h => h10 h.symm)
        have hjy : j < y.length := by omega
        have h5 := corr_ne h10 (y := y) (by omega) bx (List.getElem?_eq_getElem hjy) hne
        have h6 := q4 y[j] (List.getElem_mem hjy)
        omega
  · rename_i hodd
    rw [if_neg hodd] at s2
    congr 2
    refine (key lsg bsg s2 ?_).symm
    intro x hx _ _
    rw [corr_sg h10]
    exact corr_le (by omega)

/-- Fast decoding is successive cancellation. -/
theorem dec_exact {T : Int} : ∀ {k : Nat} {fr : List Bool} {t : Bin (NT × Nat)} {y : List Int}, Lab k fr t → y.length = 2 ^ k → tot y < T → noTie w k fr y →
    dec (exA (w := w) T) k t y = some ((polarTransform k (sc ex k fr y)).map word)
  | k, fr, .leaf ln c, y, hl, hy, hT, ht => by
    have hd : dec (exA (w := w) T) k (.leaf ln c) y = term (exA T) c.1 y := by cases k <;> rfl
    have hfr : fr = expand (c.1, 2 ^ k) := by
      obtain ⟨_, h2, _, h4⟩ : c.1.terminal = true ∧ c.2 = 2 ^ k ∧ (k = 0 → c.1 = .r0 ∨ c.1 = .r1) ∧ fr = expand c := by cases k <;> exact hl
      rw [h4, ← h2]
    have hterm : c.1.terminal = true := by
      obtain ⟨h1, _⟩ : c.1.terminal = true ∧ c.2 = 2 ^ k ∧ (k = 0 → c.1 = .r0 ∨ c.1 = .r1) ∧ fr = expand c := by cases k <;> exact hl
      exact h1
    rw [hd]
    cases hc : c.1 <;> rw [hc] at hfr hterm <;> simp [NT.terminal] at hterm <;> subst hfr
    · have : expand (.r0, 2 ^ k) = List.replicate (2 ^ k) true := rfl
      rw [this, sc_r0, transform_zeros]
      simp [term, hy, word]
    · have h1 : expand (.r1, 2 ^ k) = List.replicate (2 ^ k) false := rfl
      rw [h1] at ht ⊢
      rw [sc_r1 h10 hh hy ht]
      simp only [term]
      rw [← map_h h10]
      rfl
    · rw [sc_rep hh hy]
      have hs : y.foldl (exA (w := w) T).acc (exA (w := w) T).fns.zero = y.sum := by
        show y.foldl (fun s x => s + x) 0 = y.sum
        rw [List.sum_eq_foldl]
      simp only [term, hs, List.map_replicate, hy]
      congr 2
      show hInt w y.sum = _
      rw [hInt_eq]
      by_cases h : y.sum < 0
      · rw [if_pos h, if_pos h, word_one h10]
      · rw [if_neg h, if_neg h, word_zero]
    · exact spc_exact h10 hh hy (fun v hv => lt_of_le_of_lt (mg_le_tot hv) hT) ht
  | 0, _, .node _ _ _ _, _, hl, _, _, _ => hl.elim
  | k + 1, fr, .node ln c l r, y, hl, hy, hT, ht => by
    have hp : 2 ^ (k + 1) = 2 ^ k + 2 ^ k := by rw [Nat.pow_succ]; omega
    obtain ⟨t1, t2, t3, t4, t5, t6⟩ := hl
    obtain ⟨n1, n2⟩ := ht
    have ha : (y.take (2 ^ k)).length = 2 ^ k := by rw [List.length_take]; omega
    have hb : (y.drop (2 ^ k)).length = 2 ^ k := by rw [List.length_drop]; omega
    have htot : tot (y.take (2 ^ k)) + tot (y.drop (2 ^ k)) = tot y := by rw [← tot_append, List.take_append_drop]
    have hf := tot_f (w := w) (y.take (2 ^ k)) (y.drop (2 ^ k))
    have lf : (List.zipWith (ex (w := w)).f (y.take (2 ^ k)) (y.drop (2 ^ k))).length = 2 ^ k := by rw [List.length_zipWith]; omega
    have left := dec_exact (T := T) t5 lf (by omega) n1
    simp only [sc]
    set xl := polarTransform k (sc (ex (w := w)) k (fr.take (2 ^ k)) (List.zipWith (ex (w := w)).f (y.take (2 ^ k)) (y.drop (2 ^ k)))) with hxl
    have lxl : xl.length = 2 ^ k := polarTransform_length _ _
    have bxl : Bits xl := transform_bits (sc_length _ _ _ _) (sc_bits _ _ _ _)
    have hg := tot_g (y.take (2 ^ k)) (y.drop (2 ^ k)) xl
    have lg : (zip3 (ex (w := w)).g (y.take (2 ^ k)) (y.drop (2 ^ k)) xl).length = 2 ^ k := zip3_length ha hb lxl
    have right := dec_exact (T := T) t6 lg (by omega) n2
    rw [transform_halves (sc_length _ _ _ _) (sc_length _ _ _ _), ← hxl, List.map_append]
    set xr := polarTransform k (sc (ex (w := w)) k (fr.drop (2 ^ k)) (zip3 (ex (w := w)).g (y.take (2 ^ k)) (y.drop (2 ^ k)) xl)) with hxr
    have bxr : Bits xr := transform_bits (sc_length _ _ _ _) (sc_bits _ _ _ _)
    have hgw : ∀ a b (u : BitVec w), (ex (w := w)).g a b (word u) = (ex (w := w)).g a b u := by
      intro a b u
      simp only [ex]
      by_cases h : u = 0
      · rw [if_pos h, if_pos ((word_zero_iff hh u).2 h)]
      · rw [if_neg h, if_neg (fun e => h ((word_zero_iff hh u).1 e))]
    unfold dec
    simp only
    cases hc : c.1 <;> rw [hc] at t1 t2 t3 <;> simp [NT.terminal] at t1
    · show ((dec (exA T) k l (List.zipWith (ex (w := w)).f _ _)).bind _) = _
      rw [left, Option.bind_some]
      have e : zip3 (ex (w := w)).g (y.take (2 ^ k)) (y.drop (2 ^ k)) (xl.map word) = zip3 (ex (w := w)).g (y.take (2 ^ k)) (y.drop (2 ^ k)) xl := by
        exact zip3_word hgw _ _ _
      show ((dec (exA T) k r (zip3 (ex (w := w)).g _ _ _)).bind _) = _
      rw [e, right, Option.bind_some, word_xors hh h10 bxl bxr]
    · have h0 := t5.of_type (by rw [t2 rfl]; rfl)
      rw [t2 rfl] at h0
      have hz : xl = List.replicate (2 ^ k) 0 := by
        rw [hxl, h0]
        show polarTransform k (sc ex k (List.replicate (2 ^ k) true) _) = _
        rw [sc_r0, transform_zeros]
      rw [hz, zip3_zeros ha hb] at right
      show ((dec (exA T) k r (List.zipWith (fun x y => x + y) _ _)).bind _) = _
      have lxr : xr.length = 2 ^ k := polarTransform_length _ _
      rw [right, Option.bind_some, hz, xor_zero lxr, hxr, hz, zip3_zeros ha hb]
    · have h0 := t5.of_type (by rw [t3 rfl]; rfl)
      rw [t3 rfl] at h0
      show ((dec (exA T) k l (List.zipWith (ex (w := w)).f _ _)).bind _) = _
      rw [left, Option.bind_some]
      obtain ⟨cst, hz⟩ : ∃ cst, xl = List.replicate (2 ^ k) cst := ⟨_, by rw [hxl, h0, sc_rep hh lf]⟩
      have hhd : (xl.map word).headD 0 = word cst := by
        rw [hz, List.map_replicate]
        have := Nat.two_pow_pos k
        obtain ⟨m, hm⟩ : ∃ m, 2 ^ k = m + 1 := ⟨2 ^ k - 1, by omega⟩
        rw [hm, List.replicate_succ]; rfl
      have e : List.zipWith (fun a b => (ex (w := w)).g a b ((xl.map word).headD 0)) (y.take (2 ^ k)) (y.drop (2 ^ k)) = zip3 (ex (w := w)).g (y.take (2 ^ k)) (y.drop (2 ^ k)) xl := by
        rw [hhd]
        simp only [hgw]
        rw [hz]
        apply List.ext_getElem?
        intro i
        unfold zip3
        rw [List.getElem?_zipWith, List.getElem?_zipWith, List.zip_eq_zipWith, List.getElem?_zipWith]
        by_cases hi : i < 2 ^ k
        · simp [List.getElem?_eq_getElem (by omega : i < (y.take (2 ^ k)).length), List.getElem?_eq_getElem (by omega : i < (y.drop (2 ^ k)).length), hi]
        · rw [List.getElem?_eq_none (by omega : (y.take (2 ^ k)).length ≤ i)]
      show ((dec (exA T) k r (List.zipWith (fun a b => (ex (w := w)).g a b _) _ _)).bind _) = _
      rw [e, right, Option.bind_some, word_xors hh h10 bxl bxr]

end

end Verif.PolarFast
