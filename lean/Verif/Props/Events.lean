import Verif.Proof.Events
import Verif.Props.Channel

/-! # C133–C134: generators of events -/

namespace Verif.Events
open Exec Verif.Float Verif.Prng

/-- **C133**, values.  For every register width, every seed and every sequence of calls with buffers of the right size: all calls return normally, and
the events are 0 or 1 according to the comparison of the probability with the next numbers of MT19937 — those of one generator per lane for the whole
registers, those of the generator with the given seed for the rest. -/
theorem C133_calls (L : Nat) (hL : 0 < L) (s : BitVec 32) (l : List Op) (hl : ∀ o ∈ l, o.Fits) :
    ∃ g, Gen.make L s = ok g ∧ ∃ g', g.run L l = ok (g', expect L s L 0 l) := by
  obtain ⟨g, e, h⟩ := make_spec L s
  obtain ⟨r, e', h'⟩ := run_spec hL l h hl
  exact ⟨g, e, r.1, by rw [e', ← h'.1]⟩

/-- The generators that a program can have: built from a seed, then used. -/
def Reached (L : Nat) (g : Gen) : Prop :=
  ∃ s g0 l out, Gen.make L s = ok g0 ∧ (∀ o ∈ l, Op.Fits o) ∧ g0.run L l = ok (g, out)

theorem Reached.good {L : Nat} (hL : 0 < L) {g : Gen} (h : Reached L g) : ∃ s i j, Good L s i j g := by
  obtain ⟨s, g0, l, out, e, hl, e'⟩ := h
  obtain ⟨g1, e1, h1⟩ := make_spec L s
  rw [e] at e1
  injection e1 with e1
  subst e1
  obtain ⟨r, e2, h2⟩ := run_spec hL l h1 hl
  rw [e'] at e2
  injection e2 with e2
  subst e2
  exact h2.2

/-- **C133**, extreme probabilities.  After any history, without any access out of the buffer: a null probability gives no event and does not
change the generator; a probability of 1 or more gives only events; a negative one, or a value which is not a number, gives none. -/
theorem C133_extremes (L : Nat) (hL : 0 < L) (g : Gen) (hg : Reached L g) (n : Nat) (buf : List Nat) (hb : buf.length = n) :
    g.generate L buf n (.fin 0) = ok (g, List.replicate n 0) ∧
    (∀ p, (p = .inf false ∨ ∃ q, p = .fin q ∧ 1 ≤ q) → ∃ g', g.generate L buf n p = ok (g', List.replicate n 1)) ∧
    (∀ p, (p = .inf true ∨ p = .nan ∨ ∃ q, p = .fin q ∧ q < 0) → ∃ g', g.generate L buf n p = ok (g', List.replicate n 0)) := by
  obtain ⟨s, i, j, h⟩ := hg.good hL
  have const : ∀ (p : Fl) (b : Bool), p ≠ .fin 0 → (∀ q : ℚ, 0 ≤ q → q ≤ 1 → le (.fin q) p = b) →
      ∃ g', g.generate L buf n p = ok (g', List.replicate n (if b then 1 else 0)) := by
    intro p b hp hq
    obtain ⟨r, e, h1, -⟩ := generate_spec hL h hb p
    refine ⟨r.1, ?_⟩
    rw [e]
    congr 1
    refine Prod.ext rfl ?_
    rw [h1]
    unfold events
    rw [if_neg hp]
    refine List.eq_replicate_iff.2 ⟨by simp, fun x hx => ?_⟩
    obtain ⟨k, -, rfl⟩ := List.mem_map.1 hx
    obtain ⟨q, e, q0, q1⟩ := value_range L s i j n k
    rw [e, hq q q0 q1]
  refine ⟨?_, ?_, ?_⟩
  · obtain ⟨r, e, h1, h2⟩ := generate_spec hL h hb (.fin 0)
    rw [if_pos rfl, if_pos rfl] at h2
    rw [e]
    congr 1
    refine Prod.ext (h2.unique h) ?_
    rw [h1]
    unfold events
    rw [if_pos rfl]
  · rintro p (rfl | ⟨q, rfl, hq⟩)
    · exact const _ true (by simp) fun q _ _ => rfl
    · exact const _ true (by intro e; injection e with e; linarith) fun q' h0 h1 => (le_fin _ _).2 (by linarith)
  · rintro p (rfl | rfl | ⟨q, rfl, hq⟩)
    · exact const _ false (by simp) fun q _ _ => by unfold le Fl.lt; simp
    · exact const _ false (by simp) fun q _ _ => by unfold le Fl.lt; simp
    · exact const _ false (by intro e; injection e with e; linarith) fun q' h0 h1 => by
        rw [← Bool.not_eq_true, le_fin]; linarith

/-- **C133**, growth.  From the same state, after any history, a greater probability gives the same events and perhaps more, and the generator is then
in the same state. -/
theorem C133_monotone (L : Nat) (hL : 0 < L) (g : Gen) (hg : Reached L g) (n : Nat) (buf buf' : List Nat) (hb : buf.length = n)
    (hb' : buf'.length = n) (p p' : ℚ) (hp : p ≤ p') (h0 : p ≠ 0) (h0' : p' ≠ 0) :
    ∃ g' d d', g.generate L buf n (.fin p) = ok (g', d) ∧ g.generate L buf' n (.fin p') = ok (g', d') ∧ d.length = n ∧ d'.length = n ∧
      (∀ x ∈ d, x = 0 ∨ x = 1) ∧ (∀ x ∈ d', x = 0 ∨ x = 1) ∧ ∀ k : Nat, d[k]? = some 1 → d'[k]? = some 1 := by
  obtain ⟨s, i, j, h⟩ := hg.good hL
  have n0 : Fl.fin p ≠ .fin 0 := by intro e; injection e with e; exact h0 e
  have n0' : Fl.fin p' ≠ .fin 0 := by intro e; injection e with e; exact h0' e
  obtain ⟨⟨g1, d⟩, e, h1, h2⟩ := generate_spec hL h hb (.fin p)
  obtain ⟨⟨g2, d'⟩, e', h1', h2'⟩ := generate_spec hL h hb' (.fin p')
  rw [if_neg n0, if_neg n0] at h2
  rw [if_neg n0', if_neg n0'] at h2'
  obtain rfl : g2 = g1 := h2'.unique h2
  have h1 : d = events L s i j n (.fin p) := h1
  have h1' : d' = events L s i j n (.fin p') := h1'
  unfold events at h1 h1'
  rw [if_neg n0] at h1
  rw [if_neg n0'] at h1'
  subst h1 h1'
  refine ⟨g2, _, _, e, e', by simp, by simp, ?_, ?_, ?_⟩
  · intro x hx
    obtain ⟨k, -, rfl⟩ := List.mem_map.1 hx
    split <;> simp
  · intro x hx
    obtain ⟨k, -, rfl⟩ := List.mem_map.1 hx
    split <;> simp
  · intro k hk
    by_cases hn : k < n
    · rw [List.getElem?_map, List.getElem?_range hn, Option.map_some] at hk ⊢
      obtain ⟨q, eq, q0, q1⟩ := value_range L s i j n k
      rw [eq] at hk ⊢
      by_cases hq : le (.fin q) (.fin p) = true
      · rw [if_pos ((le_fin _ _).2 (((le_fin _ _).1 hq).trans hp))]
      · rw [if_neg hq] at hk
        simp at hk
    · rw [List.getElem?_eq_none (by simp; omega)] at hk
      cases hk

/-- **C133**, channels.  With these events, for every history of the generator, every size, width and frame: at probability 0 the erasure channel and the
symmetric channel output the bits of the input; at probability 1 the erasure channel erases everything and the symmetric channel complements every bit.
`mem e` is the real with the same memory as the integer `e`. -/
theorem C133_channels {R : Type} (o : Channel.Ops R) (bits : R → Nat) (mem : Nat → R) (hm : bits (mem 0) = 0 ∧ bits (mem 1) = 1) (erased one : R)
    (isZero : R → Bool) (L : Nat) (hL : 0 < L) (g : Gen) (hg : Reached L g) (c : Channel.Ch R) (f : Nat) (X Y : List R) (buf : List Nat)
    (hl : c.noised.length = c.N * c.frames) (hf : f < c.frames) (hb : buf.length = c.N) (hX : X.length = c.N) (hY : Y.length = c.N) :
    (∃ g' d c1 c2, g.generate L buf c.N (.fin 0) = ok (g', d) ∧ c.erasure bits erased L (d.map mem) f X Y = ok (c1, X) ∧
      c.symmetric bits isZero o.zero one L (d.map mem) f X Y = ok (c2, X.map fun x => if isZero x then o.zero else one)) ∧
    (∃ g' d c1 c2, g.generate L buf c.N (.fin 1) = ok (g', d) ∧
      c.erasure bits erased L (d.map mem) f X Y = ok (c1, List.replicate c.N erased) ∧
      c.symmetric bits isZero o.zero one L (d.map mem) f X Y = ok (c2, X.map fun x => if isZero x then one else o.zero)) := by
  have key : ∀ (X : List R) (n b : Nat) (G : R → R → R), X.length = n →
      List.zipWith G X ((List.replicate n b).map mem) = X.map fun x => G x (mem b) := by
    intro X n b G hX
    apply List.ext_getElem?
    intro k
    by_cases hk : k < n
    · simp [List.getElem?_zipWith, hk, hX]
    · rw [List.getElem?_eq_none (by simp; omega), List.getElem?_eq_none (by simp; omega)]
  obtain ⟨x0, x1, -⟩ := C133_extremes L hL g hg c.N buf hb
  obtain ⟨g1, x1⟩ := x1 (.fin 1) (Or.inr ⟨1, rfl, le_refl _⟩)
  constructor
  · obtain ⟨-, ⟨d1, e1, -⟩, h2⟩ := Channel.C127_call o bits erased one isZero L hL c ((List.replicate c.N 0).map mem) f X Y hl hf (by simp) hX hY
    obtain ⟨d2, e2, -⟩ := h2 (by intro e he; simp at he; left; rw [he.2, hm.1])
    refine ⟨_, _, { c with noised := d1 }, { c with noised := d2 }, x0, e1.trans ?_, e2.trans ?_⟩
    · rw [key X _ _ _ hX]
      simp [hm.1, hm.2]
    · rw [key X _ _ _ hX]
      simp [hm.1, hm.2]
  · obtain ⟨-, ⟨d1, e1, -⟩, h2⟩ := Channel.C127_call o bits erased one isZero L hL c ((List.replicate c.N 1).map mem) f X Y hl hf (by simp) hX hY
    obtain ⟨d2, e2, -⟩ := h2 (by intro e he; simp at he; right; rw [he.2, hm.2])
    refine ⟨_, _, { c with noised := d1 }, { c with noised := d2 }, x1, e1.trans ?_, e2.trans ?_⟩
    · rw [key X _ _ _ hX]
      simp [hm.2, ← hX]
    · rw [key X _ _ _ hX]
      simp [hm.1, hm.2]

/-- **C133**, Gaussian noise.  The values of the lanes from which the fast generator of Gaussian noise takes a logarithm are never null and never exceed
1, so that the logarithm is finite and its opposite has a square root. -/
theorem C133_logarithm (u : BitVec 32) : ∃ q, simdOo u = .fin q ∧ 1 / 2 ^ 32 ≤ q ∧ q ≤ 1 := simdOo_range u

/-- **C134** (defect): `randf_co` is documented by its name as less than 1 and `randf_oo` is used as a value of ]0, 1[, but both give 1 in a lane, for
2^31 and for many other numbers drawn. -/
theorem C134_one : simdCo 0x80000000#32 = .fin 1 ∧ simdOo 0x80000000#32 = .fin 1 ∧ simdOo 0x7FFFFFFF#32 = .fin 1 ∧
    simdCo 0x7FFFFFC0#32 = .fin 1 := by decide +kernel

/-- **C134** (defect): with the least positive probability, far less than 2^-140, the events are not rarer than one in 2^32: the number 0 gives one. -/
theorem C134_rare : ∃ p : ℚ, 0 < p ∧ p < 1 / 2 ^ 140 ∧ b32.Rep p ∧ le (simdCc 0#32) (.fin p) = true ∧ le (cc b32 0#32) (.fin p) = true :=
  ⟨1 / 2 ^ 149, by norm_num, by norm_num, ⟨1, -149, by decide, by decide, by norm_num, by
    rw [abs_of_pos (by norm_num)]; exact lt_of_lt_of_le (show (1 / 2 ^ 149 : ℚ) < 1 by norm_num) (one_le_zpow₀ (by norm_num) (by decide))⟩,
    by decide +kernel, by decide +kernel⟩

/-- The hypotheses are met: a generator of 4 lanes that drew 7 events with probability 1/2, got another seed, and will draw 6. -/
example : ∃ g, Reached 4 g := by
  obtain ⟨g0, e, g, h⟩ := C133_calls 4 (by decide) 5#32 [.gen 7 (.fin (1 / 2)) [9, 9, 9, 9, 9, 9, 9], .seed 3#32] (by
    intro o ho
    simp only [List.mem_cons, List.not_mem_nil, or_false] at ho
    rcases ho with rfl | rfl
    · rfl
    · trivial)
  refine ⟨g, 5#32, g0, _, _, e, ?_, h⟩
  intro o ho
  simp only [List.mem_cons, List.not_mem_nil, or_false] at ho
  rcases ho with rfl | rfl
  · rfl
  · trivial

/-- The hypotheses on the channel are met: the second of two frames of three values. -/
example : let c : Channel.Ch Nat := ⟨3, 2, false, [0, 0, 0, 0, 0, 0]⟩
    c.noised.length = c.N * c.frames ∧ 1 < c.frames ∧
    (c.erasure id 9 4 [0, 1, 0] 1 [1, 0, 1] [7, 7, 7]) = ok (⟨3, 2, false, [0, 0, 0, 0, 1, 0]⟩, [1, 9, 1]) := by decide

/-- A probability between two values drawn separates them: `number 5489 0 = 3499211612` is a value of about 0.81. -/
example : le (cc b32 3499211612#32) (.fin (9 / 10)) = true ∧ le (cc b32 3499211612#32) (.fin (8 / 10)) = false := by decide +kernel

/-- In a lane the same number is -795755684 as a signed integer, a value of about 0.37. -/
example : le (simdCc 3499211612#32) (.fin (4 / 10)) = true ∧ le (simdCc 3499211612#32) (.fin (3 / 10)) = false := by decide +kernel

end Verif.Events
