import Verif.Proof.Gaussian
import Verif.Props.Channel

/-! # C135–C136: fast generator of Gaussian noise -/

namespace Verif.Gaussian
open Exec Verif.Float Verif.Prng Verif.Events

/-- **C135**, values.  For every register width, every functions of the library, every seed and every sequence of calls with buffers of the right size:
all calls return normally, every place of each buffer receives a value of Box and Muller's method, `√(-2 log u1) · sigma · cos(2π u2) + mu` or the sine,
where the two numbers are consecutive numbers of MT19937 used for no other pair. -/
theorem C135_calls (fv fs : Fns) (L : Nat) (hL : 0 < L) (s : BitVec 32) (l : List Op) (hl : ∀ o ∈ l, o.Fits) :
    ∃ g, Gen.make L s = ok g ∧ ∃ g', run fv fs L g l = ok (g', expect fv fs L s L 0 l) := by
  obtain ⟨g, e, h⟩ := make_spec L s
  obtain ⟨r, e', h'⟩ := run_spec fv fs hL l h hl
  exact ⟨g, e, r.1, by rw [e', ← h'.1]⟩

/-- The generators that a program can have: built from a seed, then used. -/
def Reached (fv fs : Fns) (L : Nat) (g : Gen) : Prop :=
  ∃ s g0 l out, Gen.make L s = ok g0 ∧ (∀ o ∈ l, Op.Fits o) ∧ run fv fs L g0 l = ok (g, out)

theorem Reached.good {fv fs : Fns} {L : Nat} (hL : 0 < L) {g : Gen} (h : Reached fv fs L g) : ∃ s i j, Good L s i j g := by
  obtain ⟨s, g0, l, out, e, hl, e'⟩ := h
  obtain ⟨g1, e1, h1⟩ := make_spec L s
  rw [e] at e1
  injection e1 with e1
  subst e1
  obtain ⟨r, e2, h2⟩ := run_spec fv fs hL l h1 hl
  rw [e'] at e2
  injection e2 with e2
  subst e2
  exact h2.2

/-- **C135**, scale.  After any history, the numbers behind the noise depend neither on the standard deviation, nor on the mean, nor on what the buffer
held: the noise is the same up to scale and mean, and the state of the generator after the call is the same. -/
theorem C135_scale (fv fs : Fns) (L : Nat) (hL : 0 < L) (g : Gen) (hg : Reached fv fs L g) (n : Nat) :
    ∃ (g' : Gen) (z : List (Fl × Fl)), z.length = n ∧ ∀ (buf : List Fl) (sigma mu : Fl), buf.length = n →
      generate fv fs L true g buf n sigma mu = ok (g', z.map fun z => b32.add (b32.mul (b32.mul z.1 sigma) z.2) mu) := by
  obtain ⟨s, i, j, h⟩ := hg.good hL
  obtain ⟨r0, e0, h0⟩ := generate_spec fv fs hL h (n := n) (noise := List.replicate n .nan) (by simp) .nan .nan
  refine ⟨r0.1, (List.range n).map (polar fv fs L s i j n), by simp, fun buf sigma mu hb => ?_⟩
  obtain ⟨r, e, h1, h2⟩ := generate_spec fv fs hL h hb sigma mu
  rw [e]
  congr 1
  refine Prod.ext (h2.unique h0.2) ?_
  rw [h1, List.map_map]
  rfl

/-- The functions of the library are finite where Box and Muller's method uses them: the logarithm on ]0, 1], where it is not positive, the square root of
what is not negative, the sine and the cosine of any finite angle. -/
def Fns.Finite (f : Fns) : Prop :=
  (∀ q, 0 < q → q ≤ 1 → ∃ a, f.sqrt (b32.mul (f.log (.fin q)) (.fin (-2))) = .fin a) ∧
  (∀ q, 0 < q → q ≤ 1 → ∃ a, f.sin (b32.mul (.fin q) f.twopi) = .fin a) ∧ (∀ q, 0 < q → q ≤ 1 → ∃ a, f.cos (b32.mul (.fin q) f.twopi) = .fin a)

theorem half_pos : b32.Rep (1 / 2 ^ 33) := ⟨1, -33, by decide, by decide, by norm_num, by
  rw [abs_of_pos (by norm_num)]; exact lt_of_lt_of_le (show (1 / 2 ^ 33 : ℚ) < 1 by norm_num) (one_le_zpow₀ (by norm_num) (by decide))⟩

/-- The values of `randf_oo` of the first generator are positive and at most 1. -/
theorem oo_range (u : BitVec 32) : ∃ q, oo b32 u = .fin q ∧ 1 / 2 ^ 33 ≤ q ∧ q ≤ 1 := by
  have r32 : b32.Rep (2 ^ 32) := rep_pow b32 32 (by decide) (by decide) (by decide)
  have rhalf : b32.Rep (1 / 2) := ⟨1, -1, by decide, by decide, by norm_num, by norm_num [b32]⟩
  have hm : b32.add (b32.of u32max) (.fin 1) = .fin (2 ^ 32) := by decide +kernel
  have hu := u_lt u
  obtain ⟨e1, h1, h1'⟩ := of_fin b32 (x := (u.toNat : ℚ)) (by positivity) (by linarith : _ ≤ (2 : ℚ) ^ 32) r32
  have big : b32.rnd (2 ^ 32 + 1 / 2) = 2 ^ 32 := by decide +kernel
  have h2 : b32.rnd (b32.rnd u.toNat + 1 / 2) ≤ 2 ^ 32 := by
    have := rnd_mono b32 (show b32.rnd u.toNat + 1 / 2 ≤ 2 ^ 32 + 1 / 2 by linarith)
    rwa [big] at this
  have h3 : 1 / 2 ≤ b32.rnd (b32.rnd u.toNat + 1 / 2) := by
    have := rnd_mono b32 (show 1 / 2 ≤ b32.rnd u.toNat + 1 / 2 by linarith)
    rwa [rnd_rep b32 rhalf] at this
  have r33 : b32.Rep (2 ^ 33) := rep_pow b32 33 (by decide) (by decide) (by decide)
  have e2 : b32.add (.fin (b32.rnd u.toNat)) (.fin (1 / 2)) = .fin (b32.rnd (b32.rnd u.toNat + 1 / 2)) :=
    (of_fin b32 (x := b32.rnd u.toNat + 1 / 2) (by linarith) (by linarith : _ ≤ (2 : ℚ) ^ 33) r33).1
  have d1 : b32.rnd (b32.rnd u.toNat + 1 / 2) / 2 ^ 32 ≤ 1 := by rw [div_le_one (by norm_num)]; exact h2
  have d0 : 1 / 2 ^ 33 ≤ b32.rnd (b32.rnd u.toNat + 1 / 2) / 2 ^ 32 := by
    rw [le_div_iff₀ (by norm_num)]; exact le_trans (by norm_num) h3
  obtain ⟨e3, -, h4⟩ := of_fin b32 (le_trans (by positivity) d0) d1 rep1
  refine ⟨b32.rnd (b32.rnd (b32.rnd u.toNat + 1 / 2) / 2 ^ 32), ?_, ?_, h4⟩
  · unfold oo
    rw [hm, e1, e2, div_two, e3]
  · have := rnd_mono b32 d0
    rwa [rnd_rep b32 half_pos] at this

theorem polar_finite {fv fs : Fns} (hv : fv.Finite) (hs : fs.Finite) (L : Nat) (s : BitVec 32) (i j n k : Nat) :
    ∃ a b, polar fv fs L s i j n k = (.fin a, .fin b) := by
  unfold polar
  split
  · obtain ⟨q1, e1, a1, b1⟩ := simdOo_range (number (laneSeed s (k % L)) (j + 2 * (k / (L * 2)) + 0))
    obtain ⟨q2, e2, a2, b2⟩ := simdOo_range (number (laneSeed s (k % L)) (j + 2 * (k / (L * 2)) + 1))
    have p1 : 0 < q1 := lt_of_lt_of_le (by norm_num) a1
    have p2 : 0 < q2 := lt_of_lt_of_le (by norm_num) a2
    obtain ⟨a, ha⟩ := hv.1 q1 p1 b1
    simp only [e1, e2, ha]
    split
    · obtain ⟨b, hb⟩ := hv.2.2 q2 p2 b2
      exact ⟨a, b, by rw [hb]⟩
    · obtain ⟨b, hb⟩ := hv.2.1 q2 p2 b2
      exact ⟨a, b, by rw [hb]⟩
  · obtain ⟨q1, e1, a1, b1⟩ := oo_range (number s (i + 2 * ((k - vec L n) / 2) + 0))
    obtain ⟨q2, e2, a2, b2⟩ := oo_range (number s (i + 2 * ((k - vec L n) / 2) + 1))
    have p1 : 0 < q1 := lt_of_lt_of_le (by norm_num) a1
    have p2 : 0 < q2 := lt_of_lt_of_le (by norm_num) a2
    obtain ⟨a, ha⟩ := hs.1 q1 p1 b1
    simp only [e1, e2, ha]
    split
    · obtain ⟨b, hb⟩ := hs.2.1 q2 p2 b2
      exact ⟨a, b, by rw [hb]⟩
    · obtain ⟨b, hb⟩ := hs.2.2 q2 p2 b2
      exact ⟨a, b, by rw [hb]⟩

/-- **C135**, no noise.  After any history, whatever numbers are drawn, a null standard deviation gives a constant equal to the mean: no number drawn makes
the radius infinite, which would give a value that is not a number. -/
theorem C135_quiet (fv fs : Fns) (hv : fv.Finite) (hs : fs.Finite) (L : Nat) (hL : 0 < L) (g : Gen) (hg : Reached fv fs L g) (n : Nat)
    (buf : List Fl) (hb : buf.length = n) (mu : ℚ) (hmu : b32.Rep mu) :
    ∃ g', generate fv fs L true g buf n (.fin 0) (.fin mu) = ok (g', List.replicate n (.fin mu)) := by
  obtain ⟨s, i, j, h⟩ := hg.good hL
  obtain ⟨r, e, h1, -⟩ := generate_spec fv fs hL h hb (.fin 0) (.fin mu)
  refine ⟨r.1, ?_⟩
  rw [e]
  congr 1
  refine Prod.ext rfl ?_
  show r.2 = _
  rw [h1]
  refine List.eq_replicate_iff.2 ⟨by simp, fun x hx => ?_⟩
  obtain ⟨k, -, rfl⟩ := List.mem_map.1 hx
  obtain ⟨a, b, ep⟩ := polar_finite hv hs L s i j n k
  rw [ep]
  have z : b32.Rep 0 := by
    have := rep_int b32 0 (by decide) (by decide) (by decide)
    simpa using this
  show b32.add (b32.mul (b32.of (a * 0)) (.fin b)) (.fin mu) = .fin mu
  rw [mul_zero, of_rep b32 z]
  show b32.add (b32.of (0 * b)) (.fin mu) = .fin mu
  rw [zero_mul, of_rep b32 z]
  show b32.of (0 + mu) = .fin mu
  rw [zero_add, of_rep b32 hmu]

/-- The operations on floats. -/
def floatOps (sqrt : Fl → Fl) : Channel.Ops Fl := ⟨.fin 0, b32.add, fun x y => b32.add x y.neg, b32.mul, sqrt⟩

/-- **C135**, channel.  For every frame size, number of frames and frame whose noise is aligned, after any history of the generator: the Gaussian channel
outputs each value plus the noise, which is scaled by the standard deviation given to the call, the numbers behind it being the same whatever it is; with a null
standard deviation the output is the input, for all finite floats. -/
theorem C135_channel (fv fs : Fns) (hv : fv.Finite) (hs : fs.Finite) (sqrt : Fl → Fl) (L : Nat) (hL : 0 < L) (g : Gen) (hg : Reached fv fs L g)
    (c : Channel.Ch Fl) (f : Nat) (X Y buf : List Fl) (hl : c.noised.length = c.N * c.frames) (hf : f < c.frames) (hb : buf.length = c.N)
    (hX : X.length = c.N) (hY : Y.length = c.N) (hu : ¬ (c.addUsers = true ∧ c.frames > 1)) :
    (∃ (g' : Gen) (z : List (Fl × Fl)), z.length = c.N ∧ ∀ sigma, ∃ d c', generate fv fs L true g buf c.N sigma (.fin 0) = ok (g', d) ∧
      c.awgn (floatOps sqrt) d f X Y =
        ok (c', List.zipWith (fun x z => b32.add x (b32.add (b32.mul (b32.mul z.1 sigma) z.2) (.fin 0))) X z)) ∧
    ((∀ x ∈ X, ∃ q, x = .fin q ∧ b32.Rep q) → ∃ g' d c', generate fv fs L true g buf c.N (.fin 0) (.fin 0) = ok (g', d) ∧
      c.awgn (floatOps sqrt) d f X Y = ok (c', X)) := by
  have call : ∀ d : List Fl, d.length = c.N → ∃ d', c.awgn (floatOps sqrt) d f X Y = ok ({ c with noised := d' }, List.zipWith b32.add X d) := by
    intro d hd
    obtain ⟨h1, -⟩ := Channel.C127_call (floatOps sqrt) (fun _ => 0) .nan .nan (fun _ => false) L hL c d f X Y hl hf hd hX hY
    obtain ⟨d', e, -⟩ := h1 hu
    exact ⟨d', e⟩
  constructor
  · obtain ⟨g', z, hz, h⟩ := C135_scale fv fs L hL g hg c.N
    refine ⟨g', z, hz, fun sigma => ?_⟩
    obtain ⟨d', e⟩ := call (z.map fun z => b32.add (b32.mul (b32.mul z.1 sigma) z.2) (.fin 0)) (by simp [hz])
    refine ⟨_, { c with noised := d' }, h buf sigma (.fin 0) hb, e.trans ?_⟩
    rw [List.zipWith_map_right]
  · intro hx
    have z : b32.Rep 0 := by
      have := rep_int b32 0 (by decide) (by decide) (by decide)
      simpa using this
    obtain ⟨g', e⟩ := C135_quiet fv fs hv hs L hL g hg c.N buf hb 0 z
    obtain ⟨d', e'⟩ := call (List.replicate c.N (.fin 0)) (by simp)
    refine ⟨g', _, { c with noised := d' }, e, e'.trans ?_⟩
    congr 2
    apply List.ext_getElem
    · simp [hX]
    · intro k h1 h2
      obtain ⟨q, eq, hq⟩ := hx X[k] (List.getElem_mem h2)
      rw [List.getElem_zipWith, List.getElem_replicate, eq]
      show b32.of (q + 0) = .fin q
      rw [add_zero, of_rep b32 hq]

/-- **C136** (defect): a buffer that is not aligned is refused.  The noise of frame `f` of a channel starts `f * N` values after the start of the buffer, so
when an aligned address is that of a whole number of registers of `L` values, and even if the buffer starts at one, the frame is refused unless `L`
divides `f * N`. -/
theorem C136_frames (fv fs : Fns) (L N f : Nat) (h : f * N % L ≠ 0) (g : Gen) (buf : List Fl) (sigma mu : Fl) :
    generate fv fs L (decide (f * N % L = 0)) g buf N sigma mu = exc .runtimeError := by
  unfold generate
  rw [if_pos (by simpa using h)]

/-- With registers of 4 values and frames of 3, the second frame is refused. -/
example (g : Gen) (buf : List Fl) (sigma mu : Fl) (f : Fns) : generate f f 4 (decide (1 * 3 % 4 = 0)) g buf 3 sigma mu = exc .runtimeError :=
  C136_frames f f 4 3 1 (by decide) g buf sigma mu

/-- Functions that meet `Finite`, and a history of two calls and a new seed. -/
def demo : Fns := ⟨fun _ => .fin (-1 / 2), fun x => x, fun _ => .fin 0, fun _ => .fin 1, .fin 6⟩

example : demo.Finite := by
  refine ⟨fun q _ _ => ?_, fun q _ _ => ⟨_, rfl⟩, fun q _ _ => ⟨_, rfl⟩⟩
  exact ⟨_, of_rep b32 (x := -1 / 2 * -2) (by
    have := rep1
    norm_num at this ⊢
    exact this)⟩

example : ∃ g, Reached demo demo 4 g := by
  obtain ⟨g0, e, g, h⟩ := C135_calls demo demo 4 (by decide) 5#32
    [.gen 11 (.fin 1) (.fin 0) (List.replicate 11 .nan), .seed 3#32, .gen 2 (.fin 1) (.fin 0) [.nan, .nan]] (by
    intro o ho
    simp only [List.mem_cons, List.not_mem_nil, or_false] at ho
    rcases ho with rfl | rfl | rfl
    · rfl
    · trivial
    · rfl)
  refine ⟨g, 5#32, g0, _, _, e, ?_, h⟩
  intro o ho
  simp only [List.mem_cons, List.not_mem_nil, or_false] at ho
  rcases ho with rfl | rfl | rfl
  · rfl
  · trivial
  · rfl

end Verif.Gaussian
