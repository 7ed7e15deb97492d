import Verif.Proof.ConstellationUse

/-!
# Constellations

Spec in `Spec/Constellation.lean`, model in `Model/Constellation.lean`.
-/

namespace Verif.Cstl
open Verif.Float Exec

/-- A library for the examples: the root of a number is bounded by it, divisions are coordinatewise. -/
def exLib : Lib where
  sqrt := fun x => match x with | .fin q => if q < 0 then .nan else .fin q | x => x
  sqrtR := fun x => x
  cos := fun x => x
  sin := fun x => x
  cdiv := fun a b => ⟨b32.div a.re b.re, b32.div a.im b.re⟩

theorem exLib_ok : exLib.SqrtOk := fun q h => ⟨q, by
  show (if q < 0 then Fl.nan else .fin q) = .fin q
  rw [if_neg (by linarith)], h, le_refl q⟩

/-- **C81 (PAM).**  The table of a `2 ^ n`-PAM has one point per word of `n` bits.  The point is an odd integer amplitude divided by the
square root of the mean energy of the amplitudes: the amplitudes are all the odd integers between `-2 ^ n` and `2 ^ n`, neighbours carry words which differ in
one bit, and the number given to the square root is exactly the mean energy. -/
theorem C81_pam (L : Lib) {F : Fmt} (hF : F = b32 ∨ F = b64) {n : Nat} (h1 : 1 ≤ n) (h15 : n ≤ 15) : ∃ c : Cstl, ∃ a : Nat → Int, ∃ m : Nat,
    pam L F n = ok c ∧ c.nBps = n ∧ c.nSymbs = 2 ^ n ∧ c.pts.length = 2 ^ n ∧ c.cplx = false ∧
    GrayLine n a ∧ ∑ j ∈ Finset.range (2 ^ n), a j = 0 ∧ 2 ^ n * (m : Int) = energy n a ∧
    ∀ j, j < 2 ^ n → c.pts[j]? = some ⟨F.div (.fin (a j)) (cvt F (L.sqrt (.fin m))), .fin 0⟩ := by
  obtain ⟨k, rfl⟩ : ∃ k, n = k + 1 := ⟨n - 1, by omega⟩
  obtain ⟨m, h3, h4⟩ := mean_energy k
  refine ⟨_, lab (k + 1), m, pam_eq hF h1 h15 h3, rfl, rfl, by simp, rfl, (lab_gray k).1, lab_sum k, h4, ?_⟩
  intro j hj
  exact (getElem?_mapRange _ _ _).trans (if_pos hj)

example : ∃ c, pam exLib b32 4 = ok c := by
  obtain ⟨c, _, _, h, _⟩ := C81_pam exLib (F := b32) (.inl rfl) (n := 4) (by decide) (by decide)
  exact ⟨c, h⟩

/-- **C81 (distinct points).**  With a square root which is right in order of magnitude, the points of a PAM are finite, lie on the line in the order of
their amplitudes, and no two are equal. -/
theorem C81_distinct {L : Lib} (hL : L.SqrtOk) {F : Fmt} (hF : F = b32 ∨ F = b64) {n : Nat} (h1 : 1 ≤ n) (h15 : n ≤ 15) : ∃ c : Cstl, ∃ a : Nat → Int, ∃ x : Nat → ℚ,
    pam L F n = ok c ∧ GrayLine n a ∧ (∀ j, j < 2 ^ n → c.pts[j]? = some ⟨.fin (x j), .fin 0⟩) ∧
    ∀ i j, i < 2 ^ n → j < 2 ^ n → a i < a j → x i < x j := by
  obtain ⟨k, rfl⟩ : ∃ k, n = k + 1 := ⟨n - 1, by omega⟩
  obtain ⟨m, h3, h4⟩ := mean_energy k
  have hb : (4 : ℤ) ^ (k + 1) ≤ 4 ^ 15 := pow_le_pow_right₀ (by norm_num) h15
  have hb' : (4 : ℤ) ^ 1 ≤ 4 ^ (k + 1) := pow_le_pow_right₀ (by norm_num) h1
  obtain ⟨s, e, hs1, hs2⟩ := cvt_sqrt hL hF (m := m) (by omega) (by norm_num at hb ⊢; omega)
  have hlab : ∀ j, |lab (k + 1) j| ≤ 2 ^ 15 := by
    intro j
    have := lab_abs (k + 1) j
    have hp : (2 : ℤ) ^ (k + 1) ≤ 2 ^ 15 := pow_le_pow_right₀ (by norm_num) h15
    omega
  refine ⟨_, lab (k + 1), fun j => F.rnd (lab (k + 1) j / s), pam_eq hF h1 h15 h3, (lab_gray k).1, ?_, ?_⟩
  · intro j hj
    refine (getElem?_mapRange _ _ _).trans ?_
    rw [if_pos hj, e, (div_fin hF hs1 hs2 (hlab j)).1]
  · intro i j hi hj h
    have o1 := (lab_gray k).1.odd i hi
    have o2 := (lab_gray k).1.odd j hj
    have := quot_sep hF hs1 hs2 (hlab i) (hlab j) (by omega)
    have : 0 < 1 / s := by positivity
    linarith

example : exLib.SqrtOk := exLib_ok

/-- **C81 (QAM).**  With an even number of bits `2 n` the low half of the word selects the real amplitude, the high half the imaginary one, each on a
line of odd integers with one-bit neighbours; no two words share both amplitudes, and the number given to the square root is exactly the mean energy of
the points. -/
theorem C81_qam (L : Lib) {F : Fmt} (hF : F = b32 ∨ F = b64) {n : Nat} (h1 : 1 ≤ n) (h11 : n ≤ 11) : ∃ c : Cstl, ∃ a : Nat → Int, ∃ m : Nat,
    qam L F (2 * n) = ok c ∧ c.nBps = 2 * n ∧ c.nSymbs = 2 ^ (2 * n) ∧ c.pts.length = 2 ^ (2 * n) ∧ GrayLine n a ∧
    2 ^ (2 * n) * (m : Int) = ∑ i ∈ Finset.range (2 ^ n), ∑ q ∈ Finset.range (2 ^ n), (a i ^ 2 + a q ^ 2) ∧
    (∀ j, j < 2 ^ (2 * n) → c.pts[j]? = some (L.cdiv ⟨.fin (a (j % 2 ^ n)), .fin (a (j / 2 ^ n))⟩ ⟨cvt F (L.sqrt (.fin m)), .fin 0⟩)) ∧
    ∀ i j, i < 2 ^ (2 * n) → j < 2 ^ (2 * n) → a (i % 2 ^ n) = a (j % 2 ^ n) → a (i / 2 ^ n) = a (j / 2 ^ n) → i = j := by
  obtain ⟨k, rfl⟩ : ∃ k, n = k + 1 := ⟨n - 1, by omega⟩
  obtain ⟨m, h3, h4⟩ := mean_energy k
  obtain ⟨cp, hq⟩ := qam_even (L := L) hF h1 h11 h3
  have h0 : 0 < 2 ^ (k + 1) := Nat.two_pow_pos _
  have hsq : 2 ^ (2 * (k + 1)) = 2 ^ (k + 1) * 2 ^ (k + 1) := by rw [← Nat.pow_add]; congr 1; omega
  refine ⟨_, lab (k + 1), 2 * m, hq, rfl, rfl, by simp, (lab_gray k).1, ?_, ?_, ?_⟩
  · simp only [Finset.sum_add_distrib, Finset.sum_const, Finset.card_range, nsmul_eq_mul]
    rw [← Finset.mul_sum]
    unfold energy at h4
    rw [← h4, show (2 : Int) ^ (2 * (k + 1)) = 2 ^ (k + 1) * 2 ^ (k + 1) by rw [← pow_add]; congr 1; omega]
    push_cast; ring
  · intro j hj
    exact (getElem?_mapRange _ _ _).trans (if_pos hj)
  · intro i j hi hj e1 e2
    rw [hsq] at hi hj
    have a1 := (lab_gray k).1.inj _ _ (Nat.mod_lt i h0) (Nat.mod_lt j h0) e1
    have a2 := (lab_gray k).1.inj _ _ (Nat.div_lt_of_lt_mul hi) (Nat.div_lt_of_lt_mul hj) e2
    rw [← Nat.div_add_mod i (2 ^ (k + 1)), ← Nat.div_add_mod j (2 ^ (k + 1)), a1, a2]

example : ∃ c, qam exLib b64 (2 * 3) = ok c := by
  obtain ⟨c, _, _, h, _⟩ := C81_qam exLib (F := b64) (.inr rfl) (n := 3) (by decide) (by decide)
  exact ⟨c, h⟩

/-- **C81 (PSK).**  The points of a `2 ^ n`-PSK are the cosine and the sine of the angles `(a + 1) π / 2 ^ n` where the `a` run over the odd integers
between `-2 ^ n` and `2 ^ n`, each once; neighbours on the circle carry words which differ in one bit. -/
theorem C81_psk (L : Lib) {F : Fmt} (hF : F = b32 ∨ F = b64) {n : Nat} (h1 : 1 ≤ n) (h23 : n ≤ 23) : ∃ c : Cstl, ∃ a : Nat → Int,
    psk L F n = ok c ∧ c.nBps = n ∧ c.nSymbs = 2 ^ n ∧ c.pts.length = 2 ^ n ∧ GrayLine n a ∧ Cyclic n a ∧
    ∀ j, j < 2 ^ n → ∃ t, t = F.div (F.mul (.fin ((a j + 1 : Int) : ℚ)) (cvt F mPi)) (.fin (2 ^ n : Nat)) ∧ c.pts[j]? = some ⟨L.cos t, L.sin t⟩ := by
  obtain ⟨k, rfl⟩ : ∃ k, n = k + 1 := ⟨n - 1, by omega⟩
  obtain ⟨cp, hq⟩ := psk_eq (L := L) hF h1 h23
  refine ⟨_, lab (k + 1), hq, rfl, rfl, by simp, (lab_gray k).1, (lab_gray k).2, ?_⟩
  intro j hj
  exact ⟨_, rfl, (getElem?_mapRange _ _ _).trans (if_pos hj)⟩

example : ∃ c, psk exLib b32 3 = ok c := by
  obtain ⟨c, _, h, _⟩ := C81_psk exLib (F := b32) (.inl rfl) (n := 3) (by decide) (by decide)
  exact ⟨c, h⟩

/-- The point written on a line, if the line is not a comment. -/
def Line.pt : Line → List Pt
  | .comment => []
  | .nums [x] => [⟨x, .fin 0⟩]
  | .nums (x :: y :: _) => [⟨x, y⟩]
  | .nums [] => []

/-- A comment, one number or two numbers. -/
def Line.Ok : Line → Prop
  | .comment => True
  | .nums l => l.length = 1 ∨ l.length = 2

instance : DecidablePred Line.Ok := fun l => by
  cases l with
  | comment => exact isTrue trivial
  | nums l => exact inferInstanceAs (Decidable (l.length = 1 ∨ l.length = 2))

/-- The energy of a list of points, summed in the order of the list in the type of the constellation. -/
def energyOf (F : Fmt) (es : Fl) (l : List Pt) : Fl := l.foldl (fun e p => F.add e (F.add (F.mul p.re p.re) (F.mul p.im p.im))) es

theorem readLines_ok {F : Fmt} : ∀ (pre : List Line), (∀ l ∈ pre, l.Ok) → ∀ (post : List Line) pts es,
    readLines F (pre ++ post) pts es = readLines F post (pts ++ pre.flatMap Line.pt) (energyOf F es (pre.flatMap Line.pt))
  | [], _, post, pts, es => by simp [energyOf]
  | .comment :: r, h, post, pts, es => by
    have e := readLines_ok (F := F) r (fun l hl => h l (by simp [hl])) post pts es
    rw [List.flatMap_cons]
    show readLines F (r ++ post) pts es = _
    rw [e]; rfl
  | .nums l :: r, h, post, pts, es => by
    rcases h (.nums l) (by simp) with hl | hl
    · obtain ⟨x, rfl⟩ := List.length_eq_one_iff.1 hl
      have e := readLines_ok (F := F) r (fun l hl => h l (by simp [hl])) post (pts ++ [⟨x, .fin 0⟩]) (F.add es (F.add (F.mul x x) (F.mul (.fin 0) (.fin 0))))
      rw [List.flatMap_cons, ← List.append_assoc]
      exact e
    · obtain ⟨x, y, rfl⟩ := List.length_eq_two.1 hl
      have e := readLines_ok (F := F) r (fun l hl => h l (by simp [hl])) post (pts ++ [⟨x, y⟩]) (F.add es (F.add (F.mul x x) (F.mul y y)))
      rw [List.flatMap_cons, ← List.append_assoc]
      exact e

/-- **C81 (user).**  A file whose lines are comments or one or two numbers gives its points in their order, each divided by the square root of the mean of their energies, when they are `2 ^ n`; any other positive
number of points is refused. -/
theorem C81_user (L : Lib) (F : Fmt) {lines : List Line} (h : ∀ l ∈ lines, l.Ok) :
    (∀ n, n ≤ 30 → (lines.flatMap Line.pt).length = 2 ^ n → ∃ c : Cstl, user L F lines = ok c ∧ c.nBps = n ∧ c.nSymbs = 2 ^ n ∧
      c.pts = (lines.flatMap Line.pt).map fun p => L.cdiv p ⟨L.sqrtR (F.div (energyOf F (.fin 0) (lines.flatMap Line.pt)) (.fin (2 ^ n : Nat))), .fin 0⟩) ∧
    (0 < (lines.flatMap Line.pt).length → (lines.flatMap Line.pt).length < 2 ^ 31 → (∀ n, (lines.flatMap Line.pt).length ≠ 2 ^ n) →
      user L F lines = exc .invalidArgument) := by
  have e := readLines_ok (F := F) lines h [] [] (.fin 0)
  rw [List.append_nil, List.nil_append] at e
  unfold user
  rw [e]
  constructor
  · intro n hn hl
    refine ⟨_, fromSymbols_pow hn (by rw [List.length_map]; exact hl), rfl, rfl, ?_⟩
    show List.map _ _ = _
    dsimp only
    rw [hl]
  · intro h0 h31 hne
    show fromSymbols _ = _
    unfold fromSymbols
    have hne0 : (lines.flatMap Line.pt).length ≠ 0 := Nat.ne_of_gt h0
    rw [List.length_map]
    dsimp only
    rw [if_neg hne0, if_neg, if_pos (hne _)]
    rw [not_le, Nat.log2_lt hne0]
    exact h31

example : ∀ l ∈ [Line.nums [.fin 1], .comment, .nums [.fin 0, .fin 1]], l.Ok := by decide

/-! ## Defects -/

/-- **C82 (large PAM).**  From `n = 16` on the energy of a `2 ^ n`-PAM is computed modulo `2 ^ 32`: the square root is taken of a negative number, and all
the points are not numbers. -/
theorem C82_pam {L : Lib} (hneg : ∀ q : ℚ, q < 0 → L.sqrt (.fin q) = .nan) {F : Fmt} (hF : F = b32 ∨ F = b64) {n : Nat} (h16 : 16 ≤ n) (h24 : n ≤ 24) :
    ∃ c : Cstl, pam L F n = ok c ∧ c.pts.length = 2 ^ n ∧ ∀ p ∈ c.pts, p = ⟨.nan, .fin 0⟩ := by
  have e : ∃ q : ℚ, q < 0 ∧ pamEnergy F (2 ^ n) = .fin q := by
    have h2 : 2 ^ n * 2 ^ n % 2 ^ 32 = 0 := by
      rw [← Nat.pow_add]
      exact Nat.mod_eq_zero_of_dvd (Nat.pow_dvd_pow 2 (by omega))
    unfold pamEnergy
    rw [h2, cvt_fin]
    have z : F.of ((0 : Nat) : ℚ) = .fin 0 := by
      have := of_int hF (z := 0) (by norm_num)
      simpa using this
    rw [z]
    have o : b64.add (.fin 0) (.fin (-1)) = .fin (-1) := by
      have := b64_int (z := -1) (by norm_num)
      show b64.of _ = _
      rw [zero_add]; push_cast at this; exact this
    rw [o, div_eq _ (by norm_num)]
    have q4 : b64.rnd (-1 / 4) = -1 / 4 := by
      have := rnd_exact b64 (-1) (-2) (by decide) (by decide)
      norm_num at this ⊢; exact this
    have q1 : b64.rnd (-1) = -1 := by
      have := rnd_exact b64 (-1) 0 (by decide) (by decide)
      norm_num at this ⊢; exact this
    have r1 : b64.rnd (-1 / 3) ≤ -1 / 4 := by rw [← q4]; exact rnd_mono b64 (by norm_num)
    have r2 : -1 ≤ b64.rnd (-1 / 3) := by
      conv_lhs => rw [← q1]
      exact rnd_mono b64 (by norm_num)
    refine ⟨b64.rnd (-1 / 3), by linarith, of_fin ?_⟩
    rw [abs_of_nonpos (by linarith)]
    refine lt_of_le_of_lt (by linarith : -b64.rnd (-1 / 3) ≤ 1) ?_
    exact one_lt_zpow₀ (by norm_num) (by decide)
  obtain ⟨q, hq, e⟩ := e
  have := build_eq (sym := fun bits => do
      let s ← amplitude F n 0 bits
      ok ⟨F.div s (cvt F (L.sqrt (pamEnergy F (2 ^ n)))), .fin 0⟩)
    (c := ⟨n, 2 ^ n, List.replicate (2 ^ n) ⟨.fin 0, .fin 0⟩, true⟩) (g := fun _ => ⟨.nan, .fin 0⟩) (List.length_replicate ..) (by
      intro j _
      dsimp only
      rw [amplitude_eq hF (by omega) (by omega) (by omega), bind_ok, e, hneg q hq]
      rfl)
  unfold pam
  rw [ofBits_eq (by omega), bind_ok]
  refine ⟨_, this, ?_, ?_⟩
  · simp
  · intro p hp
    obtain ⟨j, -, rfl⟩ := List.mem_map.1 hp
    rfl

example : ∀ q : ℚ, q < 0 → exLib.sqrt (.fin q) = .nan := fun q h => if_pos h

/-- **C82 (odd QAM).**  With an odd number of bits the last bit of the word is ignored: the words come in pairs with the same point, so that the bit
cannot be recovered. -/
theorem C82_odd (L : Lib) {F : Fmt} (hF : F = b32 ∨ F = b64) {m : Nat} (h1 : 1 ≤ m) (h14 : m ≤ 14) : ∃ c : Cstl,
    qam L F (2 * m + 1) = ok c ∧ c.nBps = 2 * m + 1 ∧ c.pts.length = 2 ^ (2 * m + 1) ∧ ∀ j, j < 2 ^ (2 * m) → c.pts[j]? = c.pts[j + 2 ^ (2 * m)]? := by
  have hd : (2 * m + 1) / 2 = m := by omega
  have := build_eq (sym := fun bits => do
      let i ← amplitude F m 0 bits
      let q ← amplitude F m m bits
      ok (L.cdiv ⟨i, q⟩ ⟨cvt F (L.sqrt (qamEnergy F (2 ^ (2 * m + 1)))), .fin 0⟩))
    (c := ⟨2 * m + 1, 2 ^ (2 * m + 1), List.replicate (2 ^ (2 * m + 1)) ⟨.fin 0, .fin 0⟩, true⟩)
    (g := fun j => L.cdiv ⟨.fin (lab m j), .fin (lab m (j / 2 ^ m))⟩ ⟨cvt F (L.sqrt (qamEnergy F (2 ^ (2 * m + 1)))), .fin 0⟩) (List.length_replicate ..) (by
      intro j _
      dsimp only
      rw [amplitude_eq hF h1 (by omega) (by omega), amplitude_eq hF h1 (by omega) (by omega)]
      simp only [bind_ok, Nat.pow_zero, Nat.div_one])
  have hsq : 2 ^ (2 * m) = 2 ^ m * 2 ^ m := by rw [← Nat.pow_add]; congr 1; omega
  unfold qam
  rw [ofBits_eq (by omega), bind_ok]
  dsimp only
  rw [hd]
  refine ⟨_, this, ?_, ?_, ?_⟩
  · rfl
  · simp
  · intro j hj
    have hp : 2 ^ (2 * m + 1) = 2 ^ (2 * m) * 2 := Nat.pow_succ ..
    refine (getElem?_mapRange _ _ _).trans (Eq.trans ?_ (getElem?_mapRange _ _ _).symm)
    dsimp only
    rw [if_pos (by omega), if_pos (by omega), hsq, lab_mod m (j + 2 ^ m * 2 ^ m) j (by rw [Nat.add_mul_mod_self_right]),
      Nat.add_mul_div_right _ _ (Nat.two_pow_pos m), lab_mod m (j / 2 ^ m + 2 ^ m) (j / 2 ^ m) (by rw [Nat.add_mod_right])]

/-- **C82 (no bit).**  A constellation of zero bits is not refused: the constructors read past the end of an empty vector. -/
theorem C82_empty (L : Lib) (F : Fmt) : pam L F 0 = ub ∧ psk L F 0 = ub ∧ qam L F 0 = ub := by
  refine ⟨?_, ?_, ?_⟩
  · unfold pam; rw [ofBits_eq (by decide)]; rfl
  · unfold psk; rw [ofBits_eq (by decide)]; rfl
  · unfold qam; rw [ofBits_eq (by decide)]; rfl

/-- **C82 (real user constellation).**  A constellation read from a file is always said to be complex, whatever its points: here two real points. -/
theorem C82_complex : (∀ (L : Lib) (F : Fmt) (lines : List Line) (c : Cstl), user L F lines = ok c → c.cplx = true) ∧
    ∃ c : Cstl, user exLib b32 [.nums [.fin 1], .nums [.fin (-1)]] = ok c ∧ c.pts.length = 2 ∧ (∀ p ∈ c.pts, p.im = .fin 0) ∧ c.cplx = true := by
  have key : ∀ (L : Lib) (F : Fmt) (lines : List Line) (c : Cstl), user L F lines = ok c → c.cplx = true := by
    intro L F lines c h
    unfold user at h
    cases hr : readLines F lines [] (.fin 0) with
    | exc e => rw [hr] at h; cases h
    | ub => rw [hr] at h; cases h
    | ok r =>
      rw [hr, bind_ok] at h
      dsimp only at h
      unfold fromSymbols at h
      split at h
      · cases h
      · split at h
        · cases h
        · split at h
          · cases h
          · injection h with h; rw [← h]
  refine ⟨key, ?_⟩
  exact ⟨⟨1, 2, [⟨.fin 1, .fin 0⟩, ⟨.fin (-1), .fin 0⟩], true⟩, by decide +kernel⟩

/-- **C82 (blank line).**  A blank line in the file of a constellation is undefined behaviour. -/
theorem C82_blank (L : Lib) (F : Fmt) {pre post : List Line} (h : ∀ l ∈ pre, l.Ok) : user L F (pre ++ .nums [] :: post) = ub := by
  have e := readLines_ok (F := F) pre h (.nums [] :: post) [] (.fin 0)
  unfold user
  rw [e]
  rfl

end Verif.Cstl
