import Verif.Proof.PolarSCLRun
import Verif.Proof.PolarSCLList

/-! # The metrics as costs -/

namespace Verif.PolarSCL
open Verif.Polar
open Verif.PolarSC (Fns soft zip3)

variable {R : Type} {w : Nat} {F : Fns R w} {A : Ar R} {m : Nat} {y : List R} {L : Nat}

/-- What a bit costs, when it is not that of the soft value. -/
def pen (z : Int) (b : Bool) : Int := if b then max z 0 else max (-z) 0

def fZ (a b : Int) : Int := if (a < 0 ↔ b < 0) then min |a| |b| else -min |a| |b|

def gZ (a b : Int) (x : Bool) : Int := b + if x then -a else a

/-- Sum of the magnitudes. -/
def tot (z : List Int) : Int := (z.map abs).sum

def fs (a b : List Int) : List Int := List.zipWith fZ a b

def gs (a b : List Int) (x : List Bool) : List Int := List.zipWith (fun a p => gZ a p.1 p.2) a (b.zip x)

def pens (z : List Int) (x : List Bool) : Int := (List.zipWith pen z x).sum

theorem pen_nonneg (z : Int) (b : Bool) : 0 ≤ pen z b := by unfold pen; split <;> omega

theorem pen_le (z : Int) (b : Bool) : pen z b ≤ |z| := by unfold pen; rcases abs_cases z with ⟨h, _⟩ | ⟨h, _⟩ <;> split <;> omega

theorem pen_split (a b : Int) (x1 x2 : Bool) : pen (fZ a b) x1 + pen (gZ a b x1) x2 = pen a (xor x1 x2) + pen b x2 := by
  unfold pen fZ gZ
  rcases abs_cases a with ⟨ha, _⟩ | ⟨ha, _⟩ <;> rcases abs_cases b with ⟨hb, _⟩ | ⟨hb, _⟩ <;> rw [ha, hb] <;> cases x1 <;> cases x2 <;> simp only [Bool.xor_false, Bool.xor_true, Bool.not_true, Bool.not_false, if_true,
    Bool.false_eq_true, if_false] <;> split <;> omega

theorem pen_bound (a b : Int) (x : Bool) : pen (fZ a b) x + |gZ a b x| ≤ |a| + |b| := by
  unfold pen fZ gZ
  rcases abs_cases a with ⟨ha, _⟩ | ⟨ha, _⟩ <;> rcases abs_cases b with ⟨hb, _⟩ | ⟨hb, _⟩ <;> rw [ha, hb] <;> cases x <;> simp only [if_true, Bool.false_eq_true, if_false] <;>
    (first | rcases abs_cases (b + a) with ⟨hg, _⟩ | ⟨hg, _⟩ <;> rw [hg] <;> split <;> omega | rcases abs_cases (b + -a) with ⟨hg, _⟩ | ⟨hg, _⟩ <;> rw [hg] <;> split <;> omega)

theorem fZ_bound (a b : Int) : |fZ a b| ≤ |a| + |b| := by
  have h1 := abs_nonneg a
  have h2 := abs_nonneg b
  unfold fZ
  split
  · rw [abs_of_nonneg (by omega)]; omega
  · rw [abs_neg, abs_of_nonneg (by omega)]; omega

theorem tot_nonneg (z : List Int) : 0 ≤ tot z := by
  unfold tot
  induction z with
  | nil => simp
  | cons a z ih => simp only [List.map_cons, List.sum_cons]; have := abs_nonneg a; omega

theorem tot_append (a b : List Int) : tot (a ++ b) = tot a + tot b := by simp [tot]

theorem tot_mem {z : List Int} {a : Int} (h : a ∈ z) : |a| ≤ tot z := by
  induction z with
  | nil => cases h
  | cons b z ih =>
    unfold tot at *
    simp only [List.map_cons, List.sum_cons]
    have h0 := tot_nonneg z
    unfold tot at h0
    rcases List.mem_cons.1 h with rfl | h
    · omega
    · have := ih h
      have := abs_nonneg b
      omega

theorem fs_length {a b : List Int} {n : Nat} (ha : a.length = n) (hb : b.length = n) : (fs a b).length = n := by simp [fs, ha, hb]

theorem gs_length {a b : List Int} {x : List Bool} {n : Nat} (ha : a.length = n) (hb : b.length = n) (hx : x.length = n) : (gs a b x).length = n := by simp [gs, ha, hb, hx]

theorem fs_tot : ∀ {a b : List Int}, a.length = b.length → tot (fs a b) ≤ tot a + tot b
  | [], [], _ => by simp [fs, tot]
  | p :: a, q :: b, h => by
    have := fs_tot (a := a) (b := b) (by simpa using h)
    have := fZ_bound p q
    simp only [fs, tot, List.zipWith_cons_cons, List.map_cons, List.sum_cons] at *
    omega

theorem gs_tot : ∀ {a b : List Int} {x : List Bool}, a.length = b.length → x.length = b.length → pens (fs a b) x + tot (gs a b x) ≤ tot a + tot b
  | [], [], _, _, _ => by simp [fs, gs, tot, pens]
  | p :: a, q :: b, c :: x, h, h' => by
    have := gs_tot (a := a) (b := b) (x := x) (by simpa using h) (by simpa using h')
    have := pen_bound p q c
    simp only [fs, gs, pens, tot, List.zipWith_cons_cons, List.zip_cons_cons, List.map_cons, List.sum_cons] at *
    omega
  | _ :: _, _ :: _, [], _, h' => by simp at h'

theorem pens_split : ∀ {a b : List Int} {x1 x2 : List Bool}, a.length = b.length → x1.length = b.length → x2.length = b.length →
    pens (fs a b) x1 + pens (gs a b x1) x2 = pens a (List.zipWith xor x1 x2) + pens b x2
  | [], [], [], [], _, _, _ => by simp [fs, gs, pens]
  | p :: a, q :: b, c :: x, d :: x', h, h', h'' => by
    have := pens_split (a := a) (b := b) (x1 := x) (x2 := x') (by simpa using h) (by simpa using h') (by simpa using h'')
    have := pen_split p q c d
    simp only [fs, gs, pens, List.zipWith_cons_cons, List.zip_cons_cons, List.sum_cons] at *
    omega
  | _ :: _, _ :: _, [], _, _, h', _ => by simp at h'
  | _ :: _, _ :: _, _ :: _, [], _, _, h'' => by simp at h''

theorem pens_append {a b : List Int} {x x' : List Bool} (h : a.length = x.length) : pens (a ++ b) (x ++ x') = pens a x + pens b x' := by
  unfold pens
  rw [List.zipWith_append h, List.sum_append]

theorem pens_nonneg : ∀ (z : List Int) (x : List Bool), 0 ≤ pens z x
  | [], _ => by simp [pens]
  | _ :: _, [] => by simp [pens]
  | a :: z, b :: x => by
    have := pens_nonneg z x
    have := pen_nonneg a b
    simp only [pens, List.zipWith_cons_cons, List.sum_cons] at *
    omega

theorem pens_le : ∀ (z : List Int) (x : List Bool), pens z x ≤ tot z
  | [], _ => by simp [pens, tot]
  | a :: z, [] => by simpa [pens] using tot_nonneg (a :: z)
  | a :: z, b :: x => by
    have := pens_le z x
    have := pen_le a b
    simp only [pens, tot, List.zipWith_cons_cons, List.map_cons, List.sum_cons] at *
    omega

/-- The soft value of the next bit. -/
def softZ : Nat → List Int → List Bool → Int
  | 0, z, _ => z.headD 0
  | n + 1, z, u =>
    if u.length < 2 ^ n then softZ n (fs (z.take (2 ^ n)) (z.drop (2 ^ n))) u
    else softZ n (gs (z.take (2 ^ n)) (z.drop (2 ^ n)) (boolT n (u.take (2 ^ n)))) (u.drop (2 ^ n))

/-- The cost of a path. -/
def costZ : Nat → List Int → List Bool → Int
  | 0, z, u => match u with
    | [] => 0
    | b :: _ => pen (z.headD 0) b
  | n + 1, z, u => costZ n (fs (z.take (2 ^ n)) (z.drop (2 ^ n))) (u.take (2 ^ n)) +
      costZ n (gs (z.take (2 ^ n)) (z.drop (2 ^ n)) (boolT n (u.take (2 ^ n)))) (u.drop (2 ^ n))

theorem costZ_succ (n : Nat) (z : List Int) (u : List Bool) : costZ (n + 1) z u = costZ n (fs (z.take (2 ^ n)) (z.drop (2 ^ n))) (u.take (2 ^ n)) +
      costZ n (gs (z.take (2 ^ n)) (z.drop (2 ^ n)) (boolT n (u.take (2 ^ n)))) (u.drop (2 ^ n)) := rfl

theorem softZ_succ (n : Nat) (z : List Int) (u : List Bool) : softZ (n + 1) z u =
    if u.length < 2 ^ n then softZ n (fs (z.take (2 ^ n)) (z.drop (2 ^ n))) u
    else softZ n (gs (z.take (2 ^ n)) (z.drop (2 ^ n)) (boolT n (u.take (2 ^ n)))) (u.drop (2 ^ n)) := rfl

theorem costZ_nil : ∀ (n : Nat) (z : List Int), costZ n z [] = 0
  | 0, _ => rfl
  | n + 1, z => by rw [costZ_succ, List.take_nil, List.drop_nil, costZ_nil, costZ_nil]; rfl

theorem costZ_nonneg : ∀ (n : Nat) (z : List Int) (u : List Bool), 0 ≤ costZ n z u
  | 0, _, [] => le_refl _
  | 0, _, b :: _ => pen_nonneg _ _
  | n + 1, z, u => by
    have h1 := costZ_nonneg n (fs (z.take (2 ^ n)) (z.drop (2 ^ n))) (u.take (2 ^ n))
    have h2 := costZ_nonneg n (gs (z.take (2 ^ n)) (z.drop (2 ^ n)) (boolT n (u.take (2 ^ n)))) (u.drop (2 ^ n))
    rw [costZ_succ]
    omega

theorem costZ_snoc : ∀ {n : Nat} {z : List Int} {u : List Bool} {b : Bool}, u.length < 2 ^ n → costZ n z (u ++ [b]) = costZ n z u + pen (softZ n z u) b
  | 0, z, u, b, h => by
    obtain rfl := List.length_eq_zero_iff.1 (by simpa using h)
    simp [costZ, softZ]
  | n + 1, z, u, b, h => by
    rw [costZ_succ, costZ_succ, softZ_succ]
    have hp : 2 ^ (n + 1) = 2 ^ n + 2 ^ n := by rw [Nat.pow_succ]; omega
    by_cases hu : u.length < 2 ^ n
    · have a1 : (u ++ [b]).take (2 ^ n) = u ++ [b] := List.take_of_length_le (by simp; omega)
      have a2 : u.take (2 ^ n) = u := List.take_of_length_le (by omega)
      have a3 : (u ++ [b]).drop (2 ^ n) = [] := List.drop_eq_nil_of_le (by simp; omega)
      have a4 : u.drop (2 ^ n) = [] := List.drop_eq_nil_of_le (by omega)
      rw [if_pos hu, a1, a2, a3, a4, costZ_nil, costZ_nil, costZ_snoc hu]
      omega
    · rw [if_neg hu, List.take_append_of_le_length (by omega), List.drop_append_of_le_length (by omega), costZ_snoc (by simp; omega)]
      omega

theorem costZ_full : ∀ {n : Nat} {z : List Int} {u : List Bool}, z.length = 2 ^ n → u.length = 2 ^ n → costZ n z u = pens z (boolT n u)
  | 0, z, u, hz, hu => by
    obtain ⟨a, rfl⟩ := List.length_eq_one_iff.1 hz
    obtain ⟨b, rfl⟩ := List.length_eq_one_iff.1 hu
    simp [costZ, pens, boolT]
  | n + 1, z, u, hz, hu => by
    have hp : 2 ^ (n + 1) = 2 ^ n + 2 ^ n := by rw [Nat.pow_succ]; omega
    have e1 : (u.take (2 ^ n)).length = 2 ^ n := by simp; omega
    have e2 : (u.drop (2 ^ n)).length = 2 ^ n := by simp; omega
    have e3 : (z.take (2 ^ n)).length = 2 ^ n := by simp; omega
    have e4 : (z.drop (2 ^ n)).length = 2 ^ n := by simp; omega
    have b1 := boolT_length e1
    have b2 := boolT_length e2
    rw [costZ_succ, costZ_full (fs_length e3 e4) e1, costZ_full (gs_length e3 e4 b1) e2, pens_split (by omega) (by omega) (by omega)]
    conv_rhs => rw [← List.take_append_drop (2 ^ n) z]
    show _ = pens _ (List.zipWith xor (boolT n (u.take (2 ^ n))) (boolT n (u.drop (2 ^ n))) ++ boolT n (u.drop (2 ^ n)))
    rw [pens_append (by simp only [List.length_zipWith]; omega)]

theorem costZ_bound : ∀ {n : Nat} {z : List Int} {u : List Bool}, z.length = 2 ^ n → u.length < 2 ^ n → costZ n z u + |softZ n z u| ≤ tot z
  | 0, z, u, hz, hu => by
    obtain ⟨a, rfl⟩ := List.length_eq_one_iff.1 hz
    obtain rfl := List.length_eq_zero_iff.1 (by simpa using hu)
    simp [costZ, softZ, tot]
  | n + 1, z, u, hz, hu => by
    have hp : 2 ^ (n + 1) = 2 ^ n + 2 ^ n := by rw [Nat.pow_succ]; omega
    have e3 : (z.take (2 ^ n)).length = 2 ^ n := by simp; omega
    have e4 : (z.drop (2 ^ n)).length = 2 ^ n := by simp; omega
    have ht : tot z = tot (z.take (2 ^ n)) + tot (z.drop (2 ^ n)) := by rw [← tot_append, List.take_append_drop]
    rw [costZ_succ, softZ_succ]
    by_cases hl : u.length < 2 ^ n
    · have a2 : u.take (2 ^ n) = u := List.take_of_length_le (by omega)
      have a4 : u.drop (2 ^ n) = [] := List.drop_eq_nil_of_le (by omega)
      rw [if_pos hl, a2, a4, costZ_nil]
      have := costZ_bound (fs_length e3 e4) hl
      have := fs_tot (a := z.take (2 ^ n)) (b := z.drop (2 ^ n)) (by omega)
      omega
    · have e1 : (u.take (2 ^ n)).length = 2 ^ n := by simp; omega
      have b1 := boolT_length e1
      rw [if_neg hl, costZ_full (fs_length e3 e4) e1]
      have := costZ_bound (u := u.drop (2 ^ n)) (gs_length e3 e4 b1) (by simp; omega)
      have := gs_tot (a := z.take (2 ^ n)) (b := z.drop (2 ^ n)) (x := boolT n (u.take (2 ^ n))) (by omega) (by omega)
      omega

/-! ## Types whose operations are exact -/

/-- The operations are exact on numbers: `num x z` when `x` is the integer `z`; `rep k x c` when the metric `x` is that of a path of cost `c` (`k`: after a normalization). -/
structure Exact (F : Fns R w) (A : Ar R) (B : Int) (num : R → Int → Prop) (rep : Bool → R → Int → Prop) : Prop where
  f : ∀ {a b x y}, num a x → num b y → |x| + |y| ≤ B → num (F.f a b) (fZ x y)
  g : ∀ {a b x y} (c : Bool), num a x → num b y → |x| + |y| ≤ B → num (F.g a b (if c then bitInit w else 0)) (gZ x y c)
  init : rep false A.init 0
  phi : ∀ {k mu l c z} (b : Bool), rep k mu c → num l z → 0 ≤ c → c + |z| ≤ B → rep k (A.phi mu l b) (c + pen z b)
  lt : ∀ {k a b x y}, rep k a x → rep k b y → 0 ≤ x → x ≤ B → 0 ≤ y → y ≤ B → (A.lt a b = true ↔ x < y)
  sub : ∀ {k a b x y}, rep k a x → rep k b y → 0 ≤ y → y ≤ x → x ≤ B → rep true (A.sub a b) (x - y)
  max : ∀ {k a x}, rep k a x → 0 ≤ x → x ≤ B → A.lt a A.max = true

variable {B : Int} {num : R → Int → Prop} {rep : Bool → R → Int → Prop}

theorem f_num (E : Exact F A B num rep) : ∀ {a b : List R} {x y : List Int}, List.Forall₂ num a x → List.Forall₂ num b y → tot x + tot y ≤ B → List.Forall₂ num (List.zipWith F.f a b) (fs x y)
  | _, _, _, _, .nil, _, _ => by simp [fs]
  | _, _, _, _, .cons _ _, .nil, _ => by simp [fs]
  | _, _, _, _, .cons (b := p) (l₂ := x) h1 h2, .cons (b := q) (l₂ := y) h3 h4, h => by
    have t1 := tot_nonneg x
    have t2 := tot_nonneg y
    simp only [tot, List.map_cons, List.sum_cons] at h t1 t2
    simp only [fs, List.zipWith_cons_cons]
    exact .cons (E.f h1 h3 (by omega)) (f_num E h2 h4 (by unfold tot; have := abs_nonneg p; have := abs_nonneg q; omega))

theorem g_num (E : Exact F A B num rep) : ∀ {a b : List R} {x y : List Int} (c : List Bool), List.Forall₂ num a x → List.Forall₂ num b y → tot x + tot y ≤ B →
    List.Forall₂ num (zip3 F.g a b (word w c)) (gs x y c)
  | _, _, _, _, _, .nil, _, _ => by simp [gs, zip3]
  | _, _, _, _, _, .cons _ _, .nil, _ => by simp [gs, zip3]
  | _, _, _, _, [], .cons _ _, .cons _ _, _ => by simp [gs, zip3, word]
  | _, _, _, _, c :: cs, .cons (b := p) (l₂ := x) h1 h2, .cons (b := q) (l₂ := y) h3 h4, h => by
    have t1 := tot_nonneg x
    have t2 := tot_nonneg y
    simp only [tot, List.map_cons, List.sum_cons] at h t1 t2
    simp only [gs, zip3, word, List.map_cons, List.zip_cons_cons, List.zipWith_cons_cons]
    exact .cons (E.g c h1 h3 (by omega)) (g_num E cs h2 h4 (by unfold tot; have := abs_nonneg p; have := abs_nonneg q; omega))

theorem soft_num (E : Exact F A B num rep) : ∀ {n : Nat} {y : List R} {z : List Int} {u : List Bool}, List.Forall₂ num y z → tot z ≤ B → z.length = 2 ^ n → u.length < 2 ^ n →
    num (soft F n y (word w u) u.length) (softZ n z u)
  | 0, y, z, u, h, _, hz, _ => by
    obtain ⟨a, rfl⟩ := List.length_eq_one_iff.1 hz
    cases h with
    | cons h1 h2 => exact h1
  | n + 1, y, z, u, h, hB, hz, hu => by
    have hp : 2 ^ (n + 1) = 2 ^ n + 2 ^ n := by rw [Nat.pow_succ]; omega
    have e3 : (z.take (2 ^ n)).length = 2 ^ n := by simp; omega
    have e4 : (z.drop (2 ^ n)).length = 2 ^ n := by simp; omega
    have ht : tot z = tot (z.take (2 ^ n)) + tot (z.drop (2 ^ n)) := by rw [← tot_append, List.take_append_drop]
    have n1 := List.forall₂_take (2 ^ n) h
    have n2 := List.forall₂_drop (2 ^ n) h
    rw [softZ_succ]
    show num (if u.length < 2 ^ n then _ else _) _
    by_cases hl : u.length < 2 ^ n
    · rw [if_pos hl, if_pos hl]
      exact soft_num E (f_num E n1 n2 (by omega)) (le_trans (fs_tot (by omega)) (by omega)) (fs_length e3 e4) hl
    · have e1 : (u.take (2 ^ n)).length = 2 ^ n := by simp; omega
      have b1 := boolT_length e1
      rw [if_neg hl, if_neg hl]
      have e5 : polarTransform n ((word w u).take (2 ^ n)) = word w (boolT n (u.take (2 ^ n))) := by rw [← word_transform e1]; simp [word]
      have e6 : (word w u).drop (2 ^ n) = word w (u.drop (2 ^ n)) := by simp [word]
      rw [e5, e6]
      have e7 : u.length - 2 ^ n = (u.drop (2 ^ n)).length := by simp
      rw [e7]
      have := gs_tot (a := z.take (2 ^ n)) (b := z.drop (2 ^ n)) (x := boolT n (u.take (2 ^ n))) (by omega) (by omega)
      have := pens_nonneg (fs (z.take (2 ^ n)) (z.drop (2 ^ n))) (boolT n (u.take (2 ^ n)))
      exact soft_num E (g_num E _ n1 n2 (by omega)) (by omega) (gs_length e3 e4 b1) (by simp; omega)

/-! ## Costs of the paths of a list -/

theorem min_rep (E : Exact F A B num rep) {k : Bool} {c : List Bool → Int} : ∀ (W : List (List Bool × R)) (r : R) (x : Int), (∀ p ∈ W, 0 ≤ c p.1 ∧ c p.1 ≤ B ∧ rep k p.2 (c p.1)) →
    rep k r x → 0 ≤ x → x ≤ B → ∃ x', 0 ≤ x' ∧ x' ≤ x ∧ rep k (W.foldl (fun r p => minR A r p.2) r) x' ∧ ∀ p ∈ W, x' ≤ c p.1
  | [], r, x, _, hr, h0, _ => ⟨x, h0, le_refl _, hr, by simp⟩
  | p :: W, r, x, hW, hr, h0, hB => by
    obtain ⟨p0, pB, pr⟩ := hW p (by simp)
    have hlt := E.lt pr hr p0 pB h0 hB
    rw [List.foldl_cons]
    unfold minR
    split
    · rename_i h
      have := hlt.1 h
      obtain ⟨x', h1, h2, h3, h4⟩ := min_rep E W p.2 (c p.1) (fun q hq => hW q (by simp [hq])) pr p0 pB
      exact ⟨x', h1, by omega, h3, fun q hq => by rcases List.mem_cons.1 hq with rfl | hq; exacts [h2, h4 q hq]⟩
    · rename_i h
      have := mt hlt.2 h
      obtain ⟨x', h1, h2, h3, h4⟩ := min_rep E W r x (fun q hq => hW q (by simp [hq])) hr h0 hB
      exact ⟨x', h1, by omega, h3, fun q hq => by rcases List.mem_cons.1 hq with rfl | hq; exacts [by omega, h4 q hq]⟩

theorem min_max (E : Exact F A B num rep) {k : Bool} {c : List Bool → Int} {W : List (List Bool × R)} (h : W ≠ []) (hW : ∀ p ∈ W, 0 ≤ c p.1 ∧ c p.1 ≤ B ∧ rep k p.2 (c p.1)) :
    ∃ x', 0 ≤ x' ∧ rep k (W.foldl (fun r p => minR A r p.2) A.max) x' ∧ ∀ p ∈ W, x' ≤ c p.1 := by
  cases W with
  | nil => exact absurd rfl h
  | cons p W =>
    obtain ⟨p0, pB, pr⟩ := hW p (by simp)
    rw [List.foldl_cons]
    obtain ⟨x', h1, h2, h3, h4⟩ := min_rep E W p.2 (c p.1) (fun q hq => hW q (by simp [hq])) pr p0 pB
    refine ⟨x', h1, ?_, fun q hq => by rcases List.mem_cons.1 hq with rfl | hq; exacts [h2, h4 q hq]⟩
    have : minR A A.max p.2 = p.2 := by unfold minR; rw [if_pos (E.max pr p0 pB)]
    rw [this]
    exact h3

theorem Lists.ne {fr : List Bool} {V : List (List Bool × R)} (h : Lists F A m y L fr V) : V ≠ [] := by
  induction h with
  | start => simp
  | frozen _ ih => simpa [normalize] using ih
  | @info fr V _ _ ih =>
    intro e
    have := pairs_length (F := F) (A := A) (m := m) (y := y) V
    rw [e] at this
    exact ih (List.length_eq_zero_iff.1 (by simpa using this.symm))
  | prune _ _ _ hl _ ih =>
    intro e
    rw [e] at hl
    exact ih (List.length_eq_zero_iff.1 hl.symm)
  | perm _ hp ih =>
    intro e
    subst e
    exact ih hp.eq_nil

theorem Lists.len {fr : List Bool} {V : List (List Bool × R)} (h : Lists F A m y L fr V) {p : List Bool × R} (hp : p ∈ V) : p.1.length = fr.length := (h.fits p hp).length_eq.symm

theorem Lists.ext_cost (E : Exact F A B num rep) {z : List Int} (hn : List.Forall₂ num y z) (hz : z.length = 2 ^ m) (hB : tot z ≤ B) {fr : List Bool} {V : List (List Bool × R)} {k : Bool} {o : Int}
    (hV : Lists F A m y L fr V) (hlt : fr.length < 2 ^ m) (ho : 0 ≤ o)
    (hc : ∀ p ∈ V, o ≤ costZ m z p.1 ∧ costZ m z p.1 ≤ B ∧ rep k p.2 (costZ m z p.1 - o)) (p : List Bool × R) (hp : p ∈ V) (b : Bool) : o ≤ costZ m z (extend F A m y b p).1 ∧ costZ m z (extend F A m y b p).1 ≤ B ∧
        rep k (extend F A m y b p).2 (costZ m z (extend F A m y b p).1 - o) := by
  have hl := hV.len hp
  obtain ⟨h1, h2, h3⟩ := hc p hp
  have hb := costZ_bound (u := p.1) hz (by omega)
  have hs := soft_num E hn hB hz (u := p.1) (by omega)
  have p1 := pen_nonneg (softZ m z p.1) b
  have p2 := pen_le (softZ m z p.1) b
  unfold extend
  dsimp only
  rw [costZ_snoc (by omega)]
  refine ⟨by omega, by omega, ?_⟩
  have := E.phi b h3 hs (by omega) (by omega)
  rwa [show costZ m z p.1 + pen (softZ m z p.1) b - o = costZ m z p.1 - o + pen (softZ m z p.1) b by omega]

theorem Lists.cost (E : Exact F A B num rep) {z : List Int} (hn : List.Forall₂ num y z) (hz : z.length = 2 ^ m) (hB : tot z ≤ B) {fr : List Bool} {V : List (List Bool × R)} (h : Lists F A m y L fr V)
    (hfr : fr.length ≤ 2 ^ m) : ∃ k o, 0 ≤ o ∧ ∀ p ∈ V, o ≤ costZ m z p.1 ∧ costZ m z p.1 ≤ B ∧ rep k p.2 (costZ m z p.1 - o) := by
  induction h with
  | start =>
    refine ⟨false, 0, le_refl _, fun p hp => ?_⟩
    rw [List.mem_singleton.1 hp]
    dsimp only
    rw [costZ_nil]
    exact ⟨le_refl _, le_trans (tot_nonneg z) hB, E.init⟩
  | @frozen fr V hV ih =>
    rw [List.length_append, List.length_singleton] at hfr
    obtain ⟨k, o, ho, hc⟩ := ih (by omega)
    have hx := hV.ext_cost E hn hz hB (by omega) ho hc
    obtain ⟨x', h1, h2, h3⟩ := min_max E (k := k) (c := fun u => costZ m z u - o) (W := V.map (extend F A m y false)) (by simpa using hV.ne) (by
      intro p hp
      obtain ⟨q, hq, rfl⟩ := List.mem_map.1 hp
      obtain ⟨a, b, c⟩ := hx q hq false
      exact ⟨by omega, by omega, c⟩)
    refine ⟨true, o + x', by omega, fun p hp => ?_⟩
    obtain ⟨q, hq, rfl⟩ := norm_mem.1 hp
    have h4 := h3 q hq
    obtain ⟨q, hq', rfl⟩ := List.mem_map.1 hq
    obtain ⟨a, b, c⟩ := hx q hq' false
    dsimp only at h4 ⊢
    refine ⟨by omega, b, ?_⟩
    have := E.sub c h2 h1 h4 (by omega)
    rwa [show costZ m z (extend F A m y false q).1 - (o + x') = costZ m z (extend F A m y false q).1 - o - x' by omega]
  | @info fr V hV _ ih =>
    rw [List.length_append, List.length_singleton] at hfr
    obtain ⟨k, o, ho, hc⟩ := ih (by omega)
    refine ⟨k, o, ho, fun p hp => ?_⟩
    obtain ⟨q, hq, b, rfl⟩ := pairs_mem.1 hp
    exact hV.ext_cost E hn hz hB (by omega) ho hc q hq b
  | @prune fr V kept dropped hV _ hperm _ _ ih =>
    rw [List.length_append, List.length_singleton] at hfr
    obtain ⟨k, o, ho, hc⟩ := ih (by omega)
    refine ⟨k, o, ho, fun p hp => ?_⟩
    obtain ⟨q, hq, b, rfl⟩ := pairs_mem.1 (hperm.subset (List.mem_append_left _ hp))
    exact hV.ext_cost E hn hz hB (by omega) ho hc q hq b
  | perm _ hp ih =>
    obtain ⟨k, o, ho, hc⟩ := ih hfr
    exact ⟨k, o, ho, fun p h => hc p (hp.mem_iff.2 h)⟩

/-- A best path has the least cost. -/
theorem Lists.best (E : Exact F A B num rep) {z : List Int} (hn : List.Forall₂ num y z) (hz : z.length = 2 ^ m) (hB : tot z ≤ B) {fr : List Bool} {V : List (List Bool × R)} (h : Lists F A m y L fr V)
    (hfr : fr.length ≤ 2 ^ m) {p q : List Bool × R} (hp : p ∈ V) (hq : q ∈ V) : A.lt q.2 p.2 = false ↔ costZ m z p.1 ≤ costZ m z q.1 := by
  obtain ⟨k, o, ho, hc⟩ := h.cost E hn hz hB hfr
  obtain ⟨a1, a2, a3⟩ := hc p hp
  obtain ⟨b1, b2, b3⟩ := hc q hq
  have := E.lt b3 a3 (by omega) (by omega) (by omega) (by omega)
  rw [← Bool.not_eq_true, this]
  omega

end Verif.PolarSCL
