import Verif.Proof.AList
import Verif.Spec.AList

/-! # Lemmas on the third AList format -/

namespace Verif.AList
open Exec Sparse

/-! ## The first reader refuses it: it would need more words -/

theorem pop_length (s : List Word) : (pop s).2.length ≤ s.length - 1 := by
  match s with
  | [] => simp [pop]
  | .num _ :: s => simp [pop]
  | .junk :: s => simp [pop]

theorem pop_pos {s : List Word} (h : (pop s).1 ≠ 0) : 0 < s.length := by
  match s with
  | [] => simp [pop] at h
  | _ :: s => simp

theorem degs1_need {mx n : Nat} {s : List Word} {r : List Nat × List Word} (h : degs1 mx n s = ok r) :
    n ≤ s.length ∧ r.2.length + n ≤ s.length ∧ r.1.length = n ∧ ∀ d ∈ r.1, 0 < d ∧ d ≤ mx := by
  induction n generalizing s r with
  | zero =>
    cases h
    simp
  | succ n ih =>
    rw [degs1] at h
    split at h
    · cases h
    · rename_i hp
      obtain ⟨q, e, h⟩ := bind_ok_inv h
      cases h
      obtain ⟨h1, h2, h3, h4⟩ := ih e
      have := pop_length s
      have := pop_pos (s := s) (by omega)
      refine ⟨by omega, by dsimp only; omega, by simp [h3], fun d hd => ?_⟩
      rcases List.mem_cons.1 hd with rfl | hd
      · omega
      · exact h4 d hd

theorem degs1_le {mx n : Nat} {ds : List Nat} {s : List Word} {r : List Nat × List Word} (hb : ∀ d ∈ ds, d < 2 ^ 32)
    (h : degs1 mx n (ds.map (fun (d : Nat) => Word.num d) ++ s) = ok r) (hn : ds.length ≤ n) : ∀ d ∈ ds, d ≤ mx := by
  induction ds generalizing n r with
  | nil => simp
  | cons d ds ih =>
    rw [List.length_cons] at hn
    obtain ⟨k, rfl⟩ : ∃ k, n = k + 1 := ⟨n - 1, by omega⟩
    rw [List.map_cons, List.cons_append, degs1] at h
    simp only [pop_num (hb d List.mem_cons_self)] at h
    split at h
    · cases h
    · obtain ⟨q, e, h⟩ := bind_ok_inv h
      have := ih (fun d' hd' => hb d' (List.mem_cons_of_mem _ hd')) e (by omega)
      intro d' hd'
      rcases List.mem_cons.1 hd' with rfl | hd'
      · omega
      · exact this d' hd'

theorem row1_length {i deg n j : Nat} {m : Mat} {s : List Word} {q : Mat × List Word} (h : row1 i deg n j m s = ok q) :
    q.2.length ≤ s.length - n := by
  induction n generalizing j m s with
  | zero => cases h; simp
  | succ n ih =>
    rw [row1] at h
    split at h
    · obtain ⟨t, -, h⟩ := bind_ok_inv h
      have := ih h
      have := pop_length s
      omega
    · cases h

theorem row1_pos {i deg n : Nat} {m : Mat} {s : List Word} {q : Mat × List Word} (h : row1 i deg n 0 m s = ok q) (hn : 0 < n)
    (hd : 0 < deg) : 0 < s.length := by
  obtain ⟨k, rfl⟩ : ∃ k, n = k + 1 := ⟨n - 1, by omega⟩
  rw [row1] at h
  split at h
  · rename_i hp
    exact pop_pos (by omega)
  · cases h

theorem rows1_need {mx : Nat} (hmx : 0 < mx) {ds : List Nat} {i : Nat} {m : Mat} {s : List Word} {q : Mat × List Word}
    (h : rows1 mx ds i m s = ok q) (hd : ∀ d ∈ ds, 0 < d) (hne : 0 < ds.length) : mx * (ds.length - 1) + 1 ≤ s.length := by
  induction ds generalizing i m s with
  | nil => simp at hne
  | cons d ds ih =>
    rw [rows1] at h
    obtain ⟨r, e, h⟩ := bind_ok_inv h
    have hp := row1_pos e hmx (hd d List.mem_cons_self)
    rcases Nat.eq_zero_or_pos ds.length with h0 | h0
    · rw [List.length_cons, h0]
      omega
    · have := ih h (fun d' hd' => hd d' (List.mem_cons_of_mem _ hd')) h0
      have := row1_length e
      rw [List.length_cons, Nat.add_sub_cancel, show ds.length = (ds.length - 1) + 1 by omega, Nat.mul_add, Nat.mul_one]
      omega

theorem sum_le {ds : List Nat} {k : Nat} (h : ∀ d ∈ ds, d ≤ k) : ds.sum ≤ k * ds.length := by
  induction ds with
  | nil => simp
  | cons d ds ih =>
    rw [List.sum_cons, List.length_cons, Nat.mul_add, Nat.mul_one]
    have := h d List.mem_cons_self
    have := ih fun d' hd' => h d' (List.mem_cons_of_mem _ hd')
    omega

theorem toks_third (R : Nat) (cols : List (List Nat)) : (thirdFile R cols).flatMap Line.toks =
    .num cols.length :: .num R :: ((cols.map List.length).map (fun (d : Nat) => Word.num d) ++
      cols.flatMap fun c => c.map fun (r : Nat) => Word.num r) := by
  simp only [thirdFile, List.flatMap_append, List.flatMap_cons, List.flatMap_nil, Line.toks, List.map_map, List.append_assoc,
    List.nil_append, List.cons_append, Function.comp_def, List.append_nil, List.flatMap_map]

theorem format1_third {R : Nat} {cols : List (List Nat)} (hC : cols.length < 2 ^ 31) (hR : R < 2 ^ 31) (hR0 : 0 < R)
    (hc : ∀ c ∈ cols, c.length ≤ R) (t : Mat) : format1 ((thirdFile R cols).flatMap Line.toks) ≠ ok t := by
  intro h
  rw [toks_third] at h
  have hlen : (cols.flatMap fun c => c.map fun (r : Nat) => Word.num r).length = (cols.map List.length).sum := by
    simp [List.length_flatMap]
  generalize hS : (cols.flatMap fun c => c.map fun (r : Nat) => Word.num r) = S at h hlen
  unfold format1 at h
  simp only [pop_num (show cols.length < 2 ^ 32 by omega), pop_num (show R < 2 ^ 32 by omega)] at h
  split at h
  · rename_i hp
    obtain ⟨r, e1, h⟩ := bind_ok_inv h
    obtain ⟨q, e2, h⟩ := bind_ok_inv h
    obtain ⟨u, e3, h⟩ := bind_ok_inv h
    obtain ⟨a1, a2, a3, a4⟩ := degs1_need e1
    obtain ⟨b1, b2, -, -⟩ := degs1_need e2
    have c1 := rows1_need hp.2.2.1 e3 (fun d hd => (a4 d hd).1) (by rw [a3]; exact hp.1)
    rw [a3] at c1
    match cols, hp with
    | [c], _ =>
      have hcR := hc c List.mem_cons_self
      simp only [List.map_cons, List.map_nil, List.sum_cons, List.sum_nil] at hlen
      simp only [List.map_cons, List.map_nil, List.cons_append, List.nil_append, pop_num (show c.length < 2 ^ 32 by omega),
        List.length_singleton] at *
      have := pop_length S
      omega
    | c :: c' :: cols, _ =>
      have hcR := hc c List.mem_cons_self
      have hcR' := hc c' (List.mem_cons_of_mem _ List.mem_cons_self)
      have hle : ∀ d ∈ cols.map List.length, d < 2 ^ 32 := by
        intro d hd
        obtain ⟨l, hl, rfl⟩ := List.mem_map.1 hd
        have := hc l (List.mem_cons_of_mem _ (List.mem_cons_of_mem _ hl))
        omega
      simp only [List.map_cons, List.sum_cons] at hlen
      simp only [List.map_cons, List.cons_append, pop_num (show c.length < 2 ^ 32 by omega),
        pop_num (show c'.length < 2 ^ 32 by omega)] at e1 e2 e3 a2 c1
      have := sum_le (degs1_le hle e1 (by simp; omega))
      simp only [List.length_map, List.length_cons, List.length_append, Nat.add_sub_cancel, Nat.mul_add, Nat.mul_one] at *
      omega
    | [], hp => simp at hp
  · cases h

/-! ## The second reader refuses it: it would need more lines -/

theorem skip_length (f g : File) (l : List Word) (h : skip f = (l, some g)) : g.length < f.length := by
  induction f with
  | nil => cases h
  | cons x f ih =>
    match x, h with
    | .words (w :: l'), h =>
      cases h
      simp
    | .words [], h => exact Nat.lt_succ_of_lt (ih h)
    | .title, h => exact Nat.lt_succ_of_lt (ih h)
    | .comment, h => exact Nat.lt_succ_of_lt (ih h)

theorem next_ok {f : Option File} {v : List Word × Option File} (h : next f = ok v) :
    ∃ g, f = some g ∧ ∀ g', v.2 = some g' → g'.length < g.length := by
  cases f with
  | none => cases h
  | some g =>
    refine ⟨g, rfl, fun g' hg' => ?_⟩
    rw [next] at h
    cases h
    exact skip_length g g' (skip g).1 (by rw [← hg'])

theorem rows2_need {mx : Nat} {ds : List Nat} {i : Nat} {m : Mat} {f : File} {t : Mat} (h : rows2 mx ds i m (some f) = ok t) :
    ds.length ≤ f.length + 1 := by
  induction ds generalizing i m f with
  | nil => simp
  | cons d ds ih =>
    rw [rows2] at h
    obtain ⟨v, e, h⟩ := bind_ok_inv h
    split at h
    · cases h
    · obtain ⟨m', -, h⟩ := bind_ok_inv h
      obtain ⟨g, eg, hg⟩ := next_ok e
      cases eg
      cases hv : v.2 with
      | none =>
        rw [hv] at h
        cases ds with
        | nil => simp
        | cons d ds => rw [rows2] at h; cases h
      | some g' =>
        rw [hv] at h
        have := ih h
        have := hg g' hv
        rw [List.length_cons]
        omega

theorem format2_third {R : Nat} {cols : List (List Nat)} (hC : cols.length < 2 ^ 31) (t : Mat) :
    format2 (thirdFile R cols) ≠ ok t := by
  intro h
  unfold format2 at h
  obtain ⟨v1, e1, h⟩ := bind_ok_inv h
  obtain ⟨s, es, h⟩ := bind_ok_inv h
  split at h
  · cases h
  rename_i hs
  obtain ⟨v2, e2, h⟩ := bind_ok_inv h
  obtain ⟨d, -, h⟩ := bind_ok_inv h
  split at h
  · cases h
  obtain ⟨v3, e3, h⟩ := bind_ok_inv h
  split at h
  · cases h
  rename_i hl
  obtain ⟨rd, er, h⟩ := bind_ok_inv h
  obtain ⟨v4, e4, h⟩ := bind_ok_inv h
  split at h
  · cases h
  obtain ⟨_, -, h⟩ := bind_ok_inv h
  have hrd : rd.length = s.1 := by
    have := degs_out 0 d.1 v3.1 s.1 0 (by omega)
    rw [er] at this
    exact this
  have hs1 : s.1 = cols.length := by
    have hv : v1.1 = [.num cols.length, .num R] := by cases e1; rfl
    rw [hv] at es
    cases es
    exact u32_nat (by omega)
  have hf : (thirdFile R cols).length = cols.length + 2 := by simp [thirdFile]
  obtain ⟨g1, x1, y1⟩ := next_ok e1
  obtain ⟨g2, x2, y2⟩ := next_ok e2
  obtain ⟨g3, x3, y3⟩ := next_ok e3
  obtain ⟨g4, x4, y4⟩ := next_ok e4
  cases x1
  have := y1 _ x2
  have := y2 _ x3
  have := y3 _ x4
  cases hv : v4.2 with
  | none =>
    rw [hv] at h
    cases rd with
    | nil =>
      simp at hrd
      omega
    | cons d ds => rw [rows2] at h; cases h
  | some g5 =>
    rw [hv] at h
    have := y4 _ hv
    have := rows2_need h
    omega

/-! ## The third reader accepts it -/

theorem degs_ok1 {mx : Nat} (hmx : mx < 2 ^ 32) (ds pre : List Nat) (h : ∀ d ∈ ds, 0 < d ∧ d ≤ mx) :
    degs 1 mx ((pre ++ ds).map (fun (d : Nat) => Word.num d)) ds.length pre.length = ok ds := by
  induction ds generalizing pre with
  | nil => rfl
  | cons d ds ih =>
    have hd := h d List.mem_cons_self
    have e : ((pre ++ d :: ds).map (fun (d : Nat) => Word.num d))[pre.length]? = some (.num d) := by simp
    rw [List.length_cons, degs, rd_of e, bind_ok, stoi, bind_ok, u32_nat (by omega), if_pos ⟨by omega, hd.2⟩]
    have := ih (pre ++ [d]) fun d' hd' => h d' (List.mem_cons_of_mem _ hd')
    rw [List.append_assoc, List.singleton_append, List.length_append, List.length_singleton] at this
    rw [this, bind_ok]

theorem col3_ok {R C i : Nat} (hR : R < 2 ^ 31) (l pre : List Nat) {m : Mat} {S : Finset (Nat × Nat)}
    (h : Represents m ⟨R, C, S⟩) (hi : i < C) (hl : ∀ c ∈ l, c < R) (hd : l.Nodup) (hn : ∀ c ∈ l, (c, i) ∉ S) :
    (col3 i ((pre ++ l).map fun (r : Nat) => Word.num r) l.length pre.length m).Sat fun t =>
      ∃ S', Represents t ⟨R, C, S'⟩ ∧ ∀ p, p ∈ S' ↔ p ∈ S ∨ (p.2 = i ∧ p.1 ∈ l) := by
  induction l generalizing pre m S with
  | nil => exact ⟨m, rfl, S, h, by simp⟩
  | cons c l ih =>
    have e : ((pre ++ c :: l).map fun (r : Nat) => Word.num r)[pre.length]? = some (.num c) := by simp
    have hc := hl c List.mem_cons_self
    rw [List.length_cons, col3, rd_of e, bind_ok, stoi, bind_ok, u32_nat (by omega)]
    refine (orThrow_add h (r := c) (c := i) hc hi (hn c List.mem_cons_self)).bind fun t ht => ?_
    have := ih (pre ++ [c]) ht (fun c' hc' => hl c' (List.mem_cons_of_mem _ hc')) (List.nodup_cons.1 hd).2
      (fun c' hc' => by
        rw [Finset.mem_insert, not_or, Prod.mk.injEq]
        exact ⟨fun e => (List.nodup_cons.1 hd).1 (e.1 ▸ hc'), hn c' (List.mem_cons_of_mem _ hc')⟩)
    rw [List.append_assoc, List.singleton_append, List.length_append, List.length_singleton] at this
    refine this.mono fun u ⟨S', hu, hS'⟩ => ⟨S', hu, fun p => ?_⟩
    rw [hS', Finset.mem_insert, List.mem_cons, Prod.ext_iff]
    tauto

theorem cols3_ok {R C : Nat} (hR : R < 2 ^ 31) (ls : List (List Nat)) {i : Nat} {m : Mat} {S : Finset (Nat × Nat)}
    (h : Represents m ⟨R, C, S⟩) (hi : i + ls.length ≤ C) (hS : ∀ p ∈ S, p.2 < i)
    (hl : ∀ l ∈ ls, l.Nodup ∧ (∀ r ∈ l, r < R) ∧ 0 < l.length) :
    (cols3 (ls.map List.length) i m (some (ls.map fun l => Line.words (l.map fun (r : Nat) => Word.num r)))).Sat fun t =>
      ∃ S', Represents t ⟨R, C, S'⟩ ∧ ∀ p, p ∈ S' ↔ p ∈ S ∨ ∃ (k : Nat) (l : List Nat), ls[k]? = some l ∧ p.2 = i + k ∧ p.1 ∈ l := by
  induction ls generalizing i m S with
  | nil => exact ⟨_, rfl, S, h, by simp⟩
  | cons l ls ih =>
    obtain ⟨h1, h2, h3⟩ := hl l List.mem_cons_self
    rw [List.length_cons] at hi
    rw [List.map_cons, List.map_cons, cols3, next, skip_words (by simpa using h3), bind_ok]
    dsimp only
    rw [if_neg (by simp)]
    have := col3_ok hR l [] h (show i < C by omega) h2 h1 (fun c _ hc => Nat.lt_irrefl _ (hS _ hc))
    refine this.bind fun t ⟨S', ht, hS'⟩ => ?_
    refine (ih ht (by omega) (fun p hp => ?_) (fun l' hl' => hl l' (List.mem_cons_of_mem _ hl'))).mono
      fun u ⟨S'', hu, hS''⟩ => ⟨S'', hu, fun p => ?_⟩
    · rcases (hS' p).1 hp with hp | ⟨hp, -⟩
      · exact Nat.lt_succ_of_lt (hS p hp)
      · omega
    · rw [hS'', hS']
      constructor
      · rintro ((h | ⟨h1, h2⟩) | ⟨k, l', h1, h2, h3⟩)
        · exact Or.inl h
        · exact Or.inr ⟨0, l, rfl, h1, h2⟩
        · exact Or.inr ⟨k + 1, l', by simpa using h1, by omega, h3⟩
      · rintro (h | ⟨k, l', h1, h2, h3⟩)
        · exact Or.inl (Or.inl h)
        · cases k with
          | zero => simp only [List.getElem?_cons_zero, Option.some.injEq] at h1; subst h1; exact Or.inl (Or.inr ⟨h2, h3⟩)
          | succ k => exact Or.inr ⟨k, l', by simpa using h1, by omega, h3⟩

theorem format3_third {R : Nat} {cols : List (List Nat)} (hC : cols.length < 2 ^ 31) (hR0 : 0 < R) (hR : R ≤ cols.length)
    (hl : ∀ l ∈ cols, l.Nodup ∧ (∀ r ∈ l, r < R) ∧ 0 < l.length) :
    (format3 (thirdFile R cols)).Sat fun t => ∃ S, Represents t ⟨R, cols.length, S⟩ ∧
      ∀ p, p ∈ S ↔ ∃ (l : List Nat), cols[p.2]? = some l ∧ p.1 ∈ l := by
  have t1 := two_ok (a := cols.length) (b := R) (by omega) (by omega)
  have e1 : 0 < (cols.map fun l => Word.num (l.length : Int)).length := by rw [List.length_map]; omega
  have d1 := degs_ok1 (mx := R) (by omega) (cols.map List.length) [] (fun d hd => by
    obtain ⟨l, hl', rfl⟩ := List.mem_map.1 hd
    exact ⟨(hl l hl').2.2, length_le (hl l hl').1 (hl l hl').2.1⟩)
  rw [List.length_map, List.nil_append, List.map_map] at d1
  unfold format3 thirdFile
  simp only [List.cons_append, List.nil_append, next, skip, skip_words e1, bind_ok, t1, List.length_map]
  rw [if_neg (by omega), if_neg (by omega)]
  erw [d1]
  rw [bind_ok]
  refine (cols3_ok (by omega) cols (represents_new R cols.length) (i := 0) (by omega) (fun p hp => by simp [Conns.empty] at hp) hl).mono
    fun t ⟨S, ht, hS⟩ => ⟨S, ht, fun p => ?_⟩
  rw [hS]
  constructor
  · rintro (h | ⟨k, l, h1, h2, h3⟩)
    · simp [Conns.empty] at h
    · exact ⟨l, by rw [h2, Nat.zero_add]; exact h1, h3⟩
  · rintro ⟨l, h1, h2⟩
    exact Or.inr ⟨p.2, l, h1, by omega, h2⟩

end Verif.AList
