import Verif.Proof.PolarSCLTypes

/-! # Recovery of a codeword for which the inputs vote -/

namespace Verif.PolarSCL
open Verif.Polar
open Verif.PolarSC (Fns soft zip3 Sound)

variable {R : Type} {w : Nat} {F : Fns R w} {A : Ar R} {m : Nat} {y : List R} {L : Nat} {V : R → Bool → Prop}

/-- A relation between soft values and bits that the functions keep. -/
structure Keeps (F : Fns R w) (V : R → Bool → Prop) : Prop where
  f : ∀ {a b p q}, V a p → V b q → V (F.f a b) (xor p q)
  g : ∀ {a b p q}, V a (xor p q) → V b q → V (F.g a b (if p then bitInit w else 0)) q

theorem f_keeps (K : Keeps F V) : ∀ {a b : List R} {x1 x2 : List Bool}, List.Forall₂ V a (List.zipWith xor x1 x2) → List.Forall₂ V b x2 → x1.length = x2.length → List.Forall₂ V (List.zipWith F.f a b) x1
  | _, _, [], _, _, _, _ => by rename_i h1 _ _; simp only [List.zipWith_nil_left, List.forall₂_nil_right_iff] at h1; subst h1; simp
  | _, _, p :: x1, q :: x2, h1, h2, hl => by
    rw [List.zipWith_cons_cons] at h1
    cases h1 with
    | cons a1 a2 =>
      cases h2 with
      | cons b1 b2 =>
        rw [List.zipWith_cons_cons]
        refine .cons ?_ (f_keeps K a2 b2 (by simpa using hl))
        have := K.f a1 b1
        rwa [Bool.xor_assoc, Bool.xor_self, Bool.xor_false] at this

theorem g_keeps (K : Keeps F V) : ∀ {a b : List R} {x1 x2 : List Bool}, List.Forall₂ V a (List.zipWith xor x1 x2) → List.Forall₂ V b x2 → x1.length = x2.length → List.Forall₂ V (zip3 F.g a b (word w x1)) x2
  | _, _, [], [], _, _, _ => by simp [zip3, word]
  | _, _, p :: x1, q :: x2, h1, h2, hl => by
    rw [List.zipWith_cons_cons] at h1
    cases h1 with
    | cons a1 a2 =>
      cases h2 with
      | cons b1 b2 =>
        simp only [zip3, word, List.map_cons, List.zip_cons_cons, List.zipWith_cons_cons]
        exact .cons (K.g a1 b1) (g_keeps K a2 b2 (by simpa using hl))

/-- On the path of the codeword, the soft values vote for its bits. -/
theorem soft_votes (K : Keeps F V) : ∀ {n : Nat} {y : List R} {u : List Bool} {i : Nat} (hu : u.length = 2 ^ n) (hi : i < 2 ^ n), List.Forall₂ V y (boolT n u) → V (soft F n y (word w (u.take i)) i) (u[i]'(by omega))
  | 0, y, u, i, hu, hi, h => by
    obtain ⟨a, rfl⟩ := List.length_eq_one_iff.1 hu
    obtain rfl : i = 0 := by simpa using hi
    cases h with
    | cons h1 h2 => exact h1
  | n + 1, y, u, i, hu, hi, h => by
    have hp : 2 ^ (n + 1) = 2 ^ n + 2 ^ n := by rw [Nat.pow_succ]; omega
    have e1 : (u.take (2 ^ n)).length = 2 ^ n := by simp; omega
    have e2 : (u.drop (2 ^ n)).length = 2 ^ n := by simp; omega
    have b1 := boolT_length e1
    have b2 := boolT_length e2
    have h' : List.Forall₂ V y (List.zipWith xor (boolT n (u.take (2 ^ n))) (boolT n (u.drop (2 ^ n))) ++ boolT n (u.drop (2 ^ n))) := h
    have hlz : (List.zipWith xor (boolT n (u.take (2 ^ n))) (boolT n (u.drop (2 ^ n)))).length = 2 ^ n := by rw [List.length_zipWith]; omega
    have n1 := List.forall₂_take_append _ _ _ h'
    have n2 := List.forall₂_drop_append _ _ _ h'
    rw [hlz] at n1 n2
    show V (if i < 2 ^ n then _ else _) _
    by_cases hl : i < 2 ^ n
    · rw [if_pos hl]
      have := soft_votes K (i := i) e1 hl (f_keeps K n1 n2 (by omega))
      rw [List.take_take, Nat.min_eq_left (by omega), List.getElem_take] at this
      exact this
    · rw [if_neg hl]
      have e5 : polarTransform n ((word w (u.take i)).take (2 ^ n)) = word w (boolT n (u.take (2 ^ n))) := by
        rw [← word_transform e1]; simp only [word, ← List.map_take, List.take_take, Nat.min_eq_left (not_lt.1 hl)]
      have e6 : (word w (u.take i)).drop (2 ^ n) = word w ((u.drop (2 ^ n)).take (i - 2 ^ n)) := by
        simp only [word, ← List.map_drop, List.drop_take]
      rw [e5, e6]
      have := soft_votes K (i := i - 2 ^ n) e2 (by omega) (g_keeps K n1 n2 (by omega))
      rw [List.getElem_drop] at this
      have e7 : 2 ^ n + (i - 2 ^ n) = i := by omega
      simp only [e7] at this
      exact this

/-- All the soft values of the paths. -/
theorem soft_all {D : R → Prop} (hf : ∀ a b, D a → D b → D (F.f a b)) (hg : ∀ a b v, D (F.g a b v)) : ∀ {n : Nat} {y : List R} {v : List (BitVec w)} {i : Nat}, y.length = 2 ^ n → i < 2 ^ n →
    (∀ a ∈ y, D a) ∨ 0 < i → D (soft F n y v i)
  | 0, y, v, i, hy, hi, h => by
    obtain ⟨a, rfl⟩ := List.length_eq_one_iff.1 hy
    rcases h with h | h
    · exact h a (by simp)
    · simp at hi; omega
  | n + 1, y, v, i, hy, hi, h => by
    have hp : 2 ^ (n + 1) = 2 ^ n + 2 ^ n := by rw [Nat.pow_succ]; omega
    show D (if i < 2 ^ n then _ else _)
    by_cases hl : i < 2 ^ n
    · rw [if_pos hl]
      refine soft_all hf hg (by simp; omega) hl ?_
      rcases h with h | h
      · refine Or.inl fun a ha => ?_
        obtain ⟨j, hj, rfl⟩ := List.mem_iff_getElem.1 ha
        rw [List.getElem_zipWith]
        exact hf _ _ (h _ (List.mem_of_mem_take (List.getElem_mem _))) (h _ (List.mem_of_mem_drop (List.getElem_mem _)))
      · exact Or.inr h
    · rw [if_neg hl]
      refine soft_all hf hg (by simp [zip3, polarTransform_length]; omega) (by omega) (Or.inl fun a ha => ?_)
      unfold zip3 at ha
      obtain ⟨j, hj, rfl⟩ := List.mem_iff_getElem.1 ha
      rw [List.getElem_zipWith]
      exact hg _ _ _

/-- Types on which the metric of the path of the codeword remains the least one: `t k` is this metric, `O k` are those of the other paths (`k`: after a normalization), `free`: the first bit can be an information bit. -/
structure Robust (F : Fns R w) (A : Ar R) (V : R → Bool → Prop) (D : R → Prop) (t : Bool → R) (O : Bool → R → Prop) (free : Bool) : Prop extends Keeps F V where
  fD : ∀ a b, D a → D b → D (F.f a b)
  gD : ∀ a b v, D (F.g a b v)
  init : A.init = t false
  phi_t : ∀ {k l b}, V l b → A.phi (t k) l b = t k
  phi_o : ∀ {k l b}, V l (!b) → O k (A.phi (t k) l b)
  phi_O : ∀ {k mu l} b, O k mu → D l → O k (A.phi mu l b)
  lt : ∀ {k mu}, O k mu → A.lt (t k) mu = true
  max : ∀ k, A.lt (t k) A.max = true
  sub_t : ∀ k, A.sub (t k) (t k) = t true
  sub_O : ∀ {k mu}, k = true ∨ free = true → O k mu → O true (A.sub mu (t k))

theorem min_t (hA : Strict A) {D : R → Prop} {t : Bool → R} {O : Bool → R → Prop} {free : Bool} (S : Robust F A V D t O free) {k : Bool} : ∀ (W : List (List Bool × R)) (r : R), (∀ p ∈ W, p.2 = t k ∨ O k p.2) →
    (r = t k ∨ ((r = A.max ∨ O k r) ∧ ∃ p ∈ W, p.2 = t k)) → W.foldl (fun r p => minR A r p.2) r = t k
  | [], r, _, h => by
    rcases h with h | ⟨_, p, hp, _⟩
    · exact h
    · cases hp
  | p :: W, r, hW, h => by
    rw [List.foldl_cons]
    refine min_t hA S W _ (fun q hq => hW q (by simp [hq])) ?_
    unfold minR
    have hp := hW p (by simp)
    rcases h with rfl | ⟨hr, q, hq, e⟩
    · left
      rw [if_neg]
      intro hlt
      rcases hp with e | e
      · rw [e, hA.1] at hlt; cases hlt
      · have := hA.2 _ _ _ hlt (S.lt e)
        rw [hA.1] at this
        cases this
    · have hlt : A.lt (t k) r = true := by
        rcases hr with rfl | hr
        · exact S.max k
        · exact S.lt hr
      rcases List.mem_cons.1 hq with rfl | hq
      · left
        rw [e, if_pos hlt]
      · rcases hp with e' | e'
        · left
          rw [e', if_pos hlt]
        · right
          split
          · exact ⟨Or.inr e', q, hq, e⟩
          · exact ⟨hr, q, hq, e⟩

theorem Lists.same {fr : List Bool} {W : List (List Bool × R)} (h : Lists F A m y L fr W) {p q : List Bool × R} (hp : p ∈ W) (hq : q ∈ W) (e : p.1 = q.1) : p = q :=
  List.inj_on_of_nodup_map h.nodup hp hq e

/-- In the lists of a decoder whose inputs vote for a codeword, its path is the best one. -/
theorem Lists.robust (hA : Strict A) {D : R → Prop} {t : Bool → R} {O : Bool → R → Prop} {free : Bool} (S : Robust F A V D t O free) {u : List Bool} (hu : u.length = 2 ^ m)
    (hy : List.Forall₂ V y (boolT m u)) {fr : List Bool} {W : List (List Bool × R)} (h : Lists F A m y L fr W) (hfr : fr.length ≤ 2 ^ m) (hz : ∀ i : Nat, fr[i]? = some true → u[i]? = some false)
    (h0 : free = true ∨ ∀ f, fr[0]? = some f → f = true) :
    ∃ k, (k = true ∨ free = true ∨ fr.length = 0) ∧ (u.take fr.length, t k) ∈ W ∧ ∀ p ∈ W, p.1 ≠ u.take fr.length → O k p.2 := by
  have hyl : y.length = 2 ^ m := by rw [hy.length_eq, boolT_length hu]
  -- extension of the paths
  have ext : ∀ {fr : List Bool} {W : List (List Bool × R)} {k : Bool} (hlt : fr.length < 2 ^ m), Lists F A m y L fr W → (∀ p ∈ W, p.1 ≠ u.take fr.length → O k p.2) →
      (u.take fr.length, t k) ∈ W → ∀ p ∈ W, ∀ b, ((extend F A m y b p).1 = u.take (fr.length + 1) → extend F A m y b p = (u.take (fr.length + 1), t k)) ∧
        ((extend F A m y b p).1 ≠ u.take (fr.length + 1) → O k (extend F A m y b p).2) := by
    intro fr W k hlt hW hO ht p hp b
    have hl := hW.len hp
    have htk : u.take (fr.length + 1) = u.take fr.length ++ [u[fr.length]'(by omega)] := List.take_succ_eq_append_getElem (by omega)
    have hv := soft_votes S.toKeeps (i := fr.length) hu hlt hy
    by_cases hpt : p.1 = u.take fr.length
    · have := hW.same hp ht hpt
      subst this
      have hsv : sv F m y (u.take fr.length) = soft F m y (word w (u.take fr.length)) fr.length := by
        unfold sv; rw [List.length_take, Nat.min_eq_left (by omega)]
      unfold extend
      dsimp only
      rw [hsv, htk]
      by_cases hb : b = u[fr.length]'(by omega)
      · refine ⟨fun _ => ?_, fun hne => absurd (by rw [hb]) hne⟩
        rw [hb, S.phi_t hv]
      · refine ⟨fun e => ?_, fun _ => S.phi_o ?_⟩
        · have := (List.append_inj' e rfl).2
          exact absurd (by simpa using this) hb
        · have : (!b) = u[fr.length]'(by omega) := by
            revert hb; cases b <;> cases u[fr.length]'(by omega) <;> simp
          rw [this]; exact hv
    · have hpos : 0 < fr.length := by
        rcases Nat.eq_zero_or_pos fr.length with e | e
        · exfalso; apply hpt
          rw [e] at hl ⊢
          rw [List.length_eq_zero_iff.1 hl]; rfl
        · exact e
      refine ⟨fun e => ?_, fun _ => ?_⟩
      · rw [htk] at e
        exact absurd (List.append_inj' e rfl).1 hpt
      · refine S.phi_O b (hO p hp hpt) ?_
        unfold sv
        exact soft_all S.fD S.gD hyl (by omega) (Or.inr (by omega))
  induction h with
  | start =>
    refine ⟨false, Or.inr (Or.inr rfl), ?_, ?_⟩
    · rw [S.init]; simp
    · intro p hp hne
      rw [List.mem_singleton.1 hp] at hne
      exact absurd rfl hne
  | @frozen fr W hW ih =>
    rw [List.length_append, List.length_singleton] at hfr ⊢
    have hui : u[fr.length]? = some false := hz fr.length (by simp)
    obtain ⟨k, hk, ht, hO⟩ := ih (by omega) (fun i hi => hz i (by
      rw [List.getElem?_append_left (List.getElem?_eq_some_iff.1 hi).1]; exact hi)) (h0.imp id fun h f hf => h f (by rw [List.getElem?_append_left (List.getElem?_eq_some_iff.1 hf).1]; exact hf))
    have hx := ext (by omega) hW hO ht
    have hq : (extend F A m y false (u.take fr.length, t k)).1 = u.take (fr.length + 1) := by
      unfold extend
      rw [List.take_succ, hui]; rfl
    have hmin : (W.map (extend F A m y false)).foldl (fun r p => minR A r p.2) A.max = t k := by
      refine min_t hA S _ _ ?_ (Or.inr ⟨Or.inl rfl, _, List.mem_map.2 ⟨_, ht, rfl⟩, by rw [(hx _ ht false).1 hq]⟩)
      intro p hp
      obtain ⟨q, hq', rfl⟩ := List.mem_map.1 hp
      by_cases e : (extend F A m y false q).1 = u.take (fr.length + 1)
      · left; rw [(hx q hq' false).1 e]
      · exact Or.inr ((hx q hq' false).2 e)
    refine ⟨true, Or.inl rfl, ?_, ?_⟩
    · refine norm_mem.2 ⟨_, List.mem_map.2 ⟨_, ht, rfl⟩, ?_⟩
      rw [hmin, (hx _ ht false).1 hq, S.sub_t]
    · intro p hp hne
      obtain ⟨q, hq', rfl⟩ := norm_mem.1 hp
      obtain ⟨q, hq'', rfl⟩ := List.mem_map.1 hq'
      rw [hmin]
      refine S.sub_O ?_ ((hx q hq'' false).2 hne)
      rcases hk with h | h | h
      · exact Or.inl h
      · exact Or.inr h
      · exfalso
        apply hne
        have := hW.len hq''
        rw [← hq]
        unfold extend
        dsimp only
        rw [h] at this ⊢
        rw [List.length_eq_zero_iff.1 this]; rfl
  | @info fr W hW _ ih =>
    rw [List.length_append, List.length_singleton] at hfr ⊢
    obtain ⟨k, hk, ht, hO⟩ := ih (by omega) (fun i hi => hz i (by
      rw [List.getElem?_append_left (List.getElem?_eq_some_iff.1 hi).1]; exact hi)) (h0.imp id fun h f hf => h f (by rw [List.getElem?_append_left (List.getElem?_eq_some_iff.1 hf).1]; exact hf))
    have hx := ext (by omega) hW hO ht
    have hq : (extend F A m y (u[fr.length]'(by omega)) (u.take fr.length, t k)).1 = u.take (fr.length + 1) := by
      unfold extend
      rw [List.take_succ_eq_append_getElem (by omega)]
    refine ⟨k, ?_, ?_, ?_⟩
    · rcases hk with h | h | h
      · exact Or.inl h
      · exact Or.inr (Or.inl h)
      · rcases h0 with h0 | h0
        · exact Or.inr (Or.inl h0)
        · rw [List.length_eq_zero_iff.1 h] at h0
          exact absurd (h0 false rfl) (by simp)
    · exact pairs_mem.2 ⟨_, ht, _, ((hx _ ht _).1 hq).symm⟩
    · intro p hp hne
      obtain ⟨q, hq', b, rfl⟩ := pairs_mem.1 hp
      exact (hx q hq' b).2 hne
  | @prune fr W kept dropped hW _ hperm hlen hbest ih =>
    rw [List.length_append, List.length_singleton] at hfr ⊢
    obtain ⟨k, hk, ht, hO⟩ := ih (by omega) (fun i hi => hz i (by
      rw [List.getElem?_append_left (List.getElem?_eq_some_iff.1 hi).1]; exact hi)) (h0.imp id fun h f hf => h f (by rw [List.getElem?_append_left (List.getElem?_eq_some_iff.1 hf).1]; exact hf))
    have hx := ext (by omega) hW hO ht
    have hq : (extend F A m y (u[fr.length]'(by omega)) (u.take fr.length, t k)).1 = u.take (fr.length + 1) := by
      unfold extend
      rw [List.take_succ_eq_append_getElem (by omega)]
    have hO' : ∀ p ∈ kept, p.1 ≠ u.take (fr.length + 1) → O k p.2 := by
      intro p hp hne
      obtain ⟨q, hq', b, rfl⟩ := pairs_mem.1 (hperm.subset (List.mem_append_left _ hp))
      exact (hx q hq' b).2 hne
    refine ⟨k, ?_, ?_, hO'⟩
    · rcases hk with h | h | h
      · exact Or.inl h
      · exact Or.inr (Or.inl h)
      · rcases h0 with h0 | h0
        · exact Or.inr (Or.inl h0)
        · rw [List.length_eq_zero_iff.1 h] at h0
          exact absurd (h0 false rfl) (by simp)
    · have hmem := hperm.mem_iff.2 (pairs_mem.2 ⟨_, ht, _, ((hx _ ht _).1 hq).symm⟩)
      rcases List.mem_append.1 hmem with hm | hm
      · exact hm
      · exfalso
        have hne := hW.ne
        rcases hkp : kept with _ | ⟨q, kept'⟩
        · rw [hkp] at hlen
          exact hne (List.length_eq_zero_iff.1 hlen.symm)
        · have hqk : q ∈ kept := by rw [hkp]; simp
          have hnd := (hperm.map Prod.fst).nodup_iff.2 (pairs_nodup hW.nodup)
          rw [List.map_append] at hnd
          have hdis := List.disjoint_of_nodup_append hnd
          have hqt : q.1 ≠ u.take (fr.length + 1) := fun e => hdis (List.mem_map_of_mem (f := Prod.fst) hqk) (by rw [e]; exact List.mem_map.2 ⟨_, hm, rfl⟩)
          have := hbest q hqk _ hm
          rw [S.lt (hO' q hqk hqt)] at this
          cases this
  | perm _ hp ih =>
    obtain ⟨k, hk, ht, hO⟩ := ih hfr hz h0
    exact ⟨k, hk, hp.mem_iff.1 ht, fun p h => hO p (hp.mem_iff.2 h)⟩

end Verif.PolarSCL
