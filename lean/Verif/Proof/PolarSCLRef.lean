import Verif.Proof.PolarSCL
import Mathlib.Data.List.Perm.Subperm
import Mathlib.Data.List.Perm.Lattice

/-! # The list decoder on paths of bits -/

namespace Verif.PolarSCL
open Exec Verif.Polar
open Verif.PolarSC (Fns)

variable {R : Type} {w : Nat}

/-- The paths, without their trees. -/
structure St (R : Type) where
  active : List Nat
  u : Nat → List Bool
  met : Nat → R

/-- A path that is not active. -/
def free (l : List Nat) : Nat := freeFrom l l.length 0

theorem freeFrom_spec (l : List Nat) : ∀ (fuel n : Nat), n ≤ freeFrom l fuel n ∧ freeFrom l fuel n ≤ n + fuel ∧ (∀ k, n ≤ k → k < freeFrom l fuel n → k ∈ l) ∧
    (freeFrom l fuel n < n + fuel → freeFrom l fuel n ∉ l)
  | 0, n => ⟨le_refl _, le_refl _, fun k h1 h2 => by unfold freeFrom at h2; omega, fun h => by unfold freeFrom at h; omega⟩
  | fuel + 1, n => by
    unfold freeFrom
    split
    · rename_i h
      obtain ⟨h1, h2, h3, h4⟩ := freeFrom_spec l fuel (n + 1)
      refine ⟨by omega, by omega, fun k k1 k2 => ?_, fun g => h4 (by omega)⟩
      by_cases e : k = n
      · rw [e]; exact h
      · exact h3 k (by omega) k2
    · rename_i h
      exact ⟨le_refl _, by omega, fun k h1 h2 => by omega, fun _ => h⟩

theorem free_le (l : List Nat) : free l ≤ l.length := by have := (freeFrom_spec l l.length 0).2.1; unfold free; omega

theorem free_not_mem {l : List Nat} (hl : l.Nodup) : free l ∉ l := by
  obtain ⟨h1, h2, h3, h4⟩ := freeFrom_spec l l.length 0
  by_cases h : freeFrom l l.length 0 < 0 + l.length
  · exact h4 h
  · have e : freeFrom l l.length 0 = l.length := by omega
    intro hm
    have hsub : List.range (l.length + 1) ⊆ l := by
      intro k hk
      rw [List.mem_range] at hk
      by_cases hkl : k = l.length
      · rw [hkl, ← e]; exact hm
      · exact h3 k (by omega) (by omega)
    have := (List.subperm_of_subset List.nodup_range hsub).length_le
    rw [List.length_range] at this
    omega

theorem mem_ins {p q : Nat} {l : List Nat} : q ∈ ins p l ↔ q = p ∨ q ∈ l := by
  unfold ins
  split
  · rename_i h
    exact ⟨Or.inr, fun g => by rcases g with rfl | g <;> assumption⟩
  · simp only [List.mem_append, List.mem_cons, List.mem_filter, decide_eq_true_eq]
    constructor
    · rintro (h | h | h)
      · exact Or.inr h.1
      · exact Or.inl h
      · exact Or.inr h.1
    · rintro (h | h)
      · exact Or.inr (Or.inl h)
      · rcases Nat.lt_trichotomy q p with g | g | g
        · exact Or.inl ⟨h, g⟩
        · exact Or.inr (Or.inl g)
        · exact Or.inr (Or.inr ⟨h, g⟩)

theorem ins_perm {p : Nat} : ∀ {l : List Nat}, p ∉ l → (ins p l).Perm (p :: l) := by
  intro l h
  unfold ins
  rw [if_neg h]
  refine List.perm_middle.trans (List.Perm.cons p ?_)
  have e : l.filter (fun x => p < x) = l.filter (fun x => !decide (x < p)) := by
    refine List.filter_congr fun x hx => ?_
    have : x ≠ p := fun e => h (e ▸ hx)
    by_cases g : x < p <;> simp [g] <;> omega
  rw [e]
  exact List.filter_append_perm _ _

variable (F : Fns R w) (A : Ar R) (m : Nat) (y : List R)

/-- `duplicate_path` on the bits. -/
def aDup (p : Nat) (s : St R) : St R :=
  ⟨ins (free s.active) s.active, upd (upd s.u (free s.active) (s.u p ++ [true])) p (s.u p ++ [false]),
    upd (upd s.met (free s.active) (A.phi (s.met p) (sv F m y (s.u p)) true)) p (A.phi (s.met p) (sv F m y (s.u p)) false)⟩

/-- The choice of a bit. -/
def aChoose (c : Cand R w) (s : St R) : St R := { s with u := upd s.u c.path (s.u c.path ++ [decide (c.bit ≠ 0)]), met := upd s.met c.path c.met }

/-- The hypothetic paths. -/
def aCands (s : St R) : List (Cand R w) :=
  s.active.flatMap fun p => [⟨p, 0, A.phi (s.met p) (sv F m y (s.u p)) false⟩, ⟨p, bitInit w, A.phi (s.met p) (sv F m y (s.u p)) true⟩]

/-- The loop on the best ones. -/
def aKeep : Nat → List (Cand R w) → St R → St R
  | 0, _, s => s
  | _ + 1, [], s => s
  | fuel + 1, c :: rest, s =>
    if rest.any (fun x => x.path = c.path) then aKeep fuel (rest.eraseP (fun x => x.path = c.path)) (aDup F A m y c.path s)
    else aKeep fuel rest (aChoose c s)

/-- The kept hypothetic paths. -/
def aKept (L : Nat) (sort : List (Cand R w) → List (Cand R w)) (s : St R) : List (Cand R w) :=
  if s.active.length ≤ L / 2 then aCands F A m y s else (sort (aCands F A m y s)).take ((sort (aCands F A m y s)).length / 2)

/-- The paths that remain. -/
def aAlive (L : Nat) (sort : List (Cand R w) → List (Cand R w)) (s : St R) : List Nat :=
  if s.active.length ≤ L / 2 then s.active else prune ((sort (aCands F A m y s)).drop ((sort (aCands F A m y s)).length / 2)) s.active

/-- A leaf of information. -/
def aInfo (L : Nat) (sort : List (Cand R w) → List (Cand R w)) (s : St R) : St R :=
  aKeep F A m y (aKept F A m y L sort s).length (aKept F A m y L sort s) { s with active := aAlive F A m y L sort s }

/-- The minimum on a frozen leaf. -/
def aMin (s : St R) : R := s.active.foldl (fun r p => minR A r (A.phi (s.met p) (sv F m y (s.u p)) false)) A.max

/-- A frozen leaf. -/
def aFrozen (s : St R) : St R :=
  ⟨s.active, fun p => s.u p ++ [false], fun p => A.sub (A.phi (s.met p) (sv F m y (s.u p)) false) (aMin F A m y s)⟩

/-- One leaf. -/
def aLeaf (L : Nat) (sort : List (Cand R w) → List (Cand R w)) (fr : Bool) (s : St R) : St R :=
  if fr then aFrozen F A m y s else aInfo F A m y L sort s

/-- All the leaves. -/
def aRun (L : Nat) (sort : List (Cand R w) → List (Cand R w)) (frozen : List Bool) (s : St R) : St R :=
  frozen.foldl (fun s fr => aLeaf F A m y L sort fr s) s

/-- The decoder after the construction and between two uses. -/
structure Dec.Ok (d : Dec R w) : Prop where
  w0 : 0 < w
  m0 : 0 < d.m
  N : d.N = 2 ^ d.m
  L : ∃ k, d.L = 2 ^ k
  frozen : d.frozen.length = d.N
  K : d.K = (d.frozen.filter (· = false)).length
  size : ∀ p, Sized d.m (d.trees p)

/-- Same parameters. -/
structure Same (d e : Dec R w) : Prop where
  K : e.K = d.K
  N : e.N = d.N
  m : e.m = d.m
  L : e.L = d.L
  sys : e.sys = d.sys
  crc : e.crc = d.crc
  frozen : e.frozen = d.frozen

theorem Same.refl (d : Dec R w) : Same d d := ⟨rfl, rfl, rfl, rfl, rfl, rfl, rfl⟩

theorem Same.trans {d e f : Dec R w} (h : Same d e) (g : Same e f) : Same d f :=
  ⟨g.K.trans h.K, g.N.trans h.N, g.m.trans h.m, g.L.trans h.L, g.sys.trans h.sys, g.crc.trans h.crc, g.frozen.trans h.frozen⟩

/-- The decoder and the paths agree; `P p` is what is known of the tree of the path `p`. -/
structure Ref (P : Nat → List Bool → Tree R w → Prop) (d : Dec R w) (s : St R) : Prop where
  active : d.active = s.active
  met : ∀ p, p ∈ s.active → d.met p = s.met p
  size : ∀ p, Sized d.m (d.trees p)
  root : ∀ p, p < d.L → (d.trees p).lam 0 0 = y
  lt : ∀ p, p ∈ s.active → p < d.L
  nodup : s.active.Nodup
  tree : ∀ p, p ∈ s.active → P p (s.u p) (d.trees p)

/-- Between two leaves. -/
def PT (i : Nat) (_ : Nat) (u : List Bool) (t : Tree R w) : Prop := u.length = i ∧ TInv F m y u t

/-- When the LLRs are computed. -/
def PA (i : Nat) (_ : Nat) (u : List Bool) (t : Tree R w) : Prop := u.length = i ∧ AInv F m y u t

/-- When the bits are decided. -/
def PB (i : Nat) (_ : Nat) (u : List Bool) (t : Tree R w) : Prop := ∃ v b, u = v ++ [b] ∧ v.length = i ∧ BInv F m y v b t

/-- The paths of `q` are not decided yet. -/
def PM (i : Nat) (q : List Nat) (p : Nat) (u : List Bool) (t : Tree R w) : Prop := if p ∈ q then PA F m y i p u t else PB F m y i p u t

variable {F A m y}

theorem upd_same {α : Type} (f : Nat → α) (p : Nat) (v : α) : upd f p v p = v := by simp [upd]

theorem upd_ne {α : Type} (f : Nat → α) {p q : Nat} (v : α) (h : q ≠ p) : upd f p v q = f q := by simp [upd, h]

/-- The update of the trees of the active paths. -/
theorem onTrees_ok {P Q : Nat → List Bool → Tree R w → Prop} {f : Tree R w → Exec (Tree R w)} {d : Dec R w} {s : St R} (h : Ref y P d s)
    (hf : ∀ p u t, P p u t → Sized d.m t → t.lam 0 0 = y → (f t).Sat fun t' => Q p u t' ∧ Sized d.m t' ∧ t'.lam 0 0 = y) :
    (forEach d.active (onTree f) d).Sat fun d' => Ref y Q d' s ∧ Same d d' := by
  refine (forEach_inv (l := d.active) (f := onTree f) (s := d)
    (fun done d' => Same d d' ∧ d'.active = d.active ∧ d'.met = d.met ∧ (∀ p, Sized d.m (d'.trees p)) ∧ (∀ p, p < d.L → (d'.trees p).lam 0 0 = y) ∧
      (∀ p, p ∈ s.active → p ∈ done → Q p (s.u p) (d'.trees p)) ∧ (∀ p, p ∈ s.active → p ∉ done → P p (s.u p) (d'.trees p)))
    ⟨Same.refl d, rfl, rfl, h.size, h.root, fun _ _ h => absurd h (by simp), fun p hp _ => h.tree p hp⟩ ?_).mono ?_
  · rintro done p rest e hl ⟨h1, h2, h3, h4, h5, h6, h7⟩
    have hp : p ∈ s.active := by rw [← h.active, hl]; simp
    have hnd : p ∉ done := by
      have := h.nodup
      rw [← h.active, hl] at this
      intro c
      exact (List.nodup_append.1 this).2.2 p c p (by simp) rfl
    obtain ⟨t', ht, g1, g2, g3⟩ := hf p (s.u p) (e.trees p) (h7 p hp hnd) (h4 p) (h5 p (h.lt p hp))
    refine ⟨{ e with trees := upd e.trees p t' }, by unfold onTree; rw [ht]; rfl, ⟨h1.K, h1.N, h1.m, h1.L, h1.sys, h1.crc, h1.frozen⟩, h2, h3, fun q => ?_, fun q hq => ?_, fun q hq hqd => ?_, fun q hq hqd => ?_⟩
    · by_cases c : q = p
      · subst c; dsimp only; rw [upd_same]; exact g2
      · dsimp only; rw [upd_ne _ _ c]; exact h4 q
    · by_cases c : q = p
      · subst c; dsimp only; rw [upd_same]; exact g3
      · dsimp only; rw [upd_ne _ _ c]; exact h5 q hq
    · by_cases c : q = p
      · subst c; dsimp only; rw [upd_same]; exact g1
      · dsimp only; rw [upd_ne _ _ c]
        rw [List.mem_append, List.mem_singleton] at hqd
        exact h6 q hq (hqd.resolve_right c)
    · rw [List.mem_append, List.mem_singleton, not_or] at hqd
      dsimp only; rw [upd_ne _ _ hqd.2]
      exact h7 q hq hqd.1
  · rintro e ⟨h1, h2, h3, h4, h5, h6, h7⟩
    refine ⟨⟨h2.trans h.active, fun p hp => by rw [h3]; exact h.met p hp, by rw [h1.m]; exact h4, by rw [h1.L]; exact h5, by rw [h1.L]; exact h.lt, h.nodup, fun p hp => ?_⟩, h1⟩
    exact h6 p hp (by rw [h.active]; exact hp)

/-- The LLR of the leaf. -/
theorem AInv.leafLlr {F : Fns R w} {m : Nat} {y : List R} (hy : y.length = 2 ^ m) {u : List Bool} (hu : u.length < 2 ^ m) {t : Tree R w} (h : AInv F m y u t) :
    t.lam m u.length = [sv F m y u] := by
  have := h.lam m (le_refl m)
  rw [Nat.sub_self, Nat.pow_zero, Nat.div_one] at this
  rw [this, node_leaf F hy hu]
  rfl

theorem leaf_sized {m : Nat} {t : Tree R w} (h : Sized m t) (i : Nat) (b : BitVec w) : wr (t.s m i) 0 b = ok [b] := by
  have := (h m (le_refl m) i).2
  rw [Nat.sub_self, Nat.pow_zero] at this
  obtain ⟨a, ha⟩ := List.length_eq_one_iff.1 this
  rw [ha]
  rfl

theorem dup_eq (i p : Nat) (d : Dec R w) (hm : d.L > free d.active) {x : R} (hx : (d.trees p).lam d.m i = [x]) (hs : ∀ p, Sized d.m (d.trees p))
    (hb : Sized d.m (dupTree d.m d.N i (d.trees p) (d.trees (free d.active)))) :
    dup A i p d = ok { d with
      active := ins (free d.active) d.active,
      trees := upd (upd d.trees (free d.active) ⟨(dupTree d.m d.N i (d.trees p) (d.trees (free d.active))).lam,
                  put (dupTree d.m d.N i (d.trees p) (d.trees (free d.active))).s d.m i [bitInit w]⟩) p ⟨(d.trees p).lam, put (d.trees p).s d.m i [0]⟩,
      met := upd (upd d.met (free d.active) (A.phi (d.met p) x true)) p (A.phi (d.met p) x false) } := by
  unfold dup
  dsimp only
  rw [if_neg (show ¬ d.L ≤ freeFrom d.active d.active.length 0 from by unfold free at hm; omega)]
  have e1 := leaf_sized hb i (bitInit w)
  unfold dupTree free at e1
  dsimp only at e1
  rw [e1, bind_ok, hx]
  show (do let sa ← wr ((d.trees p).s d.m i) 0 0; _) = _
  rw [leaf_sized (hs p) i 0]
  rfl

theorem dup_ok {i p : Nat} {q : List Nat} {d : Dec R w} {s : St R} (hm : d.m = m) (hN : d.N = 2 ^ m) (hi : i < 2 ^ m) (hy : y.length = 2 ^ m) (h : Ref y (PM F m y i q) d s)
    (hp : p ∈ s.active) (hpq : p ∈ q) (hq : ∀ x, x ∈ q → x ∈ s.active) (hL : s.active.length < d.L) :
    (dup A i p d).Sat fun d' => Ref y (PM F m y i (q.filter (· ≠ p))) d' (aDup F A m y p s) ∧ Same d d' := by
  have hT := h.tree p hp
  unfold PM at hT
  rw [if_pos hpq] at hT
  obtain ⟨hl, hA⟩ := hT
  have hf : free s.active < d.L := Nat.lt_of_le_of_lt (free_le _) hL
  have hfn := free_not_mem h.nodup
  have hfp : free s.active ≠ p := fun e => hfn (e ▸ hp)
  subst hm
  obtain ⟨hB, hsz⟩ := dupTree_ok F (by omega) hA (h.size (free s.active)) (h.root _ hf) true
  rw [hl, ← hN, ← h.active] at hsz
  have hx := hA.leafLlr hy (by omega)
  rw [hl] at hx
  rw [dup_eq i p d (by rw [h.active]; exact hf) hx h.size hsz]
  rw [if_pos rfl] at hB
  refine sat_ok.2 ⟨⟨by dsimp only [aDup]; rw [h.active], fun x hxa => ?_, fun x => ?_, fun x hxL => ?_, fun x hxa => ?_, ?_, fun x hxa => ?_⟩, ⟨rfl, rfl, rfl, rfl, rfl, rfl, rfl⟩⟩
  · dsimp only [aDup]
    rw [h.active, h.met p hp]
    by_cases c : x = p
    · subst c; rw [upd_same, upd_same]
    · rw [upd_ne _ _ c, upd_ne _ _ c]
      by_cases c2 : x = free s.active
      · rw [c2, upd_same, upd_same]
      · rw [upd_ne _ _ c2, upd_ne _ _ c2]
        exact h.met x ((mem_ins.1 hxa).resolve_left c2)
  · dsimp only
    by_cases c : x = p
    · subst c; rw [upd_same]; exact sized_put_s (h.size x) (by simp)
    · rw [upd_ne _ _ c]
      by_cases c2 : x = free d.active
      · rw [c2, upd_same]; exact sized_put_s hsz (by simp)
      · rw [upd_ne _ _ c2]; exact h.size x
  · dsimp only
    by_cases c : x = p
    · subst c; rw [upd_same]; exact h.root x hxL
    · rw [upd_ne _ _ c]
      by_cases c2 : x = free d.active
      · rw [c2, upd_same, h.active, hN, ← hl]; exact hB.root
      · rw [upd_ne _ _ c2]; exact h.root x hxL
  · rcases mem_ins.1 hxa with c | c
    · rw [c]; exact hf
    · exact h.lt x c
  · exact (ins_perm hfn).nodup_iff.2 (List.nodup_cons.2 ⟨hfn, h.nodup⟩)
  · dsimp only [aDup]
    by_cases c : x = p
    · subst c
      rw [upd_same, upd_same]
      unfold PM
      rw [if_neg (by simp)]
      exact ⟨_, _, rfl, hl, by rw [← hl]; exact decide_ok F hA false⟩
    · rw [upd_ne _ _ c, upd_ne _ _ c]
      by_cases c2 : x = free s.active
      · rw [c2, h.active, upd_same, upd_same]
        unfold PM
        rw [if_neg (fun g => hfn (hq _ (List.mem_filter.1 g).1))]
        exact ⟨_, _, rfl, hl, by rw [hN, ← hl]; exact hB⟩
      · rw [h.active, upd_ne _ _ c2, upd_ne _ _ c2]
        have := h.tree x ((mem_ins.1 hxa).resolve_left c2)
        unfold PM at this ⊢
        have e : x ∈ q.filter (· ≠ p) ↔ x ∈ q := by simp [c]
        by_cases g : x ∈ q
        · rw [if_pos g] at this; rw [if_pos (e.2 g)]; exact this
        · rw [if_neg g] at this; rw [if_neg (fun k => g (e.1 k))]; exact this

theorem choose_ok {i : Nat} {q : List Nat} {d : Dec R w} {s : St R} {c : Cand R w} (hw : 0 < w) (hm : d.m = m) (h : Ref y (PM F m y i q) d s) (hp : c.path ∈ s.active) (hpq : c.path ∈ q)
    (hb : c.bit = 0 ∨ c.bit = bitInit w) : (choose i c d).Sat fun d' => Ref y (PM F m y i (q.filter (· ≠ c.path))) d' (aChoose c s) ∧ Same d d' := by
  have hT := h.tree _ hp
  unfold PM at hT
  rw [if_pos hpq] at hT
  obtain ⟨hl, hA⟩ := hT
  subst hm
  unfold choose
  rw [leaf_sized (h.size _), bind_ok]
  have hbit : c.bit = if decide (c.bit ≠ 0) then bitInit w else 0 := by
    rcases hb with e | e
    · simp [e]
    · have : bitInit w ≠ 0 := by
        unfold bitInit
        intro c
        have := congrArg BitVec.toNat c
        rw [BitVec.toNat_ofNat, Nat.mod_eq_of_lt (Nat.pow_lt_pow_right (by omega) (by omega))] at this
        have := Nat.two_pow_pos (w - 1)
        simp at *
      simp [e, this]
  refine sat_ok.2 ⟨⟨h.active, fun x hxa => ?_, fun x => ?_, fun x hxL => ?_, h.lt, h.nodup, fun x hxa => ?_⟩, ⟨rfl, rfl, rfl, rfl, rfl, rfl, rfl⟩⟩
  · dsimp only [aChoose]
    by_cases g : x = c.path
    · rw [g, upd_same, upd_same]
    · rw [upd_ne _ _ g, upd_ne _ _ g]; exact h.met x hxa
  · dsimp only
    by_cases g : x = c.path
    · rw [g, upd_same]; exact sized_put_s (h.size _) (by simp)
    · rw [upd_ne _ _ g]; exact h.size x
  · dsimp only
    by_cases g : x = c.path
    · rw [g, upd_same]; exact h.root _ (g ▸ hxL)
    · rw [upd_ne _ _ g]; exact h.root x hxL
  · dsimp only [aChoose]
    by_cases g : x = c.path
    · rw [g, upd_same, upd_same]
      unfold PM
      rw [if_neg (by simp)]
      refine ⟨_, _, rfl, hl, ?_⟩
      have := decide_ok F hA (decide (c.bit ≠ 0))
      rw [← hbit, hl] at this
      exact this
    · rw [upd_ne _ _ g, upd_ne _ _ g]
      have := h.tree x hxa
      unfold PM at this ⊢
      have e : x ∈ q.filter (· ≠ c.path) ↔ x ∈ q := by simp [g]
      by_cases k : x ∈ q
      · rw [if_pos k] at this; rw [if_pos (e.2 k)]; exact this
      · rw [if_neg k] at this; rw [if_neg (fun l => k (e.1 l))]; exact this

/-! ## The kept paths -/

variable (F A m y)

/-- What is known of the paths to keep. -/
structure KOk (L : Nat) (q : List Nat) (rest : List (Cand R w)) (s : St R) : Prop where
  mem : ∀ p, p ∈ q ↔ ∃ c ∈ rest, c.path = p
  act : ∀ p, p ∈ q → p ∈ s.active
  qnd : q.Nodup
  bits : ∀ c ∈ rest, c.bit = 0 ∨ c.bit = bitInit w
  met : ∀ c ∈ rest, c.met = A.phi (s.met c.path) (sv F m y (s.u c.path)) (decide (c.bit ≠ 0))
  nd : (rest.map fun c => (c.path, decide (c.bit ≠ 0))).Nodup
  cnt : s.active.length + rest.length ≤ L + q.length
  anodup : s.active.Nodup

variable {F A m y}

theorem filter_ne_length {q : List Nat} (hq : q.Nodup) {p : Nat} (hp : p ∈ q) : (q.filter (· ≠ p)).length + 1 = q.length := by
  have : q.filter (· ≠ p) = q.erase p := by
    rw [hq.erase_eq_filter]
    refine List.filter_congr fun x _ => ?_
    by_cases e : x = p <;> simp [e]
  rw [this, List.length_erase_of_mem hp]
  have := List.length_pos_of_mem hp
  omega

theorem any_split {rest : List (Cand R w)} {p : Nat} (h : rest.any (fun x => x.path = p) = true) : ∃ l1 x l2, rest = l1 ++ x :: l2 ∧ x.path = p ∧ rest.eraseP (fun x => x.path = p) = l1 ++ l2 ∧
    ∀ z ∈ l1, z.path ≠ p := by
  rw [List.any_eq_true] at h
  obtain ⟨x, hx, e⟩ := h
  obtain ⟨a, l1, l2, h1, h2, h3, h4⟩ := List.exists_of_eraseP (p := fun x : Cand R w => decide (x.path = p)) hx e
  exact ⟨l1, a, l2, h3, by simpa using h2, h4, fun z hz => by simpa using h1 z hz⟩

/-- With two hypothetic paths that come from the same path, there is no third one. -/
theorem KOk.two {L : Nat} {q : List Nat} {c x : Cand R w} {l1 l2 : List (Cand R w)} {s : St R} (h : KOk F A m y L q (c :: (l1 ++ x :: l2)) s) (hx : x.path = c.path) :
    (∀ z ∈ l1 ++ l2, z.path ≠ c.path) ∧ decide (x.bit ≠ 0) = !decide (c.bit ≠ 0) := by
  have hnd := h.nd
  simp only [List.map_cons, List.map_append, List.nodup_cons, List.mem_append, List.mem_cons, List.mem_map, not_or] at hnd
  obtain ⟨⟨n1, n2, n3⟩, hnd⟩ := hnd
  have hxb : decide (x.bit ≠ 0) = !decide (c.bit ≠ 0) := by
    have : decide (c.bit ≠ 0) ≠ decide (x.bit ≠ 0) := fun e => n2 (by rw [hx, e])
    revert this
    cases decide (x.bit ≠ 0) <;> cases decide (c.bit ≠ 0) <;> simp
  refine ⟨fun z hz e => ?_, hxb⟩
  have hz2 : (z.path, decide (z.bit ≠ 0)) ≠ (c.path, decide (c.bit ≠ 0)) := by
    rcases List.mem_append.1 hz with g | g
    · exact fun e' => n1 ⟨z, g, e'⟩
    · exact fun e' => n3 ⟨z, g, e'⟩
  have hz3 : (z.path, decide (z.bit ≠ 0)) ≠ (x.path, decide (x.bit ≠ 0)) := by
    have hmid : ((x.path, decide (x.bit ≠ 0)) :: (List.map (fun c => (c.path, decide (c.bit ≠ 0))) l1 ++ List.map (fun c => (c.path, decide (c.bit ≠ 0))) l2)).Nodup :=
      List.perm_middle.nodup_iff.1 hnd
    intro e'
    refine (List.nodup_cons.1 hmid).1 ?_
    rw [← e', ← List.map_append]
    exact List.mem_map_of_mem hz
  rw [e] at hz2 hz3
  rw [hx, hxb] at hz3
  revert hz2 hz3
  cases decide (z.bit ≠ 0) <;> cases decide (c.bit ≠ 0) <;> simp

theorem KOk.dup {L : Nat} {q : List Nat} {c : Cand R w} {rest : List (Cand R w)} {s : St R} (h : KOk F A m y L q (c :: rest) s) (ha : rest.any (fun x => x.path = c.path) = true) :
    KOk F A m y L (q.filter (· ≠ c.path)) (rest.eraseP (fun x => x.path = c.path)) (aDup F A m y c.path s) ∧ s.active.length < L := by
  obtain ⟨l1, x, l2, e1, e2, e3, e4⟩ := any_split ha
  subst e1
  obtain ⟨h3, h4⟩ := h.two e2
  rw [e3]
  have hcq : c.path ∈ q := (h.mem _).2 ⟨c, by simp, rfl⟩
  have hfn := free_not_mem h.anodup
  have hmem : ∀ z ∈ l1 ++ l2, z ∈ c :: (l1 ++ x :: l2) := by
    intro z hz
    simp only [List.mem_append, List.mem_cons] at hz ⊢
    tauto
  have hlen := (ins_perm hfn).length_eq
  have hne : ∀ z ∈ l1 ++ l2, z.path ≠ free s.active := fun z hz e => hfn (e ▸ h.act _ ((h.mem _).2 ⟨z, hmem z hz, rfl⟩))
  refine ⟨⟨fun p => ?_, fun p hp => ?_, h.qnd.filter _, fun z hz => h.bits z (hmem z hz), fun z hz => ?_, ?_, ?_, ?_⟩, ?_⟩
  · rw [List.mem_filter, h.mem]
    constructor
    · rintro ⟨⟨z, hz, e⟩, hne⟩
      have hzc : z.path ≠ c.path := by rw [e]; simpa using hne
      refine ⟨z, ?_, e⟩
      simp only [List.mem_append, List.mem_cons] at hz ⊢
      rcases hz with g | g | g | g
      · exact absurd (by rw [g]) hzc
      · exact Or.inl g
      · exact absurd (by rw [g, e2]) hzc
      · exact Or.inr g
    · rintro ⟨z, hz, e⟩
      exact ⟨⟨z, hmem z hz, e⟩, by rw [← e]; simpa using h3 z hz⟩
  · exact mem_ins.2 (Or.inr (h.act p (List.mem_filter.1 hp).1))
  · rw [h.met z (hmem z hz)]
    dsimp only [aDup]
    rw [upd_ne _ _ (h3 z hz), upd_ne _ _ (h3 z hz), upd_ne _ _ (hne z hz), upd_ne _ _ (hne z hz)]
  · have hnd := h.nd
    rw [List.map_cons, List.nodup_cons, List.map_append, List.map_cons] at hnd
    rw [List.map_append]
    exact (List.nodup_cons.1 (List.perm_middle.nodup_iff.1 hnd.2)).2
  · have := h.cnt
    have := filter_ne_length h.qnd hcq
    dsimp only [aDup]
    simp only [List.length_append, List.length_cons] at *
    omega
  · exact (ins_perm hfn).nodup_iff.2 (List.nodup_cons.2 ⟨hfn, h.anodup⟩)
  · have hsub : q ⊆ (l1 ++ x :: l2).map Cand.path := by
      intro p hp
      obtain ⟨z, hz, e⟩ := (h.mem p).1 hp
      rcases List.mem_cons.1 hz with g | g
      · refine List.mem_map.2 ⟨x, by simp, by rw [e2, ← g, e]⟩
      · exact List.mem_map.2 ⟨z, g, e⟩
    have h1 := (List.subperm_of_subset h.qnd hsub).length_le
    have := h.cnt
    simp only [List.length_append, List.length_cons, List.length_map] at *
    omega

theorem KOk.choose {L : Nat} {q : List Nat} {c : Cand R w} {rest : List (Cand R w)} {s : St R} (h : KOk F A m y L q (c :: rest) s) (ha : ¬ rest.any (fun x => x.path = c.path) = true) :
    KOk F A m y L (q.filter (· ≠ c.path)) rest (aChoose c s) := by
  have h3 : ∀ z ∈ rest, z.path ≠ c.path := fun z hz e => ha (List.any_eq_true.2 ⟨z, hz, by simpa using e⟩)
  have hcq : c.path ∈ q := (h.mem _).2 ⟨c, by simp, rfl⟩
  refine ⟨fun p => ?_, fun p hp => h.act p (List.mem_filter.1 hp).1, h.qnd.filter _, fun z hz => h.bits z (List.mem_cons_of_mem _ hz), fun z hz => ?_, (List.nodup_cons.1 h.nd).2, ?_, h.anodup⟩
  · rw [List.mem_filter, h.mem]
    constructor
    · rintro ⟨⟨z, hz, e⟩, hne⟩
      have hzc : z.path ≠ c.path := by rw [e]; simpa using hne
      rcases List.mem_cons.1 hz with g | g
      · exact absurd (by rw [g]) hzc
      · exact ⟨z, g, e⟩
    · rintro ⟨z, hz, e⟩
      exact ⟨⟨z, List.mem_cons_of_mem _ hz, e⟩, by rw [← e]; simpa using h3 z hz⟩
  · rw [h.met z (List.mem_cons_of_mem _ hz)]
    dsimp only [aChoose]
    rw [upd_ne _ _ (h3 z hz), upd_ne _ _ (h3 z hz)]
  · have := h.cnt
    have := filter_ne_length h.qnd hcq
    dsimp only [aChoose]
    simp only [List.length_cons] at *
    omega

theorem eraseP_length {rest : List (Cand R w)} {p : Nat} : (rest.eraseP (fun x => x.path = p)).length ≤ rest.length := (List.eraseP_sublist).length_le

theorem keep_ok {i : Nat} (hw : 0 < w) (hi : i < 2 ^ m) (hy : y.length = 2 ^ m) : ∀ {fuel : Nat} {rest : List (Cand R w)} {q : List Nat} {d : Dec R w} {s : St R}, d.m = m → d.N = 2 ^ m → rest.length ≤ fuel →
    Ref y (PM F m y i q) d s → KOk F A m y d.L q rest s → (keep A i fuel rest d).Sat fun d' => Ref y (PB F m y i) d' (aKeep F A m y fuel rest s) ∧ Same d d'
  | 0, rest, q, d, s, hm, hN, hf, h, hk => by
    have e : rest = [] := List.length_eq_zero_iff.1 (by omega)
    subst e
    refine sat_ok.2 ⟨⟨h.active, h.met, h.size, h.root, h.lt, h.nodup, fun p hp => ?_⟩, Same.refl d⟩
    have := h.tree p hp
    unfold PM at this
    rwa [if_neg (fun c => by obtain ⟨_, h, _⟩ := (hk.mem p).1 c; exact absurd h (by simp))] at this
  | fuel + 1, [], q, d, s, hm, hN, hf, h, hk => by
    refine sat_ok.2 ⟨⟨h.active, h.met, h.size, h.root, h.lt, h.nodup, fun p hp => ?_⟩, Same.refl d⟩
    have := h.tree p hp
    unfold PM at this
    rwa [if_neg (fun c => by obtain ⟨_, h, _⟩ := (hk.mem p).1 c; exact absurd h (by simp))] at this
  | fuel + 1, c :: rest, q, d, s, hm, hN, hf, h, hk => by
    have hcq : c.path ∈ q := (hk.mem _).2 ⟨c, by simp, rfl⟩
    simp only [List.length_cons] at hf
    unfold keep aKeep
    by_cases ha : rest.any (fun x => x.path = c.path) = true
    · rw [if_pos ha, if_pos ha]
      obtain ⟨k1, k2⟩ := hk.dup ha
      refine (dup_ok hm hN hi hy h (hk.act _ hcq) hcq hk.act k2).bind fun d' ⟨g1, g2⟩ => ?_
      refine (keep_ok hw hi hy (g2.m.trans hm) (g2.N.trans hN) (Nat.le_trans eraseP_length (by omega)) g1 (by rw [g2.L]; exact k1)).mono fun d'' ⟨g3, g4⟩ => ⟨g3, g2.trans g4⟩
    · rw [if_neg ha, if_neg ha]
      refine (choose_ok hw hm h (hk.act _ hcq) hcq (hk.bits c (by simp))).bind fun d' ⟨g1, g2⟩ => ?_
      exact (keep_ok hw hi hy (g2.m.trans hm) (g2.N.trans hN) (by omega) g1 (by rw [g2.L]; exact hk.choose ha)).mono fun d'' ⟨g3, g4⟩ => ⟨g3, g2.trans g4⟩

/-! ## A leaf of information -/

theorem keep_nil (A : Ar R) (i fuel : Nat) (d : Dec R w) : keep A i fuel [] d = ok d := by cases fuel <;> rfl

theorem keep_fuel (A : Ar R) (i : Nat) : ∀ (fuel fuel' : Nat) (rest : List (Cand R w)) (d : Dec R w), rest.length ≤ fuel → rest.length ≤ fuel' → keep A i fuel rest d = keep A i fuel' rest d
  | fuel, fuel', [], d, _, _ => by rw [keep_nil, keep_nil]
  | 0, fuel', c :: rest, d, h, _ => by simp at h
  | fuel + 1, 0, c :: rest, d, _, h => by simp at h
  | fuel + 1, fuel' + 1, c :: rest, d, h, h' => by
    simp only [List.length_cons] at h h'
    have := eraseP_length (rest := rest) (p := c.path)
    unfold keep
    split
    · congr 1
      funext e
      exact keep_fuel A i fuel fuel' _ e (by omega) (by omega)
    · congr 1
      funext e
      exact keep_fuel A i fuel fuel' _ e (by omega) (by omega)

/-- Without sort, all the paths are duplicated. -/
theorem keep_pairs (A : Ar R) (i : Nat) (a b : Nat → R) : ∀ (l : List Nat) (fuel : Nat) (d : Dec R w), (l.flatMap fun p => [(⟨p, 0, a p⟩ : Cand R w), ⟨p, bitInit w, b p⟩]).length ≤ fuel →
    keep A i fuel (l.flatMap fun p => [(⟨p, 0, a p⟩ : Cand R w), ⟨p, bitInit w, b p⟩]) d = forEach l (dup A i) d
  | [], fuel, d, _ => keep_nil A i fuel d
  | p :: l, 0, d, h => by simp at h
  | p :: l, fuel + 1, d, h => by
    rw [List.flatMap_cons] at h ⊢
    simp only [List.length_append, List.length_cons] at h
    rw [forEach_cons]
    simp only [List.cons_append, List.nil_append]
    unfold keep
    rw [if_pos (by simp)]
    congr 1
    funext e
    rw [List.eraseP_cons_of_pos (by simp)]
    exact keep_pairs A i a b l fuel e (by simp at h ⊢; omega)

theorem cands_ok {i : Nat} {d : Dec R w} {s : St R} (hm : d.m = m) (hi : i < 2 ^ m) (hy : y.length = 2 ^ m) (h : Ref y (PA F m y i) d s) : cands A i d = ok (aCands F A m y s) := by
  subst hm
  unfold cands
  obtain ⟨r, hr, e⟩ := forEach_inv (l := d.active) (s := ([] : List (Cand R w)))
    (f := fun p r => do
      let x ← rd ((d.trees p).lam d.m i) 0
      ok (r ++ [⟨p, 0, A.phi (d.met p) x false⟩, ⟨p, bitInit w, A.phi (d.met p) x true⟩]))
    (fun done r => r = done.flatMap fun p => [⟨p, 0, A.phi (s.met p) (sv F d.m y (s.u p)) false⟩, ⟨p, bitInit w, A.phi (s.met p) (sv F d.m y (s.u p)) true⟩]) rfl (by
      intro done p rest r hl e
      have hp : p ∈ s.active := by rw [← h.active, hl]; simp
      obtain ⟨hl, hA⟩ := h.tree p hp
      have hx := hA.leafLlr hy (by omega)
      rw [hl] at hx
      rw [hx, e, h.met p hp]
      exact sat_ok.2 (by rw [List.flatMap_append, List.flatMap_singleton]))
  rw [hr, e, h.active]
  rfl

theorem cands_count {a b : Nat → R} {p : Nat} : ∀ {l : List Nat}, l.Nodup → (l.flatMap fun p => [(⟨p, 0, a p⟩ : Cand R w), ⟨p, bitInit w, b p⟩]).countP (fun c => decide (c.path = p)) = if p ∈ l then 2 else 0
  | [], _ => rfl
  | x :: l, h => by
    rw [List.nodup_cons] at h
    rw [List.flatMap_cons, List.countP_append, cands_count h.2]
    by_cases e : x = p
    · subst e
      rw [if_neg h.1, if_pos (by simp)]
      simp
    · have e' : ¬ p = x := fun c => e c.symm
      simp [e, e']

theorem bitInit_ne (hw : 0 < w) : bitInit w ≠ 0 := by
  unfold bitInit
  intro c
  have := congrArg BitVec.toNat c
  rw [BitVec.toNat_ofNat, Nat.mod_eq_of_lt (Nat.pow_lt_pow_right (by omega) (by omega))] at this
  have := Nat.two_pow_pos (w - 1)
  simp at *

theorem cands_nodup (hw : 0 < w) {a b : Nat → R} : ∀ {l : List Nat}, l.Nodup →
    ((l.flatMap fun p => [(⟨p, 0, a p⟩ : Cand R w), ⟨p, bitInit w, b p⟩]).map fun c => (c.path, decide (c.bit ≠ 0))).Nodup
  | [], _ => by simp
  | x :: l, h => by
    rw [List.nodup_cons] at h
    have ih := cands_nodup hw (a := a) (b := b) h.2
    rw [List.flatMap_cons, List.map_append, List.nodup_append]
    have hb : ¬ bitInit w = 0#w := bitInit_ne hw
    refine ⟨by simp [hb], ih, ?_⟩
    intro z hz z' hz' e
    subst e
    rw [List.mem_map] at hz hz'
    obtain ⟨c, hc, e1⟩ := hz
    obtain ⟨c', hc', e2⟩ := hz'
    rw [List.mem_flatMap] at hc'
    obtain ⟨p, hp, hc'⟩ := hc'
    have h1 : c.path = x := by simp at hc; rcases hc with g | g <;> rw [g]
    have h2 : c'.path = p := by simp at hc'; rcases hc' with g | g <;> rw [g]
    have := congrArg Prod.fst (e1.trans e2.symm)
    dsimp only at this
    rw [h1, h2] at this
    exact h.1 (this ▸ hp)

theorem cands_mem {s : St R} {c : Cand R w} (hw : 0 < w) (h : c ∈ aCands F A m y s) : c.path ∈ s.active ∧ (c.bit = 0 ∨ c.bit = bitInit w) ∧
    c.met = A.phi (s.met c.path) (sv F m y (s.u c.path)) (decide (c.bit ≠ 0)) := by
  unfold aCands at h
  rw [List.mem_flatMap] at h
  obtain ⟨p, hp, hc⟩ := h
  simp only [List.mem_cons, List.not_mem_nil, or_false] at hc
  rcases hc with g | g
  · subst g; exact ⟨hp, Or.inl rfl, by simp⟩
  · subst g; have hb : ¬ bitInit w = 0#w := bitInit_ne hw; exact ⟨hp, Or.inr rfl, by simp [hb]⟩

theorem cands_length (s : St R) : (aCands F A m y s).length = 2 * s.active.length := by
  unfold aCands
  induction s.active with
  | nil => rfl
  | cons p l ih => rw [List.flatMap_cons, List.length_append, ih]; simp; omega

/-- The pruned paths. -/
theorem mem_prune {p : Nat} : ∀ {l : List (Cand R w)} {a : List Nat}, p ∈ prune l a ↔ p ∈ a ∧ l.countP (fun c => decide (c.path = p)) < 2
  | [], a => by simp [prune]
  | c :: rest, a => by
    unfold prune
    rw [mem_prune, List.countP_cons]
    by_cases hc : rest.any (fun x => x.path = c.path) = true
    · rw [if_pos hc, List.mem_filter]
      by_cases e : c.path = p
      · subst e
        have : 0 < rest.countP (fun x => decide (x.path = c.path)) := by
          rw [List.countP_pos_iff]
          simpa [List.any_eq_true] using hc
        rw [if_pos (by simp)]
        constructor
        · rintro ⟨⟨_, g⟩, _⟩
          simp at g
        · rintro ⟨_, g⟩
          omega
      · have e' : ¬ p = c.path := fun x => e x.symm
        simp [e, e']
    · rw [if_neg hc]
      by_cases e : c.path = p
      · subst e
        have : rest.countP (fun x => decide (x.path = c.path)) = 0 := by
          rw [List.countP_eq_zero]
          intro x hx g
          exact hc (List.any_eq_true.2 ⟨x, hx, g⟩)
        simp [this]
      · simp [e]

theorem prune_nodup : ∀ {l : List (Cand R w)} {a : List Nat}, a.Nodup → (prune l a).Nodup
  | [], _, h => h
  | c :: rest, a, h => by
    unfold prune
    refine prune_nodup ?_
    split
    · exact h.filter _
    · exact h

theorem kept_ok (hw : 0 < w) {L : Nat} {sort : List (Cand R w) → List (Cand R w)} (hsort : ∀ l, (sort l).Perm l) {s : St R} (hs : s.active.Nodup) (hL : s.active.length ≤ L) :
    KOk F A m y L (aAlive F A m y L sort s) (aKept F A m y L sort s) { s with active := aAlive F A m y L sort s } := by
  unfold aKept aAlive
  by_cases hg : s.active.length ≤ L / 2
  · rw [if_pos hg, if_pos hg]
    refine ⟨fun p => ⟨fun hp => ⟨⟨p, 0, A.phi (s.met p) (sv F m y (s.u p)) false⟩, ?_, rfl⟩, fun ⟨c, hc, e⟩ => e ▸ (cands_mem hw hc).1⟩, fun p hp => hp, hs, fun c hc => (cands_mem hw hc).2.1,
      fun c hc => (cands_mem hw hc).2.2, cands_nodup hw hs, ?_, hs⟩
    · unfold aCands
      exact List.mem_flatMap.2 ⟨p, hp, by simp⟩
    · rw [cands_length]; dsimp only; omega
  · rw [if_neg hg, if_neg hg]
    have hperm := hsort (aCands F A m y s)
    have hlen := hperm.length_eq
    rw [cands_length] at hlen
    have hmem : ∀ c ∈ (sort (aCands F A m y s)).take ((sort (aCands F A m y s)).length / 2), c ∈ aCands F A m y s := fun c hc => hperm.mem_iff.1 (List.mem_of_mem_take hc)
    refine ⟨fun p => ?_, fun p hp => hp, prune_nodup hs, fun c hc => (cands_mem hw (hmem c hc)).2.1, fun c hc => (cands_mem hw (hmem c hc)).2.2, ?_, ?_, prune_nodup hs⟩
    · rw [mem_prune]
      have hc := hperm.countP_eq (fun c => decide (c.path = p))
      have hc2 : (aCands F A m y s).countP (fun c => decide (c.path = p)) = if p ∈ s.active then 2 else 0 := cands_count hs
      rw [hc2, ← List.take_append_drop ((sort (aCands F A m y s)).length / 2) (sort (aCands F A m y s)), List.countP_append] at hc
      constructor
      · rintro ⟨h1, h2⟩
        rw [if_pos h1] at hc
        have : 0 < ((sort (aCands F A m y s)).take ((sort (aCands F A m y s)).length / 2)).countP (fun c => decide (c.path = p)) := by omega
        rw [List.countP_pos_iff] at this
        simpa using this
      · intro hx
        have : 0 < ((sort (aCands F A m y s)).take ((sort (aCands F A m y s)).length / 2)).countP (fun c => decide (c.path = p)) := by
          rw [List.countP_pos_iff]; simpa using hx
        split at hc
        · rename_i h1
          exact ⟨h1, by omega⟩
        · omega
    · refine List.Nodup.sublist (List.Sublist.map _ (List.take_sublist _ _)) ?_
      exact (hperm.map _).nodup_iff.2 (cands_nodup hw hs)
    · rw [List.length_take]; dsimp only; omega

theorem active_le {P : Nat → List Bool → Tree R w → Prop} {d : Dec R w} {s : St R} (h : Ref y P d s) : s.active.length ≤ d.L := by
  have : s.active ⊆ List.range d.L := fun p hp => List.mem_range.2 (h.lt p hp)
  have := (List.subperm_of_subset h.nodup this).length_le
  rwa [List.length_range] at this

theorem alive_sub {L : Nat} {sort : List (Cand R w) → List (Cand R w)} {s : St R} {p : Nat} (h : p ∈ aAlive F A m y L sort s) : p ∈ s.active := by
  unfold aAlive at h
  split at h
  · exact h
  · exact (mem_prune.1 h).1

theorem infoLeaf_ok {i : Nat} (hw : 0 < w) {sort : List (Cand R w) → List (Cand R w)} (hsort : ∀ l, (sort l).Perm l) {d : Dec R w} {s : St R} (hm : d.m = m) (hN : d.N = 2 ^ m) (hi : i < 2 ^ m)
    (hy : y.length = 2 ^ m) (h : Ref y (PA F m y i) d s) : (infoLeaf A sort i d).Sat fun d' => Ref y (PB F m y i) d' (aInfo F A m y d.L sort s) ∧ Same d d' := by
  have e : infoLeaf A sort i d = keep A i (aKept F A m y d.L sort s).length (aKept F A m y d.L sort s) { d with active := aAlive F A m y d.L sort s } := by
    unfold infoLeaf
    rw [cands_ok hm hi hy h, bind_ok, h.active]
    unfold aKept aAlive
    by_cases hg : s.active.length ≤ d.L / 2
    · rw [if_pos hg, if_pos hg, if_pos hg]
      unfold aCands
      rw [keep_pairs A i _ _ s.active _ _ (le_refl _), ← h.active]
    · rw [if_neg hg, if_neg hg, if_neg hg]
      refine keep_fuel A i _ _ _ _ ?_ (le_refl _)
      rw [List.length_take]; omega
  rw [e]
  have hk := kept_ok (F := F) (A := A) (m := m) (y := y) hw hsort h.nodup (active_le h)
  refine (keep_ok hw hi hy (d := { d with active := aAlive F A m y d.L sort s }) hm hN (le_refl _) ?_ hk).mono fun d' ⟨g1, g2⟩ => ⟨g1, g2.K, g2.N, g2.m, g2.L, g2.sys, g2.crc, g2.frozen⟩
  refine ⟨rfl, fun p hp => h.met p (alive_sub hp), h.size, h.root, fun p hp => h.lt p (alive_sub hp), hk.anodup, fun p hp => ?_⟩
  unfold PM
  rw [if_pos hp]
  exact h.tree p (alive_sub hp)

/-! ## A frozen leaf -/

theorem foldl_upd {f : R → R} : ∀ {l : List Nat} {g : Nat → R} {p : Nat}, l.Nodup → l.foldl (fun met p => upd met p (f (met p))) g p = if p ∈ l then f (g p) else g p
  | [], g, p, _ => by simp
  | x :: l, g, p, h => by
    rw [List.nodup_cons] at h
    rw [List.foldl_cons, foldl_upd h.2]
    by_cases e : p = x
    · subst e
      rw [if_neg h.1, upd_same, if_pos (by simp)]
    · rw [upd_ne _ _ e]
      simp [e]

theorem frozenLeaf_ok {i : Nat} {d : Dec R w} {s : St R} (hm : d.m = m) (hi : i < 2 ^ m) (hy : y.length = 2 ^ m) (h : Ref y (PA F m y i) d s) :
    (frozenLeaf A i d).Sat fun d' => Ref y (PB F m y i) d' (aFrozen F A m y s) ∧ Same d d' := by
  subst hm
  unfold frozenLeaf
  refine (forEach_inv (l := d.active) (f := frozenPath A i) (s := (d, A.max))
    (fun done r => Same d r.1 ∧ r.1.active = d.active ∧ (∀ p, Sized d.m (r.1.trees p)) ∧ (∀ p, p < d.L → (r.1.trees p).lam 0 0 = y) ∧
      (∀ p, p ∈ s.active → p ∈ done → PB F d.m y i p (s.u p ++ [false]) (r.1.trees p) ∧ r.1.met p = A.phi (s.met p) (sv F d.m y (s.u p)) false) ∧
      (∀ p, p ∈ s.active → p ∉ done → PA F d.m y i p (s.u p) (r.1.trees p) ∧ r.1.met p = s.met p) ∧
      r.2 = done.foldl (fun r p => minR A r (A.phi (s.met p) (sv F d.m y (s.u p)) false)) A.max)
    ⟨Same.refl d, rfl, h.size, h.root, fun _ _ h => absurd h (by simp), fun p hp _ => ⟨h.tree p hp, h.met p hp⟩, rfl⟩ ?_).bind ?_
  · rintro done p rest ⟨e, mn⟩ hl ⟨h1, h2, h4, h5, h6, h7, h8⟩
    have hp : p ∈ s.active := by rw [← h.active, hl]; simp
    have hnd : p ∉ done := by
      have := h.nodup
      rw [← h.active, hl] at this
      intro c
      exact (List.nodup_append.1 this).2.2 p c p (by simp) rfl
    dsimp only at h1 h2 h4 h5 h6 h7 h8
    obtain ⟨⟨hl, hA⟩, hmet⟩ := h7 p hp hnd
    have hx := hA.leafLlr hy (by omega)
    rw [hl] at hx
    unfold frozenPath
    dsimp only
    rw [h1.m, leaf_sized (h4 p), bind_ok, hx]
    refine sat_ok.2 ⟨⟨h1.K, h1.N, rfl, h1.L, h1.sys, h1.crc, h1.frozen⟩, h2, fun q => ?_, fun q hq => ?_, fun q hq hqd => ?_, fun q hq hqd => ?_, ?_⟩
    · dsimp only
      by_cases c : q = p
      · subst c; rw [upd_same]; exact sized_put_s (h4 q) (by simp)
      · rw [upd_ne _ _ c]; exact h4 q
    · dsimp only
      by_cases c : q = p
      · subst c; rw [upd_same]; exact h5 q hq
      · rw [upd_ne _ _ c]; exact h5 q hq
    · dsimp only
      by_cases c : q = p
      · subst c
        rw [upd_same, upd_same, hmet]
        exact ⟨⟨_, _, rfl, hl, by rw [← hl]; exact decide_ok F hA false⟩, rfl⟩
      · rw [upd_ne _ _ c, upd_ne _ _ c]
        rw [List.mem_append, List.mem_singleton] at hqd
        exact h6 q hq (hqd.resolve_right c)
    · rw [List.mem_append, List.mem_singleton, not_or] at hqd
      dsimp only; rw [upd_ne _ _ hqd.2, upd_ne _ _ hqd.2]
      exact h7 q hq hqd.1
    · dsimp only
      rw [List.foldl_append, ← h8, hmet]
      rfl
  · rintro ⟨e, mn⟩ ⟨h1, h2, h4, h5, h6, h7, h8⟩
    dsimp only at h1 h2 h4 h5 h6 h7 h8 ⊢
    refine sat_ok.2 ⟨⟨h2.trans h.active, fun p hp => ?_, by dsimp only; rw [h1.m]; exact h4, by dsimp only; rw [h1.L]; exact h5, by dsimp only; rw [h1.L]; exact h.lt, h.nodup, fun p hp => ?_⟩,
      ⟨h1.K, h1.N, h1.m, h1.L, h1.sys, h1.crc, h1.frozen⟩⟩
    · dsimp only [aFrozen] at hp ⊢
      rw [h.active, foldl_upd (f := fun x => A.sub x mn) h.nodup, if_pos hp, (h6 p hp (by rw [h.active]; exact hp)).2, h8, h.active]
      rfl
    · exact (h6 p hp (by rw [h.active]; exact hp)).1

/-! ## The leaves -/

theorem leaf_ok {i : Nat} (hw : 0 < w) (hm0 : 0 < m) {sort : List (Cand R w) → List (Cand R w)} (hsort : ∀ l, (sort l).Perm l) {d : Dec R w} {s : St R} (hm : d.m = m) (hN : d.N = 2 ^ m) (hi : i < 2 ^ m)
    (hy : y.length = 2 ^ m) {fr : Bool} (hfr : d.frozen[i]? = some fr) (h : Ref y (PT F m y i) d s) :
    (leaf F A sort i d).Sat fun d' => Ref y (PT F m y (i + 1)) d' (aLeaf F A m y d.L sort fr s) ∧ Same d d' := by
  unfold leaf
  refine (onTrees_ok (Q := PA F m y i) h ?_).bind fun d1 ⟨g1, g2⟩ => ?_
  · rintro p u t ⟨hl, hT⟩ _ _
    rw [hm, ← hl]
    exact (llr_ok F hy hm0 (by omega) hT).mono fun t' hA => ⟨⟨rfl, hA⟩, hA.size, hA.root⟩
  have hfr1 : rd d1.frozen i = ok fr := by rw [g2.frozen]; exact rd_ok_iff.2 hfr
  rw [hfr1, bind_ok]
  have key : (if fr then frozenLeaf A i d1 else infoLeaf A sort i d1).Sat fun d' => Ref y (PB F m y i) d' (aLeaf F A m y d.L sort fr s) ∧ Same d1 d' := by
    unfold aLeaf
    cases fr
    · rw [← g2.L]
      exact infoLeaf_ok hw hsort (g2.m.trans hm) (g2.N.trans hN) hi hy g1
    · exact frozenLeaf_ok (g2.m.trans hm) hi hy g1
  suffices H : ((if fr then frozenLeaf A i d1 else infoLeaf A sort i d1) >>= fun d => forEach d.active (onTree (propagate d.m d.m i)) d).Sat
      fun d' => Ref y (PT F m y (i + 1)) d' (aLeaf F A m y d.L sort fr s) ∧ Same d d' by
    cases fr <;> exact H
  refine key.bind fun d2 ⟨k1, k2⟩ => ?_
  refine (onTrees_ok (Q := PT F m y (i + 1)) k1 ?_).mono fun d3 ⟨j1, j2⟩ => ⟨j1, g2.trans (k2.trans j2)⟩
  rintro p u t ⟨v, b, rfl, hl, hB⟩ _ _
  rw [k2.m, g2.m, hm, ← hl]
  exact (prop_ok F hB).mono fun t' hT => ⟨⟨by simp, hT⟩, hT.size, hT.root⟩

/-- The paths at the start. -/
def start (A : Ar R) : St R := ⟨[0], fun _ => [], fun _ => A.init⟩

theorem aRun_take (L : Nat) (sort : List (Cand R w) → List (Cand R w)) (frozen : List Bool) (s : St R) {i : Nat} {fr : Bool} (h : frozen[i]? = some fr) :
    aRun F A m y L sort (frozen.take (i + 1)) s = aLeaf F A m y L sort fr (aRun F A m y L sort (frozen.take i) s) := by
  unfold aRun
  rw [List.take_succ, h, List.foldl_append]
  rfl

theorem decodeLoop_ok (hw : 0 < w) (hm0 : 0 < m) {sort : List (Cand R w) → List (Cand R w)} (hsort : ∀ l, (sort l).Perm l) {d : Dec R w} {s : St R} (hm : d.m = m) (hN : d.N = 2 ^ m)
    (hy : y.length = 2 ^ m) (hfr : d.frozen.length = 2 ^ m) (h : Ref y (PT F m y 0) d s) :
    (forN d.N (leaf F A sort) d).Sat fun d' => Ref y (PT F m y (2 ^ m)) d' (aRun F A m y d.L sort d.frozen s) ∧ Same d d' := by
  have := forN_inv (n := d.N) (f := leaf F A sort) (s := d) (fun i d' => Ref y (PT F m y i) d' (aRun F A m y d.L sort (d.frozen.take i) s) ∧ Same d d')
    ⟨by simpa [aRun] using h, Same.refl d⟩ (by
      rintro i e hi ⟨g1, g2⟩
      have hlt : i < d.frozen.length := by omega
      have hf : d.frozen[i]? = some d.frozen[i] := List.getElem?_eq_getElem hlt
      rw [aRun_take d.L sort d.frozen s hf, ← g2.L]
      rw [← g2.L] at g1
      exact (leaf_ok hw hm0 hsort (g2.m.trans hm) (g2.N.trans hN) (by omega) hy (by rw [g2.frozen]; exact hf) g1).mono fun e' ⟨k1, k2⟩ => ⟨k1, g2.trans k2⟩)
  rw [hN] at this ⊢
  refine this.mono fun d' ⟨g1, g2⟩ => ⟨?_, g2⟩
  rwa [List.take_of_length_le (by omega)] at g1

theorem load_ok {d : Dec R w} (h : d.Ok) (hy : y.length = d.N) : (d.load A y).Sat fun d' => Ref y (PT F d.m y 0) d' (start A) ∧ Same d d' := by
  unfold Dec.load
  have inner : ∀ o : List R, o.length = d.N → (forN d.N (fun i o => do let x ← rd y i; wr o i x) o) = ok y := by
    intro o ho
    obtain ⟨o', h1, h2, h3⟩ := copyTo_sat (src := y) (so := 0) (n := d.N) (dst := o) (d := 0) (by omega) (by omega)
    unfold copyTo at h1
    simp only [Nat.zero_add] at h1
    rw [h1]
    congr 1
    refine List.ext_getElem? fun j => ?_
    rw [h3]
    split
    · simp
    · rename_i hj
      rw [List.getElem?_eq_none (by omega), List.getElem?_eq_none (by omega)]
  have hroot : ∀ (t : Tree R w), Sized d.m t → (t.lam 0 0).length = d.N := fun t ht => by rw [(ht 0 (by omega) 0).1, h.N, Nat.sub_zero]
  refine (forN_inv (n := d.L) (s := d) (fun k d' => Same d d' ∧ (∀ p, Sized d.m (d'.trees p)) ∧ ∀ p, p < k → (d'.trees p).lam 0 0 = y ∧ d'.met p = A.init)
    ⟨Same.refl d, h.size, fun p hp => by omega⟩ ?_).bind ?_
  · rintro k e hk ⟨h1, h2, h3⟩
    dsimp only
    rw [h1.N, inner _ (hroot _ (h2 k)), bind_ok]
    refine sat_ok.2 ⟨⟨h1.K, rfl, h1.m, h1.L, h1.sys, h1.crc, h1.frozen⟩, fun p => ?_, fun p hp => ?_⟩
    · dsimp only
      by_cases c : p = k
      · subst c; rw [upd_same]; exact sized_put_lam (h2 p) (by rw [hy, h.N, Nat.sub_zero])
      · rw [upd_ne _ _ c]; exact h2 p
    · dsimp only
      by_cases c : p = k
      · subst c; rw [upd_same, upd_same]; exact ⟨by simp [put], rfl⟩
      · rw [upd_ne _ _ c, upd_ne _ _ c]; exact h3 p (by omega)
  · rintro e ⟨h1, h2, h3⟩
    have hL0 : 0 < d.L := by
      obtain ⟨k, hk⟩ := h.L
      rw [hk]; exact Nat.two_pow_pos k
    refine sat_ok.2 ⟨⟨rfl, fun p hp => ?_, by dsimp only; rw [h1.m]; exact h2, by dsimp only; rw [h1.L]; exact fun p hp => (h3 p hp).1, fun p hp => ?_, by simp [start], fun p hp => ?_⟩,
      ⟨h1.K, h1.N, h1.m, h1.L, h1.sys, h1.crc, h1.frozen⟩⟩
    · have : p = 0 := by simpa [start] using hp
      subst this
      exact (h3 0 hL0).2
    · have : p = 0 := by simpa [start] using hp
      subst this
      dsimp only; rw [h1.L]; exact hL0
    · have : p = 0 := by simpa [start] using hp
      subst this
      refine ⟨rfl, h2 0, (h3 0 hL0).1, fun j b hj => ?_, fun x _ hx => ?_, fun x _ hx => ?_, fun hx => ?_⟩
      · simp [start] at hj
      · simp [start] at hx
      · simp [start] at hx
      · have := Nat.two_pow_pos d.m
        simp [start] at hx
        omega

end Verif.PolarSCL
