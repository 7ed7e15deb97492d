import Verif.Model.Frozen
import Verif.Spec.Frozen
import Verif.Prelude.Out
import Verif.Proof.AList

/-! # Lemmas on the generators of frozen bits -/

namespace Verif.Frozen
open Exec AList

theorem mark_sat {l : List Nat} {N k : Nat} (hl : ∀ c ∈ l, c < N) (hk : k ≤ l.length) :
    (forN k (fun i fb => rd l i >>= fun c => wr fb c false) (List.replicate N true)).Sat fun fb =>
      fb.length = N ∧ ∀ c, c < N → fb[c]? = some (decide (c ∉ l.take k)) := by
  refine forN_inv (fun i (fb : List Bool) => fb.length = N ∧ ∀ c, c < N → fb[c]? = some (decide (c ∉ l.take i))) ?_ ?_
  · refine ⟨by simp, fun c hc => ?_⟩
    rw [List.getElem?_replicate, if_pos hc]
    simp
  · rintro i fb hi ⟨h1, h2⟩
    have hil : i < l.length := by omega
    rw [rd_lt hil, bind_ok, wr_lt (by rw [h1]; exact hl _ (List.getElem_mem hil)), sat_ok]
    refine ⟨by simpa using h1, fun c hc => ?_⟩
    rw [List.getElem?_set, List.take_add_one, List.getElem?_eq_getElem hil, Option.toList_some]
    by_cases e : l[i] = c
    · rw [if_pos e, if_pos (by rw [h1, e]; exact hc)]
      simp [e]
    · rw [if_neg e, h2 c hc]
      simp only [List.mem_append, List.mem_singleton, not_or, decide_eq_decide, Option.some.injEq]
      exact ⟨fun h => ⟨h, fun h' => e h'.symm⟩, fun h => h.1⟩

theorem count_info {fb : List Bool} {N : Nat} (h1 : fb.length = N) {s : List Nat} (hs : s.Nodup) (hb : ∀ c ∈ s, c < N)
    (h2 : ∀ c, c < N → fb[c]? = some (decide (c ∉ s))) : fb.countP (fun b => b == false) = s.length := by
  have e : fb = (List.range N).map fun c => decide (c ∉ s) := by
    refine List.ext_getElem? fun i => ?_
    by_cases hi : i < N
    · rw [h2 i hi, List.getElem?_map, List.getElem?_range hi]
      rfl
    · rw [List.getElem?_eq_none (by omega), List.getElem?_eq_none (by simpa using hi)]
  rw [e, List.countP_map]
  have : ((List.range N).filter fun c => decide (c ∈ s)).Perm s := by
    refine (List.perm_ext_iff_of_nodup (List.nodup_range.filter _) hs).2 fun c => ?_
    simp only [List.mem_filter, List.mem_range, decide_eq_true_eq]
    exact ⟨fun h => h.2, fun h => ⟨hb c h, h⟩⟩
  rw [← this.length_eq, List.countP_eq_length_filter]
  congr 1
  refine List.filter_congr fun c _ => ?_
  simp

theorem readVals_all (cs bs : List Nat) (ws : List Word) (h : cs.length = bs.length) (hb : ∀ c ∈ cs, c < 2 ^ 32) :
    readVals bs (cs.map (fun (c : Nat) => Word.num c) ++ ws) = cs := by
  induction cs generalizing bs with
  | nil =>
    cases bs with
    | nil => simp [readVals]
    | cons b bs => simp at h
  | cons c cs ih =>
    cases bs with
    | nil => simp at h
    | cons b bs =>
      rw [List.map_cons, List.cons_append, readVals, u32_nat (hb c List.mem_cons_self),
        ih bs (by simpa using h) fun c' hc' => hb c' (List.mem_cons_of_mem _ hc')]

theorem readVals_short (cs bs : List Nat) (h : cs.length ≤ bs.length) (hb : ∀ c ∈ cs, c < 2 ^ 32) :
    readVals bs (cs.map (fun (c : Nat) => Word.num c)) = cs ++ bs.drop cs.length := by
  induction cs generalizing bs with
  | nil => cases bs <;> rfl
  | cons c cs ih =>
    cases bs with
    | nil => simp at h
    | cons b bs =>
      rw [List.map_cons, readVals, u32_nat (hb c List.mem_cons_self),
        ih bs (by simpa using h) fun c' hc' => hb c' (List.mem_cons_of_mem _ hc')]
      rfl

theorem pick_ok (N : Nat) (cs pre best : List Nat) (h : (cs.filter fun c => decide (c < N)).length ≤ best.length) :
    pick N cs pre.length (pre ++ best) = ok (pre.length + (cs.filter fun c => decide (c < N)).length,
      pre ++ (cs.filter fun c => decide (c < N)) ++ best.drop (cs.filter fun c => decide (c < N)).length) := by
  induction cs generalizing pre best with
  | nil => simp [pick]
  | cons c cs ih =>
    rw [pick]
    by_cases hc : c < N
    · rw [List.filter_cons_of_pos (by simpa using hc)] at h ⊢
      rw [List.length_cons] at h
      cases best with
      | nil => simp at h
      | cons b best =>
        rw [if_pos hc, wr_lt (by simp), bind_ok, List.set_append_right _ _ (Nat.le_refl _), Nat.sub_self, List.set_cons_zero]
        have := ih (pre ++ [c]) best (by simpa using h)
        rw [List.length_append, List.length_singleton, List.append_assoc, List.singleton_append] at this
        rw [this]
        rw [List.length_cons, List.drop_succ_cons, Nat.add_assoc, Nat.add_comm 1]
        simp only [List.append_assoc, List.singleton_append, List.cons_append, List.nil_append]
    · rw [List.filter_cons_of_neg (by simpa using hc)] at h ⊢
      rw [if_neg hc]
      exact ih pre best h

/-! ## The stages -/

theorem stage_sat {α : Type} {fm fp : α → α} {idx : Nat → Nat} {n s : Nat} {z : List α} (y : Nat → α) (hs : 0 < s)
    (hidx : ∀ k, k < 2 * n → idx k = k * s) (hlen : 2 * n * s ≤ z.length) (hz : ∀ j, j < n → z[j * (2 * s)]? = some (y j)) :
    (stage fm fp idx n z).Sat fun z' => z'.length = z.length ∧
      ∀ j, j < n → z'[2 * j * s]? = some (fm (y j)) ∧ z'[(2 * j + 1) * s]? = some (fp (y j)) := by
  unfold stage
  refine (forN_inv (fun i (z' : List α) => z'.length = z.length ∧
      (∀ j, j < i → z'[2 * j * s]? = some (fm (y j)) ∧ z'[(2 * j + 1) * s]? = some (fp (y j))) ∧
      ∀ j, i ≤ j → j < n → z'[2 * j * s]? = some (y j)) ?_ ?_).mono fun z' h => ⟨h.1, fun j hj => h.2.1 j hj⟩
  · refine ⟨rfl, fun j hj => absurd hj (Nat.not_lt_zero j), fun j _ hj => ?_⟩
    rw [show 2 * j * s = j * (2 * s) by rw [Nat.mul_comm 2 j, Nat.mul_assoc]]
    exact hz j hj
  · rintro i z' hi ⟨h1, h2, h3⟩
    have b1 : ∀ k, k < 2 * n → k * s < z.length := by
      intro k hk
      have : (k + 1) * s ≤ 2 * n * s := Nat.mul_le_mul_right s (by omega)
      rw [Nat.add_mul, Nat.one_mul] at this
      omega
    have inj : ∀ a b, a ≠ b → a * s ≠ b * s := fun a b hab e => hab (Nat.eq_of_mul_eq_mul_right hs e)
    rw [hidx _ (by omega), hidx _ (by omega), rd_eq (h3 i (Nat.le_refl _) hi), bind_ok,
      wr_lt (by rw [h1]; exact b1 _ (by omega)), bind_ok, wr_lt (by rw [List.length_set, h1]; exact b1 _ (by omega)), sat_ok]
    refine ⟨by simpa using h1, fun j hj => ?_, fun j hj hjn => ?_⟩
    · rcases Nat.lt_succ_iff_lt_or_eq.1 hj with hj | rfl
      · rw [List.getElem?_set_ne (inj _ _ (by omega)), List.getElem?_set_ne (inj _ _ (by omega)),
          List.getElem?_set_ne (inj _ _ (by omega)), List.getElem?_set_ne (inj _ _ (by omega))]
        exact h2 j hj
      · constructor
        · rw [List.getElem?_set_ne (inj _ _ (by omega)), List.getElem?_set_self (by rw [h1]; exact b1 _ (by omega))]
        · rw [List.getElem?_set_self (by rw [List.length_set, h1]; exact b1 _ (by omega))]
    · rw [List.getElem?_set_ne (inj _ _ (by omega)), List.getElem?_set_ne (inj _ _ (by omega))]
      exact h3 j (by omega) hjn

theorem stages_sat {α : Type} {fm fp : α → α} {idx : Nat → Nat → Nat} {m : Nat} {z : List α} {x : α}
    (hidx : ∀ l k, l < m → k < 2 ^ (l + 1) → idx l k = k * 2 ^ (m - (l + 1))) (hlen : z.length = 2 ^ m) (hz : z[0]? = some x) :
    (forN m (fun l z => stage fm fp (idx l) (2 ^ l) z) z).Sat fun z' => z'.length = 2 ^ m ∧
      ∀ i, i < 2 ^ m → z'[i]? = some (chan fm fp m x i) := by
  refine (forN_inv (fun l (z' : List α) => z'.length = 2 ^ m ∧
      ∀ j, j < 2 ^ l → z'[j * 2 ^ (m - l)]? = some (chan fm fp l x j)) ?_ ?_).mono fun z' h => ⟨h.1, fun i hi => ?_⟩
  · refine ⟨hlen, fun j hj => ?_⟩
    have : j = 0 := by simpa using hj
    subst this
    simpa [chan] using hz
  · rintro l z' hl ⟨h1, h2⟩
    have e : 2 * 2 ^ (m - (l + 1)) = 2 ^ (m - l) := by
      rw [← Nat.pow_succ', show m - l = (m - (l + 1)) + 1 by omega]
    have e2 : 2 * 2 ^ l = 2 ^ (l + 1) := by rw [Nat.pow_succ']
    refine (stage_sat (s := 2 ^ (m - (l + 1))) (chan fm fp l x) (Nat.pow_pos (by omega)) (fun k hk => hidx l k hl (by omega)) ?_
      (fun j hj => by rw [e]; exact h2 j hj)).mono fun z'' h => ⟨by rw [h.1, h1], fun j hj => ?_⟩
    · rw [e2, ← Nat.pow_add, show l + 1 + (m - (l + 1)) = m by omega, h1]
    · obtain ⟨a, b⟩ := h.2 (j / 2) (by omega)
      rw [chan]
      split
      · rename_i h0
        rwa [show 2 * (j / 2) = j by omega] at a
      · rename_i h0
        rwa [show 2 * (j / 2) + 1 = j by omega] at b
  · have := h.2 i hi
    simpa using this

end Verif.Frozen
