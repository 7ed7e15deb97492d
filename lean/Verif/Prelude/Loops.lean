import Verif.Prelude.Exec

/-!
# More loop lemmas (no aff3ct content)
-/

namespace Verif
open Exec

theorem forN_add {σ : Type _} (n m : Nat) (f : Nat → σ → Exec σ) (s : σ) :
    forN (n + m) f s = forN n f s >>= forN m (fun i => f (n + i)) := by
  induction m with
  | zero => simp only [Nat.add_zero]; cases forN n f s <;> rfl
  | succ m ih =>
    rw [← Nat.add_assoc, forN_succ, ih, Exec.bind_assoc']
    rfl

/-- Two nested counted loops are one loop over the flattened index. -/
theorem forN_nested {σ : Type _} (n m : Nat) (f : Nat → Nat → σ → Exec σ) (s : σ) :
    forN n (fun a => forN m (f a)) s = forN (n * m) (fun k => f (k / m) (k % m)) s := by
  induction n with
  | zero => simp
  | succ n ih =>
    rw [forN_succ, ih, Nat.succ_mul, forN_add]
    congr 1
    funext s
    apply forN_congr
    intro i s hi
    have hm : 0 < m := by omega
    rw [Nat.mul_comm n m, Nat.mul_add_div hm, Nat.mul_add_mod, Nat.div_eq_of_lt hi, Nat.mod_eq_of_lt hi,
      Nat.add_zero]

/-- `for k < n: out[pos(k)] = g(k)` with `pos` injective. -/
theorem forN_scatter {α : Type _} {n : Nat} {pos : Nat → Nat} {g : Nat → α} {out : List α}
    (hlt : ∀ k, k < n → pos k < out.length)
    (hinj : ∀ a b, a < n → b < n → pos a = pos b → a = b) :
    (forN n (fun k o => wr o (pos k) (g k)) out).Sat fun o =>
      o.length = out.length ∧ (∀ k, k < n → o[pos k]? = some (g k)) ∧
      (∀ j : Nat, (∀ k, k < n → pos k ≠ j) → o[j]? = out[j]?) := by
  refine forN_inv (fun m (o : List α) => o.length = out.length ∧ (∀ k, k < m → o[pos k]? = some (g k)) ∧
      (∀ j : Nat, (∀ k, k < m → pos k ≠ j) → o[j]? = out[j]?)) ?_ ?_
  · exact ⟨rfl, fun k hk => absurd hk (Nat.not_lt_zero k), fun j _ => rfl⟩
  · rintro i o hi ⟨hl, ho, hr⟩
    rw [wr_lt (by rw [hl]; exact hlt i hi), sat_ok]
    refine ⟨by simpa using hl, fun k hk => ?_, fun j hj => ?_⟩
    · rw [List.getElem?_set]
      by_cases h : i = k
      · subst h; rw [if_pos rfl, if_pos (by rw [hl]; exact hlt i hi)]
      · have : pos i ≠ pos k := fun hp => h (hinj i k hi (by omega) hp)
        rw [if_neg this]
        exact ho k (by omega)
    · rw [List.getElem?_set, if_neg (hj i (Nat.lt_succ_self i))]
      exact hr j fun k hk => hj k (Nat.lt_succ_of_lt hk)

/-- The last value written by a chain of writes indexed by a loop, when the state also counts. -/
theorem forN_count {α : Type _} {n : Nat} {h : Nat → Nat → List α → Exec (List α)} {out : List α} {c : Nat} :
    forN n (fun k (s : Nat × List α) => h k s.1 s.2 >>= fun l => ok (s.1 + 1, l)) (c, out) =
      forN n (fun k o => h k (c + k) o) out >>= fun o => ok (c + n, o) := by
  induction n with
  | zero => rfl
  | succ n ih =>
    rw [forN_succ, ih, forN_succ, Exec.bind_assoc', Exec.bind_assoc']
    rfl

theorem ext_of_getElem? {α : Type _} {a b : List α} (h : ∀ i : Nat, a[i]? = b[i]?) : a = b :=
  List.ext_getElem? h

/-- A loop one of whose turns is undefined behaviour and whose other turns never throw. -/
theorem forN_ub {σ : Type _} {n k0 : Nat} {f : Nat → σ → Exec σ} {s : σ} (P : σ → Prop) (h0 : P s) (hk : k0 < n)
    (hstep : ∀ k s, k < n → P s → f k s = Exec.ub ∨ ∃ s', f k s = Exec.ok s' ∧ P s') (hub : ∀ s, P s → f k0 s = Exec.ub) :
    forN n f s = Exec.ub := by
  have key : ∀ m, m ≤ n → (m ≤ k0 ∧ ∃ s', forN m f s = Exec.ok s' ∧ P s') ∨ forN m f s = Exec.ub := by
    intro m
    induction m with
    | zero => intro _; exact Or.inl ⟨Nat.zero_le _, s, rfl, h0⟩
    | succ m ih =>
      intro hm
      rw [forN_succ]
      rcases ih (by omega) with ⟨h1, s', h2, h3⟩ | h
      · rw [h2, bind_ok]
        rcases Nat.lt_or_eq_of_le h1 with h4 | h4
        · rcases hstep m s' (by omega) h3 with h5 | h5
          · exact Or.inr h5
          · exact Or.inl ⟨by omega, h5⟩
        · subst h4; exact Or.inr (hub s' h3)
      · rw [h]; exact Or.inr rfl
  rcases key n (Nat.le_refl _) with ⟨h, _⟩ | h
  · omega
  · exact h

/-- Pointwise description of `map f (range n)`. -/
theorem getElem?_mapRange {α : Type _} (f : Nat → α) (n i : Nat) :
    ((List.range n).map f)[i]? = if i < n then some (f i) else none := by
  by_cases h : i < n
  · simp [h]
  · simp [h]

theorem eq_mapRange {α : Type _} {l : List α} {f : Nat → α} {n : Nat} (hl : l.length = n)
    (h : ∀ i, i < n → l[i]? = some (f i)) : l = (List.range n).map f := by
  apply List.ext_getElem?
  intro i
  rw [getElem?_mapRange]
  by_cases hi : i < n
  · rw [if_pos hi, h i hi]
  · rw [if_neg hi]; simp; omega

/-- `getD` within bounds. -/
theorem getD_lt {α : Type _} {l : List α} {i : Nat} (d : α) (h : i < l.length) : l.getD i d = l[i] := by
  rw [List.getD_eq_getElem?_getD, List.getElem?_eq_getElem h]; rfl

/-- `for (auto& a : l) s = f(a, s)`. -/
def forEach {α σ : Type _} : List α → (α → σ → Exec σ) → σ → Exec σ
  | [], _, s => Exec.ok s
  | a :: l, f, s => f a s >>= forEach l f

theorem forEach_cons {α σ : Type _} (a : α) (l : List α) (f : α → σ → Exec σ) (s : σ) :
    forEach (a :: l) f s = f a s >>= forEach l f := rfl

/-- Hoare rule for `forEach`: an invariant indexed by the elements already visited. -/
theorem forEach_inv {α σ : Type _} {l : List α} {f : α → σ → Exec σ} {s : σ} (Inv : List α → σ → Prop) (h0 : Inv [] s)
    (hstep : ∀ p a q s, l = p ++ a :: q → Inv p s → (f a s).Sat (Inv (p ++ [a]))) : (forEach l f s).Sat (Inv l) := by
  have key : ∀ q p s, l = p ++ q → Inv p s → (forEach q f s).Sat (Inv l) := by
    intro q
    induction q with
    | nil =>
      intro p s e hp
      rw [List.append_nil] at e
      subst e
      exact Exec.sat_ok.2 hp
    | cons a q ih =>
      intro p s e hp
      rw [forEach_cons]
      exact (hstep p a q s e hp).bind fun s' h' => ih (p ++ [a]) s' (by simp [e]) h'
  exact key l [] s rfl h0

/-- An index loop over a whole array is a range loop. -/
theorem forN_rd {α σ : Type _} (l : List α) (f : α → σ → Exec σ) (s : σ) :
    forN l.length (fun k s => rd l k >>= fun a => f a s) s = forEach l f s := by
  induction l generalizing s with
  | nil => rfl
  | cons a l ih =>
    rw [List.length_cons, forN_succ', forEach_cons]
    have e : (fun i => (fun (k : Nat) (s : σ) => rd (a :: l) k >>= fun a => f a s) (i + 1)) =
        fun k s => rd l k >>= fun a => f a s := by
      funext k s
      simp [rd]
    rw [e]
    have e0 : (rd (a :: l) 0 >>= fun b => f b s) = f a s := rfl
    rw [e0]
    cases h : f a s <;> simp [ih]

theorem forEach_congr {α σ : Type _} {l : List α} {f g : α → σ → Exec σ} {s : σ} (h : ∀ a, a ∈ l → ∀ s, f a s = g a s) :
    forEach l f s = forEach l g s := by
  induction l generalizing s with
  | nil => rfl
  | cons a l ih =>
    rw [forEach_cons, forEach_cons, h a (by simp) s]
    cases g a s <;> simp [ih fun b hb => h b (by simp [hb])]

end Verif
