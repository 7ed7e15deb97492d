import Verif.Prelude.Loops

/-! # Outcomes with exceptions, and descending loops -/

namespace Verif.Exec

/-- The call returns a value satisfying `P`, or throws an exception satisfying `E`; it is never undefined. -/
def Out {α : Type _} (x : Exec α) (P : α → Prop) (E : Exn → Prop) : Prop :=
  match x with
  | ok a => P a
  | exc e => E e
  | ub => False

theorem out_ok {α : Type _} {a : α} {P : α → Prop} {E : Exn → Prop} : Out (ok a) P E ↔ P a := Iff.rfl
theorem out_exc {α : Type _} {e : Exn} {P : α → Prop} {E : Exn → Prop} : Out (exc e : Exec α) P E ↔ E e := Iff.rfl

theorem Sat.out {α : Type _} {x : Exec α} {P : α → Prop} {E : Exn → Prop} (h : x.Sat P) : Out x P E := by
  obtain ⟨a, rfl, ha⟩ := h
  exact ha

theorem Out.sat {α : Type _} {x : Exec α} {P : α → Prop} (h : Out x P fun _ => False) : x.Sat P := by
  cases x with
  | ok a => exact ⟨a, rfl, h⟩
  | exc e => exact h.elim
  | ub => exact h.elim

theorem Out.bind {α β : Type _} {x : Exec α} {P : α → Prop} {E : Exn → Prop} {f : α → Exec β} {Q : β → Prop}
    (hx : Out x P E) (hf : ∀ a, P a → Out (f a) Q E) : Out (x >>= f) Q E := by
  cases x with
  | ok a => exact hf a hx
  | exc e => exact hx
  | ub => exact hx.elim

theorem Out.mono {α : Type _} {x : Exec α} {P P' : α → Prop} {E E' : Exn → Prop} (hx : Out x P E) (hP : ∀ a, P a → P' a)
    (hE : ∀ e, E e → E' e) : Out x P' E' := by
  cases x with
  | ok a => exact hP a hx
  | exc e => exact hE e hx
  | ub => exact hx.elim

theorem forN_out {σ : Type _} {n : Nat} {f : Nat → σ → Exec σ} {s : σ} {E : Exn → Prop} (Inv : Nat → σ → Prop)
    (h0 : Inv 0 s) (hstep : ∀ i s, i < n → Inv i s → Out (f i s) (Inv (i + 1)) E) : Out (forN n f s) (Inv n) E := by
  induction n with
  | zero => exact h0
  | succ n ih =>
    rw [forN_succ]
    exact (ih fun i s hi => hstep i s (Nat.lt_succ_of_lt hi)).bind fun a ha => hstep n a (Nat.lt_succ_self n) ha

theorem forRange_out {σ : Type _} {a b : Nat} {f : Nat → σ → Exec σ} {s : σ} {E : Exn → Prop} (Inv : Nat → σ → Prop) (hab : a ≤ b)
    (h0 : Inv a s) (hstep : ∀ i s, a ≤ i → i < b → Inv i s → Out (f i s) (Inv (i + 1)) E) : Out (forRange a b f s) (Inv b) E := by
  unfold forRange
  have := forN_out (n := b - a) (f := fun i => f (a + i)) (s := s) (E := E) (fun i => Inv (a + i)) h0
    (fun i s hi hI => hstep (a + i) s (Nat.le_add_right _ _) (by omega) hI)
  rwa [Nat.add_sub_cancel' hab] at this

/-- Descending loop: `Inv k` holds when the indexes from `k` on have been visited. -/
theorem forDown_inv {σ : Type _} {n : Nat} {f : Nat → σ → Exec σ} {s : σ} (Inv : Nat → σ → Prop)
    (h0 : Inv n s) (hstep : ∀ i s, i < n → Inv (i + 1) s → (f i s).Sat (Inv i)) : (forDown n f s).Sat (Inv 0) := by
  unfold forDown
  have := forN_inv (n := n) (f := fun i => f (n - 1 - i)) (s := s) (fun i => Inv (n - i)) (by simpa using h0)
    (fun i s hi hI => by
      have := hstep (n - 1 - i) s (by omega) (by rwa [show n - 1 - i + 1 = n - i by omega])
      rwa [show n - (i + 1) = n - 1 - i by omega])
  rwa [Nat.sub_self] at this

end Verif.Exec
