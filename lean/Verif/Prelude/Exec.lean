/-!
# Outcomes of C++ code

`Exec α` is the outcome of running a piece of C++: it returns a value, throws one of the library's
exceptions, or has undefined behaviour (`ub`: out-of-bounds access, invalid shift, ...).
-/

namespace Verif

/-- Exception classes of `include/Tools/Exception/` that the modelled code throws. -/
inductive Exn where
  | invalidArgument
  | lengthError
  | runtimeError
  | domainError
  | outOfRange
  | unimplemented
  deriving DecidableEq, Repr

/-- Outcome of a C++ computation. -/
inductive Exec (α : Type _) where
  | ok (a : α)
  | exc (e : Exn)
  | ub
  deriving DecidableEq, Repr

namespace Exec

@[inline] def bind {α β : Type _} (x : Exec α) (f : α → Exec β) : Exec β :=
  match x with
  | ok a => f a
  | exc e => exc e
  | ub => ub

instance : Monad Exec where
  pure := ok
  bind := bind

@[simp] theorem pure_eq {α : Type _} (a : α) : (pure a : Exec α) = ok a := rfl
@[simp] theorem bind_ok {α β : Type _} (a : α) (f : α → Exec β) : (ok a >>= f) = f a := rfl
@[simp] theorem bind_exc {α β : Type _} (e : Exn) (f : α → Exec β) :
    ((exc e : Exec α) >>= f) = exc e := rfl
@[simp] theorem bind_ub {α β : Type _} (f : α → Exec β) : ((ub : Exec α) >>= f) = ub := rfl

theorem bind_assoc' {α β γ : Type _} (x : Exec α) (f : α → Exec β) (g : β → Exec γ) :
    (x >>= f) >>= g = x >>= fun a => f a >>= g := by
  cases x <;> rfl

@[simp] theorem map_eq {α β : Type _} (f : α → β) (x : Exec α) :
    (f <$> x) = x >>= fun a => ok (f a) := rfl

instance : LawfulMonad Exec := LawfulMonad.mk'
  (id_map := by intro α x; cases x <;> rfl)
  (pure_bind := by intros; rfl)
  (bind_assoc := by intros α β γ x f g; cases x <;> rfl)

/-- `x.Sat P`: the computation returns normally with a value satisfying `P`. -/
def Sat {α : Type _} (x : Exec α) (P : α → Prop) : Prop := ∃ a, x = ok a ∧ P a

theorem Sat.bind {α β : Type _} {x : Exec α} {P : α → Prop} {f : α → Exec β} {Q : β → Prop}
    (hx : x.Sat P) (hf : ∀ a, P a → (f a).Sat Q) : (x >>= f).Sat Q := by
  obtain ⟨a, rfl, ha⟩ := hx
  exact hf a ha

theorem Sat.mono {α : Type _} {x : Exec α} {P Q : α → Prop} (hx : x.Sat P) (h : ∀ a, P a → Q a) :
    x.Sat Q := by
  obtain ⟨a, rfl, ha⟩ := hx
  exact ⟨a, rfl, h a ha⟩

@[simp] theorem sat_ok {α : Type _} {a : α} {P : α → Prop} : (ok a).Sat P ↔ P a :=
  ⟨fun ⟨_, h, hb⟩ => by cases h; exact hb, fun h => ⟨a, rfl, h⟩⟩

@[simp] theorem not_sat_exc {α : Type _} {e : Exn} {P : α → Prop} : (exc e : Exec α).Sat P ↔ False :=
  ⟨(fun ⟨_, h, _⟩ => by cases h), False.elim⟩

@[simp] theorem not_sat_ub {α : Type _} {P : α → Prop} : (ub : Exec α).Sat P ↔ False :=
  ⟨(fun ⟨_, h, _⟩ => by cases h), False.elim⟩

/-- Value of a successful outcome (for computations in examples). -/
def toOption {α : Type _} : Exec α → Option α
  | ok a => some a
  | _ => none

end Exec

open Exec

/-- Array read `l[i]`; out of bounds is undefined behaviour. -/
def rd {α : Type _} (l : List α) (i : Nat) : Exec α :=
  match l[i]? with
  | some a => ok a
  | none => ub

/-- Array write `l[i] = a`; out of bounds is undefined behaviour. -/
def wr {α : Type _} (l : List α) (i : Nat) (a : α) : Exec (List α) :=
  if i < l.length then ok (l.set i a) else ub

theorem rd_eq {α : Type _} {l : List α} {i : Nat} {a : α} (h : l[i]? = some a) : rd l i = ok a := by
  simp [rd, h]

@[simp] theorem rd_lt {α : Type _} {l : List α} {i : Nat} (h : i < l.length) : rd l i = ok l[i] := by
  simp [rd, h]

theorem rd_ge {α : Type _} {l : List α} {i : Nat} (h : l.length ≤ i) : rd l i = ub := by
  simp [rd, h]

theorem rd_ok_iff {α : Type _} {l : List α} {i : Nat} {a : α} : rd l i = ok a ↔ l[i]? = some a := by
  unfold rd; split <;> simp_all

@[simp] theorem wr_lt {α : Type _} {l : List α} {i : Nat} {a : α} (h : i < l.length) :
    wr l i a = ok (l.set i a) := by
  simp [wr, h]

theorem wr_ge {α : Type _} {l : List α} {i : Nat} {a : α} (h : l.length ≤ i) : wr l i a = ub := by
  simp [wr, Nat.not_lt.mpr h]

/-- `for (i = 0; i < n; i++) s = f(i, s)`. -/
def forN {σ : Type _} (n : Nat) (f : Nat → σ → Exec σ) (s : σ) : Exec σ :=
  match n with
  | 0 => ok s
  | n + 1 => forN n f s >>= f n

/-- `for (i = a; i < b; i++) s = f(i, s)`. -/
def forRange {σ : Type _} (a b : Nat) (f : Nat → σ → Exec σ) (s : σ) : Exec σ :=
  forN (b - a) (fun i => f (a + i)) s

/-- `for (i = n-1; i >= 0; i--) s = f(i, s)`. -/
def forDown {σ : Type _} (n : Nat) (f : Nat → σ → Exec σ) (s : σ) : Exec σ :=
  forN n (fun i => f (n - 1 - i)) s

theorem forDown_eq {σ : Type _} (n : Nat) (f : Nat → σ → Exec σ) :
    forDown n f = forN n (fun i => f (n - 1 - i)) := rfl

@[simp] theorem forN_zero {σ : Type _} (f : Nat → σ → Exec σ) (s : σ) : forN 0 f s = ok s := rfl
theorem forN_succ {σ : Type _} (n : Nat) (f : Nat → σ → Exec σ) (s : σ) :
    forN (n + 1) f s = forN n f s >>= f n := rfl

/-- The loop body run first on index 0 (unrolling from the front). -/
theorem forN_succ' {σ : Type _} (n : Nat) (f : Nat → σ → Exec σ) (s : σ) :
    forN (n + 1) f s = f 0 s >>= forN n (fun i => f (i + 1)) := by
  induction n with
  | zero =>
    show (ok s >>= f 0) = f 0 s >>= fun s => ok s
    cases h : f 0 s <;> simp [h]
  | succ n ih =>
    rw [forN_succ, ih, Exec.bind_assoc']
    rfl

/-- Hoare rule for loops: an invariant indexed by the number of iterations done. -/
theorem forN_inv {σ : Type _} {n : Nat} {f : Nat → σ → Exec σ} {s : σ} (Inv : Nat → σ → Prop)
    (h0 : Inv 0 s) (hstep : ∀ i s, i < n → Inv i s → (f i s).Sat (Inv (i + 1))) :
    (forN n f s).Sat (Inv n) := by
  induction n with
  | zero => simpa using h0
  | succ n ih =>
    rw [forN_succ]
    exact (ih fun i s hi => hstep i s (Nat.lt_succ_of_lt hi)).bind fun a ha => hstep n a (Nat.lt_succ_self n) ha

theorem forRange_inv {σ : Type _} {a b : Nat} {f : Nat → σ → Exec σ} {s : σ} (Inv : Nat → σ → Prop)
    (hab : a ≤ b) (h0 : Inv a s) (hstep : ∀ i s, a ≤ i → i < b → Inv i s → (f i s).Sat (Inv (i + 1))) :
    (forRange a b f s).Sat (Inv b) := by
  unfold forRange
  have := forN_inv (n := b - a) (f := fun i => f (a + i)) (s := s) (fun i => Inv (a + i)) h0
    (fun i s hi hI => hstep (a + i) s (Nat.le_add_right _ _) (by omega) hI)
  rwa [Nat.add_sub_cancel' hab] at this

theorem forN_congr {σ : Type _} {n : Nat} {f g : Nat → σ → Exec σ} {s : σ}
    (h : ∀ i s, i < n → f i s = g i s) : forN n f s = forN n g s := by
  induction n with
  | zero => rfl
  | succ n ih =>
    rw [forN_succ, forN_succ, ih fun i s hi => h i s (Nat.lt_succ_of_lt hi)]
    congr 1
    funext s
    exact h n s (Nat.lt_succ_self n)

/-- A pure loop. -/
def loopN {σ : Type _} (n : Nat) (f : Nat → σ → σ) (s : σ) : σ :=
  match n with
  | 0 => s
  | n + 1 => f n (loopN n f s)

@[simp] theorem loopN_zero {σ : Type _} (f : Nat → σ → σ) (s : σ) : loopN 0 f s = s := rfl
theorem loopN_succ {σ : Type _} (n : Nat) (f : Nat → σ → σ) (s : σ) :
    loopN (n + 1) f s = f n (loopN n f s) := rfl

theorem forN_ok {σ : Type _} {n : Nat} {f : Nat → σ → Exec σ} {g : Nat → σ → σ} {s : σ}
    (h : ∀ i s, i < n → f i s = ok (g i s)) : forN n f s = ok (loopN n g s) := by
  induction n with
  | zero => rfl
  | succ n ih =>
    rw [forN_succ, ih fun i s hi => h i s (Nat.lt_succ_of_lt hi), bind_ok, h n _ (Nat.lt_succ_self n), loopN_succ]

theorem loopN_inv {σ : Type _} {n : Nat} {f : Nat → σ → σ} {s : σ} (Inv : Nat → σ → Prop)
    (h0 : Inv 0 s) (hstep : ∀ i s, i < n → Inv i s → Inv (i + 1) (f i s)) : Inv n (loopN n f s) := by
  induction n with
  | zero => exact h0
  | succ n ih =>
    exact hstep n _ (Nat.lt_succ_self n) (ih fun i s hi => hstep i s (Nat.lt_succ_of_lt hi))

/-- The loop `for i < n: out[off + i] = g(i)` with in-bounds writes. -/
theorem forN_fill {α : Type _} {n off : Nat} {g : Nat → α} {out : List α} (h : off + n ≤ out.length) :
    (forN n (fun i o => wr o (off + i) (g i)) out).Sat fun o =>
      o.length = out.length ∧
      ∀ j : Nat, o[j]? = if off ≤ j ∧ j < off + n then some (g (j - off)) else out[j]? := by
  refine (forN_inv (fun k (o : List α) => o.length = out.length ∧
      ∀ j : Nat, o[j]? = if off ≤ j ∧ j < off + k then some (g (j - off)) else out[j]?) ?_ ?_)
  · refine ⟨rfl, fun j => ?_⟩
    rw [if_neg (by omega)]
  · rintro i o hi ⟨hl, ho⟩
    rw [wr_lt (by omega), sat_ok]
    refine ⟨by simpa using hl, fun j => ?_⟩
    rw [List.getElem?_set]
    by_cases hj : off + i = j
    · subst hj
      rw [if_pos rfl, if_pos (by omega), if_pos (by omega)]
      simp
    · rw [if_neg hj, ho]
      by_cases h1 : off ≤ j ∧ j < off + i
      · rw [if_pos h1, if_pos (by omega)]
      · rw [if_neg h1, if_neg (by omega)]

/-- `std::copy(src + so, src + so + n, dst + d)` for disjoint buffers. -/
def copyTo {α : Type _} (src : List α) (so n : Nat) (dst : List α) (d : Nat) : Exec (List α) :=
  forN n (fun i o => rd src (so + i) >>= fun v => wr o (d + i) v) dst

theorem copyTo_sat {α : Type _} {src : List α} {so n : Nat} {dst : List α} {d : Nat}
    (hs : so + n ≤ src.length) (hd : d + n ≤ dst.length) :
    (copyTo src so n dst d).Sat fun o =>
      o.length = dst.length ∧
      ∀ j : Nat, o[j]? = if d ≤ j ∧ j < d + n then src[so + (j - d)]? else dst[j]? := by
  refine (forN_inv (fun k (o : List α) => o.length = dst.length ∧
      ∀ j : Nat, o[j]? = if d ≤ j ∧ j < d + k then src[so + (j - d)]? else dst[j]?) ?_ ?_)
  · refine ⟨rfl, fun j => ?_⟩
    rw [if_neg (by omega)]
  · rintro i o hi ⟨hl, ho⟩
    rw [rd_lt (by omega), bind_ok, wr_lt (by omega), sat_ok]
    refine ⟨by simpa using hl, fun j => ?_⟩
    rw [List.getElem?_set]
    by_cases hj : d + i = j
    · subst hj
      rw [if_pos rfl, if_pos (by omega), if_pos (by omega)]
      simp [show so + i < src.length by omega]
    · rw [if_neg hj, ho]
      by_cases h1 : d ≤ j ∧ j < d + i
      · rw [if_pos h1, if_pos (by omega)]
      · rw [if_neg h1, if_neg (by omega)]

end Verif
