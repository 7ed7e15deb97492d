import Verif.Model.Control

/-! # Vocabulary for the properties of control -/

namespace Verif.Control
open Exec

/-- The values returned by `k` successive calls, and the state after them. -/
def calls {σ : Type} (step : σ → Exec (σ × Int)) (k : Nat) (s : σ) : Exec (σ × List Int) :=
  forN k (fun _ x => step x.1 >>= fun r => ok (r.1, x.2 ++ [r.2])) (s, [])

/-- The tasks of the user never throw. -/
def NoThrow (bad : Nat → List Ev → Bool) : Prop := ∀ k t, bad k t = false

/-- The trace of a list of user's tasks. -/
def us (l : List Nat) : List Ev := l.map Ev.user

/-- The condition part: `select`, the tasks around `iterate`, `commute`. -/
def cond (h1 h2 : List Nat) (sel com : Nat) : List Ev := .select sel :: us h1 ++ .iterate :: us h2 ++ [.commute com]

/-- `r` turns of the loop, then the exit. -/
def turns (h1 h2 body post : List Nat) : Nat → Nat → List Ev
  | 0, sel => cond h1 h2 sel 1 ++ us post
  | r + 1, sel => cond h1 h2 sel 0 ++ us body ++ turns h1 h2 body post r 0

end Verif.Control
