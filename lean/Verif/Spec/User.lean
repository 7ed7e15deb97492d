import Verif.Model.User

/-! # Vocabulary for user files and the fast random source -/

namespace Verif.User

/-- The text of a file with the numbers `l`, followed by `rest`. -/
def text {α : Type} (l : List α) (rest : List (Tok α)) : List (Tok α) := l.map Tok.num ++ rest

/-- Frame number `t` of the frames `rows` used cyclically from frame `start`. -/
def cyclic {α : Type} (rows : List (List α)) (start t : Nat) : Option (List α) := rows[(start + t) % rows.length]?

/-- A bit of a source: every number other than zero is a one. -/
def toBit (v : Int) : Nat := if v = 0 then 0 else 1

/-- The tokens of a file hold `n` numbers and then stop being numbers. -/
def Stops {α : Type} (toks : List (Tok α)) (n : Nat) : Prop :=
  ∃ (l : List α) (rest : List (Tok α)), l.length = n ∧ (rest = [] ∨ rest.head? = some Tok.bad) ∧ toks = text l rest

end Verif.User
