import Verif.Model.Extractor

/-! # Specification vocabulary for extractors and cosets -/

namespace Verif.Extractor

/-- The positions that are not frozen, in increasing order. -/
def infoSet (fb : List Bool) : List Nat := (List.range fb.length).filter fun i => fb.getD i true = false

/-- `pos` designates `K` different elements of a vector of `N`. -/
def ValidPos (pos : List Nat) (K N : Nat) : Prop := pos.length = K ∧ pos.Nodup ∧ ∀ p, p ∈ pos → p < N

instance (pos : List Nat) (K N : Nat) : Decidable (ValidPos pos K N) := by unfold ValidPos; infer_instance

end Verif.Extractor
