/-! # Specification: permutation tables -/
namespace Verif

/-- `l` is a permutation of `0, 1, ..., K-1`. -/
def IsPermutation (K : Nat) (l : List Nat) : Prop := l.Perm (List.range K)

instance (K : Nat) (l : List Nat) : Decidable (IsPermutation K l) := by
  unfold IsPermutation; infer_instance

end Verif
