import Verif.Model.Socket

/-! # Specification of bindings -/

namespace Verif.Socket

/-- An input is bound to an output if and only if it appears exactly once in the list of the output; otherwise it does not
appear. -/
def WF (n : Net) : Prop := ∀ i o, (n o).outs.count i = if (n i).bound = some o then 1 else 0

/-- Bound sockets have the same type, size and (non null) data pointer. -/
def Same (n : Net) : Prop := ∀ i o, (n i).bound = some o →
  (n i).dt = (n o).dt ∧ (n i).esize = (n o).esize ∧ (n i).bytes = (n o).bytes ∧ (n i).ptr = (n o).ptr ∧ (n o).ptr ≠ none

/-- Only input sockets are bound, and to output sockets. -/
def Directed (n : Net) : Prop := ∀ i o, (n i).bound = some o → (n i).isOut = false ∧ (n o).isOut = true

/-- No socket is in fast mode, and the size of the elements is that of the type. -/
def Checked (sz : Nat → Nat) (n : Net) : Prop := ∀ i, (n i).fast = false ∧ (n i).esize = sz (n i).dt

/-- Calls which bind inputs to outputs, do not use the fast mode, and give the sizes of the types. -/
def Op.careful (sz : Nat → Nat) (n : Net) : Op → Prop
  | .bind i o _ => (n i).isOut = false ∧ (n o).isOut = true
  | .setType _ T e => e = sz T
  | .setFast _ f => f = false
  | _ => True

/-- Nothing is bound yet. -/
def Fresh (n : Net) : Prop := ∀ i, (n i).bound = none ∧ (n i).outs = []

/-- The state after a normal return or an exception satisfies `P`. -/
def Res.All (P : Net → Prop) : Res → Prop
  | .done n => P n
  | .thrown n => P n
  | .ub => True

/-- `bind` refuses: checks, or bound elsewhere. -/
def Refused (n : Net) (i o : Nat) : Prop :=
  ((n i).fast = false ∧ ((n o).dt ≠ (n i).dt ∨ (n o).bytes ≠ (n i).bytes ∨ (n o).ptr = none)) ∨
  ((n i).bound ≠ none ∧ (n i).bound ≠ some o)

/-- All the calls of a history are careful at the time they are made. -/
def carefulAll (sz : Nat → Nat) : Net → List Op → Prop
  | _, [] => True
  | n, o :: os => o.careful sz n ∧
    match o.run n with
    | .done n' => carefulAll sz n' os
    | .thrown n' => carefulAll sz n' os
    | .ub => True

end Verif.Socket
