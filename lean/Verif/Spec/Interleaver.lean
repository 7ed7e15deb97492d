import Verif.Spec.Perm
import Verif.Model.Interleaver

/-! # Specification vocabulary for the interleavers -/

namespace Verif.Interleaver
open Exec

/-- A generator that, at every call `f`, fills a buffer of `size` entries with a permutation of
`0..size-1` that does not depend on the previous content of the buffer. -/
def ValidGen (size : Nat) (gen : GenLut) : Prop :=
  ∀ f, ∃ t, IsPermutation size t ∧ ∀ buf : List Nat, buf.length = size → gen f buf = ok t

/-- What a user may do with an initialised interleaver core: change the number of frames, or regenerate
the tables (`set_n_frames`, `refresh`), each time with whatever generator state is current. -/
inductive Op where
  | setNFrames (n : Nat) (gen : GenLut)
  | refresh (gen : GenLut)

/-- One operation; an operation that throws leaves the core as it was (`set_n_frames` throws before any
update). -/
def Core.step (c : Core) : Op → Exec Core
  | .setNFrames n gen => if n = 0 then ok c else c.setNFrames gen n
  | .refresh gen => c.refresh gen

/-- A constructed and initialised core after a history of operations. -/
def history (size : Int) (uniform : Bool) (gen : GenLut) (ops : List Op) : Exec Core := do
  let c ← Core.mk? size uniform
  let c ← c.init gen
  ops.foldlM Core.step c

/-- Every generator used in a history is valid for this size. -/
def OpsValid (size : Nat) : List Op → Prop
  | [] => True
  | .setNFrames _ gen :: ops => ValidGen size gen ∧ OpsValid size ops
  | .refresh gen :: ops => ValidGen size gen ∧ OpsValid size ops

end Verif.Interleaver
