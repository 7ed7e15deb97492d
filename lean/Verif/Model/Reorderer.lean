import Verif.Prelude.Loops

/-!
# Reordering of frames

Models `Reorderer`, `include/Tools/Perf/Reorderer/Reorderer.hxx`.  `W` is `mipp::nElReg<T>()`.  A register is the list of its
elements; `[]` is an uninitialised one.  The buffers do not overlap.  `Reorderer_static` is not modelled.
-/

namespace Verif.Reorderer
open Exec
variable {α : Type}

/-- `is_power_of_2`, `include/Tools/Math/utils.hxx:87-91`. -/
def isPow2 (x : Nat) : Bool := decide (0 < x) && decide (x &&& (x - 1) = 0)

/-- The condition of the vectorised version, `Reorderer.hxx:25`, `:210`. -/
def vect (W n : Nat) : Bool := isPow2 n && decide (2 ≤ n) && decide (n ≤ W)

/-- `mipp::loadu`: `W` elements from `off`. -/
def loadu (W : Nat) (src : List α) (off : Nat) : Exec (List α) :=
  if off + W ≤ src.length then ok ((src.drop off).take W) else ub

/-- `mipp::storeu` at `off`. -/
def storeu (dst : List α) (off : Nat) (r : List α) : Exec (List α) :=
  if off + r.length ≤ dst.length then ok (dst.take off ++ r ++ dst.drop (off + r.length)) else ub

/-- The elements of two registers in turn. -/
def mix (a b : List α) : List α := (a.zip b).flatMap fun p => [p.1, p.2]

/-- `mipp::interleave`: `val[0]` is the first half of the interleaved elements, `val[1]` the second half. -/
def interleave (a b : List α) : List α × List α := ((mix a b).take a.length, (mix a b).drop a.length)

/-- One pair of registers, `Reorderer.hxx:47-50`, `:244-247`. -/
def cross (i j : Nat) (regs : List (List α)) : Exec (List (List α)) :=
  rd regs i >>= fun a => rd regs j >>= fun b => wr regs i (interleave a b).1 >>= fun regs => wr regs j (interleave a b).2

/-- One stage of the reordering, `Reorderer.hxx:42-52`, `:239-249`. -/
def stage (kSize lSize : Nat) (regs : List (List α)) : Exec (List (List α)) :=
  forN kSize (fun k => forN lSize fun l => cross (k * lSize * 2 + l) (k * lSize * 2 + lSize + l)) regs

/-- The loop `for (j = 1; j < n_fra; j <<= 1)` of `apply`, `Reorderer.hxx:38-55`: it has `log2(n_fra)` turns. -/
def stages (n : Nat) (regs : List (List α)) : Exec (Nat × Nat × List (List α)) :=
  forN n.log2 (fun _ (s : Nat × Nat × List (List α)) => stage s.1 s.2.1 s.2.2 >>= fun r => ok (s.1 * 2, s.2.1 / 2, r)) (1, n / 2, regs)

/-- The loads of `apply`, `Reorderer.hxx:33-35`. -/
def loads (W : Nat) (inData : List (List α)) (i : Nat) (regs : List (List α)) : Exec (List (List α)) :=
  forN inData.length (fun f regs => rd inData f >>= fun d => loadu W d (i * W) >>= fun r => wr regs f r) regs

/-- The stores of `apply`, `Reorderer.hxx:57-59`. -/
def stores (W n i : Nat) (regs : List (List α)) (out : List α) : Exec (List α) :=
  forN n (fun f out => rd regs f >>= fun r => storeu out ((i * n + f) * W) r) out

/-- The sequential loops of `apply`, `Reorderer.hxx:65-68`. -/
def tail (inData : List (List α)) (start len : Nat) (out : List α) : Exec (List α) :=
  forRange start len (fun i => forN inData.length fun f out =>
    rd inData f >>= fun d => rd d i >>= fun a => wr out (i * inData.length + f) a) out

/-- `Reorderer::apply`, `Reorderer.hxx:16-69`. -/
def apply (W : Nat) (inData : List (List α)) (out : List α) (len : Nat) : Exec (List α) :=
  if vect W inData.length then
    forN (len / W) (fun i out =>
      loads W inData i (List.replicate W []) >>= fun regs => stages inData.length regs >>= fun s =>
        stores W inData.length i s.2.2 out) out >>= fun out => tail inData (len / W * W) len out
  else tail inData 0 len out

/-- The update of the sizes in `apply_rev`, `Reorderer.hxx:227-237`. -/
def sizes (n t : Nat) (k l : Nat) : Nat × Nat :=
  if 1 ≤ t then (if l / 2 = 0 then (1, n / 2) else (k * 2, l / 2)) else (k, l)

/-- The loop `for (j = 1; j < mipp::nElReg<T>(); j <<= 1)` of `apply_rev`, `Reorderer.hxx:222-250`: it has `log2(W)` turns. -/
def stagesRev (W n : Nat) (regs : List (List α)) : Exec (Nat × Nat × List (List α)) :=
  forN W.log2 (fun t (s : Nat × Nat × List (List α)) =>
    stage (sizes n t s.1 s.2.1).1 (sizes n t s.1 s.2.1).2 s.2.2 >>= fun r => ok ((sizes n t s.1 s.2.1).1, (sizes n t s.1 s.2.1).2, r))
    (1, n / 2, regs)

/-- The loads of `apply_rev`, `Reorderer.hxx:218-220`. -/
def loadsRev (W n : Nat) (inData : List α) (i : Nat) (regs : List (List α)) : Exec (List (List α)) :=
  forN n (fun f regs => loadu W inData ((i * n + f) * W) >>= fun r => wr regs f r) regs

/-- A store of `apply_rev` in the frame `f`, `Reorderer.hxx:259-260`. -/
def storeFrame (W i : Nat) (r : List α) (f : Nat) (outs : List (List α)) : Exec (List (List α)) :=
  rd outs f >>= fun o => storeu o (i * W) r >>= fun o => wr outs f o

/-- The stores of `apply_rev`, `Reorderer.hxx:252-262`; the state is `f` and the frames. -/
def storesRev (W i kSize lSize : Nat) (regs : List (List α)) (outs : List (List α)) : Exec (Nat × List (List α)) :=
  forN kSize (fun k => forN lSize fun l (s : Nat × List (List α)) =>
    rd regs (k * lSize * 2 + l) >>= fun a => storeFrame W i a s.1 s.2 >>= fun o =>
    rd regs (k * lSize * 2 + lSize + l) >>= fun b => storeFrame W i b (s.1 + 1) o >>= fun o => ok (s.1 + 2, o)) (0, outs)

/-- The sequential loops of `apply_rev`, `Reorderer.hxx:268-271`. -/
def tailRev (inData : List α) (start len : Nat) (outs : List (List α)) : Exec (List (List α)) :=
  forRange start len (fun i => forN outs.length fun f o =>
    rd inData (i * outs.length + f) >>= fun a => rd o f >>= fun d => wr d i a >>= fun d => wr o f d) outs

/-- `Reorderer::apply_rev`, `Reorderer.hxx:201-272`. -/
def applyRev (W : Nat) (inData : List α) (outs : List (List α)) (len : Nat) : Exec (List (List α)) :=
  if vect W outs.length then
    forN (len / W) (fun i o =>
      loadsRev W outs.length inData i (List.replicate W []) >>= fun regs => stagesRev W outs.length regs >>= fun s =>
        storesRev W i s.1 s.2.1 s.2.2 o >>= fun x => ok x.2) outs >>= fun o => tailRev inData (len / W * W) len o
  else tailRev inData 0 len outs

end Verif.Reorderer
