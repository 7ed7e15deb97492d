import Verif.Model.Dumper

/-!
# Specification of the recording of frames
-/

namespace Verif.Dumper
open Exec User

/-- What is recorded of an area of frames of `bytes` bytes: since the last clear and in the order of the calls, the frame of each call
with enough errors whose index is that of a frame of the area. -/
def kept (thr i nFrames bytes : Nat) (ops : List Op) : List (List Nat) :=
  ops.foldl (fun acc o => match o with
    | .clear => []
    | .add nErr f mem => if thr ≤ nErr ∧ f < nFrames then acc ++ [((mem i).drop (f * bytes)).take bytes] else acc) []

/-- The areas have the size with which they were registered. -/
def Op.Fits (data : List Data) : Op → Prop
  | .clear => True
  | .add _ f mem => f < 2 ^ 32 ∧ ∀ i d, data[i]? = some d → d.nFrames * (d.size * d.sizeof) ≤ (mem i).length

/-- The integers of a frame. -/
def values (d : Data) (b : List Nat) : List Int :=
  (List.range d.size).map fun i => leInt d.signed ((b.drop (i * d.sizeof)).take d.sizeof)

/-- The values of a frame of `size` values of `s` bytes. -/
def reals {R : Type} (dec : List Nat → R) (size s : Nat) (b : List Nat) : List R :=
  (List.range size).map fun j => dec ((b.drop (j * s)).take s)

/-- The file of an area: the number of frames, their size, the additional numbers and the frames. -/
def fileOf (d : Data) (rows : List (List Nat)) : File :=
  if d.bin then .bin (leBytes 4 rows.length ++ (leBytes 4 d.size ++ (d.head.flatMap (leBytes 4) ++ rows.flatten)))
  else .text ([(rows.length : Int), (d.size : Int)] ++ d.head.map (fun (x : Nat) => (x : Int)) ++ (rows.map (values d)).flatten)

end Verif.Dumper
