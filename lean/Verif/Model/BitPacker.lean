import Verif.Prelude.Exec

/-!
# Bit packer

Models `include/Tools/Algo/Bit_packer.hxx`.  Elements of the bit vectors (type `B`) are `Int`s, a bit being
set when it is not 0; symbols (type `S`) are `BitVec W` with `W = sizeof(S) * CHAR_BIT`.
Simplification: `ceil((float)n / Nbps)` is the exact ceiling (the C++ goes through a `float`, which is exact
below 2^24 bits per frame).
-/

namespace Verif.BitPacker
open Exec

/-- `*vec_in != 0`. -/
def truth (v : Int) : Bool := decide (v ≠ 0)

/-- Number of symbols per frame, `Bit_packer.hxx:79,122,197,240`. -/
def nSymbols (nBits nbps : Nat) : Nat := (nBits + nbps - 1) / nbps

/-- One symbol of `_pack`: the loops over `j` of `Bit_packer.hxx:269-271, 277-279` (lsb first) and
`287-290, 295-298` (msb first). `m` is `Nbps` or `rest`, `get t` reads the `t`-th bit of the frame. -/
def packSymbol (W : Nat) (msb : Bool) (m : Nat) (get : Nat → Exec Bool) (base : Nat) : Exec (BitVec W) :=
  if msb = false then
    forN m (fun j (s : BitVec W) => do
      let b ← get (base + j)
      ok (s ||| ((if b then 1#W else 0#W) <<< j))) 0#W
  else do
    let s ← forN m (fun j (s : BitVec W) => do
      let b ← get (base + j)
      ok ((s <<< 1) ||| (if b then 1#W else 0#W))) 0#W
    ok (s <<< (W - m))

/-- `Bit_packer::_pack`, `Bit_packer.hxx:258-301`; `put i s` stores the `i`-th symbol of the frame.  The
memory `σ` is a parameter so that the same function serves for disjoint and for overlapping buffers. -/
def packFrame {σ : Type _} (W : Nat) (msb : Bool) (nbps nBits : Nat) (get : σ → Nat → Exec Bool)
    (put : σ → Nat → BitVec W → Exec σ) (mem : σ) : Exec σ := do
  let nSymbs := nBits / nbps
  let rest := nBits - nSymbs * nbps
  let mem ← forN nSymbs (fun i mem => do
    let s ← packSymbol W msb nbps (get mem) (i * nbps)
    put mem i s) mem
  if rest ≠ 0 then do
    let s ← packSymbol W msb rest (get mem) (nSymbs * nbps)
    put mem nSymbs s
  else ok mem

/-- The bit `j` of a symbol as `_unpack` reads it, `Bit_packer.hxx:314,317,323,326`. -/
def symbolBit {W : Nat} (msb : Bool) (s : BitVec W) (j : Nat) : Int :=
  if msb = false then ((s >>> j) &&& 1#W).toNat else ((s >>> (W - 1 - j)) &&& 1#W).toNat

/-- `Bit_packer::_unpack`, `Bit_packer.hxx:303-328`. -/
def unpackFrame {σ : Type _} {W : Nat} (msb : Bool) (nbps nBits : Nat) (get : σ → Nat → Exec (BitVec W))
    (put : σ → Nat → Int → Exec σ) (mem : σ) : Exec σ := do
  let nSymbs := nBits / nbps
  let rest := nBits - nSymbs * nbps
  let mem ← forN nSymbs (fun i => forN nbps (fun j mem => do
    let s ← get mem i
    put mem (i * nbps + j) (symbolBit msb s j))) mem
  forN rest (fun j mem => do
    let s ← get mem nSymbs
    put mem (nSymbs * nbps + j) (symbolBit msb s j)) mem

/-- `Bit_packer::pack(const B*, S*, n_bits_per_frame, n_frames, msb_to_lsb, Nbps)`,
`Bit_packer.hxx:66-87`. -/
def pack (W : Nat) (msb : Bool) (nbps : Int) (nBits nFrames : Nat) (vecIn : List Int)
    (vecOut : List (BitVec W)) : Exec (List (BitVec W)) :=
  if nbps > W ∨ nbps ≤ 0 then exc .invalidArgument
  else
    let nb := nbps.toNat
    let ns := nSymbols nBits nb
    forN nFrames (fun f out =>
      packFrame W msb nb nBits (fun _ t => rd vecIn (f * nBits + t) >>= fun v => ok (truth v))
        (fun out i s => wr out (f * ns + i) s) out) vecOut

/-- `Bit_packer::unpack(const S*, B*, n_bits_per_frame, n_frames, msb_to_lsb, Nbps)`,
`Bit_packer.hxx:184-205`. -/
def unpack {W : Nat} (msb : Bool) (nbps : Int) (nBits nFrames : Nat) (vecIn : List (BitVec W))
    (vecOut : List Int) : Exec (List Int) :=
  if nbps > W ∨ nbps ≤ 0 then exc .invalidArgument
  else
    let nb := nbps.toNat
    let ns := nSymbols nBits nb
    forN nFrames (fun f out =>
      unpackFrame msb nb nBits (fun _ i => rd vecIn (f * ns + i))
        (fun out t v => wr out (f * nBits + t) v) out) vecOut

/-- `Bit_packer::pack(const std::vector<B>&, std::vector<S>&, ...)` without `pack_per_byte`,
`Bit_packer.hxx:15-64`. -/
def packVec (W : Nat) (msb : Bool) (nbps : Int) (nFrames : Int) (vecIn : List Int)
    (vecOut : List (BitVec W)) : Exec (List (BitVec W)) :=
  if nFrames ≤ 0 then exc .invalidArgument
  else if vecIn.length % nFrames.toNat ≠ 0 then exc .lengthError
  else if vecOut.length * nbps < vecIn.length then exc .lengthError
  else pack W msb nbps (vecIn.length / nFrames.toNat) nFrames.toNat vecIn vecOut

/-- `Bit_packer::unpack(const std::vector<S>&, std::vector<B>&, ...)` without `unpack_per_byte`,
`Bit_packer.hxx:134-182`. -/
def unpackVec {W : Nat} (msb : Bool) (nbps : Int) (nFrames : Int) (vecIn : List (BitVec W))
    (vecOut : List Int) : Exec (List Int) :=
  if nFrames ≤ 0 then exc .invalidArgument
  else if vecOut.length % nFrames.toNat ≠ 0 then exc .lengthError
  else if vecIn.length * nbps < vecOut.length then exc .lengthError
  else unpack msb nbps (vecOut.length / nFrames.toNat) nFrames.toNat vecIn vecOut

/-- `Bit_packer::pack(const std::vector<B>&, std::vector<S>&, ...)` with `pack_per_byte`,
`Bit_packer.hxx:15-49`: `bytesOut` is the byte view of the output vector of `bytesOut.length / szS`
elements of `szS` bytes. -/
def packVecBytes (szS : Nat) (msb : Bool) (nbps : Int) (nFrames : Int) (vecIn : List Int)
    (bytesOut : List (BitVec 8)) : Exec (List (BitVec 8)) :=
  if nFrames ≤ 0 then exc .invalidArgument
  else if vecIn.length % nFrames.toNat ≠ 0 then exc .lengthError
  else if ((bytesOut.length / szS) * szS : Nat) * nbps < vecIn.length then exc .lengthError
  else pack 8 msb nbps (vecIn.length / nFrames.toNat) nFrames.toNat vecIn bytesOut

/-- `Bit_packer::unpack(const std::vector<S>&, std::vector<B>&, ...)` with `unpack_per_byte`,
`Bit_packer.hxx:134-167`: `bytesIn` is the byte view of the input vector of `bytesIn.length / szS` elements
of `szS` bytes; the size test multiplies by `szB = sizeof(B)`, as written. -/
def unpackVecBytes (szS szB : Nat) (msb : Bool) (nbps : Int) (nFrames : Int) (bytesIn : List (BitVec 8))
    (vecOut : List Int) : Exec (List Int) :=
  if nFrames ≤ 0 then exc .invalidArgument
  else if vecOut.length % nFrames.toNat ≠ 0 then exc .lengthError
  else if ((bytesIn.length / szS) * szB : Nat) * nbps < vecOut.length then exc .lengthError
  else unpack msb nbps (vecOut.length / nFrames.toNat) nFrames.toNat bytesIn vecOut

/-! ## In place, on a byte memory -/

/-- Reading element `t` of a vector of `sz`-byte integers starting at byte 0, as a truth value
(`vec[t] != 0`, little or big endian alike). -/
def elemTruth (sz : Nat) (mem : List (BitVec 8)) (t : Nat) : Exec Bool :=
  forN sz (fun k acc => rd mem (t * sz + k) >>= fun b => ok (acc || decide (b ≠ 0#8))) false

/-- Storing 0 or 1 in element `t` of a vector of `sz`-byte little-endian integers. -/
def elemStore (sz : Nat) (mem : List (BitVec 8)) (t : Nat) (v : Int) : Exec (List (BitVec 8)) :=
  forN sz (fun k mem => wr mem (t * sz + k) (if k = 0 then BitVec.ofInt 8 v else 0#8)) mem

/-- `Bit_packer::pack(B*, n_bits_per_frame, n_frames, msb_to_lsb, Nbps)`, `Bit_packer.hxx:111-132`: the
output bytes overwrite the vector; `sz = sizeof(B)`. -/
def packInPlace (sz : Nat) (msb : Bool) (nbps : Int) (nBits nFrames : Nat) (mem : List (BitVec 8)) :
    Exec (List (BitVec 8)) :=
  if nbps > 8 ∨ nbps ≤ 0 then exc .invalidArgument
  else
    let nb := nbps.toNat
    let ns := nSymbols nBits nb
    forN nFrames (fun f mem =>
      packFrame 8 msb nb nBits (fun mem t => elemTruth sz mem (f * nBits + t))
        (fun mem i s => wr mem (f * ns + i) s) mem) mem

/-- `Bit_packer::unpack(B*, n_bits_per_frame, n_frames, msb_to_lsb, Nbps)`, `Bit_packer.hxx:229-256`:
`bytes_cpy` has `n_symbs_per_frame` entries and is read from offset `f * n_symbs_per_frame`. -/
def unpackInPlace (sz : Nat) (msb : Bool) (nbps : Int) (nBits nFrames : Nat) (mem : List (BitVec 8)) :
    Exec (List (BitVec 8)) :=
  if nbps > 8 ∨ nbps ≤ 0 then exc .invalidArgument
  else
    let nb := nbps.toNat
    let ns := nSymbols nBits nb
    forN nFrames (fun f mem => do
      let cpy ← copyTo mem (f * ns) ns (List.replicate ns 0#8) 0
      unpackFrame msb nb nBits (fun _ i => rd cpy (f * ns + i))
        (fun mem t v => elemStore sz mem (f * nBits + t) v) mem) mem

end Verif.BitPacker
