import Verif.Prelude.Exec
import Verif.Model.BitPacker

/-!
# Cyclic redundancy checks

Models `src/Module/CRC/Polynomial/CRC_polynomial.cpp` and `CRC_polynomial_fast.cpp`
(`CRC_polynomial_inter.cpp` is in `Model/CRCInter.lean`).  Elements of type `B` are `Int`s tested with `!= 0`.  One frame per call, as in
the tasks of `include/Module/CRC/CRC.hxx` (the frame loop is the one of `Task::exec`, modelled elsewhere).
-/

namespace Verif.CRC
open Exec

/-- The table `known_polynomials`, `include/Module/CRC/Polynomial/CRC_polynomial.hxx:9-61`:
`(key, packed value, size)`. -/
def knownPolynomials : List (String × Nat × Nat) := [
  ("32-GZIP", 0x04C11DB7, 32), ("32-CASTAGNOLI", 0x1EDC6F41, 32), ("32-AIXM", 0x814141AB, 32),
   ("32-KOOPMAN", 0x32583499, 32), ("30-CDMA", 0x2030B9C7, 30), ("24-LTEA", 0x864CFB, 24),
   ("24-RADIX-64", 0x864CFB, 24), ("24-FLEXRAY", 0x5D6DCB, 24), ("24-5GA", 0x864CFB, 24),
   ("24-5GB", 0x800063, 24), ("24-5GC", 0xB2B117, 24), ("21-CAN", 0x102899, 21),
   ("17-CAN", 0x1685B, 17), ("16-IBM", 0x8005, 16), ("16-CCITT", 0x1021, 16),
   ("16-PROFIBUS", 0x1DCF, 16), ("16-OPENSAFETY-B", 0x755B, 16), ("16-OPENSAFETY-A", 0x5935, 16),
   ("16-DNP", 0x3D65, 16), ("16-T10-DIF", 0x8BB7, 16), ("16-DECT", 0x0589, 16),
   ("16-CDMA2000", 0xC867, 16), ("16-ARINC", 0xA02B, 16), ("16-5G", 0x1023, 16),
   ("16-CHAKRAVARTY", 0x2F15, 16), ("15-MPT1327", 0x6815, 15), ("15-CAN", 0x4599, 15),
   ("14-DARC", 0x0805, 14), ("13-BBC", 0x1CF5, 13), ("12-CDMA2000", 0xF13, 12),
   ("12-TELECOM", 0x80F, 12), ("11-FLEXRAY", 0x385, 11), ("11-5G", 0x621, 11),
   ("10-CDMA2000", 0x3D9, 10), ("10-ATM", 0x233, 10), ("8-WCDMA", 0x9B, 8), ("8-SAE-J1850", 0x1D, 8),
   ("8-DARC", 0x39, 8), ("8-DALLAS", 0x31, 8), ("8-CCITT", 0x07, 8), ("8-AUTOSAR", 0x2F, 8),
   ("8-DVB-S2", 0xD5, 8), ("7-MVB", 0x65, 7), ("7-MMC", 0x09, 7), ("6-CDMA2000-A", 0x27, 6),
   ("6-CDMA2000-B", 0x07, 6), ("6-DARC", 0x19, 6), ("6-ITU", 0x03, 6), ("5-ITU", 0x15, 5),
   ("5-EPC", 0x09, 5), ("5-USB", 0x05, 5), ("4-ITU", 0x3, 4), ("1-PAR", 0x1, 1)]

/-- A `CRC_polynomial` object: `K`, `size` and the vector `polynomial` (members of
`include/Module/CRC/Polynomial/CRC_polynomial.hpp:21-25`). -/
structure Crc where
  K : Nat
  size : Nat
  packed : Nat
  poly : List Int
  deriving DecidableEq, Repr

/-- Constructor, `CRC_polynomial.cpp:13-45` and `include/Module/CRC/CRC.hxx:36-48`, with the key already
resolved: `packed` is `get_value(poly_key)` (a 32-bit unsigned) and `size` the resolved size.  A shift by
32 or more is undefined behaviour. -/
def Crc.mk? (K : Int) (packed size : Nat) : Exec Crc :=
  if K ≤ 0 then exc .invalidArgument
  else if packed = 0 then exc .invalidArgument
  else if size = 0 then exc .invalidArgument
  else if size > 32 then ub
  else ok { K := K.toNat, size, packed,
            poly := 1 :: (List.range size).map (fun i => (((packed >>> (size - 1 - i)) &&& 1 : Nat) : Int)) }

/-- `CRC_polynomial::_generate` on the scratch buffer `buff_crc`, `CRC_polynomial.cpp:116-131`. -/
def Crc.generate (c : Crc) (buff uIn : List Int) (offIn loopSize : Nat) : Exec (List Int) := do
  let buff ← copyTo uIn offIn loopSize buff 0
  let buff ← forN c.size (fun i b => wr b (loopSize + i) 0) buff
  forN loopSize (fun i b => do
    let v ← rd b i
    if v ≠ 0 then
      forN (c.size + 1) (fun j b => do
        let p ← rd c.poly j
        if p ≠ 0 then do
          let x ← rd b (i + j)
          wr b (i + j) (if x = 0 then 1 else 0)
        else ok b) b
    else ok b) buff

/-- `CRC_polynomial::_build`, `CRC_polynomial.cpp:108-114` and the final copy of `_generate` (133-134).
Returns the output frame (the scratch buffer is rewritten by every call before being read). -/
def Crc.build (c : Crc) (buff uK1 uK2 : List Int) : Exec (List Int) := do
  let out ← copyTo uK1 0 c.K uK2 0
  let b ← c.generate buff uK1 0 c.K
  copyTo b c.K c.size out c.K

/-- `CRC_polynomial::_extract`, `CRC_polynomial.cpp:137-142`. -/
def Crc.extract (c : Crc) (vK1 vK2 : List Int) : Exec (List Int) := copyTo vK1 0 c.K vK2 0

/-- The `while` loop of `_check`, `CRC_polynomial.cpp:150-158`, from index `i` with `r` positions left. -/
def compareLoop (b v : List Int) (off : Nat) : Nat → Nat → Exec Bool
  | _, 0 => ok true
  | i, r + 1 => do
    let x ← rd b (off + i)
    let y ← rd v (off + i)
    if (x ≠ 0 ∨ y = 0) ∧ (x = 0 ∨ y ≠ 0) then compareLoop b v off (i + 1) r else ok false

/-- `CRC_polynomial::_check`, `CRC_polynomial.cpp:144-159`. -/
def Crc.check (c : Crc) (buff vK : List Int) : Exec Bool := do
  let b ← c.generate buff vK 0 c.K
  compareLoop b vK c.K 0 c.size

/-- `CRC_polynomial::_check_packed` with `sizeof(B) = sz`, `CRC_polynomial.cpp:161-169`: the second argument
of `Bit_packer::unpack` is `n_frames`, so the vector of `K + size` elements is unpacked as `K + size` frames
of one bit. The memory is the byte view of `V_K_unpack`. -/
def Crc.checkPackedUnpack (c : Crc) (sz : Nat) (bytes : List (BitVec 8)) : Exec (List (BitVec 8)) :=
  BitPacker.unpackInPlace sz false 8 ((c.K + c.size) / (c.K + c.size)) (c.K + c.size) bytes

/-! ## Fast version -/

/-- Reversal of the 32 bits of `polynomial_packed`, `CRC_polynomial_fast.cpp:26-31` (loop), then
`>>= 32 - size` (32). -/
def rev32 (p : Nat) : Nat :=
  loopN 32 (fun i r => (r <<< 1) % 2 ^ 32 ||| ((p >>> i) &&& 1)) 0

/-- `polynomial_packed_rev`, `CRC_polynomial_fast.cpp:26-32`; `size > 32` has thrown before. -/
def Crc.rev (c : Crc) : Nat := rev32 c.packed >>> (32 - c.size)

/-- `(crc >> 1) ^ (-int(crc & 1) & polynomial_packed_rev)`, `CRC_polynomial_fast.cpp:39,137,178,218`. -/
def crcStep (rev crc : Nat) : Nat := (crc >>> 1) ^^^ (if crc % 2 = 1 then rev else 0)

/-- Entry `i` of the lookup table, `CRC_polynomial_fast.cpp:35-41`. -/
def lutEntry (rev i : Nat) : Nat := loopN 8 (fun _ crc => crcStep rev crc) i

/-- `CRC_polynomial_fast::compute_crc_v1`, `CRC_polynomial_fast.cpp:120-154`. -/
def Crc.crcV1 (c : Crc) (data : List (BitVec 8)) (nBits : Nat) : Exec Nat := do
  let crc ← forN (nBits / 8) (fun i crc => do
    let b ← rd data i
    ok (loopN 8 (fun _ crc => crcStep c.rev crc) (crc ^^^ b.toNat))) 0
  let rest := nBits % 8
  if rest ≠ 0 then do
    let cur ← rd data (nBits / 8)
    let cur := (cur <<< (8 - rest)) >>> (8 - rest)
    ok (loopN rest (fun _ crc => crcStep c.rev crc) (crc ^^^ cur.toNat))
  else ok crc

/-- `CRC_polynomial_fast::compute_crc_v3`, `CRC_polynomial_fast.cpp:194-222`. -/
def Crc.crcV3 (c : Crc) (data : List (BitVec 8)) (nBits : Nat) : Exec Nat := do
  let lut := (List.range 256).map (lutEntry c.rev)
  let crc ← forN (nBits / 8) (fun i crc => do
    let b ← rd data i
    let l ← rd lut ((crc &&& 0xFF) ^^^ b.toNat)
    ok ((crc >>> 8) ^^^ l)) 0
  let rest := nBits % 8
  if rest ≠ 0 then do
    let cur ← rd data (nBits / 8)
    let cur := (cur <<< (8 - rest)) >>> (8 - rest)
    ok (loopN rest (fun _ crc => crcStep c.rev crc) (crc ^^^ cur.toNat))
  else ok crc

/-- `CRC_polynomial_fast::_build`, `CRC_polynomial_fast.cpp:53-69`; `data` is the byte view of the scratch
buffer. -/
def Crc.fastBuild (c : Crc) (data : List (BitVec 8)) (uK1 uK2 : List Int) : Exec (List Int) := do
  let data ← BitPacker.pack 8 false 8 c.K 1 uK1 data
  let crc ← c.crcV3 data c.K
  let out ← copyTo uK1 0 c.K uK2 0
  forN c.size (fun i o => wr o (c.K + i) (((crc >>> i) &&& 1 : Nat) : Int)) out

/-- The reference CRC read from the packed frame, `CRC_polynomial_fast.cpp:97-112`: bits `j0..7` of byte
`cur` while bits remain; `n` is `n_bits_crc`. -/
def refBits (size : Nat) (cur : BitVec 8) : Nat → Nat → Nat × Nat → Nat × Nat
  | _, 0, s => s
  | j, fuel + 1, (ref, n) =>
    if j < 8 ∧ n > 0 then
      refBits size cur (j + 1) fuel (ref ||| (((cur.toNat >>> j) &&& 1) <<< (size - n)), n - 1)
    else (ref, n)

/-- The `while (n_bits_crc)` loop, `CRC_polynomial_fast.cpp:107-112`. -/
def refLoop (size : Nat) (data : List (BitVec 8)) : Nat → Nat → Nat × Nat → Exec (Nat × Nat)
  | _, 0, s => ok s
  | pos, fuel + 1, s =>
    if s.2 ≠ 0 then do
      let cur ← rd data pos
      refLoop size data (pos + 1) fuel (refBits size cur 0 8 s)
    else ok s

/-- `CRC_polynomial_fast::_check_packed`, `CRC_polynomial_fast.cpp:79-117`. The `while` loop consumes at
least one bit per turn, hence the fuel `size`. -/
def Crc.fastCheckPacked (c : Crc) (data : List (BitVec 8)) : Exec Bool := do
  let rest := c.K % 8
  let crc ← c.crcV3 data c.K
  let s ← (if rest ≠ 0 then do
      let cur ← rd data (c.K / 8)
      let s := refBits c.size cur rest 8 (0, c.size)
      refLoop c.size data (c.K / 8 + 1) c.size s
    else refLoop c.size data (c.K / 8) c.size (0, c.size))
  ok (crc ^^^ s.1 == 0)

/-- `CRC_polynomial_fast::_check`, `CRC_polynomial_fast.cpp:71-77`. -/
def Crc.fastCheck (c : Crc) (data : List (BitVec 8)) (vK : List Int) : Exec Bool := do
  let data ← BitPacker.pack 8 false 8 (c.K + c.size) 1 vK data
  c.fastCheckPacked data

end Verif.CRC
