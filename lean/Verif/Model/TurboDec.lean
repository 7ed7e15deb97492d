import Verif.Model.BCJR
import Verif.Model.Interleaver

/-! # Turbo decoder

Models `src/Module/Decoder/Turbo/Decoder_turbo.cpp`, `Decoder_turbo_std.cpp` and the post-processings of
`src/Tools/Code/Turbo/Post_processing_SISO/`, for one frame per wave, with the BCJR decoders of `Verif.Model.BCJR` as component decoders.
The `mipp::nElReg` additional elements of the vectors are not represented. -/

namespace Verif.Turbo
open Exec Verif.RSC Verif.Interleaver Verif.BCJR Verif.Float

/-- A post-processing (`Post_processing_SISO`). -/
inductive PP (R : Type) where
  /-- `Scaling_factor_*`: the function applied to each extrinsic value, from the component (`false`: natural, `true`: interleaved) and
  the iteration. -/
  | scale (f : Bool → Nat → R → R)
  /-- `CRC_checker`: first iteration checked, and `crc->check` (`src/Module/CRC`). -/
  | crc (start : Nat) (chk : List Int → Bool)
  /-- `Self_corrected`: `m`, `M`, `tools::sgn`, `ext_nat`, `ext_int`, `previously_corrected_nat`, `previously_corrected_int`. -/
  | selfc (m M : Nat) (sgn : R → Int) (extN extI : List (List R)) (prevN prevI : List Int)
  /-- `Flip_and_check`: as `CRC_checker`, then `q`, `fnc_ite`, and the indices sorted by `partial_sort_indexes` from the systematic and
  extrinsic values (the order of equal metrics is not specified). -/
  | fnc (start : Nat) (chk : List Int → Bool) (q : Nat) (its : List Nat) (order : List R → List R → List Nat)

variable {R D : Type} (A : Arith R D) (zero : R)

/-- `Scaling_factor_seq` and `Scaling_factor_vec` on `short`: `Scaling_factor_seq.cpp:27-68`, `div2` and `div4` being shifts
(`include/Tools/Math/utils.hxx:17-25`). -/
def seq16 (nIte : Nat) : PP Int := .scale fun i ite x => if i && !(ite + 1 < nIte) then x else wrap 16 (x / 2 + x / 4)

/-- `Scaling_factor_seq` in floating point. -/
def seqF (F : Fmt) (nIte : Nat) : PP Fl :=
  .scale fun i ite x => if i && !(ite + 1 < nIte) then x else F.add (F.mul x (F.of (1 / 2))) (F.mul x (F.of (1 / 4)))

/-- `Scaling_factor_constant` on `short`, `Scaling_factor_constant.cpp:8-54`: the factor `num / den` is converted to `short`. -/
def const16 (nIte : Nat) (num den : Int) : PP Int :=
  .scale fun i ite x => if i && !(ite + 1 < nIte) then x else wrap 16 (x * num.tdiv den)

/-- `Scaling_factor_adaptive` on `short`, `Scaling_factor_adaptive.cpp:15-66`: `0.85` is converted to `short`. -/
def adaptive16 : PP Int := .scale fun _ ite x => if ite = 1 ∨ ite = 2 then x / 2 else wrap 16 (x * (85 : Int).tdiv 100)

/-- The hard decisions of `CRC_checker::siso_n`, `CRC_checker.cpp:41-57`. -/
def decide' (sys ext : List R) (s : List Int) : Exec (List Int) :=
  forN s.length (fun i s => do
    let a ← rd sys i
    let b ← rd ext i
    wr s i (if A.neg (A.hadd b a) then 1 else 0)) s

/-- `correct` with the oscillations of `calc_osc`, `Self_corrected.cpp:81-111`: `cur` and `old` are the extrinsic values collected at this
iteration and the one before. -/
def correct (sgn : R → Int) (cur old ext : List R) (prev : List Int) : Exec (List R × List Int) :=
  forN ext.length (fun i (st : List R × List Int) => do
    let c ← rd cur i
    let o ← rd old i
    let p ← rd st.2 i
    if sgn c ≠ sgn o ∧ p = 0 then do
      let e ← wr st.1 i zero
      let q ← wr st.2 i 1
      ok (e, q)
    else do
      let q ← wr st.2 i 0
      ok (st.1, q)) (ext, prev)

/-- `siso_n` and `siso_i` of `Self_corrected`, `Self_corrected.cpp:33-72`, on one domain. -/
def selfStep (m M : Nat) (sgn : R → Int) (ite : Nat) (hist : List (List R)) (ext : List R) (prev : List Int) :
    Exec (List (List R) × List R × List Int) :=
  if ite ≤ M then do
    let hist ← wr hist (ite - 1) ext
    if ite > 1 ∧ ite ≥ m then do
      let cur ← rd hist (ite - 1)
      let old ← rd hist (ite - 2)
      let r ← correct zero sgn cur old ext prev
      ok (hist, r.1, r.2)
    else ok (hist, ext, prev)
  else ok (hist, ext, prev)

/-- The flips of pattern `pattern`, `Flip_and_check.cpp:97-99`; bit `depth` of `pattern + 1` is `tab_flips[pattern][depth]`
(`Flip_and_check.cpp:22-32`). -/
def flips (q pattern : Nat) (pos : List Nat) (s : List Int) : Exec (List Int) :=
  forN q (fun d s => do
    let p ← rd pos d
    let b ← rd s p
    wr s p (xorI b (if (pattern + 1).testBit d then 1 else 0))) s

/-- `apply_flip_and_check`, `Flip_and_check.cpp:62-112`, as a loop over the patterns that does nothing once the check passed.
`partial_sort` over 20 elements needs 20 elements. -/
def flipCheck (chk : List Int → Bool) (q : Nat) (pos : List Nat) (s : List Int) : Exec (List Int × Bool) :=
  if s.length < 20 then ub
  else do
    let r ← forN (max 1 (2 ^ q - 1)) (fun pattern (st : Option (List Int)) =>
      match st with
      | some t => ok (some t)
      | none => do
        let t ← flips q pattern pos s
        ok (if chk t then some t else none)) none
    match r with
    | some t => ok (t, true)
    | none => ok (s, false)

/-- `CRC_checker::siso_n`, `CRC_checker.cpp:32-61`. -/
def crcStep (start : Nat) (chk : List Int → Bool) (ite : Nat) (sys ext : List R) (s : List Int) : Exec (List Int × Bool) :=
  if start ≤ ite then do
    let s ← decide' A sys ext s
    ok (s, chk s)
  else ok (s, false)

/-- `siso_n` of a post-processing: the post-processing, the extrinsic values and the decisions after the call, and whether to stop. -/
def PP.sisoN (ite : Nat) (sys ext : List R) (s : List Int) : PP R → Exec (PP R × List R × List Int × Bool)
  | .scale f => ok (.scale f, ext.map (f false ite), s, false)
  | .crc start chk => do
    let c ← crcStep A start chk ite sys ext s
    ok (.crc start chk, ext, c.1, c.2)
  | .selfc m M sgn extN extI prevN prevI => do
    let r ← selfStep zero m M sgn ite extN ext prevN
    ok (.selfc m M sgn r.1 extI r.2.2 prevI, r.2.1, s, false)
  | .fnc start chk q its order => do
    let c ← crcStep A start chk ite sys ext s
    if !c.2 && its.contains ite then do
      let r ← flipCheck chk q (order sys ext) c.1
      ok (.fnc start chk q its order, ext, r.1, r.2)
    else ok (.fnc start chk q its order, ext, c.1, c.2)

/-- `siso_i` of a post-processing; those of `CRC_checker` and `Flip_and_check` are the default one
(`Post_processing_SISO.hxx:42-49`). -/
def PP.sisoI (ite : Nat) (ext : List R) : PP R → Exec (PP R × List R × Bool)
  | .scale f => ok (.scale f, ext.map (f true ite), false)
  | .crc start chk => ok (.crc start chk, ext, false)
  | .selfc m M sgn extN extI prevN prevI => do
    let r ← selfStep zero m M sgn ite extI ext prevI
    ok (.selfc m M sgn extN r.1 prevN r.2.2, r.2.1, false)
  | .fnc start chk q its order => ok (.fnc start chk q its order, ext, false)

/-- The loop over the post-processings, `Decoder_turbo_std.cpp:63-67`. -/
def ppsN (ite : Nat) (sys : List R) : List (PP R) → List R → List Int → Exec (List (PP R) × List R × List Int × Bool)
  | [], ext, s => ok ([], ext, s, false)
  | p :: ps, ext, s => do
    let r ← p.sisoN A zero ite sys ext s
    if r.2.2.2 then ok (r.1 :: ps, r.2.1, r.2.2.1, true)
    else do
      let q ← ppsN ite sys ps r.2.1 r.2.2.1
      ok (r.1 :: q.1, q.2)

/-- The loop over the post-processings, `Decoder_turbo_std.cpp:87-91`. -/
def ppsI (ite : Nat) : List (PP R) → List R → Exec (List (PP R) × List R × Bool)
  | [], ext => ok ([], ext, false)
  | p :: ps, ext => do
    let r ← p.sisoI zero ite ext
    if r.2.2 then ok (r.1 :: ps, r.2.1, true)
    else do
      let q ← ppsI ite ps r.2.1
      ok (r.1 :: q.1, q.2)

/-- Members of `Decoder_turbo`, `include/Module/Decoder/Turbo/Decoder_turbo.hpp`. -/
structure TDec (R : Type) where
  K : Nat
  N : Nat
  nIte : Nat
  buffered : Bool
  core : Core
  nf : Nat
  n : Dec R
  i : Dec R
  sn : List R
  si : List R
  sen : List R
  sei : List R
  pn : List R
  pi : List R
  e1n : List R
  e2n : List R
  e1i : List R
  e2i : List R
  s : List Int
  pps : List (PP R)

/-- `tail_length`, `Decoder_RSC_BCJR.hxx:65-70`. -/
def dtail (d : Dec R) : Nat := 2 * d.nff

/-- `get_N` of a component decoder, `Decoder_RSC_BCJR.hxx:22`. -/
def dN (d : Dec R) : Nat := 2 * (d.K + d.nff)

/-- Constructor, `Decoder_turbo.cpp:11-117`, then `add_post_processing` for `pps`; the comparisons of the numbers of frames are not
modelled.  `fill` is the value given by `mipp::vector` to its new elements. -/
def TDec.mk? (fill : R) (K N nIte : Int) (n i : Dec R) (core : Core) (nf : Nat) (buffered : Bool) (pps : List (PP R)) : Exec (TDec R) :=
  if K ≤ 0 then exc .invalidArgument
  else if N ≤ 0 then exc .invalidArgument
  else if K > N then exc .invalidArgument
  else if (n.K : Int) ≠ K then exc .invalidArgument
  else if (i.K : Int) ≠ K then exc .invalidArgument
  else if N - ((dtail n : Int) + dtail i) ≠ K * 3 then exc .invalidArgument
  else if nIte ≤ 0 then exc .invalidArgument
  else if (core.size : Int) ≠ K then exc .lengthError
  else
    let k := K.toNat
    let p := (N.toNat - (dtail n + dtail i) - k) / 2
    ok { K := k, N := N.toNat, nIte := nIte.toNat, buffered, core, nf, n, i
         sn := List.replicate (k + dtail n / 2) fill, si := List.replicate (k + dtail i / 2) fill
         sen := List.replicate (k + dtail n / 2) fill, sei := List.replicate (k + dtail i / 2) fill
         pn := List.replicate (p + dtail n / 2) fill, pi := List.replicate (p + dtail i / 2) fill
         e1n := List.replicate k fill, e2n := List.replicate k fill, e1i := List.replicate k fill, e2i := List.replicate k fill
         s := List.replicate k 0, pps }

/-- `buffered_load`, `Decoder_turbo.cpp:158-197`, one frame. -/
def TDec.bufferedLoad (d : TDec R) (f : Nat) (y : List R) : Exec (TDec R) := do
  let sn ← copyTo y 0 (d.n.K + dtail d.n / 2) d.sn 0
  let pn ← copyTo y (d.n.K + dtail d.n / 2) (dN d.n - (d.n.K + dtail d.n / 2)) d.pn 0
  let si ← copyTo y (dN d.n) (dtail d.i / 2) d.si d.K
  let pi ← copyTo y (dN d.n + dtail d.i / 2) (d.N - (dN d.n + dtail d.i / 2)) d.pi 0
  let si ← interleave d.core 1 d.nf f sn si
  ok { d with sn, pn, si, pi, e1n := List.replicate d.e1n.length zero }

/-- The loops over the tails of `standard_load`, `Decoder_turbo.cpp:218-229`: `2 n` values of `y` from `o`. -/
def loadTail (K n o : Nat) (y s p : List R) : Exec (List R × List R) :=
  forN n (fun i (st : List R × List R) => do
    let a ← rd y (o + 2 * i)
    let s ← wr st.1 (K + i) a
    let b ← rd y (o + 2 * i + 1)
    let p ← wr st.2 (K + i) b
    ok (s, p)) (s, p)

/-- `standard_load`, `Decoder_turbo.cpp:199-272`, one frame. -/
def TDec.standardLoad (d : TDec R) (f : Nat) (y : List R) : Exec (TDec R) := do
  let r ← forN d.K (fun i (st : List R × List R × List R) => do
    let a ← rd y (i * 3 + 0)
    let sn ← wr st.1 i a
    let b ← rd y (i * 3 + 1)
    let pn ← wr st.2.1 i b
    let c ← rd y (i * 3 + 2)
    let pi ← wr st.2.2 i c
    ok (sn, pn, pi)) (d.sn, d.pn, d.pi)
  let si ← interleave d.core 1 d.nf f r.1 d.si
  let tn ← loadTail d.K (dtail d.n / 2) (d.K * 3) y r.1 r.2.1
  let ti ← loadTail d.K (dtail d.i / 2) (d.K * 3 + dtail d.n) y si r.2.2
  ok { d with sn := tn.1, pn := tn.2, si := ti.1, pi := ti.2, e1n := List.replicate d.e1n.length zero }

/-- `_load`, `Decoder_turbo.cpp:148-156`. -/
def TDec.load (d : TDec R) (f : Nat) (y : List R) : Exec (TDec R) :=
  if d.buffered then d.bufferedLoad zero f y else d.standardLoad zero f y

/-- Systematic plus extrinsic, then the tail, `Decoder_turbo_std.cpp:52-57` and `76-81`. -/
def addSys (K t : Nat) (s e o : List R) : Exec (List R) := do
  let o ← forN K (fun i o => do
    let a ← rd s i
    let b ← rd e i
    wr o i (A.add a b)) o
  forN t (fun i o => do
    let a ← rd s (K + i)
    wr o (K + i) a) o

/-- `l_e2i[i] += l_sei[i]` in the last iteration, `Decoder_turbo_std.cpp:93-96`. -/
def addPost (last : Bool) (K : Nat) (l e : List R) : Exec (List R) :=
  if last then
    forN K (fun i e => do
      let a ← rd e i
      let b ← rd l i
      wr e i (A.add a b)) e
  else ok e

/-- `hard_decide` in the last iteration, `Decoder_turbo_std.cpp:104-106`, `src/Tools/Perf/common/hard_decide.cpp:7-37`: sign bits. -/
def hardDecide (last : Bool) (K : Nat) (l : List R) (s : List Int) : Exec (List Int) :=
  if last then
    forN K (fun i s => do
      let a ← rd l i
      wr s i (if A.neg a then 1 else 0)) s
  else ok s

/-- The second half of an iteration, `Decoder_turbo_std.cpp:71-107`; returns `stop`. -/
def TDec.second (d : TDec R) (f ite : Nat) : Exec (TDec R × Bool) := do
  let e1i ← interleave d.core 1 d.nf f d.e2n d.e1i
  let sei ← addSys A d.K (dtail d.i / 2) d.si e1i d.sei
  let r ← d.i.sisoAlt A sei d.pi d.e2i
  let q ← ppsI zero ite d.pps r.2
  let e2i ← addPost A (ite == d.nIte || q.2.2) d.K sei q.2.1
  let e1n ← deinterleave d.core 1 d.nf f e2i d.e1n
  let s ← hardDecide A (ite == d.nIte || q.2.2) d.K e1n d.s
  ok ({ d with i := r.1, sei, e1i, e2i, e1n, s, pps := q.1 }, q.2.2)

/-- One iteration, `Decoder_turbo_std.cpp:51-109`. -/
def TDec.iteration (d : TDec R) (f ite : Nat) : Exec (TDec R × Bool) := do
  let sen ← addSys A d.K (dtail d.n / 2) d.sn d.e1n d.sen
  let r ← d.n.sisoAlt A sen d.pn d.e2n
  let q ← ppsN A zero ite sen d.pps r.2 d.s
  if q.2.2.2 then ok ({ d with n := r.1, sen, e2n := q.2.1, s := q.2.2.1, pps := q.1 }, true)
  else ({ d with n := r.1, sen, e2n := q.2.1, s := q.2.2.1, pps := q.1 } : TDec R).second A zero f ite

/-- `_decode_siho`, `Decoder_turbo_std.cpp:33-125`, with `_store` (`Decoder_turbo.cpp:274-290`); the loop is a loop over all the
iterations that does nothing once `stop` holds. -/
def TDec.decode (d : TDec R) (f : Nat) (y : List R) : Exec (TDec R × List Int) := do
  let d ← d.load zero f y
  let r ← forN d.nIte (fun k (st : TDec R × Bool) => if st.2 then ok st else st.1.iteration A zero f (k + 1)) (d, false)
  ok (r.1, r.1.s.take r.1.K)

end Verif.Turbo
