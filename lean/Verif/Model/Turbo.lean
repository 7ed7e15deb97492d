import Verif.Model.RSC
import Verif.Model.Interleaver

/-! # Turbo encoders

Models `src/Module/Encoder/Turbo/Encoder_turbo.cpp` and `Encoder_turbo_legacy.cpp`.  The buffers hold the slice of one frame; the
index of the frame is kept for the interleaver. -/

namespace Verif.Turbo
open Exec Verif.RSC Verif.Interleaver

/-- Members of `Encoder_turbo`, `include/Module/Encoder/Turbo/Encoder_turbo.hpp`; `nf` is the number of frames of the interleaver. -/
structure TEnc where
  K : Nat
  N : Nat
  n : Enc
  i : Enc
  core : Core
  nf : Nat
  uKi : List Int
  xTmp : List Int

/-- `tail_length`, `Encoder_RSC_sys.hpp`. -/
def tail (e : Enc) : Nat := 2 * e.mch.nff

/-- Constructor, `Encoder_turbo.cpp:13-61`, after the base constructor (`include/Module/Encoder/Encoder.hxx:30-91`); the comparisons of
the numbers of frames are not modelled. -/
def TEnc.mk? (K N : Int) (n i : Enc) (core : Core) (nf : Nat) : Exec TEnc :=
  if K ≤ 0 then exc .invalidArgument
  else if N ≤ 0 then exc .invalidArgument
  else if K > N then exc .invalidArgument
  else if N - ((tail n : Int) + tail i) ≠ 3 * K then exc .invalidArgument
  else if (core.size : Int) ≠ K then exc .lengthError
  else ok { K := K.toNat, N := N.toNat, n, i, core, nf, uKi := List.replicate K.toNat 0
            xTmp := List.replicate (if n.N ≥ i.N then n.N else i.N) 0 }

/-- `enco->encode(u, tmp.data(), ...)`: the encoder writes the first `N` elements of `tmp`. -/
def encAt (e : Enc) (u tmp : List Int) : Exec (List Int) :=
  if e.N ≤ tmp.length then do
    let w ← e.encode u (tmp.take e.N)
    ok (w ++ tmp.drop e.N)
  else ub

/-- `_encode`, `Encoder_turbo.cpp:89-107`. -/
def TEnc.encode (e : TEnc) (f : Nat) (u x : List Int) : Exec (TEnc × List Int) := do
  let uKi ← interleave e.core 1 e.nf f u e.uKi
  let tmp ← encAt e.n u e.xTmp
  let x ← copyTo tmp 0 e.n.N x 0
  let tmp ← encAt e.i uKi tmp
  let x ← copyTo tmp e.i.K (e.i.N - e.i.K) x e.n.N
  ok ({ e with uKi, xTmp := tmp }, x)

/-- The end of `is_codeword`, `Encoder_turbo.cpp:116-130`. -/
def TEnc.isCodeword2 (e : TEnc) (x : List Int) : Exec (TEnc × Bool) := do
  let uKi ← interleave e.core 1 e.nf 0 x e.uKi
  let tmp ← copyTo uKi 0 e.i.K e.xTmp 0
  let tmp ← copyTo x e.n.N (e.N - e.n.N) tmp e.i.K
  let b ← e.i.isCodeword (tmp.take e.i.N)
  ok ({ e with uKi, xTmp := tmp }, b)

/-- `is_codeword`, `Encoder_turbo.cpp:109-131`. -/
def TEnc.isCodeword (e : TEnc) (x : List Int) : Exec (TEnc × Bool) := do
  let b ← e.n.isCodeword (x.take e.n.N)
  if b then e.isCodeword2 x else ok (e, false)

/-- Members of `Encoder_turbo_legacy`, `include/Module/Encoder/Turbo/Encoder_turbo_legacy.hpp`; `uKn` is the part of `X_N_tmp` used
by `is_codeword`. -/
structure LEnc where
  K : Nat
  N : Nat
  sub : Enc
  core : Core
  nf : Nat
  uKi : List Int
  uKn : List Int
  xn : List Int
  xi : List Int

/-- Constructor, `Encoder_turbo_legacy.cpp:11-51`. -/
def LEnc.mk? (K N : Int) (sub : Enc) (core : Core) (nf : Nat) : Exec LEnc := do
  let t ← TEnc.mk? K N sub sub core nf
  if N - 2 * (tail sub : Int) ≠ 3 * K then exc .invalidArgument
  else if (core.size : Int) ≠ K then exc .lengthError
  else ok { K := t.K, N := t.N, sub, core, nf, uKi := t.uKi, uKn := t.xTmp
            xn := List.replicate (2 * (K.toNat + tail sub / 2)) 0, xi := List.replicate (2 * (K.toNat + tail sub / 2)) 0 }

/-- The three loops at the end of `_encode`, `Encoder_turbo_legacy.cpp:79-102`. -/
def LEnc.emit (e : LEnc) (xn xi x : List Int) : Exec (List Int) := do
  let x ← forN e.K (fun i x => do
    let a ← rd xn (2 * i)
    let x ← wr x (3 * i) a
    let b ← rd xn (2 * i + 1)
    let x ← wr x (3 * i + 1) b
    let c ← rd xi (2 * i + 1)
    wr x (3 * i + 2) c) x
  let x ← forN (tail e.sub / 2) (fun i x => do
    let a ← rd xn (2 * e.K + 2 * i)
    let x ← wr x (3 * e.K + 2 * i) a
    let b ← rd xn (2 * e.K + 2 * i + 1)
    wr x (3 * e.K + 2 * i + 1) b) x
  forN (tail e.sub / 2) (fun i x => do
    let a ← rd xi (2 * e.K + 2 * i)
    let x ← wr x (3 * e.K + tail e.sub + 2 * i) a
    let b ← rd xi (2 * e.K + 2 * i + 1)
    wr x (3 * e.K + tail e.sub + 2 * i + 1) b) x

/-- `_encode`, `Encoder_turbo_legacy.cpp:70-103`. -/
def LEnc.encode (e : LEnc) (f : Nat) (u x : List Int) : Exec (LEnc × List Int) := do
  let uKi ← interleave e.core 1 e.nf f u e.uKi
  let xn ← encAt e.sub u e.xn
  let xi ← encAt e.sub uKi e.xi
  let x ← e.emit xn xi x
  ok ({ e with uKi, xn, xi }, x)

/-- The three loops at the beginning of `is_codeword`, `Encoder_turbo_legacy.cpp:111-133`: `uKn`, `xn`, `xi`. -/
def LEnc.split (e : LEnc) (x : List Int) : Exec (List Int × List Int × List Int) := do
  let s ← forN e.K (fun i (s : List Int × List Int × List Int) => do
    let a ← rd x (3 * i)
    let xn ← wr s.2.1 (2 * i) a
    let un ← wr s.1 i a
    let b ← rd x (3 * i + 1)
    let xn ← wr xn (2 * i + 1) b
    let c ← rd x (3 * i + 2)
    let xi ← wr s.2.2 (2 * i + 1) c
    ok (un, xn, xi)) (e.uKn, e.xn, e.xi)
  let xn ← forN (tail e.sub / 2) (fun i xn => do
    let a ← rd x (3 * e.K + 2 * i)
    let xn ← wr xn (2 * e.K + 2 * i) a
    let b ← rd x (3 * e.K + 2 * i + 1)
    wr xn (2 * e.K + 2 * i + 1) b) s.2.1
  let xi ← forN (tail e.sub / 2) (fun i xi => do
    let a ← rd x (3 * e.K + tail e.sub + 2 * i)
    let xi ← wr xi (2 * e.K + 2 * i) a
    let b ← rd x (3 * e.K + tail e.sub + 2 * i + 1)
    wr xi (2 * e.K + 2 * i + 1) b) s.2.2
  ok (s.1, xn, xi)

/-- The end of `is_codeword`, `Encoder_turbo_legacy.cpp:138-146`. -/
def LEnc.isCodeword2 (e : LEnc) : Exec (LEnc × Bool) := do
  let uKi ← interleave e.core 1 e.nf 0 e.uKn e.uKi
  let xi ← forN e.K (fun i xi => do
    let a ← rd uKi i
    wr xi (2 * i) a) e.xi
  let b ← e.sub.isCodeword (xi.take e.sub.N)
  ok ({ e with uKi, xi }, b)

/-- `is_codeword`, `Encoder_turbo_legacy.cpp:105-147`. -/
def LEnc.isCodeword (e : LEnc) (x : List Int) : Exec (LEnc × Bool) := do
  let s ← e.split x
  let e := { e with uKn := s.1, xn := s.2.1, xi := s.2.2 }
  let b ← e.sub.isCodeword (e.xn.take e.sub.N)
  if b then e.isCodeword2 else ok (e, false)

end Verif.Turbo
