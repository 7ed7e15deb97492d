import Verif.Model.Modem

/-!
# The modems with two points, and the binary channels

Model of `src/Module/Modem/BPSK/Modem_BPSK.cpp`, `Modem_BPSK_fast.cpp`, `src/Module/Modem/OOK/Modem_OOK.cpp`, `Modem_OOK_AWGN.cpp`, `Modem_OOK_BEC.cpp`,
`Modem_OOK_BSC.cpp`, `src/Module/Channel/Binary_erasure/Channel_binary_erasure.cpp` and `src/Module/Channel/Binary_symmetric/Channel_binary_symmetric.cpp` on one
frame.  `F` is the type `R`, `same` says whether `Q` is the same floating point type; the fixed point types of `Q` are modelled only where nothing is computed (copies and exceptions).
The bits are integers which are small enough for `1 - (x + x)` not to overflow.  The draws of the channels are parameters: the generators are in `Model/Prng.lean`.
-/

namespace Verif.Bin
open Verif.Float Verif.Cstl Verif.Modem Exec

/-- The modems: `noSig2` is `disable_sig2`; the fast BPSK has `lanes` elements per register, and `typed` says whether its modulation is specialized for its types
(`Modem_BPSK_fast.cpp:47-146`). -/
inductive Kind where
  | bpsk (noSig2 : Bool)
  | fast (noSig2 typed : Bool) (lanes : Nat)
  | awgn (noSig2 : Bool)
  | bec
  | bsc
  deriving DecidableEq

/-- The constant members of a modem. -/
structure Cfg where
  F : Fmt
  same : Bool
  N : Nat
  kind : Kind

/-- The state: `last_channel_param` and the factor that depends on the channel (`two_on_square_sigma`, `sigma_factor` or `log_pe_1_pe`). -/
structure St where
  last : Fl
  fac : Fl
  deriving DecidableEq

/-- Constructor (`include/Module/Modem/Modem.hxx:139-169`). -/
def make (F : Fmt) (same : Bool) (N : Int) (kind : Kind) : Exec Cfg :=
  if N ≤ 0 then exc .invalidArgument else ok ⟨F, same, N.toNat, kind⟩

/-- The state of a new modem (`Modem.hxx:148`, `Modem_BPSK.cpp:17`, `Modem_BPSK_fast.cpp:18`, `Modem_OOK_AWGN.cpp:16`, `Modem_OOK_BSC.cpp:13`). -/
def init : Kind → St
  | .bsc => ⟨fltMax, .fin 0⟩
  | _ => ⟨fltMax, .fin 1⟩

/-- The mapping of a bit by the BPSK (`Modem_BPSK.cpp:41`, `Modem_BPSK_fast.cpp:64`, `98`, `143`): integer arithmetic, then a conversion. -/
def bpskMap (F : Fmt) (x : Int) : Fl := F.of ((1 - (x + x) : Int) : ℚ)

/-- The mapping of a bit in a register of the fast BPSK (`Modem_BPSK_fast.cpp:57-59`, `83-91`, `117-134`): a conversion, then floating point arithmetic. -/
def fastMap (F : Fmt) (x : Int) : Fl := sub F (.fin 1) (F.add (F.of (x : ℚ)) (F.of (x : ℚ)))

/-- The mapping of a bit by an OOK (`Modem_OOK.cpp:33`, `57`, `62`). -/
def ookMap (x : Int) : Fl := if x ≠ 0 then .fin 1 else .fin 0

/-- A loop on the elements of an array. -/
def each {α : Type} (n : Nat) (f : α → Fl) (x : List α) (out : List Fl) : Exec (List Fl) :=
  forN n (fun i o => rd x i >>= fun a => wr o i (f a)) out

/-- A loop on the elements of two arrays. -/
def each2 {α β : Type} (n : Nat) (f : α → β → Fl) (x : List α) (y : List β) (out : List Fl) : Exec (List Fl) :=
  forN n (fun i o => rd x i >>= fun a => rd y i >>= fun b => wr o i (f a b)) out

/-- A loop on registers of `L` elements, then a loop on the remaining elements. -/
def vec {α : Type} (L n : Nat) (f g : α → Fl) (x : List α) (out : List Fl) : Exec (List Fl) :=
  (forN (n / L) (fun k => forN L (fun l o => rd x (k * L + l) >>= fun a => wr o (k * L + l) (f a))) out) >>=
    forN (n - n / L * L) (fun i o => rd x (n / L * L + i) >>= fun a => wr o (n / L * L + i) (g a))

/-- `_modulate` (`Modem_BPSK.cpp:35-42`, `Modem_BPSK_fast.cpp:36-146`, `Modem_OOK.cpp:28-65`; the registers of the OOK for `int` and `float` do the same as the loop). -/
def modulate (g : Cfg) (x : List Int) (out : List Fl) : Exec (List Fl) :=
  match g.kind with
  | .bpsk _ => each g.N (bpskMap g.F) x out
  | .fast _ typed L => if typed then vec L g.N (fastMap g.F) (bpskMap g.F) x out else exc .runtimeError
  | _ => each g.N ookMap x out

/-- `_filter` (`Modem_BPSK.cpp:44-49`, `Modem_BPSK_fast.cpp:148-153`, `Modem_OOK.cpp:67-72`): a copy. -/
def filter (g : Cfg) (y out : List Fl) : Exec (List Fl) := copyTo y 0 g.N out 0

/-- The mathematical functions of the library. -/
structure Lib where
  log : Fl → Fl

/-- The factor for a channel parameter (`Modem_BPSK.cpp:66`, `94`, `Modem_BPSK_fast.cpp:170`, `Modem_OOK_AWGN.cpp:47`, `70`, `Modem_OOK_BSC.cpp:34-37`).  The parameter is a `float`: the
square of the BPSK is computed in `float`, the product of the OOK in `R`. -/
def factor (L : Lib) (g : Cfg) (cp : Fl) : Fl :=
  match g.kind with
  | .bpsk _ => g.F.div (.fin 2) (b32.mul cp cp)
  | .fast _ _ _ => g.F.div (.fin 2) (b32.mul cp cp)
  | .awgn _ => g.F.mul (g.F.mul (.fin 2) cp) cp
  | .bec => .fin 1
  | .bsc =>
    let p := if cp = .fin 0 then cvt b32 (g.F.of (1 / 10 ^ 10)) else cp
    cvt g.F (L.log (b32.div p (sub b32 (.fin 1) p)))

/-- Whether the factor is computed at all. -/
def uses : Kind → Bool
  | .bpsk n => !n
  | .fast n _ _ => !n
  | .awgn n => !n
  | .bec => false
  | .bsc => true

/-- The update of the factor (`Modem_BPSK.cpp:65`, `93`, `Modem_BPSK_fast.cpp:169`, `Modem_OOK_AWGN.cpp:46`, `69`, `Modem_OOK_BSC.cpp:32`). -/
def refresh (L : Lib) (g : Cfg) (st : St) (cp : Fl) : St :=
  if (cp ≠ st.last ∨ cp = .nan) ∧ uses g.kind then { st with fac := factor L g cp } else st

/-- An element of the OOK on a Gaussian channel (`Modem_OOK_AWGN.cpp:50`). -/
def awgnAt (F : Fmt) (fac y : Fl) : Fl := F.mul (sub F (F.mul (.fin 2) y) (.fin 1)).neg fac

/-- `unknown_llr_val` (`include/Tools/Noise/noise_utils.hxx:53-57`). -/
def unknownLlr (F : Fmt) : Fl := F.of (1 / 10 ^ 5)

/-- `_demodulate` of the erasure channel (`Modem_OOK_BEC.cpp:31-45`): the unknown symbol is the infinity, its LLRs have alternate signs. -/
def becDemod (F : Fmt) (n : Nat) (y out : List Fl) : Exec (List Fl) := do
  let r ← forN n (fun i (s : Fl × List Fl) => do
    let a ← rd y i
    if a = .inf false then do
      let o ← wr s.2 i s.1
      ok (F.mul s.1 (.fin (-1)), o)
    else do
      let o ← wr s.2 i (sub F (.fin 1) (F.mul (.fin 2) a))
      ok (s.1, o)) (unknownLlr F, out)
  ok r.2

/-- `_demodulate` (`Modem_BPSK.cpp:51-73`, `Modem_BPSK_fast.cpp:155-183`, `Modem_OOK_AWGN.cpp:31-52`, `Modem_OOK_BEC.cpp:31-45`, `Modem_OOK_BSC.cpp:28-45`) once the factor is up to date. -/
def demodulate (g : Cfg) (fac : Fl) (y out : List Fl) : Exec (List Fl) :=
  match g.kind with
  | .bpsk noSig2 =>
    if noSig2 then copyTo y 0 g.N out 0
    else if g.same = false then exc .invalidArgument
    else each g.N (fun a => g.F.mul a fac) y out
  | .fast noSig2 _ L =>
    if noSig2 then copyTo y 0 g.N out 0
    else if g.same = false then exc .invalidArgument
    else vec L g.N (fun a => g.F.mul a fac) (fun a => g.F.mul a fac) y out
  | .awgn noSig2 =>
    if noSig2 then each g.N (fun a => sub g.F (.fin (1 / 2)) a) y out
    else if g.same = false then exc .invalidArgument
    else each g.N (awgnAt g.F fac) y out
  | .bec => becDemod g.F g.N y out
  | .bsc => each g.N (fun a => sub g.F (g.F.mul (g.F.mul (.fin 2) fac) a) fac) y out

/-- `_demodulate_wg` (`Modem_BPSK.cpp:75-101`, `Modem_OOK_AWGN.cpp:54-75`); the other modems do not have it (`Modem.hxx:537-542`). -/
def demodulateWg (g : Cfg) (fac : Fl) (h y out : List Fl) : Exec (List Fl) :=
  match g.kind with
  | .bpsk noSig2 =>
    if g.same = false then exc .invalidArgument
    else if noSig2 then each2 g.N (fun a b => g.F.mul a b) y h out
    else each2 g.N (fun a b => g.F.mul (g.F.mul a fac) b) y h out
  | .awgn noSig2 =>
    if noSig2 then each2 g.N (fun a b => g.F.mul (sub g.F (.fin (1 / 2)) a) b) y h out
    else if g.same = false then exc .invalidArgument
    else each2 g.N (fun a b => g.F.mul (awgnAt g.F fac a) b) y h out
  | _ => exc .unimplemented

/-- The tasks of a modem (`Modem.hxx:171-301`).  The turbo demodulators of the BPSK (`Modem_BPSK.cpp:103-115`, `Modem_BPSK_fast.cpp:185-190`) and of the OOK on a Gaussian channel
(`Modem_OOK_AWGN.cpp:77-89`) call the demodulators without their second input. -/
inductive Op where
  | modulate (x : List Int)
  | filter (cp : Fl) (y : List Fl)
  | demodulate (cp : Fl) (h : Option (List Fl)) (y : List Fl)

/-- The demodulation with or without gains. -/
def demod (g : Cfg) (fac : Fl) (h : Option (List Fl)) (y out : List Fl) : Exec (List Fl) :=
  match h with
  | none => demodulate g fac y out
  | some h => demodulateWg g fac h y out

/-- One call of a task: the new state and the output.  All tasks but `modulate` record the channel parameter. -/
def step (L : Lib) (g : Cfg) (st : St) (op : Op) (out : List Fl) : Exec (St × List Fl) :=
  match op with
  | .modulate x => do
    let o ← modulate g x out
    ok (st, o)
  | .filter cp y => do
    let o ← filter g y out
    ok ({ st with last := cp }, o)
  | .demodulate cp h y => do
    let o ← demod g (refresh L g st cp).fac h y out
    ok ({ refresh L g st cp with last := cp }, o)

/-- `_add_noise` of the erasure channel (`Channel_binary_erasure.cpp:95-119`) for the draws `e`, in registers of `L` elements. -/
def becNoise (L n : Nat) (e : List Bool) (x out : List Fl) : Exec (List Fl) :=
  vec L n (fun p : Fl × Bool => if p.2 = false then p.1 else .inf false) (fun p : Fl × Bool => if p.2 then .inf false else p.1) (x.zip e) out

/-- `_add_noise` of the symmetric channel (`Channel_binary_symmetric.cpp:95-124`) for the draws `e`, in registers of `L` elements. -/
def bscNoise (L n : Nat) (e : List Bool) (x out : List Fl) : Exec (List Fl) :=
  vec L n (fun p : Fl × Bool => if xor p.2 (p.1 = .fin 0) then .fin 0 else .fin 1) (fun p : Fl × Bool => if p.2 ≠ (p.1 = .fin 0 : Bool) then .fin 0 else .fin 1) (x.zip e) out

end Verif.Bin
