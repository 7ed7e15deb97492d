import Verif.Model.Constellation

/-!
# The modem on a constellation

Model of `include/Module/Modem/Modem.hxx` and `include/Module/Modem/Generic/Modem_generic.hxx` on one frame.  `F` is the type `R`; `same`
says whether `R` and `Q` are the same floating point type (when they are not, the demodulators throw before they read anything).  The soft
modulation `tmodulate` is not modelled.  The functions for real and for complex constellations, which differ by the number of values of a symbol, are modelled by one function
with a test on `cplx`.
-/

namespace Verif.Modem
open Verif.Float Verif.Cstl Exec

/-- `tools::max` (`include/Tools/Math/max.hxx:14-18`), that is `std::max`. -/
def fmax (a b : Fl) : Fl := if a.lt b then b else a

/-- Subtraction. -/
def sub (F : Fmt) (a b : Fl) : Fl := F.add a b.neg

/-- `std::ceil`. -/
def ceil : Fl → Fl
  | .fin q => .fin ⌈q⌉
  | x => x

/-- Conversion of a floating point value to `int`. -/
def toInt : Fl → Exec Int
  | .fin q => let z := if q < 0 then ⌈q⌉ else ⌊q⌋
    if -2 ^ 31 ≤ z ∧ z < 2 ^ 31 then ok z else ub
  | _ => ub

/-- The constant members of a `Modem_generic`. -/
structure Cfg where
  F : Fmt
  same : Bool
  N : Nat
  nMod : Nat
  c : Cstl
  noSig2 : Bool

/-- Number of values of a symbol. -/
def Cfg.w (g : Cfg) : Nat := if g.c.cplx then 2 else 1

/-- The state: `last_channel_param` (a `float`) and `inv_sigma2` (an `R`). -/
structure St where
  last : Fl
  inv : Fl
  deriving DecidableEq

/-- `std::numeric_limits<float>::max()`. -/
def fltMax : Fl := .fin ((2 ^ 24 - 1) * 2 ^ 104)

/-- The state of a new modem (`Modem.hxx:116`, `Modem_generic.hxx:29`). -/
def init : St := ⟨fltMax, .fin 1⟩

/-- Constructor (`Modem_generic.hxx:20-33`, `Modem.hxx:107-137`): the size after modulation is computed in `float`. -/
def make (F : Fmt) (same : Bool) (N : Int) (c : Cstl) (noSig2 : Bool) : Exec Cfg := do
  let nMod ← toInt (b32.mul (ceil (b32.div (b32.of N) (b32.of c.nBps))) (.fin (if c.cplx then 2 else 1)))
  if N ≤ 0 then exc .invalidArgument
  else if nMod ≤ 0 then exc .invalidArgument
  else ok ⟨F, same, N.toNat, nMod.toNat, c, noSig2⟩

/-- The index of a symbol (`Modem_generic.hxx:161-163`, `173-175`, `419-421`, `430-432`): `n` bits from `off`, in `unsigned` arithmetic. -/
def index (x : List Int) (off n : Nat) : Exec Nat :=
  forN n (fun j idx => do
    let v ← rd x (off + j)
    ok ((idx + ((2 ^ j * v) % 2 ^ 32).toNat) % 2 ^ 32)) 0

/-- Writing a symbol from position `i` (`Modem_generic.hxx:166-167`, `178-179`, `424`, `435`). -/
def put (cplx : Bool) (o : List Fl) (i : Nat) (p : Pt) : Exec (List Fl) :=
  if cplx then do
    let o ← wr o i p.re
    wr o (i + 1) p.im
  else wr o i p.re

/-- `_modulate` (`Modem_generic.hxx:151-181`, `407-437`). -/
def modulate (g : Cfg) (x : List Int) (out : List Fl) : Exec (List Fl) := do
  let o ← forN (g.N / g.c.nBps) (fun i o => do
    let idx ← index x (i * g.c.nBps) g.c.nBps
    let p ← rd g.c.pts idx
    put g.c.cplx o (g.w * i) p) out
  if g.N / g.c.nBps * g.c.nBps < g.N then do
    let idx ← index x (g.N / g.c.nBps * g.c.nBps) (g.N - g.N / g.c.nBps * g.c.nBps)
    let p ← rd g.c.pts idx
    put g.c.cplx o (g.nMod - g.w) p
  else ok o

/-- `_filter` (`Modem_generic.hxx:92-97`): a copy. -/
def filter (g : Cfg) (y out : List Fl) : Exec (List Fl) := copyTo y 0 g.nMod out 0

/-- The symbol `k` of a received frame (`Modem_generic.hxx:202`, `460`). -/
def symbolAt (cplx : Bool) (y : List Fl) (k : Nat) : Exec Pt :=
  if cplx then do
    let re ← rd y (2 * k)
    let im ← rd y (2 * k + 1)
    ok ⟨re, im⟩
  else do
    let re ← rd y k
    ok ⟨re, .fin 0⟩

/-- `std::norm` of the difference of two complex numbers. -/
def norm2 (F : Fmt) (y c : Pt) : Fl :=
  F.add (F.mul (sub F y.re c.re) (sub F y.re c.re)) (F.mul (sub F y.im c.im) (sub F y.im c.im))

/-- A point seen through the channel gain `h` (`Modem_generic.hxx:240-242`, `491`); without gain (`none`) the point itself.  The recovery of infinite
products by the complex multiplication of the compiler is not modelled. -/
def through (F : Fmt) (cplx : Bool) (h : Option Pt) (c : Pt) : Pt :=
  match h with
  | none => c
  | some h =>
    if cplx then ⟨sub F (F.mul h.re c.re) (F.mul h.im c.im), F.add (F.mul h.re c.im) (F.mul h.im c.re)⟩
    else ⟨F.mul h.re c.re, .fin 0⟩

/-- The metric of a point in the demodulators (`Modem_generic.hxx:206-207`, `460-461`). -/
def metric (F : Fmt) (cplx : Bool) (inv : Fl) (y c : Pt) : Fl :=
  if cplx then F.mul (norm2 F y c).neg inv
  else F.mul (F.mul (sub F y.re c.re).neg (sub F y.re c.re)) inv

/-- The cost of a point in the turbo demodulators (`Modem_generic.hxx:275-276`, `522-523`). -/
def cost (F : Fmt) (cplx : Bool) (inv : Fl) (y c : Pt) : Fl :=
  if cplx then F.mul (norm2 F y c) inv
  else F.mul (F.mul (sub F y.re c.re) (sub F y.re c.re)) inv

/-- The loop on the symbols (`Modem_generic.hxx:197-212`, `453-466`): `MAX` over the points whose bit `b` is zero minus `MAX` over the others. -/
def llr (F : Fmt) (MAX : Fl → Fl → Fl) (nSymbs b : Nat) (met : Nat → Exec Fl) : Exec Fl := do
  let s ← forN nSymbs (fun j (s : Fl × Fl) => do
    let m ← met j
    if j / 2 ^ b % 2 = 0 then ok (MAX s.1 m, s.2) else ok (s.1, MAX s.2 m)) (.inf true, .inf true)
  ok (sub F s.1 s.2)

/-- The channel gain of symbol `k`. -/
def gainAt (cplx : Bool) (h : Option (List Fl)) (k : Nat) : Exec (Option Pt) :=
  match h with
  | none => ok none
  | some h => do
    let p ← symbolAt cplx h k
    ok (some p)

/-- `_demodulate` and `_demodulate_wg` (`Modem_generic.hxx:183-214`, `216-250`, `439-468`, `470-499`) once `inv_sigma2` is up to date. -/
def demodulate (g : Cfg) (MAX : Fl → Fl → Fl) (inv : Fl) (h : Option (List Fl)) (y out : List Fl) : Exec (List Fl) :=
  if g.same = false then exc .invalidArgument
  else forN g.N (fun n o => do
    let yk ← symbolAt g.c.cplx y (n / g.c.nBps)
    let hk ← gainAt g.c.cplx h (n / g.c.nBps)
    let v ← llr g.F MAX g.c.nSymbs (n % g.c.nBps) fun j => do
      let p ← rd g.c.pts j
      ok (metric g.F g.c.cplx inv yk (through g.F g.c.cplx hk p))
    wr o n v) out

/-- The a priori part of the cost of point `j` (`Modem_generic.hxx:278-292`, `525-539`) for bit `b` of symbol `k`. -/
def apriori (g : Cfg) (y2 : List Fl) (k b j : Nat) (t : Fl) : Exec Fl := do
  let t ← forN g.c.nBps (fun l t =>
    if l = b then ok t
    else if j / 2 ^ l % 2 = 1 then
      if k * g.c.nBps + l < g.N then do
        let a ← rd y2 (k * g.c.nBps + l)
        ok (g.F.add t a)
      else ok (g.F.add t (.inf false))
    else ok t) t
  ok (if t = .nan then .fin 0 else t)

/-- `_tdemodulate` and `_tdemodulate_wg` (`Modem_generic.hxx:252-302`, `304-355`, `501-549`, `551-598`) once `inv_sigma2` is up to date. -/
def tdemodulate (g : Cfg) (MAX : Fl → Fl → Fl) (inv : Fl) (h : Option (List Fl)) (y y2 out : List Fl) : Exec (List Fl) :=
  if g.same = false then exc .invalidArgument
  else forN g.N (fun n o => do
    let yk ← symbolAt g.c.cplx y (n / g.c.nBps)
    let hk ← gainAt g.c.cplx h (n / g.c.nBps)
    let v ← llr g.F MAX g.c.nSymbs (n % g.c.nBps) fun j => do
      let p ← rd g.c.pts j
      let t ← apriori g y2 (n / g.c.nBps) (n % g.c.nBps) j (cost g.F g.c.cplx inv yk (through g.F g.c.cplx hk p))
      ok t.neg
    wr o n v) out

/-- `inv_sigma2` of a channel parameter (`Modem_generic.hxx:104`): `2 * CP * CP` in `float`, the division in `R`. -/
def sigma (F : Fmt) (cp : Fl) : Fl := F.div (.fin 1) (b32.mul (b32.mul (.fin 2) cp) cp)

/-- The update of `inv_sigma2` (`Modem_generic.hxx:103-104`, `116-117`, `129-130`, `142-143`): only for a parameter which differs from the last one. -/
def refresh (g : Cfg) (st : St) (cp : Fl) : St :=
  if (cp ≠ st.last ∨ cp = .nan) ∧ g.noSig2 = false then { st with inv := sigma g.F cp } else st

/-- The tasks of a modem (`Modem.hxx:171-301`). -/
inductive Op where
  | modulate (x : List Int)
  | filter (cp : Fl) (y : List Fl)
  | demodulate (cp : Fl) (h : Option (List Fl)) (y : List Fl)
  | tdemodulate (cp : Fl) (h : Option (List Fl)) (y y2 : List Fl)

/-- One call of a task: the new state and the output.  All tasks but `modulate` record the channel parameter. -/
def step (g : Cfg) (MAX : Fl → Fl → Fl) (st : St) (op : Op) (out : List Fl) : Exec (St × List Fl) :=
  match op with
  | .modulate x => do
    let o ← modulate g x out
    ok (st, o)
  | .filter cp y => do
    let o ← filter g y out
    ok ({ st with last := cp }, o)
  | .demodulate cp h y => do
    let o ← demodulate g MAX (refresh g st cp).inv h y out
    ok ({ refresh g st cp with last := cp }, o)
  | .tdemodulate cp h y y2 => do
    let o ← tdemodulate g MAX (refresh g st cp).inv h y y2 out
    ok ({ refresh g st cp with last := cp }, o)

end Verif.Modem
