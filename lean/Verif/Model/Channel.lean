import Verif.Prelude.Exec
import Verif.Model.User

/-!
# Channels

Models `src/Module/Channel/AWGN/Channel_AWGN_LLR.cpp`, `Binary_erasure/Channel_binary_erasure.cpp`,
`Binary_symmetric/Channel_binary_symmetric.cpp`, `Rayleigh/Channel_Rayleigh_LLR.cpp` and `Rayleigh/Channel_Rayleigh_LLR_user.cpp`.
The generators of random values are not modelled: what a call of `generate` stores is a parameter (`draw`, `g`, `n`), of the size requested.
One call of a task for one frame, as in `User.Chan`; the operations on reals are parameters.
-/

namespace Verif.Channel
open Exec
open Verif.User (Tok)

/-- The operations on reals. -/
structure Ops (R : Type) where
  zero : R
  add : R → R → R
  sub : R → R → R
  mul : R → R → R
  sqrt : R → R

/-- Members of `include/Module/Channel/Channel.hpp`: `N`, `n_frames` and `noised_data` of `N * n_frames` values
(`Channel.hxx:36-38, 173-186`), and `add_users` of the channels that have it. -/
structure Ch (R : Type) where
  N : Nat
  frames : Nat
  addUsers : Bool
  noised : List R
  deriving DecidableEq, Repr

variable {R : Type}

/-- `Channel_AWGN_LLR::_add_noise`, `Channel_AWGN_LLR.cpp:103-127`. -/
def Ch.awgn (o : Ops R) (c : Ch R) (draw : List R) (f : Nat) (X Y : List R) : Exec (Ch R × List R) :=
  if c.addUsers ∧ c.frames > 1 then do
    let d ← copyTo draw 0 c.N c.noised 0
    let Y ← forN c.N (fun i Y => wr Y i o.zero) Y
    let Y ← forN c.frames (fun g Y => forN c.N (fun i Y => do
      let a ← rd Y i
      let x ← rd X (g * c.N + i)
      wr Y i (o.add a x)) Y) Y
    let Y ← forN c.N (fun i Y => do
      let a ← rd Y i
      let e ← rd d i
      wr Y i (o.add a e)) Y
    ok ({ c with noised := d }, Y)
  else do
    let d ← copyTo draw 0 c.N c.noised (f * c.N)
    let Y ← forN c.N (fun n Y => do
      let x ← rd X n
      let e ← rd d (f * c.N + n)
      wr Y n (o.add x e)) Y
    ok ({ c with noised := d }, Y)

/-- `Channel_binary_erasure::_add_noise`, `Channel_binary_erasure.cpp:94-119`; the events are integers stored in the memory of
`noised_data`, `bits e` is the integer with the same memory as the real `e`; a vector of `L` values is handled lane by lane. -/
def Ch.erasure (bits : R → Nat) (erased : R) (L : Nat) (c : Ch R) (draw : List R) (f : Nat) (X Y : List R) : Exec (Ch R × List R) := do
  let d ← copyTo draw 0 c.N c.noised (c.N * f)
  let Y ← forN (c.N / L) (fun v Y => forN L (fun l Y => do
    let x ← rd X (v * L + l)
    let e ← rd d (c.N * f + (v * L + l))
    wr Y (v * L + l) (if bits e = 0 then x else erased)) Y) Y
  let Y ← forRange (c.N / L * L) c.N (fun i Y => do
    let x ← rd X i
    let e ← rd d (c.N * f + i)
    wr Y i (if bits e ≠ 0 then erased else x)) Y
  ok ({ c with noised := d }, Y)

/-- `Channel_binary_symmetric::_add_noise`, `Channel_binary_symmetric.cpp:95-124`; `isZero x` is `x == 0`. -/
def Ch.symmetric (bits : R → Nat) (isZero : R → Bool) (zero one : R) (L : Nat) (c : Ch R) (draw : List R) (f : Nat) (X Y : List R) :
    Exec (Ch R × List R) := do
  let d ← copyTo draw 0 c.N c.noised (c.N * f)
  let Y ← forN (c.N / L) (fun v Y => forN L (fun l Y => do
    let x ← rd X (v * L + l)
    let e ← rd d (c.N * f + (v * L + l))
    wr Y (v * L + l) (if xor (decide (bits e ≠ 0)) (isZero x) then zero else one)) Y) Y
  let Y ← forRange (c.N / L * L) c.N (fun i Y => do
    let x ← rd X i
    let e ← rd d (c.N * f + i)
    wr Y i (if bits e ≠ (if isZero x then 1 else 0) then zero else one)) Y
  ok ({ c with noised := d }, Y)

/-- Several calls one after the other: the values drawn, the frame index, the input and the output buffer of each; the outputs and the part of
`noised_data` of the frame after each call, which is what a recorder of noise copies. -/
def Ch.run (noise : Ch R → List R → Nat → List R → List R → Exec (Ch R × List R)) (c : Ch R) :
    List (List R × Nat × List R × List R) → Exec (Ch R × List (List R × List R))
  | [] => ok (c, [])
  | (draw, f, X, Y) :: l => noise c draw f X Y >>= fun r =>
    Ch.run noise r.1 l >>= fun q => ok (q.1, (r.2, (r.1.noised.drop (f * r.1.N)).take r.1.N) :: q.2)

/-! ## Rayleigh channels -/

/-- `Channel_Rayleigh_LLR::_add_noise_wg` for one frame, `Channel_Rayleigh_LLR.cpp:174-206`, on the arrays `gains` and `noised_data`; `g` and
`n` are the values drawn.  The outputs are `gains`, `noised_data`, `H_N` and `Y_N`. -/
def rayleigh (o : Ops R) (cplx : Bool) (N f : Nat) (gains noised g n X H Y : List R) : Exec (List R × List R × List R × List R) := do
  let gains ← copyTo g 0 (if cplx then N else 2 * N) gains (f * N)
  let noised ← copyTo n 0 N noised (f * N)
  if cplx then do
    let s ← forN ((N + 1) / 2) (fun k (s : List R × List R) => do
      let hre ← rd gains (f * N + 2 * k)
      let H ← wr s.1 (2 * k) hre
      let him ← rd gains (f * N + 2 * k + 1)
      let H ← wr H (2 * k + 1) him
      let nre ← rd noised (f * N + 2 * k)
      let nim ← rd noised (f * N + 2 * k + 1)
      let xre ← rd X (2 * k)
      let xim ← rd X (2 * k + 1)
      let Y ← wr s.2 (2 * k) (o.add (o.sub (o.mul xre hre) (o.mul xim him)) nre)
      let Y ← wr Y (2 * k + 1) (o.add (o.add (o.mul xim hre) (o.mul xre him)) nim)
      ok (H, Y)) (H, Y)
    ok (gains, noised, s.1, s.2)
  else do
    let s ← forN N (fun k (s : List R × List R) => do
      let hre ← rd gains (f * N + 2 * k)
      let him ← rd gains (f * N + 2 * k + 1)
      let H ← wr s.1 k (o.sqrt (o.add (o.mul hre hre) (o.mul him him)))
      let x ← rd X k
      let h ← rd H k
      let e ← rd noised (f * N + k)
      let Y ← wr s.2 k (o.add (o.mul x h) e)
      ok (H, Y)) (H, Y)
    ok (gains, noised, s.1, s.2)

/-- The members of `Channel_Rayleigh_LLR_user` used by its tasks, `Channel_Rayleigh_LLR_user.cpp:30-37`. -/
structure Ray (R : Type) where
  N : Nat
  frames : Nat
  stock : List R
  gains : List R
  occ : Nat
  cur : Nat
  idx : Nat
  deriving DecidableEq, Repr

/-- The loop of `read_gains`, `Channel_Rayleigh_LLR_user.cpp:145-150`, on the tokens of the file (`User.Tok`; a token that is not a number starts
with a character that is not part of one); `eol` tells whether something follows the last token, `val` is the variable, not initialised at first.
When nothing follows the last number, reading it sets `eof`.  At the end of the file `>>` leaves the variable unchanged and sets `eof`; a token that
is not a number sets `failbit`, never `eofbit` or `badbit`, and the loop never ends: `none`. -/
def readGains (eol : Bool) : List (Tok R) → Option R → Option (Exec (List R))
  | [], none => some ub
  | [], some v => some (ok [v])
  | .num v :: r, _ =>
    if r = [] ∧ eol = false then some (ok [v])
    else match readGains eol r (some v) with
      | some (ok l) => some (ok (v :: l))
      | x => x
  | .bad :: _, _ => none

/-- The constructor, `Channel_Rayleigh_LLR_user.cpp:22-52`, after `Channel.hxx:36-47`; `stock` is what `read_gains` has read, never empty
(line 160); `frames` is the number of frames set afterwards (`:194-206`). -/
def Ray.mk? (zero : R) (N occ : Int) (cplx users : Bool) (stock : List R) (frames : Nat) : Exec (Ray R) :=
  if N ≤ 0 then exc .invalidArgument
  else if cplx ∨ users then exc .invalidArgument
  else if occ ≤ 0 then exc .invalidArgument
  else if stock = [] then exc .invalidArgument
  else ok ⟨N.toNat, frames, stock, List.replicate (N.toNat * frames) zero, occ.toNat, 0, 0⟩

/-- The update of the position in the stock, `Channel_Rayleigh_LLR_user.cpp:172-180`. -/
def advance (occ len cur idx : Nat) : Nat × Nat :=
  if cur + 1 ≥ occ then (0, if idx + 1 ≥ len then 0 else idx + 1) else (cur + 1, idx)

/-- `_add_noise_wg`, `Channel_Rayleigh_LLR_user.cpp:164-192`, for all the frames (single wave); `n` is the noise drawn in `noised_data`. -/
def Ray.step (o : Ops R) (c : Ray R) (n X H Y : List R) : Exec (Ray R × List R × List R) := do
  let s ← forN c.gains.length (fun i (s : List R × Nat × Nat) => do
    let g ← rd c.stock s.2.2
    let gs ← wr s.1 i g
    ok (gs, advance c.occ c.stock.length s.2.1 s.2.2)) (c.gains, c.cur, c.idx)
  let hy ← forN (c.N * c.frames) (fun i (hy : List R × List R) => do
    let g ← rd s.1 i
    let H ← wr hy.1 i g
    let x ← rd X i
    let h ← rd H i
    let e ← rd n i
    let Y ← wr hy.2 i (o.add (o.mul x h) e)
    ok (H, Y)) (H, Y)
  ok ({ c with gains := s.1, cur := s.2.1, idx := s.2.2 }, hy.1, hy.2)

/-- Several calls one after the other: the noise, the input and the output buffers of each; the outputs. -/
def Ray.run (o : Ops R) (c : Ray R) : List (List R × List R × List R × List R) → Exec (Ray R × List (List R × List R))
  | [] => ok (c, [])
  | (n, X, H, Y) :: l => c.step o n X H Y >>= fun r => Ray.run o r.1 l >>= fun q => ok (q.1, r.2 :: q.2)

end Verif.Channel
