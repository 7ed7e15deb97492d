import Verif.Model.Modem
import Mathlib.Algebra.BigOperators.Intervals

/-! # Vocabulary of the properties of the modem -/

namespace Verif.Modem
open Verif.Float Verif.Cstl Exec

/-- A constellation of `2 ^ n` points, with between 1 and 30 bits per symbol. -/
def Whole (c : Cstl) : Prop := 1 ≤ c.nBps ∧ c.nBps ≤ 30 ∧ c.nSymbs = 2 ^ c.nBps ∧ c.pts.length = 2 ^ c.nBps

/-- Bit `b` of the label `j`. -/
def bit (j b : Nat) : Nat := j / 2 ^ b % 2

/-- The label of symbol `k` of a frame of `N` bits: its first bit is the least significant, and the bits missing from the last symbol are zeros. -/
def label (n N : Nat) (x : List Int) (k : Nat) : Nat :=
  ∑ j ∈ Finset.range n, if k * n + j < N then (x.getD (k * n + j) 0).toNat * 2 ^ j else 0

/-- Number of symbols of a frame of `N` bits. -/
def symbols (n N : Nat) : Nat := (N + n - 1) / n

/-- A modem on a whole constellation, with the size of a frame of symbols. -/
structure Cfg.Good (g : Cfg) : Prop where
  whole : Whole g.c
  size : g.nMod = (if g.c.cplx then 2 else 1) * symbols g.c.nBps g.N
  types : g.same = true

/-- The symbol `k` of a frame: a value, or two for a complex constellation. -/
def point (cplx : Bool) (y : List Fl) (k : Nat) : Pt :=
  if cplx then ⟨y.getD (2 * k) .nan, y.getD (2 * k + 1) .nan⟩ else ⟨y.getD k .nan, .fin 0⟩

/-- `v` is the greatest of the values of `m` on the labels in `S`. -/
def Best (S : Nat → Prop) (m : Nat → Fl) (v : Fl) : Prop := (∃ j, S j ∧ m j = v) ∧ ∀ j, S j → Fl.lt v (m j) = false

/-- The scale of the LLRs: the inverse of twice the variance, or one when the variance is to be ignored. -/
def scale (g : Cfg) (cp : Fl) : Fl := if g.noSig2 then .fin 1 else g.F.div (.fin 1) (b32.mul (b32.mul (.fin 2) cp) cp)

/-- The states a modem gets to by modulating and demodulating (`filter` excepted). -/
inductive Reach (g : Cfg) (MAX : Fl → Fl → Fl) : St → Prop
  | init : Reach g MAX init
  | modulate {st st' x out o} : Reach g MAX st → step g MAX st (.modulate x) out = ok (st', o) → Reach g MAX st'
  | demodulate {st st' cp h y out o} : Reach g MAX st → step g MAX st (.demodulate cp h y) out = ok (st', o) → Reach g MAX st'
  | tdemodulate {st st' cp h y y2 out o} : Reach g MAX st → step g MAX st (.tdemodulate cp h y y2) out = ok (st', o) → Reach g MAX st'

/-- The metric of label `j` for symbol `k`: minus the squared distance to the point seen through the channel, scaled. -/
def met (g : Cfg) (inv : Fl) (h : Option (List Fl)) (y : List Fl) (k j : Nat) : Fl :=
  metric g.F g.c.cplx inv (point g.c.cplx y k) (through g.F g.c.cplx (h.map fun h => point g.c.cplx h k) (g.c.pts.getD j ⟨.nan, .nan⟩))

/-- Hard decision on an LLR: a bit is one when the LLR is negative. -/
def decide1 (l : Fl) : Int := if Fl.lt l (.fin 0) then 1 else 0

/-- The gains of the channel have the size of the frame. -/
def GainOk (g : Cfg) (h : Option (List Fl)) : Prop := ∀ l, h = some l → l.length = g.nMod

/-- What is read where a point has been written. -/
def shown (cplx : Bool) (p : Pt) : Pt := ⟨p.re, if cplx then p.im else .fin 0⟩

/-- The prior information on the bits of label `j` but bit `b`, added to `t`. -/
def withPriors (g : Cfg) (y2 : List Fl) (k b j : Nat) (t : Fl) : Fl :=
  (List.range g.c.nBps).foldl (fun t l =>
    if l ≠ b ∧ bit j l = 1 then g.F.add t (if k * g.c.nBps + l < g.N then y2.getD (k * g.c.nBps + l) .nan else .inf false) else t) t

/-- Not a number counts for zero. -/
def clean (t : Fl) : Fl := if t = .nan then .fin 0 else t

/-- The cost of label `j` for symbol `k`. -/
def cst (g : Cfg) (inv : Fl) (h : Option (List Fl)) (y : List Fl) (k j : Nat) : Fl :=
  cost g.F g.c.cplx inv (point g.c.cplx y k) (through g.F g.c.cplx (h.map fun h => point g.c.cplx h k) (g.c.pts.getD j ⟨.nan, .nan⟩))

/-- The metric of label `j` for bit `b` of symbol `k` with the prior information on the other bits. -/
def tmet (g : Cfg) (inv : Fl) (h : Option (List Fl)) (y y2 : List Fl) (k b j : Nat) : Fl :=
  (clean (withPriors g y2 k b j (cst g inv h y k j))).neg

/-- The points of a constellation are told apart: the metric of the point which is received is greater than that of all the others. -/
def Apart (g : Cfg) (inv : Fl) : Prop := ∀ i j, i < 2 ^ g.c.nBps → j < 2 ^ g.c.nBps → i ≠ j →
  Fl.lt (metric g.F g.c.cplx inv (shown g.c.cplx (g.c.pts.getD i ⟨.nan, .nan⟩)) (g.c.pts.getD j ⟨.nan, .nan⟩))
    (metric g.F g.c.cplx inv (shown g.c.cplx (g.c.pts.getD i ⟨.nan, .nan⟩)) (g.c.pts.getD i ⟨.nan, .nan⟩)) = true

end Verif.Modem
