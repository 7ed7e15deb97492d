import Verif.Model.Puncturer

/-! # What puncturing and depuncturing mean -/

namespace Verif.Puncturer
open Exec

/-- The transmitted positions, in increasing order. -/
def kept (keep : Nat → Bool) (Ncw : Nat) : List Nat := (List.range Ncw).filter keep

/-- `pct`, `dpc` puncture codewords of `Ncw` values to `N` values, the transmitted positions being those where `keep`
holds: `pct` outputs the transmitted values in order, `dpc` puts them back in order and writes `fill` elsewhere.
The content of the output buffers before the calls is irrelevant. -/
structure Punctures {α : Type _} (keep : Nat → Bool) (Ncw N : Nat) (fill : α) (pct dpc : List α → List α → Exec (List α)) : Prop where
  count : (kept keep Ncw).length = N
  pct : ∀ x out : List α, x.length = Ncw → out.length = N → ∃ o, pct x out = ok o ∧ o.length = N ∧
    ∀ j (h : j < (kept keep Ncw).length), o[j]? = x[(kept keep Ncw)[j]]?
  dpc : ∀ y out : List α, y.length = N → out.length = Ncw → ∃ o, dpc y out = ok o ∧ o.length = Ncw ∧
    (∀ j (h : j < (kept keep Ncw).length), o[(kept keep Ncw)[j]]? = y[j]?) ∧
    ∀ p, p < Ncw → keep p = false → o[p]? = some fill

/-- LDPC: the codeword is cut in blocks of `Z` values, one per bit of the pattern. -/
def ldpcKeep (Z : Nat) (pat : List Bool) (p : Nat) : Bool := pat.getD (p / Z) false

/-- Turbo, `i`-th value of stream `j` (0 systematic, 1 and 2 parity) of `K` values followed by tail values: the pattern is
repeated periodically, tails are always transmitted. -/
def streamKeep (K : Nat) (pat : List (List Bool)) (j i : Nat) : Bool :=
  if i < K then (pat.getD j []).getD (i % (pat.headD []).length) false else true

/-- Turbo: positions of the streams in the codeword.  Unbuffered: the `K` triples, then the tails.  Buffered: stream 0,
`tail / 4` tail values, stream 1, `tail / 2` tail values, stream 2, `tail / 4` tail values. -/
def turboKeep (buffered : Bool) (K tail : Nat) (pat : List (List Bool)) (p : Nat) : Bool :=
  if buffered then
    if p < K + tail / 4 then streamKeep K pat 0 p
    else if p < 2 * K + 3 * (tail / 4) then streamKeep K pat 1 (p - (K + tail / 4))
    else streamKeep K pat 2 (p - (2 * K + 3 * (tail / 4)))
  else if p < 3 * K then streamKeep K pat (p % 3) (p / 3) else true

/-- `K` rounded up to a multiple of the period. -/
def span (K step : Nat) : Nat := (K + step - 1) / step * step

/-- Double-binary turbo, codeword = `K` systematic values, then the two parity streams of `K` values: the transmitted
positions for each rate.  When the period does not divide `K` the last period runs into what follows. -/
def dbKeep (r : Rate) (K p : Nat) : Bool :=
  match r with
  | .r12 => decide (p < 2 * K)
  | .r13 => true
  | .r25 => decide (p < 2 * K ∨ (p - 2 * K < span K 4 ∧ (p - 2 * K) % 4 ∈ [0, 1]))
  | .r23 => decide (p < K ∨ (p - K < span K 4 ∧ (p - K) % 4 ∈ [0, 1]))
  | .r34 => decide (p < K ∨ (p - K < span K 12 ∧ (p - K) % 12 ∈ [0, 1, 4, 5]))
  | .r45 => decide (p < K ∨ (p - K < span K 8 ∧ (p - K) % 8 ∈ [0, 1]))
  | .r56 => decide (p < K ∨ (p - K < span K 40 ∧ (p - K) % 40 ∈ [0, 1, 8, 9, 16, 17, 24, 25]))

/-- The last position `dbKeep` speaks of. -/
def dbEnd (r : Rate) (K : Nat) : Nat :=
  match r with
  | .r12 => 2 * K
  | .r13 => 3 * K
  | .r25 => 2 * K + span K 4
  | .r23 => K + span K 4
  | .r34 => K + span K 12
  | .r45 => K + span K 8
  | .r56 => K + span K 40

end Verif.Puncturer
