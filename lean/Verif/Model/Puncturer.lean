import Verif.Prelude.Exec

/-!
# Puncturers

Models `include/Module/Puncturer/Puncturer.hxx`, `src/Module/Puncturer/LDPC/Puncturer_LDPC.cpp`,
`.../Turbo/Puncturer_turbo.cpp`, `.../Turbo_DB/Puncturer_turbo_DB.cpp`, `.../Polar/Puncturer_polar_shortlast.cpp` and
`.../NO/Puncturer_NO.cpp`.  Copies with a running index (`std::copy`, `std::copy_n` followed by `k += n`) are element
loops.  Sizes are unbounded integers.
-/

namespace Verif.Puncturer
open Exec

/-- `Puncturer(K, N, N_cw)`, `Puncturer.hxx:33-75`. -/
def baseCtor (K N Ncw : Int) : Exec Unit :=
  if K ≤ 0 then exc .invalidArgument
  else if N ≤ 0 then exc .invalidArgument
  else if Ncw ≤ 0 then exc .invalidArgument
  else if K > N then exc .invalidArgument
  else if N > Ncw then exc .invalidArgument
  else ok ()

section
variable {α : Type _}

/-- `X_N2[k++] = X_N1[p]`; the state is `k` and `X_N2`. -/
def put (x : List α) (p : Nat) (s : Nat × List α) : Exec (Nat × List α) :=
  rd x p >>= fun v => wr s.2 s.1 v >>= fun o => ok (s.1 + 1, o)

/-- `if (b) X_N2[k++] = X_N1[p]`. -/
def putIf (b : Bool) (x : List α) (p : Nat) (s : Nat × List α) : Exec (Nat × List α) :=
  if b then put x p s else ok s

/-- `Y_N2[p] = Y_N1[k++]`. -/
def get (y : List α) (p : Nat) (s : Nat × List α) : Exec (Nat × List α) :=
  rd y s.1 >>= fun v => wr s.2 p v >>= fun o => ok (s.1 + 1, o)

/-- `Y_N2[p] = b ? Y_N1[k++] : (Q)0`. -/
def getOr (zero : α) (b : Bool) (y : List α) (p : Nat) (s : Nat × List α) : Exec (Nat × List α) :=
  if b then get y p s else wr s.2 p zero >>= fun o => ok (s.1, o)

/-- `pattern_bits[j][p]`. -/
def bit (pat : List (List Bool)) (j p : Nat) : Exec Bool := rd pat j >>= fun r => rd r p

/-! ## LDPC -/

/-- `Puncturer_LDPC` constructor, `Puncturer_LDPC.cpp:11-49`: the member `Z`. -/
def ldpcCtor (K N Ncw : Int) (pat : List Bool) : Exec Nat :=
  baseCtor K N Ncw >>= fun _ =>
  if pat.length = 0 then exc .invalidArgument
  else
    let Z := Ncw.tdiv pat.length
    if Z < 1 then exc .invalidArgument
    else if N ≠ Z * (pat.filter (· = true)).length then exc .invalidArgument
    else ok Z.toNat

/-- One block of `_puncture`, `Puncturer_LDPC.cpp:66-70`. -/
def ldpcBlock (Z : Nat) (pat : List Bool) (x : List α) (i : Nat) (s : Nat × List α) : Exec (Nat × List α) :=
  rd pat i >>= fun b => if b then forN Z (fun z => put x (i * Z + z)) s else ok s

/-- `_puncture`, `Puncturer_LDPC.cpp:60-71`. -/
def ldpcPuncture (Z : Nat) (pat : List Bool) (x out : List α) : Exec (List α) := do
  let s ← forN pat.length (ldpcBlock Z pat x) (0, out)
  ok s.2

/-- One block of `_depuncture`, `Puncturer_LDPC.cpp:79-85`. -/
def ldpcUnblock (zero : α) (Z : Nat) (pat : List Bool) (y : List α) (i : Nat) (s : Nat × List α) : Exec (Nat × List α) :=
  rd pat i >>= fun b =>
    if b then forN Z (fun z => get y (i * Z + z)) s
    else forN Z (fun z (s : Nat × List α) => wr s.2 (i * Z + z) zero >>= fun o => ok (s.1, o)) s

/-- `_depuncture`, `Puncturer_LDPC.cpp:73-86`. -/
def ldpcDepuncture (zero : α) (Z : Nat) (pat : List Bool) (y out : List α) : Exec (List α) := do
  let s ← forN pat.length (ldpcUnblock zero Z pat y) (0, out)
  ok s.2

/-! ## Turbo -/

/-- `get_bit_count`, `Puncturer_turbo.cpp:187-197`. -/
def bitCount (pat : List (List Bool)) : Nat := (pat.map fun r => (r.filter (· = true)).length).sum

/-- `get_period`, `Puncturer_turbo.cpp:177-185`. -/
def period (pat : List (List Bool)) : Nat := (pat.headD []).length

/-- `check_pattern`, `Puncturer_turbo.cpp:199-231`. -/
def checkPattern (K : Int) (pat : List (List Bool)) : Exec Unit :=
  if pat.length ≠ 3 then exc .invalidArgument
  else if (pat.getD 0 []).length ≠ (pat.getD 1 []).length ∨ (pat.getD 0 []).length ≠ (pat.getD 2 []).length then
    exc .invalidArgument
  else if ¬ bitCount pat = period pat * pat.length ∧ K.tmod (period pat) ≠ 0 then exc .invalidArgument
  else ok ()

/-- `compute_N`, `Puncturer_turbo.cpp:233-246`. -/
def computeN (K tail : Int) (pat : List (List Bool)) : Exec Int :=
  checkPattern K pat >>= fun _ =>
    if period pat ≠ 0 then ok ((K * bitCount pat).tdiv (period pat) + tail) else ok 0

/-- `Puncturer_turbo` constructor, `Puncturer_turbo.cpp:11-38`. -/
def turboCtor (K N tail : Int) (pat : List (List Bool)) : Exec Unit :=
  baseCtor K N (K * 3 + tail) >>= fun _ =>
  if tail < 0 then exc .invalidArgument
  else computeN K tail pat >>= fun n => if N ≠ n then exc .invalidArgument else ok ()

/-- One turn of the loop over `i` with buffered input, `Puncturer_turbo.cpp:64-69`; the state is `p`, `k`, `X_N2`. -/
def turboBufTurn (pat : List (List Bool)) (x : List α) (j o : Nat) (i : Nat) (s : Nat × Nat × List α) :
    Exec (Nat × Nat × List α) :=
  bit pat j s.1 >>= fun b => putIf b x (o + i) s.2 >>= fun t => ok ((s.1 + 1) % period pat, t)

/-- `off[j]`, `Puncturer_turbo.cpp:59`. -/
def off (K tail j : Nat) : Nat :=
  if j = 0 then 0 else if j = 1 then K + tail / 4 else K * 3 + tail - (K + tail / 4)

/-- Length of the tail copied for row `j`, `Puncturer_turbo.cpp:71-85`. -/
def tailLen (tail j : Nat) : Nat := if j = 0 then tail / 4 else if j = 1 then tail / 2 else tail / 4

/-- One row with buffered input, `Puncturer_turbo.cpp:60-86`. -/
def turboBufRow (K tail : Nat) (pat : List (List Bool)) (x : List α) (j : Nat) (s : Nat × List α) : Exec (Nat × List α) := do
  let t ← forN K (turboBufTurn pat x j (off K tail j)) (0, s)
  forN (tailLen tail j) (fun i => put x (off K tail j + K + i)) t.2

/-- One turn with interleaved input, `Puncturer_turbo.cpp:91-98`. -/
def turboTurn (pat : List (List Bool)) (x : List α) (i : Nat) (s : Nat × Nat × List α) : Exec (Nat × Nat × List α) :=
  bit pat 0 s.1 >>= fun b0 => putIf b0 x (i * 3 + 0) s.2 >>= fun t =>
  bit pat 1 s.1 >>= fun b1 => putIf b1 x (i * 3 + 1) t >>= fun t =>
  bit pat 2 s.1 >>= fun b2 => putIf b2 x (i * 3 + 2) t >>= fun t => ok ((s.1 + 1) % period pat, t)

/-- `_puncture`, `Puncturer_turbo.cpp:50-102`. -/
def turboPuncture (buffered : Bool) (K tail : Nat) (pat : List (List Bool)) (x out : List α) : Exec (List α) :=
  if buffered then forN 3 (turboBufRow K tail pat x) (0, out) >>= fun s => ok s.2
  else forN K (turboTurn pat x) (0, 0, out) >>= fun t => forN tail (fun i => put x (3 * K + i)) t.2 >>= fun s => ok s.2

/-- One turn of the depuncturing loop with buffered output, `Puncturer_turbo.cpp:118-122`. -/
def turboBufUnturn (zero : α) (pat : List (List Bool)) (y : List α) (j o : Nat) (i : Nat) (s : Nat × Nat × List α) :
    Exec (Nat × Nat × List α) :=
  bit pat j s.1 >>= fun b => getOr zero b y (o + i) s.2 >>= fun t => ok ((s.1 + 1) % period pat, t)

/-- One row of depuncturing with buffered output, `Puncturer_turbo.cpp:114-139`. -/
def turboBufUnrow (zero : α) (K tail : Nat) (pat : List (List Bool)) (y : List α) (j : Nat) (s : Nat × List α) :
    Exec (Nat × List α) := do
  let t ← forN K (turboBufUnturn zero pat y j (off K tail j)) (0, s)
  forN (tailLen tail j) (fun i => get y (off K tail j + K + i)) t.2

/-- One turn of depuncturing with interleaved output, `Puncturer_turbo.cpp:144-151`. -/
def turboUnturn (zero : α) (pat : List (List Bool)) (y : List α) (i : Nat) (s : Nat × Nat × List α) :
    Exec (Nat × Nat × List α) :=
  bit pat 0 s.1 >>= fun b0 => getOr zero b0 y (i * 3 + 0) s.2 >>= fun t =>
  bit pat 1 s.1 >>= fun b1 => getOr zero b1 y (i * 3 + 1) t >>= fun t =>
  bit pat 2 s.1 >>= fun b2 => getOr zero b2 y (i * 3 + 2) t >>= fun t => ok ((s.1 + 1) % period pat, t)

/-- `_depuncture`, `Puncturer_turbo.cpp:104-155`. -/
def turboDepuncture (zero : α) (buffered : Bool) (K tail : Nat) (pat : List (List Bool)) (y out : List α) : Exec (List α) :=
  if buffered then forN 3 (turboBufUnrow zero K tail pat y) (0, out) >>= fun s => ok s.2
  else forN K (turboUnturn zero pat y) (0, 0, out) >>= fun t => forN tail (fun i => get y (3 * K + i)) t.2 >>= fun s => ok s.2

/-! ## Double-binary turbo -/

/-- The strings `"1/2"`, `"1/3"`, ... held by `coderate`. -/
inductive Rate where
  | r12 | r13 | r25 | r23 | r34 | r45 | r56
  deriving DecidableEq, Repr

/-- `Puncturer_turbo_DB` constructor, `Puncturer_turbo_DB.cpp:12-36`.  `std::round(100.0 * rate)` is computed exactly
instead of with a single-precision quotient. -/
def dbCtor (K N : Int) : Exec Rate :=
  baseCtor K N (K * 3) >>= fun _ =>
  let r := (200 * K + N) / (2 * N)
  if r = 40 then ok .r25
  else if r = 33 then ok .r13
  else if r = 50 then ok .r12
  else if r = 67 then ok .r23
  else if r = 75 then ok .r34
  else if r = 80 then ok .r45
  else if r = 83 then ok .r56
  else exc .invalidArgument

/-- How many times `K` values are copied whole, `Puncturer_turbo_DB.cpp:51-117`. -/
def Rate.whole : Rate → Nat
  | .r12 => 2 | .r13 => 3 | .r25 => 2 | .r23 => 1 | .r34 => 1 | .r45 => 1 | .r56 => 1

/-- The increment of the loop over `i` (1 when there is no loop), `Puncturer_turbo_DB.cpp:51-117`. -/
def Rate.step : Rate → Nat
  | .r12 => 1 | .r13 => 1 | .r25 => 4 | .r23 => 4 | .r34 => 12 | .r45 => 8 | .r56 => 40

/-- The constants added to `i` in the body of the loop, in order, `Puncturer_turbo_DB.cpp:51-117` (empty when there is
no loop). -/
def Rate.offsets : Rate → List Nat
  | .r12 => [] | .r13 => [] | .r25 => [0, 1] | .r23 => [0, 1] | .r34 => [0, 1, 4, 5] | .r45 => [0, 1]
  | .r56 => [0, 1, 8, 9, 16, 17, 24, 25]

/-- The unrolled body `X_N2[j++] = X_N1[base + c]` for each constant `c`. -/
def putList (x : List α) (base : Nat) : List Nat → Nat × List α → Exec (Nat × List α)
  | [], s => ok s
  | c :: cs, s => put x (base + c) s >>= putList x base cs

/-- The unrolled body `Y_N2[base + c] = Y_N1[j++]`. -/
def getList (y : List α) (base : Nat) : List Nat → Nat × List α → Exec (Nat × List α)
  | [], s => ok s
  | c :: cs, s => get y (base + c) s >>= getList y base cs

/-- `_puncture`, `Puncturer_turbo_DB.cpp:47-117`; `for (i = 0; i < K; i += step)` has `⌈K / step⌉` turns. -/
def dbPuncture (r : Rate) (K : Nat) (x out : List α) : Exec (List α) := do
  let s ← forN (r.whole * K) (fun i => put x i) (0, out)
  let s ← forN ((K + r.step - 1) / r.step) (fun t => putList x (r.whole * K + t * r.step) r.offsets) s
  ok s.2

/-- `_depuncture`, `Puncturer_turbo_DB.cpp:119-196`: copy, fill the rest with zeros, then the loop. -/
def dbDepuncture (zero : α) (r : Rate) (K : Nat) (y out : List α) : Exec (List α) := do
  let s ← forN (r.whole * K) (fun i => get y i) (0, out)
  let o ← forN (3 * K - r.whole * K) (fun i o => wr o (r.whole * K + i) zero) s.2
  let s ← forN ((K + r.step - 1) / r.step) (fun t => getList y (r.whole * K + t * r.step) r.offsets) (s.1, o)
  ok s.2

/-! ## Polar (shortening of the last bits), none -/

/-- Exponent of the smallest power of two not below `N`: `ceil(log2(N))` for `N > 0`, computed exactly. -/
def clog2 (N : Nat) : Nat := if 2 ^ N.log2 = N then N.log2 else N.log2 + 1

/-- `Puncturer_polar_shortlast` constructor, `Puncturer_polar_shortlast.cpp:13-39`: `N_cw`; `genK`, `genN` are the sizes
of the frozen bits generator. -/
def polarCtor (K N genK genN : Int) : Exec Nat :=
  baseCtor K N (2 ^ clog2 N.toNat) >>= fun _ =>
  if genK ≠ K then exc .invalidArgument
  else if genN ≠ 2 ^ clog2 N.toNat then exc .invalidArgument
  else ok (2 ^ clog2 N.toNat)

/-- The while loop of `gen_frozen_bits`, `Puncturer_polar_shortlast.cpp:61-70`, from the best channels not yet examined;
reading past the last channel is undefined. -/
def frozenLoop (N : Nat) : Nat → List Nat → List Bool → Exec (List Bool)
  | 0, _, fb => ok fb
  | _ + 1, [], _ => ub
  | n + 1, c :: cs, fb => if c < N then wr fb c false >>= frozenLoop N n cs else frozenLoop N (n + 1) cs fb

/-- `gen_frozen_bits`, `Puncturer_polar_shortlast.cpp:50-71`; `best` is `fb_generator.get_best_channels()`. -/
def genFrozen (K N : Nat) (best : List Nat) (fb : List Bool) : Exec (List Bool) :=
  frozenLoop N K best (List.replicate fb.length true)

/-- `_puncture` of `Puncturer_polar_shortlast`, `:73-78`, and `Puncturer_NO`, `Puncturer_NO.cpp:26-31`. -/
def prefixPuncture (N : Nat) (x out : List α) : Exec (List α) := copyTo x 0 N out 0

/-- `Puncturer_polar_shortlast::_depuncture`, `:80-88`; `inf` is `sat_vals<Q>().second`. -/
def polarDepuncture (inf : α) (N Ncw : Nat) (y out : List α) : Exec (List α) :=
  copyTo y 0 N out 0 >>= forN (Ncw - N) (fun i o => wr o (N + i) inf)

end

end Verif.Puncturer
