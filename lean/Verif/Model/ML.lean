import Verif.Prelude.Loops
import Verif.Prelude.Float
import Verif.Model.BitPacker

/-!
# Maximum likelihood decoders

Models `include/Module/Decoder/Generic/ML/Decoder_maximum_likelihood.hxx`,
`src/Module/Decoder/Generic/ML/Decoder_maximum_likelihood_std.cpp` and
`src/Module/Decoder/Generic/ML/Decoder_maximum_likelihood_naive.cpp`, with one frame.  Elements of type `B` are `Int`s, `sz` is
`sizeof(B)`.  The soft inputs are the floats `(float)Y_N[n]`.
-/

namespace Verif.ML
open Exec Verif.Float

/-- The encoder given to the decoder, by what the decoder uses of it; `encode` and `is_codeword` are functions of their
argument (no exception, no memory). -/
structure Coder where
  K : Int
  N : Int
  enc : List Int → List Int
  isCw : List Int → Bool
  sys : Bool
  infoPos : List Nat

/-- Element `t` of a vector of integers of `sz` bytes (little endian). -/
def elemVal (sz : Nat) (mem : List (BitVec 8)) (t : Nat) : Exec Int :=
  forN sz (fun k acc => do
    let b ← rd mem (t * sz + k)
    ok (acc + (b.toNat * 256 ^ k : Nat))) 0

/-- The integer `u` as a vector of `n` bits, `Decoder_maximum_likelihood_std.cpp:78-81,123-126` and
`Decoder_maximum_likelihood_naive.cpp:87-90,143-146`: the vector of `n + 7` elements is filled with zeros, its first 8 bytes are
written with `u`, and it is unpacked in place.  The result is its first `n` elements. -/
def spread (sz n u : Nat) : Exec (List Int) := do
  let mem ← forN 8 (fun i mem => wr mem i (BitVec.ofNat 8 (u / 256 ^ i))) (List.replicate ((n + 7) * sz) 0#8)
  let mem ← BitPacker.unpackInPlace sz false 8 n 1 mem
  forN n (fun t o => do
    let v ← elemVal sz mem t
    wr o t v) (List.replicate n 0)

/-- `compute_hamming_dist`, `Decoder_maximum_likelihood.hxx:77-87`. -/
def hamDist (N : Nat) (x y : List Int) : Exec Nat :=
  forN N (fun n acc => do
    let a ← rd x n
    let b ← rd y n
    ok (acc + if a ≠ b then 1 else 0)) 0

/-- `compute_euclidean_dist`, `Decoder_maximum_likelihood.hxx:58-75`. -/
def eucDist (N : Nat) (x : List Int) (y : List Fl) : Exec Fl :=
  forN N (fun n acc => do
    let a ← rd x n
    let b ← rd y n
    let tmp := b32.add (.fin (if a ≠ 0 then -1 else 1)) b.neg
    ok (b32.add acc (b32.mul tmp tmp))) (.fin 0)

/-- `std::numeric_limits<float>::max()`. -/
def fltMax : Fl := .fin ((2 ^ 24 - 1) * 2 ^ 104)

/-- The four loops, `Decoder_maximum_likelihood_std.cpp:75-98,120-143` and `Decoder_maximum_likelihood_naive.cpp:84-107,140-163`.
`cand i` is the candidate of index `i` (`U_K` and `X_N`), or nothing when it is skipped; the state is the least distance, the
output and `best_U_K`; `k` elements of `U_K` are saved (none by the naive decoder). -/
def pick {D : Type} (lt : D → D → Bool) (n N k : Nat) (cand : Nat → Exec (Option (List Int × List Int))) (dist : List Int → Exec D)
    (r : D × List Int × List Int) : Exec (D × List Int × List Int) :=
  forN n (fun i r => do
    let c ← cand i
    match c with
    | none => ok r
    | some p => do
      let cur ← dist p.2
      if lt cur r.1 then do
        let v ← copyTo p.2 0 N r.2.1 0
        let b ← copyTo p.1 0 k r.2.2 0
        ok (cur, v, b)
      else ok r) r

/-- `u_max`, `x_max`: the maximum sequence of `n` bits, `Decoder_maximum_likelihood_std.cpp:33-37`,
`Decoder_maximum_likelihood_naive.cpp:32-36`. -/
def uMax (n : Nat) : Nat := if n = 64 then 2 ^ 64 - 1 else 2 ^ n - 1

/-- Number of executions of the body of `for (uint64_t u = 0; u <= u_max; u++)`, which ends with
`if (u_max == std::numeric_limits<uint64_t>::max()) break;`. -/
def rounds (n : Nat) : Nat := if uMax n = 2 ^ 64 - 1 then 1 else uMax n + 1

/-- The class. -/
inductive Kind where
  | std
  | naive
  deriving DecidableEq

/-- The members. -/
structure Dec where
  kind : Kind
  sz : Nat
  K : Nat
  N : Nat
  c : Coder
  hamming : Bool
  bestU : List Int
  bestX : List Int
  hardY : List Int

/-- Constructors, `Decoder_maximum_likelihood.hxx:13-41`, `Decoder_maximum_likelihood_std.cpp:14-38`,
`Decoder_maximum_likelihood_naive.cpp:13-37`, `src/Module/Decoder/Decoder.cpp:24-43`. -/
def Dec.mk? (kind : Kind) (sz : Nat) (K N : Int) (c : Coder) (hamming : Bool) : Exec Dec :=
  if K ≤ 0 then exc .invalidArgument
  else if N ≤ 0 then exc .invalidArgument
  else if K > N then exc .invalidArgument
  else if c.K ≠ K then exc .invalidArgument
  else if c.N ≠ N then exc .invalidArgument
  else if (match kind with | .std => K | .naive => N) > 64 then exc .invalidArgument
  else ok ⟨kind, sz, K.toNat, N.toNat, c, hamming, List.replicate K.toNat 0, List.replicate N.toNat 0, List.replicate N.toNat 0⟩

/-- The candidate of index `i`: the codeword of the message `i` (`Decoder_maximum_likelihood_std.cpp:77-82,122-127`), or the word
`i` if it is a codeword (`Decoder_maximum_likelihood_naive.cpp:86-91,142-147`). -/
def Dec.cand (d : Dec) (i : Nat) : Exec (Option (List Int × List Int)) :=
  match d.kind with
  | .std => do
    let u ← spread d.sz d.K i
    ok (some (u, d.c.enc u))
  | .naive => do
    let x ← spread d.sz d.N i
    ok (if d.c.isCw x then some ([], x) else none)

/-- Number of candidates. -/
def Dec.count (d : Dec) : Nat :=
  match d.kind with
  | .std => rounds d.K
  | .naive => rounds d.N

/-- Number of elements of `U_K` that are saved. -/
def Dec.saved (d : Dec) : Nat :=
  match d.kind with
  | .std => d.K
  | .naive => 0

/-- `_decode_hiho_cw`, `Decoder_maximum_likelihood_std.cpp:113-146`, `Decoder_maximum_likelihood_naive.cpp:133-166`. -/
def Dec.hihoCw (d : Dec) (y v : List Int) : Exec (Dec × List Int) := do
  let r ← pick (fun a b => decide (a < b)) d.count d.N d.saved d.cand (fun x => hamDist d.N x y) (2 ^ 32 - 1, v, d.bestU)
  ok ({ d with bestU := r.2.2 }, r.2.1)

/-- `_decode_siho_cw`, `Decoder_maximum_likelihood_std.cpp:59-102`, `Decoder_maximum_likelihood_naive.cpp:68-111`; `hard_decide` is
element-wise (see C46). -/
def Dec.sihoCw (d : Dec) (y : List Fl) (v : List Int) : Exec (Dec × List Int) :=
  if d.hamming then do
    let h ← forN d.N (fun i o => do
      let x ← rd y i
      wr o i (if Fl.lt x (.fin 0) then 1 else 0)) d.hardY
    { d with hardY := h }.hihoCw h v
  else do
    let r ← pick Fl.lt d.count d.N d.saved d.cand (fun x => eucDist d.N x y) (fltMax, v, d.bestU)
    ok ({ d with bestU := r.2.2 }, r.2.1)

/-- The message: `best_U_K` (`Decoder_maximum_likelihood_std.cpp:54,109`), or the information bits of the codeword
(`Decoder_maximum_likelihood_naive.cpp:61-63,126-128`). -/
def Dec.message (d : Dec) (v : List Int) : Exec (List Int) :=
  match d.kind with
  | .std => copyTo d.bestU 0 d.K v 0
  | .naive => forN d.K (fun k o => do
      let p ← rd d.c.infoPos k
      let x ← rd d.bestX p
      wr o k x) v

/-- `_decode_hiho`, `Decoder_maximum_likelihood_std.cpp:104-111`, `Decoder_maximum_likelihood_naive.cpp:113-131`. -/
def Dec.hiho (d : Dec) (y v : List Int) : Exec (Dec × List Int) :=
  if d.kind = .naive ∧ !d.c.sys then exc .invalidArgument
  else do
    let p ← d.hihoCw y d.bestX
    let d := { p.1 with bestX := p.2 }
    let v ← d.message v
    ok (d, v)

/-- `_decode_siho`, `Decoder_maximum_likelihood_std.cpp:49-57`, `Decoder_maximum_likelihood_naive.cpp:48-66`. -/
def Dec.siho (d : Dec) (y : List Fl) (v : List Int) : Exec (Dec × List Int) :=
  if d.kind = .naive ∧ !d.c.sys then exc .invalidArgument
  else do
    let p ← d.sihoCw y d.bestX
    let d := { p.1 with bestX := p.2 }
    let v ← d.message v
    ok (d, v)

end Verif.ML
