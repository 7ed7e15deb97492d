import Verif.Spec.TurboProduct
import Verif.Proof.RS
import Verif.Proof.Turbo
import Verif.Proof.TurboPres
import Verif.Proof.RSCDBTurbo
import Verif.Props.BCH

/-! # Facts about the turbo product encoder -/

namespace Verif.TurboProduct
open Exec Verif.BCH Verif.Interleaver

/-! ## Row-column cores -/

/-- The table of a row-column core. -/
def rcTab (r c : Nat) (o : ReadOrder) : List Nat := (List.range (r * c)).map fun k => rowOf r o k * c + colOf r c o k

theorem genRC (r c : Nat) (o : ReadOrder) (f : Nat) (buf : List Nat) (h : buf.length = r * c) : genRowColumn r c o f buf = ok (rcTab r c o) := by
  unfold genRowColumn rcTab
  rw [orderedLoops_eq, Nat.mul_comm c r]
  exact fill_eq h

theorem rcTab_perm (r c : Nat) (o : ReadOrder) : IsPermutation (r * c) (rcTab r c o) := by
  unfold rcTab
  rw [Nat.mul_comm r c]
  exact isPermutation_map (fun k hk => rc_pos_lt o hk) (fun a b ha hb h => rc_pos_inj o ha hb h)

/-- State of a core whose tables are those of a row-column interleaver. -/
structure Rc (r c : Nat) (o : ReadOrder) (k : Core) : Prop where
  size : k.size = r * c
  nf : 0 < k.nFrames
  ini : k.initialized = true
  uni : k.uniform = false
  holds : Holds k (fun _ => rcTab r c o)

theorem rc_step {r c : Nat} {o : ReadOrder} {k k' : Core} (h : Rc r c o k) {op : Op} (hop : RcOp r c o op) (hs : k.step op = ok k') : Rc r c o k' := by
  have hg : ∀ f, ∀ buf : List Nat, buf.length = k.size → genRowColumn r c o f buf = ok (rcTab r c o) := fun f buf hb => genRC r c o f buf (by rw [hb, h.size])
  have hT : IsPermutation k.size (rcTab r c o) := by rw [h.size]; exact rcTab_perm r c o
  have hp := h.nf
  cases op with
  | setNFrames n gen =>
    cases (show gen = _ from hop)
    unfold Core.step at hs
    by_cases hn : n = 0
    · simp only [hn, if_true] at hs
      cases hs; exact h
    · simp only [hn, if_false] at hs
      unfold Core.setNFrames at hs
      rw [if_neg hn] at hs
      by_cases hne : k.nFrames ≠ n
      · rw [if_pos hne] at hs
        have hlp := h.holds.lenPi
        have hli := h.holds.lenInv
        have hsat := init_holds (c := { k with nFrames := n, initialized := false, pi := resize k.pi (k.pi.length / k.nFrames * n), piInv := resize k.piInv (k.piInv.length / k.nFrames * n) })
          (T := fun _ => rcTab r c o) (gen := genRowColumn r c o) (by simp only; omega) (by
          simp only [resize_length]
          rw [hlp, Nat.mul_comm, Nat.mul_comm k.nFrames, Nat.mul_div_cancel _ h.nf]) (by
          simp only [resize_length]
          rw [hli, Nat.mul_comm, Nat.mul_comm k.nFrames, Nat.mul_div_cancel _ h.nf]) (by simpa using hg) (fun _ => hT)
        have := Turbo.sat_of hsat hs
        obtain ⟨g1, g2, g3, g4, g5⟩ := this
        simp only [ite_self] at g1 g2 g3 g5
        exact ⟨by rw [g1, h.size], by omega, g4, by rw [g3, h.uni], g5⟩
      · rw [if_neg hne] at hs
        cases hs; exact h
  | refresh gen =>
    cases (show gen = _ from hop)
    unfold Core.step at hs
    simp only at hs
    obtain ⟨g1, g2, g3, g4⟩ := Turbo.sat_of (refresh_holds (T := fun _ => rcTab r c o) h.nf h.holds.lenPi h.holds.lenInv hg fun _ => hT) hs
    simp only [ite_self] at g4
    exact ⟨by rw [g1, h.size], by omega, by rw [refresh_initialized hs, h.ini], by rw [g3, h.uni], g4⟩

theorem rc_steps {r c : Nat} {o : ReadOrder} {ops : List Op} {k k' : Core} (h : Rc r c o k) (hop : ∀ op ∈ ops, RcOp r c o op)
    (hs : ops.foldlM Core.step k = ok k') : Rc r c o k' := by
  induction ops generalizing k with
  | nil => cases hs; exact h
  | cons op ops ih =>
    rw [List.foldlM_cons] at hs
    obtain ⟨k1, h1, h2⟩ := BCJR.bind_inv hs
    exact ih (rc_step h (hop op (by simp)) h1) (fun o ho => hop o (by simp [ho])) h2

theorem rc_history {r c : Nat} {o : ReadOrder} {ops : List Op} {k : Core} (hpos : 0 < r * c) (hop : ∀ op ∈ ops, RcOp r c o op)
    (hs : history (r * c : Nat) false (genRowColumn r c o) ops = ok k) : Rc r c o k := by
  unfold history Core.mk? at hs
  rw [if_neg (by omega), bind_ok] at hs
  obtain ⟨k1, h1, h2⟩ := BCJR.bind_inv hs
  refine rc_steps ?_ hop h2
  obtain ⟨g1, g2, g3, g4, g5⟩ := Turbo.sat_of (init_holds (T := fun _ => rcTab r c o) (gen := genRowColumn r c o) (by simp) (by simp) (by simp)
    (fun f buf hb => genRC r c o f buf (hb.trans (Int.toNat_natCast _))) (fun _ => (Int.toNat_natCast (r * c)).symm ▸ rcTab_perm r c o)) h1
  simp only [ite_self, Int.toNat_natCast] at g1 g2 g3 g5
  exact ⟨g1, by omega, g4, g3, g5⟩

/-- Column visited at position `j`. -/
def sg (c : Nat) (o : ReadOrder) (j : Nat) : Nat := if o = .topLeft then j else c - 1 - j

/-- Interleaving with a row-column core read from the top transposes the matrix, up to the order of the columns. -/
theorem rc_itl {r c : Nat} {o : ReadOrder} {k : Core} {nf f : Nat} (h : Rc r c o k) (ho : FromTop o) :
    ∃ π ρ, Turbo.ItlOk k nf f (r * c) π ρ ∧ ∀ i j, i < r → j < c → π (j * r + i) = i * c + sg c o j := by
  have hlt : tableOf k nf f 0 < k.nFrames := tableOf_lt h.nf nf f 0
  have hT := h.holds
  have hsz := h.size
  refine ⟨fun i => (rcTab r c o).getD i 0, invOf (rcTab r c o), ⟨hsz, fun i hi => ?_, fun i hi => ?_, fun i hi => ?_, fun i hi => ?_, ?_, ?_⟩, ?_⟩
  · rw [← hsz] at hi ⊢; exact (hT.fwd hlt hi).2
  · rw [← hsz] at hi ⊢; exact (hT.bwd hlt hi).2.1
  · rw [← hsz] at hi; exact (hT.bwd hlt hi).2.2
  · rw [← hsz] at hi
    exact invOf_spec (hT.perm _ hlt) hi
  · intro α inV outV hin hout
    unfold interleave Core.getLut
    rw [if_pos h.ini, bind_ok]
    rw [← hsz] at hin hout ⊢
    exact Turbo.raw_one (fun i hi => (hT.fwd hlt hi).1) (fun i hi => (hT.fwd hlt hi).2) hin hout
  · intro α inV outV hin hout
    unfold deinterleave Core.getLutInv
    rw [if_pos h.ini, bind_ok]
    rw [← hsz] at hin hout ⊢
    exact Turbo.raw_one (fun i hi => (hT.bwd hlt hi).1) (fun i hi => (hT.bwd hlt hi).2.1) hin hout
  · intro i j hi hj
    have hb : j * r + i < r * c := by rw [Nat.mul_comm r c]; exact slice_bound hj hi
    simp only [rcTab]
    rw [List.getD_eq_getElem?_getD, getElem?_mapRange, if_pos hb, Option.getD_some]
    have h1 : (j * r + i) / r = j := by
      rw [Nat.mul_comm, Nat.mul_add_div (by omega), Nat.div_eq_of_lt hi, Nat.add_zero]
    have h2 : (j * r + i) % r = i := by rw [Nat.mul_add_mod', Nat.mod_eq_of_lt hi]
    rcases ho with rfl | rfl <;> simp [rowOf, colOf, sg, h1, h2]

/-! ## Linear encoders as functions on bits -/

/-- Bits of a function. -/
def bits (n : Nat) (a : Nat → Bool) : List Nat := (List.range n).map fun i => (a i).toNat

/-- Function of a list of bits. -/
def fn (l : List Nat) (i : Nat) : Bool := decide (l.getD i 0 = 1)

theorem bits_len (n : Nat) (a : Nat → Bool) : (bits n a).length = n := by simp [bits]

theorem bits_get {n : Nat} {a : Nat → Bool} {i : Nat} (hi : i < n) : (bits n a)[i]? = some (a i).toNat := by
  unfold bits
  rw [getElem?_mapRange, if_pos hi]

theorem bits_bin (n : Nat) (a : Nat → Bool) : IsBin (bits n a) := by
  intro v hv
  unfold bits at hv
  obtain ⟨i, _, rfl⟩ := List.mem_map.mp hv
  cases a i <;> simp

theorem fn_get {l : List Nat} (h : IsBin l) {i : Nat} (hi : i < l.length) : l[i]? = some (fn l i).toNat := by
  unfold fn
  rw [List.getD_eq_getElem?_getD, List.getElem?_eq_getElem hi, Option.getD_some]
  rcases h _ (List.getElem_mem hi) with h | h <;> simp [h]

theorem bits_fn {l : List Nat} (h : IsBin l) : bits l.length (fn l) = l := by
  apply List.ext_getElem?
  intro i
  by_cases hi : i < l.length
  · rw [bits_get hi, fn_get h hi]
  · rw [List.getElem?_eq_none (by rw [bits_len]; omega), List.getElem?_eq_none (by omega)]

theorem bits_congr {n : Nat} {a b : Nat → Bool} (h : ∀ i, i < n → a i = b i) : bits n a = bits n b := by
  apply List.ext_getElem?
  intro i
  by_cases hi : i < n
  · rw [bits_get hi, bits_get hi, h i hi]
  · rw [List.getElem?_eq_none (by rw [bits_len]; omega), List.getElem?_eq_none (by rw [bits_len]; omega)]

theorem bits_inj {n : Nat} {a b : Nat → Bool} (h : bits n a = bits n b) : ∀ i, i < n → a i = b i := by
  intro i hi
  have := congrArg (fun l : List Nat => l[i]?) h
  simp only [bits_get hi, Option.some.injEq] at this
  revert this
  cases a i <;> cases b i <;> simp

theorem bits_xor (n : Nat) (a b : Nat → Bool) : List.zipWith (· ^^^ ·) (bits n a) (bits n b) = bits n fun i => xor (a i) (b i) := by
  apply List.ext_getElem?
  intro i
  by_cases hi : i < n
  · rw [List.getElem?_zipWith, bits_get hi, bits_get hi, bits_get hi]
    cases a i <;> cases b i <;> rfl
  · rw [List.getElem?_eq_none (by simp [bits_len]; omega), List.getElem?_eq_none (by rw [bits_len]; omega)]

/-- A linear map on bits, with the message found at offset `r`. -/
structure Lin (K N r : Nat) (E : (Nat → Bool) → Nat → Bool) : Prop where
  sum : N = r + K
  add : ∀ a b i, i < N → E (fun k => xor (a k) (b k)) i = xor (E a i) (E b i)
  congr : ∀ a b, (∀ k, k < K → a k = b k) → ∀ i, E a i = E b i
  msg : ∀ a k, k < K → E a (r + k) = a k

theorem Lin.zero {K N r : Nat} {E : (Nat → Bool) → Nat → Bool} (h : Lin K N r E) {i : Nat} (hi : i < N) : E (fun _ => false) i = false := by
  have := h.add (fun _ => false) (fun _ => false) i hi
  simpa using this

/-- A component encoder for which `E` is the function computed. -/
structure CompOk (e : Enc) (g : List Nat) (E : (Nat → Bool) → Nat → Bool) : Prop where
  lin : Lin e.K e.N e.r E
  posK : 0 < e.K
  enc : ∀ a x, x.length = e.N → encode e (bits e.K a) x = ok (bits e.N (E a))
  code : ∀ a, InBch g e.N (bits e.N (E a))
  all : ∀ c, InBch g e.N c → c = bits e.N (E fun k => fn c (e.r + k))

theorem compOk {w : Nat} {M t : Int} {p : List Nat} {gen : Gen} (hgen : bchGen w M t p = ok gen) (hw : gen.gf.m < w)
    (hprim : Galois.Primitive gen.gf.m (Galois.fieldPoly gen.gf.m gen.gf.p)) {K N : Int} {e : Enc} (h : Enc.mk? K N gen = ok e) : ∃ E, CompOk e gen.g E := by
  obtain ⟨_, hg⟩ := isGen_of_bchGen hgen hw hprim
  obtain ⟨h1, h2, h3, he⟩ := mk_enc h
  have hK : e.K = K.toNat := by rw [he]
  have hN : e.N = N.toNat := by rw [he]
  have hr : e.r = gen.g.length - 1 := by rw [he]
  have hpos := hg.pos
  have hsum : e.N = e.r + e.K := by omega
  have main : ∀ a : Nat → Bool, ∃ c : List Nat, c.length = e.N ∧ IsBin c ∧ (∀ i, i < e.K → c[e.r + i]? = some (a i).toNat) ∧ bitPoly gen.g ∣ bitPoly c ∧
      ∀ x : List Nat, x.length = e.N → encode e (bits e.K a) x = ok c := by
    intro a
    obtain ⟨c, hc, c1, c2, c3, c4⟩ := encode_sat h hg (u := bits e.K a) (x := List.replicate e.N 0) (bits_len _ _) (bits_bin _ _) (by simp)
    refine ⟨c, c1, c2, fun i hi => by rw [c3 i hi, bits_get hi], c4, fun x hx => ?_⟩
    obtain ⟨d, hd, d1, d2, d3, d4⟩ := encode_sat h hg (u := bits e.K a) (x := x) (bits_len _ _) (bits_bin _ _) hx
    rw [hd]
    congr 1
    exact codeword_unique hg hr (K := e.K) (by omega) (by omega) d2 c2 (fun i hi => by rw [c3 i hi, d3 i hi]) d4 c4
  choose W w1 w2 w3 w4 w5 using main
  have hW : ∀ a, W a = bits e.N (fn (W a)) := fun a => by rw [← w1 a, bits_fn (w2 a)]
  have huni : ∀ a c, c.length = e.N → IsBin c → bitPoly gen.g ∣ bitPoly c → (∀ i, i < e.K → c[e.r + i]? = some (a i).toNat) → c = W a := by
    intro a c c1 c2 c4 c3
    exact codeword_unique hg hr (K := e.K) (by omega) (by rw [w1]; omega) c2 (w2 a) (fun i hi => by rw [c3 i hi, w3 a i hi]) c4 (w4 a)
  refine ⟨fun a => fn (W a), ⟨hsum, ?_, ?_, ?_⟩, by omega, fun a x hx => by rw [w5 a x hx, ← hW], fun a => ?_, fun c hc => ?_⟩
  · intro a b
    have : List.zipWith (· ^^^ ·) (W a) (W b) = W (fun k => xor (a k) (b k)) := by
      refine huni _ _ (by simp [w1]) (isBin_xor (w2 a) (w2 b)) ?_ fun i hi => ?_
      · rw [bitPoly_xor (by rw [w1, w1]) (w2 a) (w2 b)]
        exact dvd_add (w4 a) (w4 b)
      · rw [List.getElem?_zipWith, w3 a i hi, w3 b i hi]
        cases a i <;> cases b i <;> rfl
    rw [hW a, hW b, bits_xor, hW (fun k => xor (a k) (b k))] at this
    intro i hi
    exact (bits_inj this i hi).symm
  · intro a b hab i
    have : W a = W b := huni b _ (w1 a) (w2 a) (w4 a) fun k hk => by rw [w3 a k hk, hab k hk]
    rw [this]
  · intro a k hk
    have := w3 a k hk
    unfold fn
    rw [List.getD_eq_getElem?_getD, this, Option.getD_some]
    cases a k <;> simp
  · rw [← hW]
    exact ⟨w1 a, w2 a, w4 a⟩
  · obtain ⟨c1, c2, c3⟩ := hc
    rw [← hW]
    exact huni _ _ c1 c2 c3 fun i hi => fn_get c2 (by omega)

/-! ## Extension by a parity bit -/

/-- Parity of the first `n` bits. -/
def par (a : Nat → Bool) : Nat → Bool
  | 0 => false
  | n + 1 => xor (par a n) (a n)

theorem par_add (a b : Nat → Bool) (n : Nat) : par (fun i => xor (a i) (b i)) n = xor (par a n) (par b n) := by
  induction n with
  | zero => rfl
  | succ n ih =>
    simp only [par, ih]
    generalize par a n = x, par b n = y, a n = z, b n = w
    revert x y z w
    decide

theorem par_congr {a b : Nat → Bool} {n : Nat} (h : ∀ i, i < n → a i = b i) : par a n = par b n := by
  induction n with
  | zero => rfl
  | succ n ih => simp only [par, ih fun i hi => h i (by omega), h n (by omega)]

/-- Extended encoder. -/
def extE (ext : Bool) (N : Nat) (E : (Nat → Bool) → Nat → Bool) (a : Nat → Bool) (i : Nat) : Bool :=
  if ext = true ∧ i = N then par (E a) N else E a i

theorem Lin.ext {K N r : Nat} {E : (Nat → Bool) → Nat → Bool} (h : Lin K N r E) (x : Bool) :
    (∀ a b i, i < size x N → extE x N E (fun k => xor (a k) (b k)) i = xor (extE x N E a i) (extE x N E b i)) ∧
    (∀ a b, (∀ k, k < K → a k = b k) → ∀ i, extE x N E a i = extE x N E b i) ∧ ∀ a k, k < K → extE x N E a (r + k) = a k := by
  refine ⟨fun a b i hi => ?_, fun a b hab i => ?_, fun a k hk => ?_⟩
  · unfold extE
    split
    · rw [← par_add]
      exact par_congr fun k hk => h.add a b k hk
    · rename_i hc
      refine h.add a b i ?_
      unfold size at hi
      cases x <;> simp at hi hc <;> omega
  · unfold extE
    rw [h.congr a b hab i, par_congr fun k _ => h.congr a b hab k]
  · unfold extE
    rw [if_neg (by have := h.sum; omega), h.msg a k hk]

theorem sum_bits (n : Nat) (a : Nat → Bool) : (bits n a).sum % 2 = (par a n).toNat := by
  induction n with
  | zero => rfl
  | succ n ih =>
    have : bits (n + 1) a = bits n a ++ [(a n).toNat] := by simp [bits, List.range_succ]
    rw [this, List.sum_append, Nat.add_mod, ih]
    simp only [par, List.sum_cons, List.sum_nil]
    cases par a n <;> cases a n <;> rfl

theorem inCode_ext {e : Enc} {g : List Nat} {E : (Nat → Bool) → Nat → Bool} (h : CompOk e g E) (x : Bool) (a : Nat → Bool) :
    InCode x g e.N (bits (size x e.N) (extE x e.N E a)) := by
  unfold InCode size
  cases x with
  | false =>
    simp only [Bool.false_eq_true, if_false]
    rw [Nat.add_zero, bits_congr (b := E a) fun i _ => by simp [extE]]
    exact h.code a
  | true =>
    simp only [if_true]
    refine ⟨_, h.code a, ?_⟩
    rw [sum_bits]
    have : bits (e.N + 1) (extE true e.N E a) = bits e.N (extE true e.N E a) ++ [(extE true e.N E a e.N).toNat] := by simp [bits, List.range_succ]
    rw [this, bits_congr (b := E a) fun i hi => by simp [extE, Nat.ne_of_lt hi]]
    simp [extE]

/-- Every word of the (extended) code is the encoding of its message. -/
theorem inCode_all {e : Enc} {g : List Nat} {E : (Nat → Bool) → Nat → Bool} (h : CompOk e g E) {x : Bool} {c : List Nat} (hc : InCode x g e.N c) :
    c = bits (size x e.N) (extE x e.N E fun k => fn c (e.r + k)) := by
  have hs := h.lin.sum
  unfold InCode at hc
  cases x with
  | false =>
    simp only [Bool.false_eq_true, if_false] at hc
    unfold size
    simp only [Bool.false_eq_true, if_false]
    rw [Nat.add_zero, bits_congr (b := E fun k => fn c (e.r + k)) fun i _ => by simp [extE]]
    exact h.all c hc
  | true =>
    simp only [if_true] at hc
    obtain ⟨b, hb, rfl⟩ := hc
    have e1 := h.all b hb
    have hl := hb.1
    have hfn : ∀ k, k < e.K → fn (b ++ [b.sum % 2]) (e.r + k) = fn b (e.r + k) := by
      intro k hk
      unfold fn
      rw [List.getD_eq_getElem?_getD, List.getD_eq_getElem?_getD, List.getElem?_append_left (by omega)]
    have e2 := (h.lin.ext true).2.1 _ _ hfn
    rw [bits_congr (fun i _ => e2 i)]
    unfold size
    simp only [if_true]
    have : bits (e.N + 1) (extE true e.N E fun k => fn b (e.r + k)) =
        bits e.N (extE true e.N E fun k => fn b (e.r + k)) ++ [(extE true e.N E (fun k => fn b (e.r + k)) e.N).toNat] := by simp [bits, List.range_succ]
    rw [this, bits_congr (b := E fun k => fn b (e.r + k)) fun i hi => by simp [extE, Nat.ne_of_lt hi], ← e1]
    congr 2
    conv_lhs => rw [e1]
    rw [sum_bits]
    simp [extE]

/-! ## The steps of the encoder -/

theorem computeParity_eq {x : List Nat} {o n : Nat} {a : Nat → Bool} (h : ∀ i, i < n → x[o + i]? = some (a i).toNat) :
    computeParity x o n = ok (par a n).toNat := by
  unfold computeParity
  induction n with
  | zero => rfl
  | succ n ih =>
    rw [forN_succ, ih fun i hi => h i (by omega), bind_ok, rd_eq (h n (by omega)), bind_ok]
    congr 1
    simp only [par]
    cases par a n <;> cases a n <;> rfl

theorem frame_sat {e : Enc} {g : List Nat} {E : (Nat → Bool) → Nat → Bool} (h : CompOk e g E) {ext : Bool} {nf j so : Nat} (hj : j < nf) {src dst : List Nat}
    {a : Nat → Bool} (hs : ∀ k, k < e.K → src[so + j * e.K + k]? = some (a k).toNat) (hd : (j + 1) * size ext e.N ≤ dst.length) :
    (encFrame e nf src so dst (if ext then j else 0) j >>= addParity ext (size ext e.N) j).Sat fun o => o.length = dst.length ∧
      ∀ p, o[p]? = if j * size ext e.N ≤ p ∧ p < j * size ext e.N + size ext e.N then some (extE ext e.N E a (p - j * size ext e.N)).toNat else dst[p]? := by
  have hK := h.posK
  have hsum := h.lin.sum
  have hoff : (if ext = true then j else 0) + j * e.N = j * size ext e.N := by
    unfold size
    cases ext
    · simp
    · simp only [if_true]; ring
  have hsz : e.N ≤ size ext e.N := by unfold size; omega
  rw [Nat.succ_mul] at hd
  have hsl : so + j * e.K + e.K ≤ src.length := by
    by_contra hc
    have := hs (e.K - 1) (by omega)
    rw [List.getElem?_eq_none (by omega)] at this
    cases this
  have hm : (src.drop (so + j * e.K)).take e.K = bits e.K a := by
    apply List.ext_getElem?
    intro i
    by_cases hi : i < e.K
    · rw [RSCDB.slice_get hi, bits_get hi, hs i hi]
    · rw [List.getElem?_eq_none (by simp; omega), List.getElem?_eq_none (by rw [bits_len]; omega)]
  unfold encFrame
  rw [if_neg (by omega), if_pos ⟨hsl, by omega⟩, hm, h.enc a _ (RSCDB.slice_len (by omega)), bind_ok, hoff]
  refine (copyTo_sat (src := bits e.N (E a)) (so := 0) (n := e.N) (dst := dst) (d := j * size ext e.N) (by rw [bits_len]; omega) (by omega)).bind fun o ho => ?_
  obtain ⟨o1, o2⟩ := ho
  simp only [Nat.zero_add] at o2
  unfold addParity
  cases ext with
  | false =>
    simp only [Bool.false_eq_true, if_false, sat_ok]
    have hs2 : size false e.N = e.N := by simp [size]
    rw [hs2] at o2 ⊢
    refine ⟨o1, fun p => ?_⟩
    rw [o2]
    split
    · rw [bits_get (by omega)]
      simp [extE]
    · rfl
  | true =>
    simp only [if_true]
    have hs2 : size true e.N = e.N + 1 := by simp [size]
    rw [hs2] at o2 hd ⊢
    rw [Nat.add_sub_cancel, computeParity_eq (a := E a) (n := e.N) fun i hi => by rw [o2, if_pos (by omega), bits_get (by omega), Nat.add_sub_cancel_left], bind_ok]
    have hidx : (j + 1) * (e.N + 1) - 1 = j * (e.N + 1) + e.N := by rw [Nat.succ_mul]; omega
    rw [hidx, wr_lt (by omega), sat_ok]
    refine ⟨by rw [List.length_set, o1], fun p => ?_⟩
    rw [List.getElem?_set]
    by_cases hp : j * (e.N + 1) + e.N = p
    · rw [if_pos hp, if_pos (by omega), if_pos (by omega)]
      simp [extE, ← hp]
    · rw [if_neg hp, o2]
      by_cases hq : j * (e.N + 1) ≤ p ∧ p < j * (e.N + 1) + e.N
      · rw [if_pos hq, if_pos (by omega), bits_get (by omega)]
        have : p - j * (e.N + 1) ≠ e.N := by omega
        simp [extE, this]
      · rw [if_neg hq, if_neg (by omega)]

/-- The loop over the frames. -/
theorem frames_sat {e : Enc} {g : List Nat} {E : (Nat → Bool) → Nat → Bool} (h : CompOk e g E) {ext : Bool} {nf n : Nat} (hn : n ≤ nf) {src dst : List Nat}
    {so : Nat → Nat} {a : Nat → Nat → Bool} (hs : ∀ j, j < n → ∀ k, k < e.K → src[so j + j * e.K + k]? = some (a j k).toNat) (hd : n * size ext e.N ≤ dst.length)
    {b : Nat → List Nat → Exec (List Nat)} (hb : ∀ j x, b j x = encFrame e nf src (so j) x (if ext then j else 0) j >>= addParity ext (size ext e.N) j) :
    (forN n b dst).Sat fun o => o.length = dst.length ∧ ∀ j, j < n → ∀ i, i < size ext e.N → o[j * size ext e.N + i]? = some (extE ext e.N E (a j) i).toNat := by
  refine forN_inv (fun m (o : List Nat) => o.length = dst.length ∧ ∀ j, j < m → ∀ i, i < size ext e.N → o[j * size ext e.N + i]? = some (extE ext e.N E (a j) i).toNat)
    ⟨rfl, fun j hj => absurd hj (Nat.not_lt_zero j)⟩ ?_
  rintro m o hm ⟨h1, h2⟩
  rw [hb]
  have hle : (m + 1) * size ext e.N ≤ n * size ext e.N := Nat.mul_le_mul_right _ hm
  refine (frame_sat h (ext := ext) (a := a m) (by omega) (hs m hm) (by omega)).mono ?_
  rintro o' ⟨g1, g2⟩
  refine ⟨by omega, fun j hj i hi => ?_⟩
  rw [g2]
  rcases Nat.lt_succ_iff_lt_or_eq.mp hj with hlt | rfl
  · have := Interleaver.slice_bound hlt hi
    rw [if_neg (by omega), h2 j hlt i hi]
  · rw [if_pos (by omega), Nat.add_sub_cancel_left]

/-! ## Products of linear maps -/

/-- With columns that are encodings, each row is a combination of the message rows, hence an encoding. -/
theorem rows_code {Nr Kc Nc : Nat} {ER EC : (Nat → Bool) → Nat → Bool}
    (radd : ∀ a b i, i < Nr → ER (fun k => xor (a k) (b k)) i = xor (ER a i) (ER b i))
    (cadd : ∀ a b i, i < Nc → EC (fun k => xor (a k) (b k)) i = xor (EC a i) (EC b i))
    (ccongr : ∀ a b, (∀ k, k < Kc → a k = b k) → ∀ i, EC a i = EC b i)
    (u : Nat → Nat → Bool) {i : Nat} (hi : i < Nc) : ∃ a, ∀ j, j < Nr → EC (fun k => ER (u k) j) i = ER a j := by
  have rzero : ∀ j, j < Nr → ER (fun _ => false) j = false := fun j hj => by simpa using radd (fun _ => false) (fun _ => false) j hj
  have czero : EC (fun _ => false) i = false := by simpa using cadd (fun _ => false) (fun _ => false) i hi
  have main : ∀ m, ∃ a, ∀ j, j < Nr → EC (fun k => decide (k < m) && ER (u k) j) i = ER a j := by
    intro m
    induction m with
    | zero => exact ⟨fun _ => false, fun j hj => by simpa [czero] using (rzero j hj).symm⟩
    | succ m ih =>
      obtain ⟨a, ha⟩ := ih
      let d : Bool := EC (fun k => decide (k = m)) i
      refine ⟨fun l => xor (a l) (d && u m l), fun j hj => ?_⟩
      have h1 : (fun k => decide (k < m + 1) && ER (u k) j) =
          fun k => xor (decide (k < m) && ER (u k) j) (decide (k = m) && ER (u m) j) := by
        funext k
        rcases Nat.lt_trichotomy k m with hk | hk | hk
        · simp [hk, Nat.ne_of_lt hk, Nat.lt_succ_of_lt hk]
        · subst hk; simp
        · simp [Nat.ne_of_gt hk, show ¬ k < m + 1 by omega, show ¬ k < m by omega]
      rw [h1, cadd _ _ i hi, ha j hj, radd _ _ j hj]
      congr 1
      have hd : d = EC (fun k => decide (k = m)) i := rfl
      cases hb : ER (u m) j with
      | false =>
        simp only [Bool.and_false]
        rw [czero]
        cases hdv : d with
        | false => simpa using (rzero j hj).symm
        | true => simpa using hb.symm
      | true =>
        simp only [Bool.and_true]
        rw [← hd]
        cases hdv : d with
        | false => simpa using (rzero j hj).symm
        | true => simpa using hb.symm
  obtain ⟨a, ha⟩ := main Kc
  refine ⟨a, fun j hj => ?_⟩
  rw [← ha j hj]
  exact ccongr _ _ (fun k hk => by simp [hk]) i

/-! ## The encoder -/

/-- State of an encoder with a row-column interleaver. -/
structure Ok (e : PEnc) (er ec : Enc) (o : ReadOrder) : Prop where
  her : e.er = er
  hec : e.ec = ec
  nfr : e.nfr = size e.ext ec.N
  nfc : e.nfc = size e.ext er.N
  xi : e.xi.length = e.N
  hN : e.N = size e.ext ec.N * size e.ext er.N
  rc : Rc (size e.ext ec.N) (size e.ext er.N) o e.core
  hK : e.K = er.K * ec.K
  ip : e.infoPos = List.range (er.K * ec.K)

theorem mk_inv {er ec : Enc} {nfr nfc nf : Nat} {core : Core} {e : PEnc} (h : PEnc.mk? er nfr ec nfc core nf = ok e) :
    er.K * ec.K ≠ 0 ∧ er.K * ec.K ≤ core.size ∧ core.size = size e.ext ec.N * size e.ext er.N ∧ nfc = size e.ext er.N ∧ nfr = size e.ext ec.N ∧
      e = ⟨er.K * ec.K, core.size, er, nfr, ec, nfc, core, nf, decide (core.size = (er.N + 1) * (ec.N + 1)), List.replicate core.size 0, List.range (er.K * ec.K)⟩ := by
  unfold PEnc.mk? at h
  split at h
  · cases h
  split at h
  · cases h
  split at h
  · cases h
  dsimp only at h
  rename_i h1 h2 h3
  by_cases hx : core.size = (er.N + 1) * (ec.N + 1)
  · have hd : decide (core.size = (er.N + 1) * (ec.N + 1)) = true := decide_eq_true hx
    rw [hd] at h ⊢
    rw [if_neg (by simp [hx])] at h
    by_cases h4 : er.N + 1 = nfc
    · by_cases h5 : ec.N + 1 = nfr
      · simp only [if_true, h4, h5, ne_eq, not_true_eq_false, if_false] at h
        injection h with h
        subst h
        simp only [size, if_true]
        exact ⟨h1, by omega, by rw [hx, Nat.mul_comm], h4.symm, h5.symm, trivial⟩
      · simp [h4, h5] at h
    · simp [h4] at h
  · have hd : decide (core.size = (er.N + 1) * (ec.N + 1)) = false := decide_eq_false hx
    rw [hd] at h ⊢
    by_cases h6 : core.size = er.N * ec.N
    · rw [if_neg (by simp [h6])] at h
      by_cases h4 : er.N = nfc
      · by_cases h5 : ec.N = nfr
        · simp only [Bool.false_eq_true, if_false, Nat.add_zero, h4, h5, ne_eq, not_true_eq_false] at h
          injection h with h
          subst h
          simp only [size, Bool.false_eq_true, if_false, Nat.add_zero]
          exact ⟨h1, by omega, by rw [h6, Nat.mul_comm], h4.symm, h5.symm, trivial⟩
        · simp [h4, h5] at h
      · simp [h4] at h
    · rw [if_pos (by simp [h6])] at h
      cases h

theorem encFrame_len {e : Enc} {nf so d j : Nat} {src dst o : List Nat} (h : encFrame e nf src so dst d j = ok o) : o.length = dst.length := by
  unfold encFrame at h
  split at h
  · cases h
  split at h
  · obtain ⟨c, _, h2⟩ := BCJR.bind_inv h
    exact Turbo.copyTo_len h2
  · cases h

theorem addParity_len {ext : Bool} {n j : Nat} {b o : List Nat} (h : addParity ext n j b = ok o) : o.length = b.length := by
  unfold addParity at h
  split at h
  · obtain ⟨p, _, h2⟩ := BCJR.bind_inv h
    obtain ⟨_, rfl⟩ := BCJR.wr_inv h2
    simp
  · cases h; rfl

theorem encode_state {e e' : PEnc} {f : Nat} {u x x' : List Nat} (h : e.encode f u x = ok (e', x')) : ∃ xi, xi.length = e.xi.length ∧ e' = { e with xi := xi } := by
  unfold PEnc.encode at h
  obtain ⟨x1, h1, h⟩ := BCJR.bind_inv h
  obtain ⟨x2, h2, h⟩ := BCJR.bind_inv h
  obtain ⟨x3, h3, h⟩ := BCJR.bind_inv h
  obtain ⟨x4, h4, h⟩ := BCJR.bind_inv h
  injection h with h
  injection h with ha hb
  refine ⟨x3, ?_, ha.symm⟩
  have l1 : x1.length = e.xi.length := BCJR.forN_pres (fun x : List Nat => x.length = e.xi.length) (by
    intro i a b _ ha hb
    unfold encRow at hb
    obtain ⟨c, hc, hb⟩ := BCJR.bind_inv hb
    rw [addParity_len hb, encFrame_len hc, ha]) rfl h1
  exact BCJR.forN_pres (fun x : List Nat => x.length = e.xi.length) (by
    intro i a b _ ha hb
    unfold encCol at hb
    obtain ⟨c, hc, hb⟩ := BCJR.bind_inv hb
    rw [addParity_len hb, encFrame_len hc, ha]) l1 h3

theorem par_size (e : PEnc) (N : Nat) : N + e.par = size e.ext N := by unfold PEnc.par size; rfl

theorem reach_ok {er ec : Enc} {o : ReadOrder} {e : PEnc} (h : Reach er ec o e) : Ok e er ec o := by
  induction h with
  | @make rows cols nfr nfc nf ops core e hops hist hmk hcols =>
    obtain ⟨h1, h2, h3, h4, h5, h6⟩ := mk_inv hmk
    have hpos : 0 < rows * cols := by
      unfold history Core.mk? at hist
      by_contra hc
      rw [if_pos (by omega)] at hist
      cases hist
    have R := rc_history hpos hops hist
    have her : e.er = er := by rw [h6]
    have hec : e.ec = ec := by rw [h6]
    rw [par_size, her] at hcols
    have hrows : rows = size e.ext ec.N := by
      have := R.size
      rw [h3, hcols] at this
      rw [hcols] at hpos
      exact (Nat.eq_of_mul_eq_mul_right (Nat.pos_of_mul_pos_left hpos) this).symm
    refine ⟨her, hec, ?_, ?_, ?_, ?_, ?_, ?_, ?_⟩
    · rw [← h5]; exact congrArg PEnc.nfr h6
    · rw [← h4]; exact congrArg PEnc.nfc h6
    · rw [h6]; simp
    · rw [← h3]; exact congrArg PEnc.N h6
    · rw [← hrows, ← hcols]
      have : e.core = core := by rw [h6]
      rw [this]; exact R
    · rw [h6]
    · rw [h6]
  | encode _ henc ih =>
    obtain ⟨xi, hl, rfl⟩ := encode_state henc
    exact ⟨ih.her, ih.hec, ih.nfr, ih.nfc, by rw [hl]; exact ih.xi, ih.hN, ih.rc, ih.hK, ih.ip⟩
  | frames _ hop hs ih =>
    rw [par_size, par_size, ih.her, ih.hec] at hop
    exact ⟨ih.her, ih.hec, ih.nfr, ih.nfc, ih.xi, ih.hN, rc_step ih.rc hop hs, ih.hK, ih.ip⟩

theorem sg_lt {c : Nat} {o : ReadOrder} {j : Nat} (hj : j < c) : sg c o j < c := by unfold sg; split <;> omega

theorem sg_sg {c : Nat} {o : ReadOrder} {j : Nat} (hj : j < c) : sg c o (sg c o j) = j := by unfold sg; split <;> omega

/-- What the encoder computes, as a matrix of bits. -/
theorem encode_mat {e : PEnc} {er ec : Enc} {o : ReadOrder} (h : Ok e er ec o) (ho : FromTop o) {gr gc : List Nat} {ER EC : (Nat → Bool) → Nat → Bool}
    (hr : CompOk er gr ER) (hc : CompOk ec gc EC) {f : Nat} {u x : List Nat} {b : Nat → Bool} (hu : ∀ i, i < er.K * ec.K → u[i]? = some (b i).toNat)
    (hx : x.length = e.N) : (e.encode f u x).Sat fun r => r.2.length = e.N ∧ ∀ i j, i < size e.ext ec.N → j < size e.ext er.N →
      r.2[i * size e.ext er.N + j]? = some (extE e.ext ec.N EC (fun k => extE e.ext er.N ER (fun l => b (k * er.K + l)) j) i).toNat := by
  have hN := h.hN
  have hxi := h.xi
  have hsr := hr.lin.sum
  have hsc := hc.lin.sum
  obtain ⟨π, ρ, hp, hπ⟩ := rc_itl (nf := e.nf) (f := f) h.rc ho
  unfold PEnc.encode
  rw [h.hec, h.her]
  have hKc : ec.K ≤ size e.ext ec.N := by unfold size; omega
  have hle : ec.K * size e.ext er.N ≤ e.xi.length := by
    rw [hxi, hN]; exact Nat.mul_le_mul_right _ hKc
  refine (frames_sat hr (ext := e.ext) (nf := e.nfr) (n := ec.K) (src := u) (dst := e.xi) (so := fun _ => 0) (a := fun k l => b (k * er.K + l)) (by rw [h.nfr]; exact hKc)
    (fun j hj k hk => by
      rw [Nat.zero_add]
      have := Interleaver.slice_bound hj hk
      exact hu _ (by rw [Nat.mul_comm er.K ec.K]; exact this)) hle (fun j y => by
      unfold encRow
      rw [par_size, h.her])).bind fun x1 h1 => ?_
  obtain ⟨l1, g1⟩ := h1
  refine (hp.fwd Nat x1 x (by omega) (by omega)).bind fun x2 h2 => ?_
  obtain ⟨l2, g2⟩ := h2
  rw [par_size]
  refine (frames_sat hc (ext := e.ext) (nf := e.nfc) (n := size e.ext er.N) (src := x2) (dst := x1) (so := fun j => j * (size e.ext ec.N - ec.K))
    (a := fun j k => extE e.ext er.N ER (fun l => b (k * er.K + l)) (sg (size e.ext er.N) o j)) (by rw [h.nfc])
    (fun j hj k hk => by
      have e1 : j * (size e.ext ec.N - ec.K) + j * ec.K + k = j * size e.ext ec.N + k := by
        rw [← Nat.mul_add, Nat.sub_add_cancel hKc]
      have hb := Interleaver.slice_bound hj (show k < size e.ext ec.N by omega)
      rw [e1, g2, if_pos (by rw [Nat.mul_comm (size e.ext ec.N)]; exact hb), hπ k j (by omega) hj, g1 k hk _ (sg_lt hj)]) (by rw [l1, hxi, hN, Nat.mul_comm]) (fun j y => by
      unfold encCol
      rw [par_size, h.hec])).bind fun x3 h3 => ?_
  obtain ⟨l3, g3⟩ := h3
  refine (hp.bwd Nat x3 x2 (by omega) (by omega)).bind fun x4 h4 => ?_
  obtain ⟨l4, g4⟩ := h4
  rw [sat_ok]
  refine ⟨by simp only; omega, fun i j hi hj => ?_⟩
  have hb := Interleaver.slice_bound hi hj
  have hb2 := Interleaver.slice_bound (sg_lt (o := o) hj) hi
  rw [Nat.mul_comm (size e.ext er.N) (size e.ext ec.N)] at hb2
  have e1 : i * size e.ext er.N + j = π (sg (size e.ext er.N) o j * size e.ext ec.N + i) := by rw [hπ i _ hi (sg_lt hj), sg_sg hj]
  have e2 : ρ (i * size e.ext er.N + j) = sg (size e.ext er.N) o j * size e.ext ec.N + i := by rw [e1]; exact hp.inv' _ hb2
  simp only
  rw [g4, if_pos hb, e2, g3 _ (sg_lt hj) i hi, sg_sg hj]

theorem row_eq {x : List Nat} {rows cols i : Nat} {m : Nat → Nat → Bool} (h : ∀ i j, i < rows → j < cols → x[i * cols + j]? = some (m i j).toNat) (hi : i < rows) :
    row cols x i = bits cols (m i) := by
  unfold row bits
  refine List.map_congr_left fun j hj => ?_
  rw [List.getD_eq_getElem?_getD, h i j hi (List.mem_range.mp hj), Option.getD_some]

theorem col_eq {x : List Nat} {rows cols j : Nat} {m : Nat → Nat → Bool} (h : ∀ i j, i < rows → j < cols → x[i * cols + j]? = some (m i j).toNat) (hj : j < cols) :
    col rows cols x j = bits rows fun i => m i j := by
  unfold col bits
  refine List.map_congr_left fun i hi => ?_
  rw [List.getD_eq_getElem?_getD, h i j (List.mem_range.mp hi) hj, Option.getD_some]

/-- Words given by the encoder belong to the product code. -/
theorem product_of_mat {er ec : Enc} {gr gc : List Nat} {ER EC : (Nat → Bool) → Nat → Bool} (hr : CompOk er gr ER) (hc : CompOk ec gc EC) {ext : Bool} {x : List Nat}
    {u : Nat → Nat → Bool} (hl : x.length = size ext ec.N * size ext er.N) (hm : ∀ i j, i < size ext ec.N → j < size ext er.N →
      x[i * size ext er.N + j]? = some (extE ext ec.N EC (fun k => extE ext er.N ER (u k) j) i).toNat) :
    IsProduct ext gr er.N gc ec.N x ∧ ∀ k l, k < ec.K → l < er.K → x[(ec.r + k) * size ext er.N + (er.r + l)]? = some (u k l).toNat := by
  obtain ⟨r1, r2, r3⟩ := hr.lin.ext ext
  obtain ⟨c1, c2, c3⟩ := hc.lin.ext ext
  have hsr := hr.lin.sum
  have hsc := hc.lin.sum
  refine ⟨⟨hl, fun i hi => ?_, fun j hj => ?_⟩, fun k l hk hl' => ?_⟩
  · rw [row_eq hm hi]
    obtain ⟨a, ha⟩ := rows_code (Kc := ec.K) r1 c1 c2 u hi
    rw [bits_congr ha]
    exact inCode_ext hr ext a
  · rw [col_eq hm hj]
    exact inCode_ext hc ext _
  · have b1 : ec.r + k < size ext ec.N := by unfold size; omega
    have b2 : er.r + l < size ext er.N := by unfold size; omega
    rw [hm _ _ b1 b2, c3 _ k hk, r3 _ l hl']

/-- A word of the product code is determined by the bits at the positions of the message. -/
theorem product_mat {er ec : Enc} {gr gc : List Nat} {ER EC : (Nat → Bool) → Nat → Bool} (hr : CompOk er gr ER) (hc : CompOk ec gc EC) {ext : Bool} {x : List Nat}
    (h : IsProduct ext gr er.N gc ec.N x) : ∀ i j, i < size ext ec.N → j < size ext er.N →
      x[i * size ext er.N + j]? = some (extE ext ec.N EC (fun k => extE ext er.N ER (fun l => fn x ((ec.r + k) * size ext er.N + (er.r + l))) j) i).toNat := by
  intro i j hi hj
  have hsr := hr.lin.sum
  have hsc := hc.lin.sum
  have hlen := h.len
  obtain ⟨r1, r2, r3⟩ := hr.lin.ext ext
  obtain ⟨c1, c2, c3⟩ := hc.lin.ext ext
  have hcj := inCode_all hc (h.cols j hj)
  have hb := Interleaver.slice_bound hi hj
  have hxi : x[i * size ext er.N + j]? = (col (size ext ec.N) (size ext er.N) x j)[i]? := by
    unfold col
    rw [getElem?_mapRange, if_pos hi, getD_lt _ (by omega), List.getElem?_eq_getElem (by omega)]
  rw [hxi, hcj, bits_get hi]
  congr 2
  refine c2 _ _ (fun k hk => ?_) i
  have b1 : ec.r + k < size ext ec.N := by unfold size; omega
  have hrk := inCode_all hr (h.rows (ec.r + k) b1)
  have hb' := Interleaver.slice_bound b1 hj
  have e1 : fn (col (size ext ec.N) (size ext er.N) x j) (ec.r + k) = fn (row (size ext er.N) x (ec.r + k)) j := by
    unfold fn col row
    rw [List.getD_eq_getElem?_getD, List.getD_eq_getElem?_getD, getElem?_mapRange, getElem?_mapRange, if_pos b1, if_pos hj]
  rw [e1]
  have e2 : fn (row (size ext er.N) x (ec.r + k)) j = extE ext er.N ER (fun l => fn (row (size ext er.N) x (ec.r + k)) (er.r + l)) j := by
    conv_lhs => rw [hrk]
    unfold fn
    rw [List.getD_eq_getElem?_getD, bits_get hj, Option.getD_some]
    generalize extE ext er.N ER _ j = q
    cases q <;> simp
  rw [e2]
  refine r2 _ _ (fun l hl => ?_) j
  have b2 : er.r + l < size ext er.N := by unfold size; omega
  unfold fn row
  rw [List.getD_eq_getElem?_getD, getElem?_mapRange, if_pos b2]
  rfl

end Verif.TurboProduct
