import Verif.Proof.Perm
import Verif.Model.Interleaver

/-! # Lemmas on the interleaver model -/

namespace Verif.Interleaver
open Exec

/-- What a correctly initialised core contains: for every frame `f`, the table `T f` and its inverse. -/
structure Holds (c : Core) (T : Nat → List Nat) : Prop where
  lenPi : c.pi.length = c.nFrames * c.size
  lenInv : c.piInv.length = c.nFrames * c.size
  perm : ∀ f, f < c.nFrames → IsPermutation c.size (T f)
  pi : ∀ f, f < c.nFrames → ∀ i, i < c.size → c.pi[f * c.size + i]? = (T f)[i]?
  inv : ∀ f, f < c.nFrames → ∀ i p, (T f)[i]? = some p → c.piInv[f * c.size + p]? = some i

theorem slice_bound {f n size i : Nat} (hf : f < n) (hi : i < size) : f * size + i < n * size := by
  have : (f + 1) * size ≤ n * size := Nat.mul_le_mul_right _ hf
  rw [Nat.succ_mul] at this
  omega

theorem slice_le {f n size : Nat} (hf : f < n) : f * size + size ≤ n * size := by
  have : (f + 1) * size ≤ n * size := Nat.mul_le_mul_right _ hf
  rwa [Nat.succ_mul] at this

theorem genSlice_sat {gen : GenLut} {size f off : Nat} {pi t : List Nat}
    (hgen : ∀ buf : List Nat, buf.length = size → gen f buf = ok t) (ht : t.length = size)
    (hb : off + size ≤ pi.length) :
    (genSlice gen size f off pi).Sat fun o => o.length = pi.length ∧
      ∀ j : Nat, o[j]? = if off ≤ j ∧ j < off + size then t[j - off]? else pi[j]? := by
  unfold genSlice
  rw [if_pos hb, hgen _ (by simp; omega), bind_ok]
  refine (copyTo_sat (by omega) hb).mono ?_
  rintro o ⟨h1, h2⟩
  refine ⟨h1, fun j => ?_⟩
  rw [h2]; simp

theorem invSlice_sat {size off : Nat} {pi piInv t : List Nat} (ht : IsPermutation size t)
    (hpi : ∀ i, i < size → pi[off + i]? = t[i]?) (hb : off + size ≤ piInv.length) :
    (invSlice size off pi piInv).Sat fun o => o.length = piInv.length ∧
      (∀ i p, t[i]? = some p → o[off + p]? = some i) ∧
      (∀ j : Nat, ¬ (off ≤ j ∧ j < off + size) → o[j]? = piInv[j]?) := by
  have hlen := ht.length
  have hlt : ∀ k (hk : k < size), t[k]? = some (t.getD k 0) := by
    intro k hk
    rw [List.getD_eq_getElem?_getD, List.getElem?_eq_getElem (by omega)]; rfl
  have hval : ∀ k, k < size → t.getD k 0 < size := by
    intro k hk
    have := ht.lt (i := k) (by omega)
    rw [getD_lt _ (by omega)]; exact this
  have hcongr : invSlice size off pi piInv =
      forN size (fun k o => wr o (off + t.getD k 0) k) piInv := by
    unfold invSlice
    apply forN_congr
    intro i s hi
    have := hpi i hi
    rw [hlt i hi] at this
    rw [rd_eq this, bind_ok]
  rw [hcongr]
  refine (forN_scatter (pos := fun k => off + t.getD k 0) (g := id) ?_ ?_).mono ?_
  · intro k hk; have := hval k hk; show off + t.getD k 0 < _; omega
  · intro a b ha hb' h
    have h : off + t.getD a 0 = off + t.getD b 0 := h
    have e : t.getD a 0 = t.getD b 0 := by omega
    rw [getD_lt _ (by omega), getD_lt _ (by omega)] at e
    exact ht.inj _ _ e
  · rintro o ⟨h1, h2, h3⟩
    refine ⟨h1, ?_, ?_⟩
    · intro i p hp
      have hi : i < size := by
        obtain ⟨h, _⟩ := List.getElem?_eq_some_iff.mp hp; omega
      have := h2 i hi
      rw [hlt i hi] at hp
      obtain rfl : t.getD i 0 = p := by simpa using hp
      exact this
    · intro j hj
      apply h3
      intro k hk e
      have := hval k hk
      exact hj ⟨by omega, by omega⟩

/-- The state reached by `refresh` on buffers of the right size. -/
theorem refresh_holds {c : Core} {gen : GenLut} {T : Nat → List Nat} (hn : 0 < c.nFrames)
    (hlp : c.pi.length = c.nFrames * c.size) (hli : c.piInv.length = c.nFrames * c.size)
    (hgen : ∀ f, ∀ buf : List Nat, buf.length = c.size → gen f buf = ok (T f))
    (hT : ∀ f, IsPermutation c.size (T f)) :
    (c.refresh gen).Sat fun c' => c'.size = c.size ∧ c'.nFrames = c.nFrames ∧ c'.uniform = c.uniform ∧
      Holds c' (fun f => if c.uniform then T f else T 0) := by
  unfold Core.refresh
  have hz : 0 * c.size + c.size ≤ c.nFrames * c.size := slice_le hn
  refine (genSlice_sat (t := T 0) (hgen 0) (hT 0).length (by omega)).bind ?_
  rintro pi ⟨hpl, hpi⟩
  have hpi0 : ∀ i, i < c.size → pi[i]? = (T 0)[i]? := by
    intro i hi; rw [hpi, if_pos (by omega)]; simp
  refine (invSlice_sat (hT 0) (fun i hi => by rw [Nat.zero_add]; exact hpi0 i hi) (by omega)).bind ?_
  rintro piInv ⟨hil, hinv, -⟩
  split
  · rename_i hu
    refine Sat.bind (P := fun (s : List Nat × List Nat) =>
      s.1.length = c.nFrames * c.size ∧ s.2.length = c.nFrames * c.size ∧
      (∀ f, f < c.nFrames → ∀ i, i < c.size → s.1[f * c.size + i]? = (T f)[i]?) ∧
      (∀ f, f < c.nFrames → ∀ i p, (T f)[i]? = some p → s.2[f * c.size + p]? = some i)) ?_ ?_
    · refine forRange_inv (fun k (s : List Nat × List Nat) =>
        s.1.length = c.nFrames * c.size ∧ s.2.length = c.nFrames * c.size ∧
        (∀ f, f < k → ∀ i, i < c.size → s.1[f * c.size + i]? = (T f)[i]?) ∧
        (∀ f, f < k → ∀ i p, (T f)[i]? = some p → s.2[f * c.size + p]? = some i)) (by omega) ?_ ?_
      · refine ⟨by simp only; omega, by simp only; omega, ?_, ?_⟩
        · intro f hf i hi
          obtain rfl : f = 0 := by omega
          rw [Nat.zero_mul, Nat.zero_add]; exact hpi0 i hi
        · intro f hf i p hp
          obtain rfl : f = 0 := by omega
          rw [Nat.zero_mul]; exact hinv i p hp
      · rintro f ⟨pi, piInv⟩ hf1 hf2 ⟨h1, h2, h3, h4⟩
        simp only at h1 h2 h3 h4 ⊢
        have hsl := slice_le (size := c.size) hf2
        refine (genSlice_sat (t := T f) (hgen f) (hT f).length (by omega)).bind ?_
        rintro pi' ⟨hpl', hpi'⟩
        refine (invSlice_sat (hT f) (fun i hi => by rw [hpi', if_pos (by omega)]; congr 1; omega)
          (by omega)).bind ?_
        rintro piInv' ⟨hil', hinv', hrest⟩
        rw [sat_ok]
        refine ⟨by simp only; omega, by simp only; omega, ?_, ?_⟩
        · intro g hg i hi
          simp only
          rcases Nat.lt_succ_iff_lt_or_eq.mp hg with hlt | rfl
          · have := slice_bound (size := c.size) hlt hi
            rw [hpi', if_neg (by omega)]
            exact h3 g hlt i hi
          · rw [hpi', if_pos (by omega)]; congr 1; omega
        · intro g hg i p hp
          simp only
          rcases Nat.lt_succ_iff_lt_or_eq.mp hg with hlt | rfl
          · have hp' : p < c.size := (hT g).mem_iff.mp (List.mem_of_getElem? hp)
            have := slice_bound (size := c.size) hlt hp'
            rw [hrest _ (by omega)]
            exact h4 g hlt i p hp
          · exact hinv' i p hp
    · rintro ⟨a, b⟩ ⟨h1, h2, h3, h4⟩
      rw [sat_ok]
      refine ⟨rfl, rfl, rfl, h1, h2, fun f _ => ?_, ?_, ?_⟩
      · simp only; exact hT f
      · simpa [hu] using h3
      · simpa [hu] using h4
  · rename_i hu
    refine Sat.bind (P := fun (s : List Nat × List Nat) =>
      s.1.length = c.nFrames * c.size ∧ s.2.length = c.nFrames * c.size ∧
      (∀ f, f < c.nFrames → ∀ i, i < c.size → s.1[f * c.size + i]? = (T 0)[i]?) ∧
      (∀ f, f < c.nFrames → ∀ i p, (T 0)[i]? = some p → s.2[f * c.size + p]? = some i)) ?_ ?_
    · refine forRange_inv (fun k (s : List Nat × List Nat) =>
        s.1.length = c.nFrames * c.size ∧ s.2.length = c.nFrames * c.size ∧
        (∀ f, f < k → ∀ i, i < c.size → s.1[f * c.size + i]? = (T 0)[i]?) ∧
        (∀ f, f < k → ∀ i p, (T 0)[i]? = some p → s.2[f * c.size + p]? = some i)) (by omega) ?_ ?_
      · refine ⟨by simp only; omega, by simp only; omega, ?_, ?_⟩
        · intro f hf i hi
          obtain rfl : f = 0 := by omega
          rw [Nat.zero_mul, Nat.zero_add]; exact hpi0 i hi
        · intro f hf i p hp
          obtain rfl : f = 0 := by omega
          rw [Nat.zero_mul]; exact hinv i p hp
      · rintro f ⟨pi, piInv⟩ hf1 hf2 ⟨h1, h2, h3, h4⟩
        simp only at h1 h2 h3 h4 ⊢
        have hsl := slice_le (size := c.size) hf2
        refine (copyTo_sat (by omega) (by omega)).bind ?_
        rintro pi' ⟨hpl', hpi'⟩
        refine (copyTo_sat (by omega) (by omega)).bind ?_
        rintro piInv' ⟨hil', hinv'⟩
        rw [sat_ok]
        refine ⟨by simp only; omega, by simp only; omega, ?_, ?_⟩
        · intro g hg i hi
          simp only
          rcases Nat.lt_succ_iff_lt_or_eq.mp hg with hlt | rfl
          · have := slice_bound (size := c.size) hlt hi
            rw [hpi', if_neg (by omega)]
            exact h3 g hlt i hi
          · rw [hpi', if_pos (by omega)]
            have := h3 0 (by omega) i hi
            rw [← this]; congr 1; omega
        · intro g hg i p hp
          simp only
          have hp' : p < c.size := (hT 0).mem_iff.mp (List.mem_of_getElem? hp)
          rcases Nat.lt_succ_iff_lt_or_eq.mp hg with hlt | rfl
          · have := slice_bound (size := c.size) hlt hp'
            rw [hinv', if_neg (by omega)]
            exact h4 g hlt i p hp
          · rw [hinv', if_pos (by omega)]
            have := h4 0 (by omega) i p hp
            rw [← this]; congr 1; omega
    · rintro ⟨a, b⟩ ⟨h1, h2, h3, h4⟩
      rw [sat_ok]
      refine ⟨rfl, rfl, rfl, h1, h2, fun f _ => ?_, ?_, ?_⟩
      · simpa [hu] using hT 0
      · simpa [hu] using h3
      · simpa [hu] using h4

theorem init_holds {c : Core} {gen : GenLut} {T : Nat → List Nat} (hn : 0 < c.nFrames)
    (hlp : c.pi.length = c.nFrames * c.size) (hli : c.piInv.length = c.nFrames * c.size)
    (hgen : ∀ f, ∀ buf : List Nat, buf.length = c.size → gen f buf = ok (T f))
    (hT : ∀ f, IsPermutation c.size (T f)) :
    (c.init gen).Sat fun c' => c'.size = c.size ∧ c'.nFrames = c.nFrames ∧ c'.uniform = c.uniform ∧
      c'.initialized = true ∧ Holds c' (fun f => if c.uniform then T f else T 0) := by
  unfold Core.init
  refine (refresh_holds hn hlp hli hgen hT).bind ?_
  rintro c' ⟨h1, h2, h3, h4⟩
  rw [sat_ok]
  exact ⟨h1, h2, h3, rfl, h4.lenPi, h4.lenInv, h4.perm, h4.pi, h4.inv⟩

theorem resize_length (l : List Nat) (n : Nat) : (resize l n).length = n := by
  simp [resize]; omega

/-- The life of a core: constructed, initialised, then given `n` frames. -/
def lifecycle (size : Int) (uniform : Bool) (gen1 gen2 : GenLut) (n : Nat) : Exec Core := do
  let c ← Core.mk? size uniform
  let c ← c.init gen1
  c.setNFrames gen2 n

theorem lifecycle_holds {size : Nat} {uniform : Bool} {gen1 gen2 : GenLut} {n : Nat}
    {T1 T2 : Nat → List Nat} (hs : 0 < size) (hn : 0 < n)
    (hgen1 : ∀ f, ∀ buf : List Nat, buf.length = size → gen1 f buf = ok (T1 f))
    (hgen2 : ∀ f, ∀ buf : List Nat, buf.length = size → gen2 f buf = ok (T2 f))
    (hT1 : ∀ f, IsPermutation size (T1 f)) (hT2 : ∀ f, IsPermutation size (T2 f)) :
    (lifecycle size uniform gen1 gen2 n).Sat fun c => c.size = size ∧ c.nFrames = n ∧
      c.uniform = uniform ∧ c.initialized = true ∧
      Holds c (fun f => let T := if n = 1 then T1 else T2; if uniform then T f else T 0) := by
  unfold lifecycle Core.mk?
  rw [if_neg (by omega), bind_ok]
  refine (init_holds (T := T1) (by simp) (by simp) (by simp) (by simpa using hgen1) (by simpa using hT1)).bind ?_
  rintro c ⟨h1, h2, h3, h4, h5⟩
  simp only [Int.toNat_natCast] at h1 h2 h3 h5
  unfold Core.setNFrames
  rw [if_neg (by omega), h2]
  by_cases hn1 : n = 1
  · subst hn1
    rw [if_neg (by simp), sat_ok]
    refine ⟨h1, h2, h3, h4, ?_⟩
    simpa using h5
  · rw [if_pos (by omega)]
    have hlp := h5.lenPi
    have hli := h5.lenInv
    rw [h2, Nat.one_mul, h1] at hlp hli
    refine (init_holds (T := T2) (by simpa using hn) ?_ ?_ (by simpa [h1] using hgen2)
      (by simpa [h1] using hT2)).mono ?_
    · simp only [resize_length]; rw [hlp, h1, Nat.div_one, Nat.mul_comm]
    · simp only [resize_length]; rw [hli, h1, Nat.div_one, Nat.mul_comm]
    · rintro c' ⟨g1, g2, g3, g4, g5⟩
      refine ⟨by simp at g1; omega, by simpa using g2, by simp [h3] at g3; exact g3, g4, ?_⟩
      simp only [if_neg hn1]
      simpa [h3] using g5

/-- One frame of `_interleave`. -/
theorem gather_sat {α : Type _} {size b off : Nat} {lut : List Nat} {t : Nat → Nat} {inV out : List α}
    (hlut : ∀ i, i < size → lut[b + i]? = some (t i)) (ht : ∀ i, i < size → t i < size)
    (hin : off + size ≤ inV.length) (hout : off + size ≤ out.length) :
    (forN size (fun i (out : List α) => do
        let p ← rd lut (b + i)
        let v ← rd inV (off + p)
        wr out (off + i) v) out).Sat fun o => o.length = out.length ∧
      ∀ j : Nat, o[j]? = if off ≤ j ∧ j < off + size then inV[off + t (j - off)]? else out[j]? := by
  refine forN_inv (fun k (o : List α) => o.length = out.length ∧
      ∀ j : Nat, o[j]? = if off ≤ j ∧ j < off + k then inV[off + t (j - off)]? else out[j]?) ?_ ?_
  · exact ⟨rfl, fun j => by rw [if_neg (by omega)]⟩
  · rintro i o hi ⟨hl, ho⟩
    have := ht i hi
    rw [rd_eq (hlut i hi), bind_ok, rd_lt (by omega), bind_ok, wr_lt (by omega), sat_ok]
    refine ⟨by simpa using hl, fun j => ?_⟩
    rw [List.getElem?_set]
    by_cases hj : off + i = j
    · subst hj
      rw [if_pos rfl, if_pos (by omega), if_pos (by omega)]
      simp [show off + t i < inV.length by omega]
    · rw [if_neg hj, ho]
      by_cases h1 : off ≤ j ∧ j < off + i
      · rw [if_pos h1, if_pos (by omega)]
      · rw [if_neg h1, if_neg (by omega)]

/-- The table used for the `f`-th frame of a wave. -/
def tableOf (c : Core) (nf frameId : Nat) : Nat → Nat
  | 0 => if c.uniform then (frameId % nf) % c.nFrames else 0
  | f + 1 => if c.uniform then ((tableOf c nf frameId f + 1) % nf) % c.nFrames else 0

theorem tableOf_lt {c : Core} (hn : 0 < c.nFrames) (nf frameId f : Nat) :
    tableOf c nf frameId f < c.nFrames := by
  cases f <;> unfold tableOf <;> split <;> first | exact Nat.mod_lt _ hn | exact hn

/-- `_interleave` on a whole wave, for any lookup table whose frame `f` slice maps `i` to `t f i`. -/
theorem interleaveRaw_sat {α : Type _} {c : Core} {npw nf frameId : Nat} {lut : List Nat}
    {t : Nat → Nat → Nat} {inV outV : List α} (hn : 0 < c.nFrames)
    (hlut : ∀ f, f < c.nFrames → ∀ i, i < c.size → lut[f * c.size + i]? = some (t f i))
    (ht : ∀ f, f < c.nFrames → ∀ i, i < c.size → t f i < c.size)
    (hin : inV.length = npw * c.size) (hout : outV.length = npw * c.size) :
    (interleaveRaw c npw nf lut frameId inV outV).Sat fun o => o.length = npw * c.size ∧
      ∀ f, f < npw → ∀ i, i < c.size →
        o[f * c.size + i]? = inV[f * c.size + t (tableOf c nf frameId f) i]? := by
  unfold interleaveRaw
  split
  · rename_i hu
    refine forN_inv (fun k (o : List α) => o.length = npw * c.size ∧
      ∀ f, f < k → ∀ i, i < c.size →
        o[f * c.size + i]? = inV[f * c.size + t (tableOf c nf frameId f) i]?) ?_ ?_
    · exact ⟨hout, fun f hf => absurd hf (Nat.not_lt_zero f)⟩
    · rintro f o hf ⟨hl, ho⟩
      have hsl := slice_le (size := c.size) hf
      have e0 : ∀ g, tableOf c nf frameId g = 0 := by intro g; cases g <;> simp [tableOf, hu]
      have h0 : ∀ i, i < c.size → lut[0 + i]? = some (t 0 i) := by
        intro i hi; have := hlut 0 hn i hi; rwa [Nat.zero_mul] at this
      have key := gather_sat (α := α) (b := 0) (off := f * c.size) (inV := inV) (out := o) h0 (ht 0 hn)
        (by omega) (by omega)
      simp only [Nat.zero_add] at key
      refine key.mono ?_
      rintro o' ⟨hl', ho'⟩
      refine ⟨by omega, fun g hg i hi => ?_⟩
      rw [e0]
      rcases Nat.lt_succ_iff_lt_or_eq.mp hg with hlt | rfl
      · have := slice_bound (size := c.size) hlt hi
        rw [ho', if_neg (by omega), ho g hlt i hi, e0]
      · rw [ho', if_pos (by omega)]; congr 3; omega
  · rename_i hu
    have hu : c.uniform = true := by simpa using hu
    refine Sat.bind (P := fun (s : Nat × List α) => s.2.length = npw * c.size ∧
      ∀ f, f < npw → ∀ i, i < c.size →
        s.2[f * c.size + i]? = inV[f * c.size + t (tableOf c nf frameId f) i]?) ?_ ?_
    · refine (forN_inv (fun k (s : Nat × List α) => s.1 = tableOf c nf frameId k ∧
        s.2.length = npw * c.size ∧ ∀ f, f < k → ∀ i, i < c.size →
        s.2[f * c.size + i]? = inV[f * c.size + t (tableOf c nf frameId f) i]?) ?_ ?_).mono
          (fun s h => h.2)
      · exact ⟨by simp [tableOf, hu], hout, fun f hf => absurd hf (Nat.not_lt_zero f)⟩
      · rintro f ⟨cur, o⟩ hf ⟨hc, hl, ho⟩
        simp only at hc hl ho ⊢
        subst hc
        have hsl := slice_le (size := c.size) hf
        have hcur := tableOf_lt hn nf frameId f
        refine (gather_sat (b := tableOf c nf frameId f * c.size) (off := f * c.size)
          (hlut _ hcur) (ht _ hcur) (by omega) (by omega)).bind ?_
        rintro o' ⟨hl', ho'⟩
        rw [sat_ok]
        refine ⟨by simp [tableOf, hu], by simp only; omega, fun g hg i hi => ?_⟩
        simp only
        rcases Nat.lt_succ_iff_lt_or_eq.mp hg with hlt | rfl
        · have := slice_bound (size := c.size) hlt hi
          rw [ho', if_neg (by omega), ho g hlt i hi]
        · rw [ho', if_pos (by omega)]; congr 3; omega
    · rintro ⟨_, o⟩ h
      rw [sat_ok]; exact h

/-- Index decomposition: a buffer of `n` frames is determined frame by frame. -/
theorem ext_frames {α : Type _} {n size : Nat} {a b : List α} (ha : a.length = n * size)
    (hb : b.length = n * size) (h : ∀ f, f < n → ∀ i, i < size → a[f * size + i]? = b[f * size + i]?) :
    a = b := by
  apply List.ext_getElem?
  intro j
  by_cases hj : j < n * size
  · have hs : 0 < size := by
      rcases Nat.eq_zero_or_pos size with rfl | h
      · simp at hj
      · exact h
    have hq : j / size < n := Nat.div_lt_of_lt_mul (by rwa [Nat.mul_comm])
    have := h (j / size) hq (j % size) (Nat.mod_lt _ hs)
    rwa [Nat.mul_comm, Nat.div_add_mod] at this
  · rw [List.getElem?_eq_none (by omega), List.getElem?_eq_none (by omega)]

/-- Tables as functions. -/
theorem Holds.fwd {c : Core} {T : Nat → List Nat} (h : Holds c T) {f i : Nat} (hf : f < c.nFrames)
    (hi : i < c.size) : c.pi[f * c.size + i]? = some ((T f).getD i 0) ∧ (T f).getD i 0 < c.size := by
  have hl := (h.perm f hf).length
  have hlt : i < (T f).length := by omega
  constructor
  · rw [h.pi f hf i hi, List.getD_eq_getElem?_getD, List.getElem?_eq_getElem hlt]; rfl
  · rw [getD_lt _ hlt]; exact (h.perm f hf).lt hlt

/-- The inverse table as a function. -/
def invOf (t : List Nat) (p : Nat) : Nat := t.findIdx (fun v => v == p)

theorem invOf_spec {K : Nat} {t : List Nat} (h : IsPermutation K t) {i : Nat} (hi : i < K) :
    invOf t (t.getD i 0) = i := by
  have hl := h.length
  have hlt : i < t.length := by omega
  rw [getD_lt _ hlt]
  unfold invOf
  have hex : t.findIdx (fun v => v == t[i]) < t.length :=
    List.findIdx_lt_length_of_exists ⟨t[i], List.getElem_mem hlt, by simp⟩
  have := List.findIdx_getElem (w := hex)
  exact h.inj hex hlt (by simpa using this)

theorem Holds.bwd {c : Core} {T : Nat → List Nat} (h : Holds c T) {f p : Nat} (hf : f < c.nFrames)
    (hp : p < c.size) :
    c.piInv[f * c.size + p]? = some (invOf (T f) p) ∧ invOf (T f) p < c.size ∧
      (T f).getD (invOf (T f) p) 0 = p := by
  obtain ⟨i, hi, rfl⟩ := (h.perm f hf).surj hp
  have hl := (h.perm f hf).length
  have hi' : i < c.size := by omega
  have e : (T f)[i] = (T f).getD i 0 := (getD_lt _ hi).symm
  have he : invOf (T f) (T f)[i] = i := by rw [e]; exact invOf_spec (h.perm f hf) hi'
  refine ⟨?_, by rw [he]; exact hi', by rw [he, e]⟩
  rw [he]
  exact h.inv f hf i _ (List.getElem?_eq_getElem hi)

theorem interleave_sat {α : Type _} {c : Core} {T : Nat → List Nat} (hc : Holds c T)
    (hini : c.initialized = true) (hn : 0 < c.nFrames) {npw nf frameId : Nat} {inV outV : List α}
    (hin : inV.length = npw * c.size) (hout : outV.length = npw * c.size) :
    (interleave c npw nf frameId inV outV).Sat fun o => o.length = npw * c.size ∧
      ∀ f, f < npw → ∀ i, i < c.size →
        o[f * c.size + i]? = inV[f * c.size + (T (tableOf c nf frameId f)).getD i 0]? := by
  unfold interleave Core.getLut
  rw [if_pos hini, bind_ok]
  exact interleaveRaw_sat (t := fun f i => (T f).getD i 0) hn (fun f hf i hi => (hc.fwd hf hi).1)
    (fun f hf i hi => (hc.fwd hf hi).2) hin hout

theorem deinterleave_sat {α : Type _} {c : Core} {T : Nat → List Nat} (hc : Holds c T)
    (hini : c.initialized = true) (hn : 0 < c.nFrames) {npw nf frameId : Nat} {inV outV : List α}
    (hin : inV.length = npw * c.size) (hout : outV.length = npw * c.size) :
    (deinterleave c npw nf frameId inV outV).Sat fun o => o.length = npw * c.size ∧
      ∀ f, f < npw → ∀ i, i < c.size →
        o[f * c.size + i]? = inV[f * c.size + invOf (T (tableOf c nf frameId f)) i]? := by
  unfold deinterleave Core.getLutInv
  rw [if_pos hini, bind_ok]
  exact interleaveRaw_sat (t := fun f i => invOf (T f) i) hn (fun f hf i hi => (hc.bwd hf hi).1)
    (fun f hf i hi => (hc.bwd hf hi).2.1) hin hout

end Verif.Interleaver
