import Verif.Proof.PolarMKEnc

/-! # C105–C106: multi-kernel polar codes and their encoders -/

namespace Verif.PolarMK
open Exec Finset

variable {w : Nat}

/-! ## The constructors of the code -/

theorem forEach_unit {α : Type _} {l : List α} {f : α → Unit → Exec Unit} :
    forEach l f () = ok () ↔ ∀ a ∈ l, f a () = ok () := by
  induction l with
  | nil => simp [forEach]
  | cons a l ih =>
    rw [forEach_cons]
    constructor
    · intro h
      obtain ⟨⟨⟩, h1, h2⟩ := BCJR.bind_inv h
      intro b hb
      rcases List.mem_cons.mp hb with rfl | hb
      · exact h1
      · exact ih.mp h2 b hb
    · intro h
      rw [h a (by simp), bind_ok]
      exact ih.mpr fun b hb => h b (by simp [hb])

theorem forEach_mul {l : List Nat} {F : Nat → Nat} : ∀ {m r : Nat}, forEach l (fun a m => mulI m (F a)) m = ok r →
    r = m * (l.map F).prod ∧ (m < 2 ^ 31 → r < 2 ^ 31) := by
  induction l with
  | nil => intro m r h; cases h; simp
  | cons a l ih =>
    intro m r h
    rw [forEach_cons] at h
    obtain ⟨m', h1, h2⟩ := BCJR.bind_inv h
    unfold mulI at h1
    split at h1
    · next hlt =>
      cases h1
      obtain ⟨e1, e2⟩ := ih h2
      refine ⟨by rw [e1, List.map_cons, List.prod_cons, Nat.mul_assoc], fun _ => e2 hlt⟩
    · cases h1

theorem forEach_mul_ok {l : List Nat} {F : Nat → Nat} (hF : ∀ a ∈ l, 0 < F a) : ∀ {m : Nat}, m * (l.map F).prod < 2 ^ 31 →
    forEach l (fun a m => mulI m (F a)) m = ok (m * (l.map F).prod) := by
  induction l with
  | nil => intro m _; simp [forEach]
  | cons a l ih =>
    intro m h
    rw [List.map_cons, List.prod_cons] at h ⊢
    have hpos : 0 < (l.map F).prod := by
      apply List.prod_pos
      intro n hn
      obtain ⟨b, hb, rfl⟩ := List.mem_map.mp hn
      exact hF b (by simp [hb])
    have hlt : m * F a < 2 ^ 31 := by
      have := Nat.le_mul_of_pos_right (m * F a) hpos
      rw [Nat.mul_assoc] at this
      omega
    rw [forEach_cons]
    unfold mulI
    rw [if_pos hlt, bind_ok, ← Nat.mul_assoc]
    exact ih (fun b hb => hF b (by simp [hb])) (by rw [Nat.mul_assoc]; exact h)

theorem rd_getD {ks : List Kernel} {s : Nat} (h : s < ks.length) : rd ks s = ok (ks.getD s []) := by
  rw [rd_lt h, getD_lt [] h]

theorem sq_any {ks : List Kernel} :
    (ks.any fun k => k.any fun r => decide (r.length ≠ k.length)) = true ↔ ¬ ∀ K ∈ ks, Square K := by
  simp [Square]

theorem det_loop {ks : List Kernel} (hs : ∀ K ∈ ks, Square K) :
    forEach ks (fun k _ => do
      let d ← determinant k.length k
      if d ≠ 0 then ok () else exc .runtimeError) () = ok () ↔ ∀ K ∈ ks, K ≠ [] ∧ det K ≠ 0 := by
  rw [forEach_unit]
  have key : ∀ K ∈ ks, (do
      let d ← determinant K.length K
      if d ≠ 0 then ok () else exc .runtimeError : Exec Unit) = ok () ↔ K ≠ [] ∧ det K ≠ 0 := by
    intro K hK
    by_cases h0 : K = []
    · subst h0
      simp [determinant]
    · rw [determinant_det (hs K hK) h0, bind_ok]
      by_cases hd : det K = 0
      · simp [hd]
      · simp [hd, h0]
  exact ⟨fun h K hK => (key K hK).mp (h K hK), fun h K hK => (key K hK).mpr (h K hK)⟩

/-- Multiplicities give the product of the sizes. -/
theorem prod_dedup (l : List Nat) (f : Nat → Nat) : (l.dedup.map fun s => f s ^ l.count s).prod = (l.map f).prod := by
  have h : l.toFinset = l.dedup.toFinset := by ext a; simp
  rw [Finset.prod_list_map_count l f, h, List.prod_toFinset _ (List.nodup_dedup l)]

theorem verif_iff {c : Code} (hst : ∀ s ∈ c.stages, s < c.kernels.length) (hN : c.N < 2 ^ 31) :
    c.verif = ok () ↔ (∀ K ∈ c.kernels, Square K ∧ K ≠ [] ∧ det K ≠ 0) ∧ c.N = size c.stageKernels := by
  have hsz : size c.stageKernels = (c.stages.map fun s => (c.kernels.getD s []).length).prod := by
    unfold size Code.stageKernels
    rw [List.map_map]; rfl
  have hloop : ∀ m, forEach c.stages.dedup (fun s m => do
      let k ← rd c.kernels s
      mulI m (k.length ^ c.stages.count s)) m =
      forEach c.stages.dedup (fun s m => mulI m ((c.kernels.getD s []).length ^ c.stages.count s)) m := by
    intro m
    apply forEach_congr
    intro s hs m
    rw [rd_getD (hst s (List.mem_dedup.mp hs)), bind_ok]
  unfold Code.verif
  by_cases hsq : ∀ K ∈ c.kernels, Square K
  swap
  · rw [if_pos (sq_any.mpr hsq)]
    constructor
    · intro h; cases h
    · intro h; exact absurd (fun K hK => (h.1 K hK).1) hsq
  rw [if_neg (by rw [sq_any]; exact fun h => h hsq)]
  constructor
  · intro h
    obtain ⟨⟨⟩, h1, h2⟩ := BCJR.bind_inv h
    obtain ⟨m, h3, h4⟩ := BCJR.bind_inv h2
    rw [hloop] at h3
    obtain ⟨e1, _⟩ := forEach_mul h3
    rw [prod_dedup c.stages fun s => (c.kernels.getD s []).length, ← hsz, Nat.one_mul] at e1
    have hdet := (det_loop hsq).mp h1
    refine ⟨fun K hK => ⟨hsq K hK, hdet K hK⟩, ?_⟩
    split at h4
    · cases h4
    · next hne => rw [← e1]; exact (Decidable.not_not.mp hne).symm
  · rintro ⟨h1, h2⟩
    rw [(det_loop hsq).mpr fun K hK => (h1 K hK).2, bind_ok, hloop]
    have hp := prod_dedup c.stages fun s => (c.kernels.getD s []).length
    rw [← hsz, ← h2] at hp
    rw [forEach_mul_ok (fun s hs => ?_) (by rw [hp]; omega), hp, bind_ok, Nat.one_mul, if_neg (by simp)]
    have hlt := hst s (List.mem_dedup.mp hs)
    have hm : c.kernels.getD s [] ∈ c.kernels := by rw [getD_lt [] hlt]; exact List.getElem_mem hlt
    exact Nat.pow_pos (List.length_pos_iff.mpr (h1 _ hm).2.1)

/-- **C106**: a stage that names no kernel makes the constructor read out of bounds: the length is computed
before the stages are checked, so the exception for that error is never thrown. -/
theorem C106_stage_ub (kernels : List Kernel) (stages : List Nat) (h : ∃ s ∈ stages, kernels.length ≤ s) :
    Code.mk? kernels stages = ub := by
  unfold Code.mk?
  have key : ∀ m, forEach stages (fun s n => do
      let k ← rd kernels s
      mulI n k.length) m = ub := by
    induction stages with
    | nil => simp at h
    | cons a l ih =>
      intro m
      rw [forEach_cons]
      by_cases ha : a < kernels.length
      · have hl : ∃ s ∈ l, kernels.length ≤ s := by
          obtain ⟨s, hs, hk⟩ := h
          rcases List.mem_cons.mp hs with rfl | hs
          · omega
          · exact ⟨s, hs, hk⟩
        rw [rd_getD ha, bind_ok]
        unfold mulI
        split
        · rw [bind_ok]; exact ih hl _
        · rfl
      · have : rd kernels a = ub := by
          unfold rd
          rw [List.getElem?_eq_none (by omega)]
        rw [this]; rfl
  rw [key 1]; rfl

example : ∃ s ∈ [0, 1], ([[[true, false], [true, true]]] : List Kernel).length ≤ s := ⟨1, by simp, by decide⟩

/-- **C105**: the codes that the constructor accepts.  There is at least one stage, at least as many stages as
kernels, every stage names a kernel, every kernel is square, not empty and of nonzero determinant over the
integers, and the length, the product of the sizes of the kernels of the stages, is an `int`. -/
theorem C105_code (kernels : List Kernel) (stages : List Nat) (c : Code) :
    Code.mk? kernels stages = ok c ↔
      stages ≠ [] ∧ kernels.length ≤ stages.length ∧ (∀ s ∈ stages, s < kernels.length) ∧
      (∀ K ∈ kernels, Square K ∧ K ≠ [] ∧ det K ≠ 0) ∧ size c.stageKernels < 2 ^ 31 ∧
      c = { N := size c.stageKernels, kernels := kernels, stages := stages } := by
  by_cases hst : ∀ s ∈ stages, s < kernels.length
  swap
  · constructor
    · intro h
      rw [C106_stage_ub kernels stages (by
        by_contra hc; apply hst; intro s hs; by_contra hlt; exact hc ⟨s, hs, by omega⟩)] at h
      cases h
    · intro h; exact absurd h.2.2.1 hst
  have hloop : forEach stages (fun s n => do
      let k ← rd kernels s
      mulI n k.length) 1 = forEach stages (fun s m => mulI m (kernels.getD s []).length) 1 := by
    apply forEach_congr
    intro s hs m
    rw [rd_getD (hst s hs), bind_ok]
  have hsz : ∀ n, size (Code.stageKernels { N := n, kernels := kernels, stages := stages }) =
      (stages.map fun s => (kernels.getD s []).length).prod := by
    intro n
    unfold size Code.stageKernels
    rw [List.map_map]; rfl
  have hchk : (stages.any fun s => decide (kernels.length ≤ s)) = false := by
    rw [List.any_eq_false]
    intro s hs
    simpa using hst s hs
  unfold Code.mk?
  rw [hloop]
  constructor
  · intro h
    obtain ⟨n, h1, h2⟩ := BCJR.bind_inv h
    obtain ⟨e1, e2⟩ := forEach_mul h1
    have hn := e2 (by omega)
    obtain ⟨⟨⟩, h3, h4⟩ := BCJR.bind_inv h2
    injection h4 with h4
    unfold Code.verifMK at h3
    simp only at h3
    by_cases h0 : stages.length = 0
    · rw [if_pos h0] at h3; cases h3
    rw [if_neg h0] at h3
    by_cases hle : stages.length < kernels.length
    · rw [if_pos hle] at h3; cases h3
    rw [if_neg hle, hchk, if_neg (by simp)] at h3
    obtain ⟨g1, g2⟩ := (verif_iff (c := { N := n, kernels := kernels, stages := stages }) hst hn).mp h3
    simp only at g1 g2
    subst h4
    exact ⟨fun hc => h0 (by simp [hc]), by omega, hst, g1, by omega, by rw [← g2]⟩
  · rintro ⟨h1, h2, _, h3, h4, h5⟩
    rw [h5] at h4 ⊢
    rw [hsz] at h4
    rw [forEach_mul_ok (fun s hs => ?_) (by rw [Nat.one_mul]; exact h4), bind_ok]
    · simp only [hsz, Nat.one_mul]
      unfold Code.verifMK
      simp only
      have hv := (verif_iff (c := ⟨(stages.map fun s => (kernels.getD s []).length).prod, kernels, stages⟩) hst h4).mpr
        ⟨h3, (hsz _).symm⟩
      have hcs : size c.stageKernels = (stages.map fun s => (kernels.getD s []).length).prod := by
        conv => lhs; rw [h5]
        exact hsz _
      rw [if_neg (fun hc => h1 (List.length_eq_zero_iff.mp hc)), if_neg (by omega), hchk, if_neg (by simp), hv, bind_ok, hcs]
    · have hm : kernels.getD s [] ∈ kernels := by rw [getD_lt [] (hst s hs)]; exact List.getElem_mem _
      exact List.length_pos_iff.mpr (h3 _ hm).2.1

/-- **C105**: the codes of one kernel that the other constructor accepts, whatever number `m` of stages the
floating-point logarithms give: the length is the `m`-th power of the size of the kernel. -/
theorem C105_code_mono (N : Int) (kernel : Kernel) (m : Nat) (c : Code) (hN : N < 2 ^ 31) :
    Code.mkMono? N kernel m = ok c ↔
      N = (kernel.length : Int) ^ m ∧ Square kernel ∧ kernel ≠ [] ∧ det kernel ≠ 0 ∧
      c = { N := kernel.length ^ m, kernels := [kernel], stages := List.replicate m 0 } := by
  have hsz : ∀ n, size (Code.stageKernels { N := n, kernels := [kernel], stages := List.replicate m 0 }) =
      kernel.length ^ m := by
    intro n
    simp [size, Code.stageKernels]
  have hst : ∀ s ∈ List.replicate m 0, s < [kernel].length := by
    intro s hs
    rw [List.eq_of_mem_replicate hs]; simp
  unfold Code.mkMono?
  by_cases h0 : N ≤ 0
  · rw [if_pos h0]
    constructor
    · intro h; cases h
    · rintro ⟨h, _, h1, _⟩
      have : 0 < (kernel.length : Int) ^ m := by
        apply pow_pos
        exact_mod_cast List.length_pos_iff.mpr h1
      omega
  rw [if_neg h0]
  have hv := verif_iff (c := { N := N.toNat, kernels := [kernel], stages := List.replicate m 0 }) hst (by
    show N.toNat < _; omega)
  simp only at hv
  constructor
  · intro h
    obtain ⟨⟨⟩, h1, h2⟩ := BCJR.bind_inv h
    obtain ⟨g1, g2⟩ := hv.mp h1
    obtain ⟨k1, k2, k3⟩ := g1 kernel (by simp)
    rw [hsz] at g2
    injection h2 with h2
    refine ⟨?_, k1, k2, k3, by rw [← h2, g2]⟩
    have : ((N.toNat : Nat) : Int) = ((kernel.length ^ m : Nat) : Int) := by rw [g2]
    rw [Nat.cast_pow] at this
    omega
  · rintro ⟨h1, h2, h3, h4, h5⟩
    have hn : N.toNat = kernel.length ^ m := by
      have : N = ((kernel.length ^ m : Nat) : Int) := by rw [h1]; push_cast; rfl
      omega
    simp only
    rw [hv.mpr ⟨by intro K hK; simp at hK; subst hK; exact ⟨h2, h3, h4⟩, by rw [hsz, hn]⟩, bind_ok, h5, hn]

/-- The codes the two constructors give (with at least one stage). -/
inductive Accepted : Code → Prop
  | multi {kernels : List Kernel} {stages : List Nat} {c : Code} (h : Code.mk? kernels stages = ok c) : Accepted c
  | mono {N : Int} {kernel : Kernel} {m : Nat} {c : Code} (hN : N < 2 ^ 31) (h : Code.mkMono? N kernel (m + 1) = ok c) :
      Accepted c

theorem Accepted.codeOk {c : Code} (h : Accepted c) : CodeOk c := by
  cases h with
  | @multi kernels stages c h =>
    obtain ⟨h1, _, h3, h4, h5, h6⟩ := (C105_code _ _ _).mp h
    have e1 : c.stages = stages := by rw [h6]
    have e2 : c.kernels = kernels := by rw [h6]
    have e3 : c.N = size c.stageKernels := by conv => lhs; rw [h6]
    exact ⟨by rw [e1]; exact h1, fun K hK => by rw [e2] at hK; exact ⟨(h4 K hK).1, (h4 K hK).2.1⟩,
      fun s hs => by rw [e1] at hs; rw [e2]; exact h3 s hs, e3, by rw [e3]; exact h5⟩
  | @mono N kernel m c hN h =>
    obtain ⟨h1, h2, h3, _, h5⟩ := (C105_code_mono _ _ _ _ hN).mp h
    subst h5
    refine ⟨by simp [List.replicate_succ], fun K hK => ?_, fun s hs => ?_, by simp [size, Code.stageKernels], ?_⟩
    · simp only [List.mem_singleton] at hK; subst hK; exact ⟨h2, h3⟩
    · rw [List.eq_of_mem_replicate hs]; simp
    · show kernel.length ^ (m + 1) < 2 ^ 31
      have : N = ((kernel.length ^ (m + 1) : Nat) : Int) := by rw [h1]; push_cast; rfl
      omega

/-! ## The encoder -/

theorem biggest_le {ks : List Kernel} {m : Nat} : m ≤ ks.foldl (fun m k => max m k.length) m ∧
    ∀ K ∈ ks, K.length ≤ ks.foldl (fun m k => max m k.length) m := by
  induction ks generalizing m with
  | nil => simp
  | cons a l ih =>
    obtain ⟨h1, h2⟩ := ih (m := max m a.length)
    rw [List.foldl_cons]
    refine ⟨by omega, ?_⟩
    intro K hK
    rcases List.mem_cons.mp hK with rfl | hK
    · omega
    · exact h2 K hK

theorem enc_mk {K N : Int} {c : Code} {frozen : List Bool} {e : Enc w} (hc : CodeOk c)
    (h : Enc.mk? w K N c frozen = ok e) : Polar.Enc.mk? K N frozen = ok e.core ∧ e.code = c ∧ EncOk e := by
  unfold Enc.mk? at h
  obtain ⟨core, h1, h2⟩ := BCJR.bind_inv h
  obtain ⟨ke, h3, h4⟩ := BCJR.bind_inv h2
  injection h4 with h4
  obtain ⟨ke', k1, k2, k3⟩ := flatKernels_sat (w := w) (ks := c.kernels) fun K hK => (hc.kern K hK).1
  rw [k1] at h3
  injection h3 with h3
  subst h4 h3
  refine ⟨h1, rfl, k3, ?_, ?_⟩
  · intro K hK
    rw [List.length_replicate]
    exact biggest_le.2 K hK
  · intro K hK
    rw [List.length_replicate]
    exact biggest_le.2 K hK

/-- **C105**: the constructor of the encoder accepts exactly the frozen sets of the right size, and
`get_info_bits_pos` lists the non-frozen positions in increasing order. -/
theorem C105_constructor (K N : Int) (c : Code) (hc : Accepted c) (frozen : List Bool) :
    ((∃ e : Enc w, Enc.mk? w K N c frozen = ok e) ↔
      0 < K ∧ N = frozen.length ∧ K = (frozen.filter (· = false)).length) ∧
    ∀ e : Enc w, Enc.mk? w K N c frozen = ok e → e.code = c ∧
      e.core = { K := K.toNat, N := N.toNat, frozen := frozen, infoPos := Polar.infoPositions frozen } := by
  have hc := hc.codeOk
  refine ⟨⟨?_, ?_⟩, ?_⟩
  · rintro ⟨e, he⟩
    obtain ⟨h1, _, _⟩ := enc_mk hc he
    obtain ⟨g1, g2, g3, _⟩ := (Polar.C09_constructor _ _ _ _).mp h1
    exact ⟨g1, g2, g3⟩
  · rintro ⟨h1, h2, h3⟩
    obtain ⟨ke', k1, _⟩ := flatKernels_sat (w := w) (ks := c.kernels) fun K hK => (hc.kern K hK).1
    unfold Enc.mk?
    rw [(Polar.C09_constructor _ _ _ _).mpr ⟨h1, h2, h3, rfl⟩, bind_ok, k1, bind_ok]
    exact ⟨_, rfl⟩
  · intro e he
    obtain ⟨h1, h2, _⟩ := enc_mk hc he
    exact ⟨h2, ((Polar.C09_constructor _ _ _ _).mp h1).2.2.2⟩

/-- The histories of an encoder whose length is the length of its code: `set_frozen_bits` and encodings with
buffers of the sizes the tasks check. -/
inductive Reach (c : Code) : Enc w → Prop
  | mk {K : Int} {frozen : List Bool} {e : Enc w} (h : Enc.mk? w K c.N c frozen = ok e) : Reach c e
  | setFrozen {e e' : Enc w} {frozen : List Bool} (t : Reach c e) (h : e.setFrozen frozen = ok e') : Reach c e'
  | encode {e e' : Enc w} {u out x : List (BitVec w)} (t : Reach c e) (hu : u.length = e.core.K) (ho : out.length = c.N)
      (h : e.encode u out = ok (e', x)) : Reach c e'
  | encodeSys {e e' : Enc w} {u out x : List (BitVec w)} (t : Reach c e) (hu : u.length = e.core.K) (ho : out.length = c.N)
      (h : e.encodeSys u out = ok (e', x)) : Reach c e'

/-- What the histories preserve. -/
structure St (c : Code) (e : Enc w) : Prop where
  code : e.code = c
  eok : EncOk e
  n : e.core.N = c.N
  fr : e.core.frozen.length = c.N
  k : (e.core.frozen.filter (· = false)).length = e.core.K
  pos : e.core.infoPos = Polar.infoPositions e.core.frozen

theorem transform_length (Ks : List Kernel) (x : List (BitVec w)) : (transform Ks x).length = size Ks := by
  simp [transform]

theorem St.enc (hw : 0 < w) {c : Code} (hc : CodeOk c) {e : Enc w} (h : St c e) {u out : List (BitVec w)}
    (hu : u.length = e.core.K) (ho : out.length = c.N) :
    ∃ e', e.encode u out = ok (e', transform c.stageKernels (Polar.place e.core.frozen u)) ∧ e'.core = e.core ∧ St c e' := by
  obtain rfl := h.code
  unfold Enc.encode
  rw [Polar.convert_eq (by have := h.k; omega) (by rw [ho, h.fr]), bind_ok]
  obtain ⟨s, h1, h2, h3, h4⟩ := lightEncode_sat hw (e := e) hc h.eok h.n
    (s := { x := Polar.place e.core.frozen u, idx := e.idx, u := e.u }) rfl rfl (by
      show (Polar.place e.core.frozen u).length = _
      rw [Polar.place_length, h.fr, h.n])
  rw [h1, bind_ok, h2]
  exact ⟨_, rfl, rfl, h.code, ⟨h.eok.ke, fun K hK => by rw [h3]; exact h.eok.idx K hK,
    fun K hK => by rw [h4]; exact h.eok.u K hK⟩, h.n, h.fr, h.k, h.pos⟩

/-- The word with zeros on the frozen positions. -/
def masked (frozen : List Bool) (x : List (BitVec w)) : List (BitVec w) :=
  (List.range frozen.length).map fun i => if frozen.getD i true then 0#w
    else if x.getD i 0#w ≠ 0#w then 1#w else 0#w

theorem mask_eq {e : Enc w} {x : List (BitVec w)} (hx : x.length = e.core.N) (hf : e.core.frozen.length = e.core.N) :
    e.mask x = ok (masked e.core.frozen x) := by
  obtain ⟨o, h1, h2, h3⟩ := Polar.maskLoop_sat (e := e.core) hx hf
  unfold Enc.mask
  rw [h1]
  congr 1
  apply eq_mapRange (by rw [h2, hf])
  intro i hi
  exact h3 i (by omega)

theorem St.encSys (hw : 0 < w) {c : Code} (hc : CodeOk c) {e : Enc w} (h : St c e) {u out : List (BitVec w)}
    (hu : u.length = e.core.K) (ho : out.length = c.N) :
    ∃ e', e.encodeSys u out = ok (e', transform c.stageKernels (masked e.core.frozen
      (transform c.stageKernels (Polar.place e.core.frozen u)))) ∧ e'.core = e.core ∧ St c e' := by
  obtain rfl := h.code
  unfold Enc.encodeSys
  rw [Polar.convert_eq (by have := h.k; omega) (by rw [ho, h.fr]), bind_ok]
  obtain ⟨s, h1, h2, h3, h4⟩ := lightEncode_sat hw (e := e) hc h.eok h.n
    (s := { x := Polar.place e.core.frozen u, idx := e.idx, u := e.u }) rfl rfl (by
      show (Polar.place e.core.frozen u).length = _
      rw [Polar.place_length, h.fr, h.n])
  rw [h1, bind_ok, h2]
  rw [mask_eq (by rw [transform_length, h.n, hc.len]) (by rw [h.fr, h.n]), bind_ok]
  obtain ⟨s', g1, g2, g3, g4⟩ := lightEncode_sat hw (e := e) hc h.eok h.n
    (s := { s with x := masked e.core.frozen (transform e.code.stageKernels (Polar.place e.core.frozen u)) }) h3 h4 (by
      show (masked e.core.frozen _).length = _
      rw [masked, List.length_map, List.length_range, h.fr, h.n])
  rw [g1, bind_ok, g2]
  exact ⟨_, rfl, rfl, h.code, ⟨h.eok.ke, fun K hK => by rw [g3]; exact h.eok.idx K hK,
    fun K hK => by rw [g4]; exact h.eok.u K hK⟩, h.n, h.fr, h.k, h.pos⟩

theorem Reach.st (hw : 0 < w) {c : Code} (hc : CodeOk c) {e : Enc w} (h : Reach c e) : St c e := by
  induction h with
  | @mk K frozen e h =>
    obtain ⟨h1, h2, h3⟩ := enc_mk hc h
    obtain ⟨g1, g2, g3, g4⟩ := (Polar.C09_constructor _ _ _ _).mp h1
    refine ⟨h2, h3, ?_, ?_, ?_, ?_⟩
    · rw [g4]; simp
    · rw [g4]; show frozen.length = _; omega
    · rw [g4]; show (frozen.filter (· = false)).length = K.toNat; omega
    · rw [g4]
  | @setFrozen e e' frozen t h ih =>
    unfold Enc.setFrozen at h
    obtain ⟨core, h1, h2⟩ := BCJR.bind_inv h
    injection h2 with h2
    unfold Polar.Enc.setFrozen at h1
    by_cases hl : frozen.length = e.core.N
    swap
    · rw [if_pos hl] at h1; cases h1
    rw [if_neg (by simpa using hl)] at h1
    by_cases hk : e.core.K = (frozen.filter (· = false)).length
    swap
    · rw [if_pos hk] at h1; cases h1
    rw [if_neg (by simpa using hk)] at h1
    have hpl : e.core.infoPos.length = (frozen.filter (· = false)).length := by
      rw [← hk, ← ih.k, ih.pos]
      have key : ∀ fr : List Bool, (Polar.infoPositions fr).length = (fr.filter (· = false)).length := by
        intro fr
        have hrange : fr = (List.range fr.length).map fun i => fr.getD i true := by
          apply eq_mapRange rfl
          intro i hi
          rw [getD_lt true hi, List.getElem?_eq_getElem hi]
        conv => rhs; rw [hrange, List.filter_map, List.length_map]
        unfold Polar.infoPositions
        congr 1
        apply List.filter_congr
        intro i hi
        have hi := List.mem_range.mp hi
        simp [List.getElem?_eq_getElem hi]
      exact key _
    rw [← hl, Polar.infoLoop_sat hpl, bind_ok] at h1
    injection h1 with h1
    subst h2 h1
    exact ⟨ih.code, ⟨ih.eok.ke, ih.eok.idx, ih.eok.u⟩, by show frozen.length = _; rw [hl, ih.n], by show frozen.length = _; rw [hl, ih.n], hk.symm, rfl⟩
  | encode t hu ho h ih =>
    obtain ⟨e2, h1, _, h3⟩ := ih.enc hw hc hu ho
    rw [h1] at h
    injection h with h
    injection h with h _
    subst h
    exact h3
  | encodeSys t hu ho h ih =>
    obtain ⟨e2, h1, _, h3⟩ := ih.encSys hw hc hu ho
    rw [h1] at h
    injection h with h
    injection h with h _
    subst h
    exact h3

/-- **C105**.  After any history of an encoder built for the length of its code, `encode` never fails and gives
the information bits, on the non-frozen positions, times the Kronecker product of the kernels of the stages. -/
theorem C105_encode (hw : 0 < w) (c : Code) (hc : Accepted c) (e : Enc w) (he : Reach c e) (u out : List (BitVec w))
    (hu : u.length = e.core.K) (ho : out.length = c.N) :
    ∃ e', e.encode u out = ok (e', transform c.stageKernels (Polar.place e.core.frozen u)) ∧ e'.core = e.core ∧
      e.core.infoPos = Polar.infoPositions e.core.frozen := by
  obtain ⟨e', h1, h2, _⟩ := (he.st hw hc.codeOk).enc hw hc.codeOk hu ho
  exact ⟨e', h1, h2, (he.st hw hc.codeOk).pos⟩

/-- **C105**: the transform is linear. -/
theorem C105_linear (hw : 0 < w) (Ks : List Kernel) (x y : List (BitVec w)) (hx : x.length = size Ks) (hy : y.length = size Ks) :
    transform Ks (List.zipWith (· ^^^ ·) x y) = List.zipWith (· ^^^ ·) (transform Ks x) (transform Ks y) := by
  symm
  apply eq_mapRange (by simp [transform_length])
  intro b hb
  rw [List.getElem?_zipWith]
  simp only [transform, getElem?_mapRange, if_pos hb]
  congr 1
  have hxor : ∀ p q : Bool, (ofBit p ^^^ ofBit q : BitVec w) = ofBit (p ^^ q) := by
    intro p q; cases p <;> cases q <;> simp [ofBit]
  rw [hxor]
  congr 1
  have hzx : ∀ p q : Bool, zb (p ^^ q) = zb p + zb q := by decide
  apply zb_inj
  rw [hzx, zb_parity, zb_parity, zb_parity, ← Finset.sum_add_distrib]
  apply Finset.sum_congr rfl
  intro a ha
  have ha := Finset.mem_range.mp ha
  rw [zb_and, zb_and, zb_and, ← add_mul, ← hzx]
  congr 2
  have hx' := List.getElem?_eq_getElem (show a < x.length by omega)
  have hy' := List.getElem?_eq_getElem (show a < y.length by omega)
  rw [bit_some hx', bit_some hy', bit_some (v := x[a] ^^^ y[a]) (by rw [List.getElem?_zipWith, hx', hy'])]
  simp

/-! ## Injectivity -/

theorem zb_bit_transform (hw : 0 < w) (Ks : List Kernel) (x : List (BitVec w)) {p : Nat} (hp : p < size Ks) :
    zb (bit (transform Ks x) p) = ∑ a ∈ range (size Ks), zb (bit x a) * G (fam Ks) a p := by
  have : (transform Ks x)[p]? = some (ofBit (decide
      (((List.range (size Ks)).filter fun a => bit x a && kron Ks a p).length % 2 = 1))) := by
    unfold transform
    rw [getElem?_mapRange, if_pos hp]
  rw [bit_some this, ofBit_lsb hw, zb_transform _ _ _ hp, T_lt _ _ _ (by rw [fsize_fam]; exact hp), fsize_fam]

theorem bits_ext {x y : List (BitVec w)} (hl : x.length = y.length) (hx : IsBits x) (hy : IsBits y)
    (h : ∀ i, i < x.length → bit x i = bit y i) : x = y := by
  apply List.ext_getElem hl
  intro i h1 h2
  have := h i h1
  rw [bit_some (List.getElem?_eq_getElem h1), bit_some (List.getElem?_eq_getElem h2)] at this
  by_cases hw : 0 < w
  · have h10 : (1#w).getLsbD 0 = true := by simp [hw]
    have h00 : (0#w).getLsbD 0 = false := by simp
    rcases hx _ (List.getElem_mem h1) with a | a <;> rcases hy _ (List.getElem_mem h2) with b | b <;>
      rw [a, b] at this ⊢ <;> simp [hw] at this
  · obtain rfl : w = 0 := by omega
    exact Subsingleton.elim _ _

theorem place_isBits {fr : List Bool} {u : List (BitVec w)} (hu : IsBits u) : IsBits (Polar.place fr u) := by
  intro v hv
  obtain ⟨i, hi, rfl⟩ := List.getElem_of_mem hv
  have := Polar.place_bits (fr := fr) (u := u) hu i
  rw [getD_lt 0#w hi] at this
  exact this

/-- **C105**: when the determinants of the kernels of the stages are odd, two different binary messages have
different codewords, whatever the frozen bits. -/
theorem C105_injective (hw : 0 < w) (c : Code) (hc : Accepted c) (hodd : ∀ K ∈ c.stageKernels, det K % 2 = 1) (e : Enc w)
    (he : Reach c e) (u v out out' : List (BitVec w)) (hu : u.length = e.core.K) (hv : v.length = e.core.K)
    (hub : IsBits u) (hvb : IsBits v) (ho : out.length = c.N) (ho' : out'.length = c.N) (e1 e2 : Enc w) (x : List (BitVec w))
    (h1 : e.encode u out = ok (e1, x)) (h2 : e.encode v out' = ok (e2, x)) : u = v := by
  have hs := he.st hw hc.codeOk
  obtain ⟨_, g1, _, _⟩ := hs.enc hw hc.codeOk hu ho
  obtain ⟨_, g2, _, _⟩ := hs.enc hw hc.codeOk hv ho'
  rw [g1] at h1
  rw [g2] at h2
  injection h1 with h1
  injection h2 with h2
  injection h1 with _ h1
  injection h2 with _ h2
  have heq := h1.trans h2.symm
  obtain ⟨F', hF⟩ := inv_of_odd (Ks := c.stageKernels) fun K hK => ⟨hodd K hK, (hc.codeOk.stage_kern hK).2⟩
  have hsz := fsize_fam c.stageKernels
  have hplace : Polar.place e.core.frozen u = Polar.place e.core.frozen v := by
    apply bits_ext (by rw [Polar.place_length, Polar.place_length]) (place_isBits hub) (place_isBits hvb)
    intro i hi
    rw [Polar.place_length, hs.fr, hc.codeOk.len] at hi
    apply zb_inj
    have a1 := hF.undo (fun a => zb (bit (Polar.place e.core.frozen u) a)) i (by rw [hsz]; exact hi)
    have a2 := hF.undo (fun a => zb (bit (Polar.place e.core.frozen v) a)) i (by rw [hsz]; exact hi)
    rw [← a1, ← a2]
    rw [hsz]
    apply Finset.sum_congr rfl
    intro b hb
    have hb := Finset.mem_range.mp hb
    rw [← zb_bit_transform hw _ _ hb, ← zb_bit_transform hw _ _ hb, heq]
  rw [← Polar.unplace_place e.core.frozen u (by rw [hu, hs.k]), hplace,
    Polar.unplace_place e.core.frozen v (by rw [hv, hs.k])]

/-- **C106**: the constructor asks for a nonzero determinant over the integers.  When the determinant of the kernel
of a stage is even, the encoder of rate 1 gives the same codeword to two different messages. -/
theorem C106_even_determinant (hw : 0 < w) (c : Code) (hc : Accepted c) (heven : ∃ K ∈ c.stageKernels, det K % 2 ≠ 1) (e : Enc w)
    (he : Reach c e) (hfr : e.core.frozen = List.replicate c.N false) :
    ∃ u v : List (BitVec w), u.length = c.N ∧ v.length = c.N ∧ IsBits u ∧ IsBits v ∧ u ≠ v ∧
      ∀ out : List (BitVec w), out.length = c.N → ∃ e1 e2 x, e.encode u out = ok (e1, x) ∧ e.encode v out = ok (e2, x) := by
  have hs := he.st hw hc.codeOk
  obtain ⟨z, ⟨a, ha, hza⟩, hz⟩ := null_of_singular (fun K hK => (hc.codeOk.stage_kern hK).2) heven
  have hK : e.core.K = c.N := by rw [← hs.k, hfr]; simp
  have hN := hc.codeOk.len
  have h10 : (1#w : BitVec w) ≠ 0#w := by
    intro h
    have := congrArg (fun v : BitVec w => v.getLsbD 0) h
    simp [hw] at this
  refine ⟨(List.range c.N).map fun i => ofBit (z i), List.replicate c.N 0#w, by simp, by simp, ?_, ?_, ?_, ?_⟩
  · intro v hv
    obtain ⟨i, _, rfl⟩ := List.mem_map.mp hv
    cases z i <;> simp [ofBit]
  · intro v hv
    exact Or.inl (List.eq_of_mem_replicate hv)
  · intro h
    have := congrArg (fun l => l[a]?) h
    simp only [getElem?_mapRange, if_pos (show a < c.N by omega), hza, ofBit, if_true] at this
    rw [List.getElem?_replicate, if_pos (by omega)] at this
    exact h10 (by simpa using this)
  · intro out ho
    obtain ⟨e1, g1, _, _⟩ := hs.enc hw hc.codeOk (u := (List.range c.N).map fun i => ofBit (z i)) (by simp [hK]) ho
    obtain ⟨e2, g2, _, _⟩ := hs.enc hw hc.codeOk (u := List.replicate c.N 0#w) (by simp [hK]) ho
    have hpl : ∀ u : List (BitVec w), u.length = c.N → Polar.place e.core.frozen u = u := by
      intro u hu
      rw [hfr]
      clear * - hu
      generalize c.N = n at hu
      induction n generalizing u with
      | zero => rw [List.length_eq_zero_iff.mp hu]; rfl
      | succ n ih =>
        cases u with
        | nil => simp at hu
        | cons a u => simp only [List.replicate_succ, Polar.place, List.headD_cons, List.tail_cons]; rw [ih u (by simpa using hu)]
    rw [hpl _ (by simp)] at g1
    rw [hpl _ (by simp)] at g2
    refine ⟨e1, e2, _, g1, ?_⟩
    rw [g2]
    congr 2
    unfold transform
    apply List.map_congr_left
    intro p hp
    have hp := List.mem_range.mp hp
    congr 1
    apply zb_inj
    rw [zb_transform _ _ _ hp, zb_transform _ _ _ hp, T_lt _ _ _ (by rw [fsize_fam]; exact hp),
      T_lt _ _ _ (by rw [fsize_fam]; exact hp), fsize_fam]
    have hzero := hz p hp
    have l1 : ∑ i ∈ range (size c.stageKernels), zb (bit (List.replicate c.N 0#w) i) * G (fam c.stageKernels) i p = 0 := by
      apply Finset.sum_eq_zero
      intro i hi
      have hi := Finset.mem_range.mp hi
      rw [bit_some (v := 0#w) (by rw [List.getElem?_replicate, if_pos (by omega)])]
      simp [zb]
    rw [l1, ← hzero]
    apply Finset.sum_congr rfl
    intro i hi
    have hi := Finset.mem_range.mp hi
    rw [bit_some (v := ofBit (z i)) (by rw [getElem?_mapRange, if_pos (by omega)]), ofBit_lsb hw]

end Verif.PolarMK
