import Verif.Proof.LDPCSym

/-!
# Iterations on words without errors and on flipped words
-/

namespace Verif.LDPCBP
open Exec Verif.Sparse Verif.Float

variable {F : Fmt}

theorem codeword_parity {A : Conns} {H : Mat} (hA : Represents H A) {b : Nat → Bool} (hb : Codeword A b) (c : Nat) :
    parity b (vars H c) = false := by
  by_cases hc : c < A.cols
  · exact (parity_satisfied (nodup_vars hA c) (fun i => mem_vars hA c i) hA.range b).2 (hb c hc)
  · have : vars H c = [] := by
      by_contra hne
      obtain ⟨v, hv⟩ := List.exists_mem_of_ne_nil _ hne
      exact hc (hA.range _ ((mem_vars hA c v).1 hv)).2
    rw [this]; rfl

/-! ## Words without errors -/

/-- The sign of a message is that of a bit, or the message is null. -/
structure Ag (F : Fmt) (b : Bool) (x : Fz) : Prop where
  num : NumF F x
  nn : Nn F (flip b x.val)

theorem num_flip {b : Bool} {v : Fl} (h : Num F (flip b v)) : Num F v := by
  cases b with
  | false => exact h
  | true =>
    have := num_neg h
    cases v with
    | nan => exact h
    | inf s => trivial
    | fin q => simpa [flip, Fl.neg] using this

theorem Nn.num {v : Fl} (h : Nn F v) : Num F v := by
  cases v with
  | nan => exact h
  | inf s => trivial
  | fin q => exact ⟨h.2.1, by rw [abs_of_nonneg h.1]; exact h.2.2⟩

theorem ag_zero (b : Bool) : Ag F b (opsFz F).zero ∧ IsFin (opsFz F).zero.val := by
  refine ⟨⟨nn_zero, ?_⟩, trivial⟩
  cases b
  · exact nn_zero
  · have : flip true (opsFz F).zero.val = .fin 0 := by simp [flip, opsFz, Fz.val, Fl.neg]
    rw [this]; exact nn_zero

theorem ag_add {b : Bool} {x y : Fz} (hx : Ag F b x) (hy : Ag F b y) :
    Ag F b ((opsFz F).add x y) ∧ key (flip b x.val) ≤ key (flip b ((opsFz F).add x y).val) ∧
      key (flip b y.val) ≤ key (flip b ((opsFz F).add x y).val) := by
  have := nn_add hx.nn hy.nn
  rw [flip_add, ← val_add] at this
  exact ⟨⟨num_of _ _ (num_flip (b := b) (by rw [← val_of (F.add x.val y.val) (x.neg && y.neg)]; exact this.1.num)), this.1⟩, this.2.1, this.2.2⟩

theorem ag_sub {b : Bool} {x y : Fz} (hx : Ag F b x) (hy : Ag F b y) (hf : IsFin y.val) (h : key (flip b y.val) ≤ key (flip b x.val)) :
    Ag F b ((opsFz F).sub x y) := by
  refine ⟨numF_sub hx.num hy.num hf, ?_⟩
  rw [val_sub, ← flip_add, flip_neg]
  exact nn_sub hx.nn hy.nn (flip_fin.2 hf) h

theorem sub_zero_val {x y : Fz} (hx : NumF F x) (hy : y.val = .fin 0) : ((opsFz F).sub x y).val = x.val := by
  rw [val_sub, hy]
  have := hx.num
  revert this
  cases x.val with
  | nan => intro h; exact h.elim
  | inf s => intro _; rfl
  | fin q =>
    intro h
    show F.of (q + -0) = _
    rw [neg_zero, add_zero]
    unfold Fmt.of
    rw [h.1, if_neg (not_le.2 h.2)]

theorem key_nn {v : Fl} (h : Nn F v) : (0 : ℚ) ≤ key v := by
  cases v with
  | nan => exact h.elim
  | inf s => exact le_top
  | fin q => exact WithTop.coe_le_coe.2 h.1

theorem key_zero (b : Bool) : key (flip b (opsFz F).zero.val) = (0 : ℚ) := by
  cases b <;> simp [flip, opsFz, Fz.val, Fl.neg, key]

/-- A word without errors: its signs are those of the bits. -/
def Clear (F : Fmt) (b : Nat → Bool) (n : Nat) (y : Nat → Fz) : Prop :=
  ∀ v, v < n → Ag F (b v) (y v) ∧ ((0 : ℚ) : WithTop ℚ) < key (flip (b v) (y v).val)

section
variable {H : Mat} {f : Fz → Fz} {b : Nat → Bool}

theorem ag_sum (o : Ops Fz) (ho : o = opsFz F) {v : Nat} {bv : Bool} {m : Nat → Nat → Fz} (l : List Nat) (hm : ∀ c ∈ l, Ag F bv (m c v)) :
    Ag F bv (l.foldl (fun s c => o.add s (m c v)) o.zero) ∧
      ∀ c ∈ l, key (flip bv (m c v).val) ≤ key (flip bv (l.foldl (fun s c => o.add s (m c v)) o.zero).val) := by
  subst ho
  induction l using List.reverseRecOn with
  | nil => exact ⟨(ag_zero bv).1, by simp⟩
  | append_singleton l a ih =>
    obtain ⟨i1, i2⟩ := ih fun c hc => hm c (by simp [hc])
    obtain ⟨k1, k2, k3⟩ := ag_add i1 (hm a (by simp))
    simp only [List.foldl_append, List.foldl_cons, List.foldl_nil]
    refine ⟨k1, fun c hc => ?_⟩
    rcases List.mem_append.1 hc with h | h
    · exact le_trans (i2 c h) k2
    · rw [List.mem_singleton.1 h]; exact k3

theorem ag_total (h : Good H) {y : Nat → Fz} (hy : Clear F b H.nRows y) {m : Nat → Nat → Fz}
    (hm : ∀ c v, v ∈ vars H c → Ag F (b v) (m c v)) {v : Nat} (hv : v < H.nRows) :
    Ag F (b v) (total (opsFz F) H y m v) ∧ ((0 : ℚ) : WithTop ℚ) < key (flip (b v) (total (opsFz F) H y m v).val) ∧
      ∀ c, v ∈ vars H c → key (flip (b v) (m c v).val) ≤ key (flip (b v) (total (opsFz F) H y m v).val) := by
  obtain ⟨y1, y2⟩ := hy v hv
  obtain ⟨s1, s2⟩ := ag_sum (opsFz F) rfl (chks H v) (fun c hc => hm c v ((mem_chks h).1 hc))
  obtain ⟨k1, k2, k3⟩ := ag_add y1 s1
  exact ⟨k1, lt_of_lt_of_le y2 k2, fun c hc => le_trans (s2 c ((mem_chks h).2 hc)) k3⟩

theorem flood_ag (h : Good H) (hf : Corr F f) (hb : ∀ c, parity b (vars H c) = false) {y : Nat → Fz} (hy : Clear F b H.nRows y) (n : Nat) :
    ∀ c v, v ∈ vars H c → Ag F (b v) (flood (opsFz F) (msWith (opsFz F) f) H y n c v) ∧
      IsFin (flood (opsFz F) (msWith (opsFz F) f) H y n c v).val := by
  induction n with
  | zero => intro c v _; exact ag_zero _
  | succ n ih =>
    intro c v hv
    have hq : ∀ u ∈ vars H c, Ag F (b u) (toChk (opsFz F) H y (flood (opsFz F) (msWith (opsFz F) f) H y n) c u) := by
      intro u hu
      obtain ⟨t1, t2, t3⟩ := ag_total h hy (fun c v hv => (ih c v hv).1) (h.lt c u hu).1
      exact ag_sub t1 (ih c u hu).1 (ih c u hu).2 (t3 c hu)
    obtain ⟨k1, k2, k3⟩ := chk_agree hf hv (h.nodup c) (hb c) (fun u hu => (hq u hu).nn) (fun u hu => (hq u hu).num)
    exact ⟨⟨k1, k2⟩, k3⟩

theorem floodPost_clear (h : Good H) (hf : Corr F f) (hb : ∀ c, parity b (vars H c) = false) {y : Nat → Fz} (hy : Clear F b H.nRows y)
    (n : Nat) : Clear F b H.nRows (floodPost (opsFz F) (msWith (opsFz F) f) H y n) := by
  intro v hv
  obtain ⟨t1, t2, t3⟩ := ag_total h hy (fun c v hv => (flood_ag h hf hb hy n c v hv).1) hv
  exact ⟨t1, t2⟩

/-- The states of the first layered iteration on a word without errors. -/
structure LAg (F : Fmt) (H : Mat) (b : Nat → Bool) (s : LayF Fz) : Prop where
  L : Clear F b H.nRows s.L
  m : ∀ c v, v ∈ vars H c → Ag F (b v) (s.m c v) ∧ IsFin (s.m c v).val

theorem lag_start {y : Nat → Fz} (hy : Clear F b H.nRows y) : LAg F H b (layStart (opsFz F) y) := by
  refine ⟨fun v hv => ?_, fun c v _ => ag_zero _⟩
  obtain ⟨h1, h2⟩ := hy v hv
  obtain ⟨k1, k2, k3⟩ := ag_add (ag_zero (F := F) (b v)).1 h1
  exact ⟨k1, lt_of_lt_of_le h2 k3⟩

theorem hor_first (h : Good H) (hf : Corr F f) (hb : ∀ c, parity b (vars H c) = false) {y : Nat → Fz} (hy : Clear F b H.nRows y) :
    Clear F b H.nRows (horSweep (opsFz F) (msWith (opsFz F) f) H (layStart (opsFz F) y)).L := by
  unfold horSweep
  have key : ∀ n, LAg F H b ((List.range n).foldl (horAt (opsFz F) (msWith (opsFz F) f) H) (layStart (opsFz F) y)) ∧
      ∀ c, n ≤ c → ∀ v, ((List.range n).foldl (horAt (opsFz F) (msWith (opsFz F) f) H) (layStart (opsFz F) y)).m c v = (opsFz F).zero := by
    intro n
    induction n with
    | zero => exact ⟨lag_start hy, fun _ _ _ => rfl⟩
    | succ n ih =>
      rw [List.range_succ, List.foldl_append, List.foldl_cons, List.foldl_nil]
      generalize (List.range n).foldl (horAt (opsFz F) (msWith (opsFz F) f) H) (layStart (opsFz F) y) = s at ih ⊢
      obtain ⟨i1, i2⟩ := ih
      have hto : ∀ u ∈ vars H n, Ag F (b u) (layTo (opsFz F) s n u) ∧ (layTo (opsFz F) s n u).val = (s.L u).val := by
        intro u hu
        have hl := i1.L u (h.lt n u hu).1
        have hz : (s.m n u).val = .fin 0 := by rw [i2 n (le_refl _)]; rfl
        have e := sub_zero_val hl.1.num hz
        refine ⟨⟨numF_sub hl.1.num (i1.m n u hu).1.num (i1.m n u hu).2, ?_⟩, e⟩
        show Nn F (flip (b u) ((opsFz F).sub _ _).val)
        rw [e]; exact hl.1.nn
      have hmsg : ∀ v ∈ vars H n, Ag F (b v) (fromChk (msWith (opsFz F) f) H n (layTo (opsFz F) s n) v) ∧
          IsFin (fromChk (msWith (opsFz F) f) H n (layTo (opsFz F) s n) v).val := by
        intro v hv
        obtain ⟨k1, k2, k3⟩ := chk_agree hf hv (h.nodup n) (hb n) (fun u hu => (hto u hu).1.nn) (fun u hu => (hto u hu).1.num)
        exact ⟨⟨k1, k2⟩, k3⟩
      refine ⟨⟨fun v hv => ?_, fun c v hv => ?_⟩, fun c hc v => ?_⟩
      · simp only [horAt]
        by_cases hm : v ∈ vars H n
        · rw [if_pos hm]
          obtain ⟨k1, k2, k3⟩ := ag_add (hto v hm).1 (hmsg v hm).1
          refine ⟨k1, lt_of_lt_of_le ?_ k2⟩
          rw [(hto v hm).2]
          exact (i1.L v hv).2
        · rw [if_neg hm]; exact i1.L v hv
      · simp only [horAt]
        by_cases hm : c = n ∧ v ∈ vars H n
        · rw [if_pos hm]; exact hmsg v hm.2
        · rw [if_neg hm]; exact i1.m c v hv
      · simp only [horAt]
        rw [if_neg (by omega)]
        exact i2 c (by omega) v
  exact (key H.nCols).1.L

theorem ver_first (h : Good H) (hf : Corr F f) (hb : ∀ c, parity b (vars H c) = false) {y : Nat → Fz} (hy : Clear F b H.nRows y) :
    Clear F b H.nRows (verSweep (opsFz F) (msWith (opsFz F) f) H (layStart (opsFz F) y)).L := by
  unfold verSweep
  have key0 : ∀ n, n ≤ H.nRows → LAg F H b ((List.range n).foldl (verAt (opsFz F) (msWith (opsFz F) f) H) (layStart (opsFz F) y)) ∧
      (∀ c v, v ∈ vars H c → key (flip (b v) (((List.range n).foldl (verAt (opsFz F) (msWith (opsFz F) f) H) (layStart (opsFz F) y)).m c v).val) ≤
        key (flip (b v) (((List.range n).foldl (verAt (opsFz F) (msWith (opsFz F) f) H) (layStart (opsFz F) y)).L v).val)) ∧
      ∀ v, n ≤ v → ∀ c, ((List.range n).foldl (verAt (opsFz F) (msWith (opsFz F) f) H) (layStart (opsFz F) y)).m c v = (opsFz F).zero := by
    intro n
    induction n with
    | zero =>
      intro _
      refine ⟨lag_start hy, fun c v hv => ?_, fun _ _ _ => rfl⟩
      have := ((lag_start (H := H) hy).L v (h.lt c v hv).1).2.le
      exact le_trans (le_of_eq (key_zero (F := F) (b v))) this
    | succ n ih =>
      intro hn
      rw [List.range_succ, List.foldl_append, List.foldl_cons, List.foldl_nil]
      replace ih := ih (by omega)
      generalize (List.range n).foldl (verAt (opsFz F) (msWith (opsFz F) f) H) (layStart (opsFz F) y) = s at ih ⊢
      obtain ⟨i1, i2, i3⟩ := ih
      -- the row of variable `n`
      have inner : ∀ (l1 l2 : List Nat), rowOf H n = l1 ++ l2 →
          Ag F (b n) (l1.foldl (verEdge (opsFz F) (msWith (opsFz F) f) H s.L n) ((opsFz F).zero, s.m)).1 ∧
          (∀ c v, v ≠ n → (l1.foldl (verEdge (opsFz F) (msWith (opsFz F) f) H s.L n) ((opsFz F).zero, s.m)).2 c v = s.m c v) ∧
          (∀ c, c ∉ l1 → (l1.foldl (verEdge (opsFz F) (msWith (opsFz F) f) H s.L n) ((opsFz F).zero, s.m)).2 c n = (opsFz F).zero) ∧
          ∀ c ∈ l1, Ag F (b n) ((l1.foldl (verEdge (opsFz F) (msWith (opsFz F) f) H s.L n) ((opsFz F).zero, s.m)).2 c n) ∧
            IsFin ((l1.foldl (verEdge (opsFz F) (msWith (opsFz F) f) H s.L n) ((opsFz F).zero, s.m)).2 c n).val ∧
            key (flip (b n) ((l1.foldl (verEdge (opsFz F) (msWith (opsFz F) f) H s.L n) ((opsFz F).zero, s.m)).2 c n).val) ≤
              key (flip (b n) (l1.foldl (verEdge (opsFz F) (msWith (opsFz F) f) H s.L n) ((opsFz F).zero, s.m)).1.val) := by
        intro l1
        induction l1 using List.reverseRecOn with
        | nil =>
          intro l2 _
          exact ⟨(ag_zero _).1, fun _ _ _ => rfl, fun c _ => i3 n (le_refl _) c, by simp⟩
        | append_singleton l1 c ih =>
          intro l2 e
          have hnd := h.rnodup n
          rw [e] at hnd
          have hc1 : c ∉ l1 := by
            intro hc
            rw [List.append_assoc, List.nodup_append] at hnd
            exact hnd.2.2 c hc c (by simp) rfl
          have hcv : n ∈ vars H c := (h.row n c).1 (by rw [e]; simp)
          obtain ⟨j1, j2, j3, j4⟩ := ih (c :: l2) (by rw [e]; simp)
          rw [List.foldl_append, List.foldl_cons, List.foldl_nil]
          generalize l1.foldl (verEdge (opsFz F) (msWith (opsFz F) f) H s.L n) ((opsFz F).zero, s.m) = a at j1 j2 j3 j4 ⊢
          have hz := j3 c hc1
          have hto : ∀ u ∈ vars H c, Ag F (b u) (layTo (opsFz F) ⟨s.L, a.2⟩ c u) := by
            intro u hu
            have hl := i1.L u (h.lt c u hu).1
            show Ag F (b u) ((opsFz F).sub (s.L u) (a.2 c u))
            by_cases hun : u = n
            · subst hun
              rw [hz]
              exact ag_sub hl.1 (ag_zero _).1 (ag_zero (F := F) (b u)).2 (by rw [key_zero]; exact hl.2.le)
            · rw [j2 c u hun]
              exact ag_sub hl.1 (i1.m c u hu).1 (i1.m c u hu).2 (i2 c u hu)
          obtain ⟨k1, k2, k3⟩ := chk_agree hf hcv (h.nodup c) (hb c) (fun u hu => (hto u hu).nn) (fun u hu => (hto u hu).num)
          have hacc : Ag F (b n) ((opsFz F).sub a.1 (a.2 c n)) ∧ ((opsFz F).sub a.1 (a.2 c n)).val = a.1.val := by
            rw [hz]
            refine ⟨ag_sub j1 (ag_zero _).1 (ag_zero (F := F) (b n)).2 ?_, sub_zero_val j1.num rfl⟩
            rw [key_zero]; exact key_nn j1.nn
          obtain ⟨a1, a2, a3⟩ := ag_add hacc.1 ⟨k1, k2⟩
          rw [hacc.2] at a2
          refine ⟨a1, fun c' v hv => ?_, fun c' hc' => ?_, fun c' hc' => ?_⟩
          · simp only [verEdge]
            rw [if_neg (fun k => hv k.2)]
            exact j2 c' v hv
          · simp only [verEdge]
            rw [if_neg (fun k => hc' (by rw [k.1]; simp))]
            exact j3 c' (fun k => hc' (by simp [k]))
          · by_cases e' : c' = c
            · subst e'
              simp only [verEdge, and_self, if_true]
              exact ⟨⟨k1, k2⟩, k3, a3⟩
            · obtain ⟨p1, p2, p3⟩ := j4 c' (by
                rcases List.mem_append.1 hc' with k | k
                · exact k
                · exact absurd (List.mem_singleton.1 k) e')
              have e2 : (verEdge (opsFz F) (msWith (opsFz F) f) H s.L n a c).2 c' n = a.2 c' n := by
                simp only [verEdge]
                rw [if_neg (fun k => e' k.1)]
              rw [e2]
              exact ⟨p1, p2, le_trans p3 a2⟩
      obtain ⟨a1, a2, a3, a4⟩ := inner (rowOf H n) [] (by simp)
      obtain ⟨k1, k2, k3⟩ := ag_add (i1.L n (by omega)).1 a1
      refine ⟨⟨fun v hv => ?_, fun c v hv => ?_⟩, fun c v hv => ?_, fun v hv c => ?_⟩
      · simp only [verAt]
        by_cases e : v = n
        · subst e
          rw [if_pos rfl]
          exact ⟨k1, lt_of_lt_of_le (i1.L v hv).2 k2⟩
        · rw [if_neg e]; exact i1.L v hv
      · simp only [verAt]
        by_cases e : v = n
        · subst e
          exact ⟨(a4 c ((h.row v c).2 hv)).1, (a4 c ((h.row v c).2 hv)).2.1⟩
        · rw [a2 c v e]; exact i1.m c v hv
      · simp only [verAt]
        by_cases e : v = n
        · subst e
          rw [if_pos rfl]
          exact le_trans (a4 c ((h.row v c).2 hv)).2.2 k3
        · rw [if_neg e, a2 c v e]; exact i2 c v hv
      · simp only [verAt]
        rw [a2 c v (by omega)]
        exact i3 v (by omega) c
  exact (key0 H.nRows (le_refl _)).1.L

end

/-! ## Flipped words -/

/-- A message and the message for the flipped word. -/
structure Sy (F : Fmt) (b : Bool) (x x' : Fz) : Prop where
  num : NumF F x
  num' : NumF F x'
  val : x'.val = flip b x.val

theorem Sy.fin {b : Bool} {x x' : Fz} (h : Sy F b x x') (hf : IsFin x.val) : IsFin x'.val := by
  rw [h.val]; exact flip_fin.2 hf

theorem sy_zero (b : Bool) : Sy F b (opsFz F).zero (opsFz F).zero :=
  ⟨nn_zero, nn_zero, by cases b <;> simp [flip, opsFz, Fz.val, Fl.neg]⟩

theorem sy_add {b : Bool} {x x' y y' : Fz} (hx : Sy F b x x') (hy : Sy F b y y') (hf : IsFin x.val ∨ IsFin y.val) :
    Sy F b ((opsFz F).add x y) ((opsFz F).add x' y') :=
  ⟨numF_add hx.num hy.num hf, numF_add hx.num' hy.num' (hf.imp hx.fin hy.fin), by
    rw [val_add, val_add, hx.val, hy.val, flip_add]⟩

theorem sy_sub {b : Bool} {x x' y y' : Fz} (hx : Sy F b x x') (hy : Sy F b y y') (hf : IsFin y.val) :
    Sy F b ((opsFz F).sub x y) ((opsFz F).sub x' y') :=
  ⟨numF_sub hx.num hy.num hf, numF_sub hx.num' hy.num' (hy.fin hf), by
    rw [val_sub, val_sub, hx.val, hy.val, ← flip_add, flip_neg]⟩

section
variable {H : Mat} {f : Fz → Fz} {b : Nat → Bool}

theorem sy_chk (h : Good H) (hf : Corr F f) (hb : ∀ c, parity b (vars H c) = false) {c v : Nat} (hv : v ∈ vars H c) {q q' : Nat → Fz}
    (hq : ∀ u ∈ vars H c, Sy F (b u) (q u) (q' u)) :
    Sy F (b v) (fromChk (msWith (opsFz F) f) H c q v) (fromChk (msWith (opsFz F) f) H c q' v) ∧
      IsFin (fromChk (msWith (opsFz F) f) H c q v).val := by
  obtain ⟨k1, k2, k3, k4, k5⟩ := chk_sym hf hv (h.nodup c) (hb c) (fun u hu => (hq u hu).num) (fun u hu => (hq u hu).num')
    (fun u hu => (hq u hu).val)
  exact ⟨⟨k1, k3, k5⟩, k2⟩

theorem sy_total (h : Good H) {y y' : Nat → Fz} (hy : ∀ v, v < H.nRows → Sy F (b v) (y v) (y' v) ∧ IsFin (y v).val) {m m' : Nat → Nat → Fz}
    (hm : ∀ c v, v ∈ vars H c → Sy F (b v) (m c v) (m' c v) ∧ IsFin (m c v).val) {v : Nat} (hv : v < H.nRows) :
    Sy F (b v) (total (opsFz F) H y m v) (total (opsFz F) H y' m' v) := by
  obtain ⟨y1, y2⟩ := hy v hv
  refine sy_add y1 ?_ (Or.inl y2)
  have hl : ∀ c ∈ chks H v, v ∈ vars H c := fun c hc => (mem_chks h).1 hc
  generalize chks H v = l at hl
  induction l using List.reverseRecOn with
  | nil => exact sy_zero _
  | append_singleton l a ih =>
    simp only [List.foldl_append, List.foldl_cons, List.foldl_nil]
    have ha := hm a v (hl a (by simp))
    exact sy_add (ih fun c hc => hl c (by simp [hc])) ha.1 (Or.inr ha.2)

theorem flood_sy (h : Good H) (hf : Corr F f) (hb : ∀ c, parity b (vars H c) = false) {y y' : Nat → Fz}
    (hy : ∀ v, v < H.nRows → Sy F (b v) (y v) (y' v) ∧ IsFin (y v).val) (n : Nat) :
    ∀ c v, v ∈ vars H c → Sy F (b v) (flood (opsFz F) (msWith (opsFz F) f) H y n c v) (flood (opsFz F) (msWith (opsFz F) f) H y' n c v) ∧
      IsFin (flood (opsFz F) (msWith (opsFz F) f) H y n c v).val := by
  induction n with
  | zero => intro c v _; exact ⟨sy_zero _, trivial⟩
  | succ n ih =>
    intro c v hv
    refine sy_chk h hf hb hv fun u hu => ?_
    exact sy_sub (sy_total h hy ih (h.lt c u hu).1) (ih c u hu).1 (ih c u hu).2

theorem floodPost_sy (h : Good H) (hf : Corr F f) (hb : ∀ c, parity b (vars H c) = false) {y y' : Nat → Fz}
    (hy : ∀ v, v < H.nRows → Sy F (b v) (y v) (y' v) ∧ IsFin (y v).val) (n : Nat) {v : Nat} (hv : v < H.nRows) :
    Sy F (b v) (floodPost (opsFz F) (msWith (opsFz F) f) H y n v) (floodPost (opsFz F) (msWith (opsFz F) f) H y' n v) :=
  sy_total h hy (flood_sy h hf hb hy n) hv

/-- The states of the horizontal scheduling for the two words. -/
structure LSy (F : Fmt) (H : Mat) (b : Nat → Bool) (s s' : LayF Fz) : Prop where
  L : ∀ v, v < H.nRows → Sy F (b v) (s.L v) (s'.L v)
  m : ∀ c v, v ∈ vars H c → Sy F (b v) (s.m c v) (s'.m c v) ∧ IsFin (s.m c v).val

theorem hor_sy (h : Good H) (hf : Corr F f) (hb : ∀ c, parity b (vars H c) = false) {y y' : Nat → Fz}
    (hy : ∀ v, v < H.nRows → Sy F (b v) (y v) (y' v)) (n : Nat) :
    LSy F H b (lay (opsFz F) (msWith (opsFz F) f) H .horizontal y n) (lay (opsFz F) (msWith (opsFz F) f) H .horizontal y' n) := by
  induction n with
  | zero => exact ⟨fun v hv => sy_add (sy_zero _) (hy v hv) (Or.inl trivial), fun c v _ => ⟨sy_zero _, trivial⟩⟩
  | succ n ih =>
    show LSy F H b (horSweep _ _ _ _) (horSweep _ _ _ _)
    generalize lay (opsFz F) (msWith (opsFz F) f) H .horizontal y n = s at ih ⊢
    generalize lay (opsFz F) (msWith (opsFz F) f) H .horizontal y' n = s' at ih ⊢
    unfold horSweep
    induction H.nCols with
    | zero => exact ih
    | succ k ik =>
      rw [List.range_succ, List.foldl_append, List.foldl_append, List.foldl_cons, List.foldl_nil, List.foldl_cons, List.foldl_nil]
      generalize (List.range k).foldl (horAt (opsFz F) (msWith (opsFz F) f) H) s = t at ik ⊢
      generalize (List.range k).foldl (horAt (opsFz F) (msWith (opsFz F) f) H) s' = t' at ik ⊢
      have hto : ∀ u ∈ vars H k, Sy F (b u) (layTo (opsFz F) t k u) (layTo (opsFz F) t' k u) := fun u hu =>
        sy_sub (ik.L u (h.lt k u hu).1) (ik.m k u hu).1 (ik.m k u hu).2
      constructor
      · intro v hv
        simp only [horAt]
        by_cases hm : v ∈ vars H k
        · rw [if_pos hm, if_pos hm]
          obtain ⟨k1, k2⟩ := sy_chk h hf hb hm hto
          exact sy_add (hto v hm) k1 (Or.inr k2)
        · rw [if_neg hm, if_neg hm]; exact ik.L v hv
      · intro c v hv
        simp only [horAt]
        by_cases hm : c = k ∧ v ∈ vars H k
        · rw [if_pos hm, if_pos hm]
          exact sy_chk h hf hb hm.2 hto
        · rw [if_neg hm, if_neg hm]; exact ik.m c v hv

end

end Verif.LDPCBP
