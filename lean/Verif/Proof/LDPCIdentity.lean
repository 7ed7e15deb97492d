import Verif.Model.LDPCObj
import Verif.Spec.LDPCEnc
import Verif.Proof.LU

/-! # The identity method always leaves the bounds of the matrix -/

namespace Verif.Exec

/-- The call does not throw, and if it is defined its value satisfies `P`. -/
def Weak {α : Type _} (x : Exec α) (P : α → Prop) : Prop :=
  match x with
  | ok a => P a
  | exc _ => False
  | ub => True

theorem Weak.bind {α β : Type _} {x : Exec α} {P : α → Prop} {f : α → Exec β} {Q : β → Prop} (hx : Weak x P)
    (hf : ∀ a, P a → Weak (f a) Q) : Weak (x >>= f) Q := by
  cases x with
  | ok a => exact hf a hx
  | exc e => exact hx.elim
  | ub => trivial

theorem Weak.mono {α : Type _} {x : Exec α} {P Q : α → Prop} (hx : Weak x P) (h : ∀ a, P a → Q a) : Weak x Q := by
  cases x with
  | ok a => exact h a hx
  | exc e => exact hx
  | ub => trivial

theorem Weak.loop {σ : Type _} {n : Nat} {f : Nat → σ → Exec σ} {s : σ} (Inv : Nat → σ → Prop)
    (h0 : Inv 0 s) (hstep : ∀ i s, i < n → Inv i s → Weak (f i s) (Inv (i + 1))) : Weak (forN n f s) (Inv n) := by
  induction n with
  | zero => exact h0
  | succ n ih =>
    rw [forN_succ]
    exact (ih fun i s hi => hstep i s (Nat.lt_succ_of_lt hi)).bind fun a ha => hstep n a (Nat.lt_succ_self n) ha

theorem Weak.range {σ : Type _} {a b : Nat} {f : Nat → σ → Exec σ} {s : σ} (Inv : Nat → σ → Prop) (hab : a ≤ b)
    (h0 : Inv a s) (hstep : ∀ i s, a ≤ i → i < b → Inv i s → Weak (f i s) (Inv (i + 1))) : Weak (forRange a b f s) (Inv b) := by
  unfold forRange
  have := Weak.loop (n := b - a) (f := fun i => f (a + i)) (s := s) (fun i => Inv (a + i)) h0
    (fun i s hi hI => hstep (a + i) s (Nat.le_add_right _ _) (by omega) hI)
  rwa [Nat.add_sub_cancel' hab] at this

theorem Weak.range' {σ : Type _} {a b : Nat} {f : Nat → σ → Exec σ} {s : σ} (P : σ → Prop)
    (h0 : P s) (hstep : ∀ i s, P s → Weak (f i s) P) : Weak (forRange a b f s) P := by
  unfold forRange
  exact Weak.loop (fun _ => P) h0 fun i s _ h => hstep _ s h

theorem Weak.down' {σ : Type _} {n : Nat} {f : Nat → σ → Exec σ} {s : σ} (P : σ → Prop)
    (h0 : P s) (hstep : ∀ i s, P s → Weak (f i s) P) : Weak (forDown n f s) P := by
  unfold forDown
  exact Weak.loop (fun _ => P) h0 fun i s _ h => hstep _ s h

theorem Weak.rd {α : Type _} {l : List α} {i : Nat} : Weak (rd l i) fun a => l[i]? = some a := by
  by_cases h : i < l.length
  · rw [rd_lt h]
    exact List.getElem?_eq_getElem h
  · rw [rd_ge (by omega)]
    trivial

theorem Weak.wr {α : Type _} {l : List α} {i : Nat} {a : α} : Weak (wr l i a) fun l' => i < l.length ∧ l' = l.set i a := by
  by_cases h : i < l.length
  · rw [wr_lt h]
    exact ⟨h, rfl⟩
  · rw [wr_ge (by omega)]
    trivial

theorem Weak.eq_ub {α : Type _} {x : Exec α} (h : Weak x fun _ => False) : x = ub := by
  cases x with
  | ok a => exact h.elim
  | exc e => exact h.elim
  | ub => rfl

theorem Weak.any {α β : Type _} {x : Exec α} {P : α → Prop} {f : α → Exec β} {Q : β → Prop} (hx : Weak x P)
    (hf : ∀ a, Weak (f a) Q) : Weak (x >>= f) Q := hx.bind fun a _ => hf a

end Verif.Exec

namespace Verif.Sparse
open Exec

/-- `n` rows of `m` elements. -/
def Dim (v : List (List Bool)) (n m : Nat) : Prop := v.length = n ∧ ∀ r ∈ v, r.length = m

theorem dim_mk (n m : Nat) (f : Nat → Nat → Bool) : Dim (mk n m f) n m := by
  refine ⟨by simp [mkR], fun r hr => ?_⟩
  obtain ⟨i, _, rfl⟩ := List.mem_map.1 hr
  simp

theorem dim_set {v : List (List Bool)} {n m : Nat} (h : Dim v n m) {r : List Bool} (hr : r.length = m) (i : Nat) : Dim (v.set i r) n m := by
  refine ⟨by rw [List.length_set]; exact h.1, fun x hx => ?_⟩
  rcases List.mem_or_eq_of_mem_set hx with hx | rfl
  · exact h.2 x hx
  · exact hr

theorem weak_rdM {v : List (List Bool)} {i j : Nat} : Weak (rdM v i j) fun _ => True :=
  Weak.any Weak.rd fun _ => Weak.rd.mono fun _ _ => trivial

theorem weak_wrM {v : List (List Bool)} {n m : Nat} (h : Dim v n m) {i j : Nat} {b : Bool} : Weak (wrM v i j b) fun v => Dim v n m := by
  refine Weak.rd.bind fun row hrow => Weak.wr.bind ?_
  rintro row' ⟨_, rfl⟩
  refine Weak.wr.mono ?_
  rintro v' ⟨_, rfl⟩
  refine dim_set h ?_ i
  rw [List.length_set]
  exact h.2 _ (List.mem_of_getElem? hrow)

theorem weak_swapRows {v : List (List Bool)} {n m : Nat} (h : Dim v n m) {i j : Nat} : Weak (swapRows v i j) fun v => Dim v n m := by
  refine Weak.rd.bind fun a ha => Weak.rd.bind fun b hb => Weak.wr.bind ?_
  rintro v' ⟨_, rfl⟩
  refine Weak.wr.mono ?_
  rintro v'' ⟨_, rfl⟩
  exact dim_set (dim_set h (h.2 _ (List.mem_of_getElem? hb)) i) (h.2 _ (List.mem_of_getElem? ha)) j

theorem weak_swapColumns {v : List (List Bool)} {n m : Nat} (h : Dim v n m) {k i j : Nat} :
    Weak (swapColumns k i j v) fun v => Dim v n m := by
  unfold swapColumns
  refine Weak.any (P := fun _ => True) (Weak.loop (fun _ _ => True) trivial fun l tmp _ _ =>
    Weak.any weak_rdM fun b => Weak.wr.mono fun _ _ => trivial) fun tmp => ?_
  refine Weak.bind (Weak.loop (fun _ v => Dim v n m) h fun l v _ hv => Weak.any weak_rdM fun b => weak_wrM hv) fun v hv => ?_
  exact Weak.loop (fun _ v => Dim v n m) hv fun l v _ hv => Weak.any Weak.rd fun b => weak_wrM hv

theorem weak_xorFrom {v : List (List Bool)} {n m : Nat} (h : Dim v n m) {a w i j : Nat} : Weak (xorFrom a w i j v) fun v => Dim v n m := by
  unfold xorFrom
  exact Weak.range' (fun v => Dim v n m) h fun k v hv => Weak.any weak_rdM fun x => Weak.any weak_rdM fun y => weak_wrM hv

theorem weak_findFirst {a b : Nat} {p : Nat → Exec Bool} (hp : ∀ k, Weak (p k) fun _ => True) : Weak (findFirst a b p) fun _ => True := by
  unfold findFirst
  refine Weak.range' (fun _ => True) trivial fun k s _ => ?_
  split
  · trivial
  · exact Weak.any (hp k) fun x => trivial

/-- The matrix keeps its columns and does not gain rows. -/
def Below (t : FM) (n m : Nat) : Prop := t.nRows ≤ n ∧ t.nCols = m ∧ Dim t.v t.nRows m

theorem weak_fdFind {s : FD} {n m c : Nat} (h : Below s.mat n m) : Weak (fdFind c s) fun x => Below x.2.mat n m := by
  unfold fdFind
  refine Weak.any weak_rdM fun b => ?_
  split
  · exact h
  · refine Weak.any (weak_findFirst fun k => weak_rdM) fun o => ?_
    cases o with
    | some j => exact (weak_swapRows h.2.2).bind fun v hv => ⟨h.1, h.2.1, hv⟩
    | none =>
      refine Weak.any (weak_findFirst fun k => weak_rdM) fun o => ?_
      cases o with
      | some j => exact (weak_swapColumns h.2.2).bind fun v hv => ⟨h.1, h.2.1, hv⟩
      | none => exact h

theorem weak_fdStep {s : FD} {n m c : Nat} (h : Below s.mat n m) : Weak (fdStep c s) fun x => Below x.mat n m := by
  unfold fdStep
  refine (weak_fdFind h).bind fun x hx => ?_
  split
  · refine Weak.bind (Weak.range' (fun v => Dim v x.2.mat.nRows m) hx.2.2 fun j v hv => ?_) fun v hv => ⟨hx.1, hx.2.1, hv⟩
    refine Weak.any weak_rdM fun b => ?_
    split
    · exact weak_xorFrom hv
    · exact hv
  · unfold eraseRow
    split
    · rename_i hlt
      refine ⟨?_, hx.2.1, ?_, fun r hr => hx.2.2.2 r (List.mem_of_mem_eraseIdx hr)⟩
      · show x.2.mat.nRows - 1 ≤ n
        have := hx.1
        omega
      · show (x.2.mat.v.eraseIdx x.2.i).length = x.2.mat.nRows - 1
        rw [List.length_eraseIdx, if_pos hlt.1, hx.2.2.1]
    · trivial

theorem weak_formDiagonal {s : FM} {n m : Nat} (h : Below s n m) (hnm : n ≤ m) : Weak (formDiagonal s) fun x => Below x.1 n m := by
  unfold formDiagonal fturn
  have h1 := h.1
  have h2 := h.2.1
  simp only []
  rw [if_neg (by omega), bind_ok]
  exact Weak.bind (P := fun x : FD => Below x.mat n m) (Weak.loop (fun _ (s : FD) => Below s.mat n m) h fun _ s _ hs => weak_fdStep hs) fun x hx => hx

theorem weak_formIdentity {s : FM} {n m : Nat} (h : Below s n m) (hnm : n ≤ m) : Weak (formIdentity s) fun x => Below x n m := by
  unfold formIdentity fturn
  have h1 := h.1
  have h2 := h.2.1
  simp only []
  rw [if_neg (by omega), bind_ok]
  split
  · trivial
  · refine Weak.bind (Weak.down' (fun v => Dim v s.nRows m) h.2.2 fun k v hv => Weak.down' (fun v => Dim v s.nRows m) hv fun r v hv => ?_)
      fun v hv => ⟨h.1, h.2.1, hv⟩
    refine Weak.any weak_rdM fun b => ?_
    split
    · exact weak_xorFrom hv
    · exact hv

/-- The rows from `a` on have `m` elements. -/
def Tail (v : List (List Bool)) (a m : Nat) : Prop := ∀ i r, a ≤ i → v[i]? = some r → r.length = m

theorem identity_ub {s : FM} {K M : Nat} (h : Below s M (K + M)) (hM : s.nRows = M) (hM0 : 0 < M) (hK : 0 < K) : hToGIdentityV s = ub := by
  apply Weak.eq_ub
  unfold hToGIdentityV horizontalOrThrow
  rw [hM, h.2.1, if_pos (by omega), show K + M - M = K by omega]
  refine (weak_formDiagonal h (by omega)).bind fun x hx => ?_
  refine (weak_formIdentity hx (by omega)).bind fun G hG => ?_
  have hv : G.v.length ≤ M := by rw [hG.2.2.1]; exact hG.1
  have hr : Weak (fresize G (K + M) K .topRight) fun t => Tail t.v M (K - M) ∧ M ≤ K := by
    unfold fresize
    refine Weak.bind (P := fun v => Tail v M (K - M) ∧ M ≤ K) ?_ fun v hv => hv
    unfold resizeV
    simp only []
    unfold alignRight
    rw [hG.2.1, if_pos (by omega), show K + M - K = M by omega]
    unfold onRows
    have hlen : (resized G.v (K + M) (List.replicate K false)).length = K + M := by
      simp only [resized, List.length_append, List.length_take, List.length_replicate]
      omega
    refine (Weak.range (fun k (v : List (List Bool)) => v.length = K + M ∧
      (∀ i r, M ≤ i → v[i]? = some r → r.length = if i < k then K - M else K) ∧ (M < k → M ≤ K)) (Nat.zero_le _) ?_ ?_).mono ?_
    · refine ⟨hlen, fun i r hi hr => ?_, by omega⟩
      rw [resized, List.getElem?_append_right (by rw [List.length_take]; omega), List.getElem?_replicate] at hr
      split at hr
      · simp only [Option.some.injEq] at hr
        rw [← hr, List.length_replicate, if_neg (by omega)]
      · simp at hr
    · rintro k v _ hk ⟨g1, g2, g3⟩
      refine Weak.rd.bind fun row hrow => ?_
      unfold eraseFront
      beta_reduce
      split
      · rename_i hle
        rw [bind_ok]
        refine Weak.wr.mono ?_
        rintro v' ⟨_, rfl⟩
        refine ⟨by simpa using g1, fun i r hi hr => ?_, fun hMk => ?_⟩
        · rw [List.getElem?_set] at hr
          split at hr
          · rename_i e
            subst e
            simp only [Option.some.injEq] at hr
            have := g2 k row hi hrow
            rw [if_neg (by omega)] at this
            rw [← hr, List.length_drop, if_pos (by omega), this]
          · rw [g2 i r hi hr]
            split <;> split <;> first | rfl | omega
        · by_cases e : M < k
          · exact g3 e
          · have := g2 k row (by omega) hrow
            rw [if_neg (by omega)] at this
            omega
      · trivial
    · rintro v ⟨g1, g2, g3⟩
      refine ⟨fun i r hi hr => ?_, g3 (by omega)⟩
      have := g2 i r hi hr
      have hi' : i < v.length := by
        by_contra hn
        rw [List.getElem?_eq_none (by omega)] at hr
        simp at hr
      rwa [if_pos (by omega)] at this
  refine hr.bind fun t ht => ?_
  refine Weak.bind (P := fun _ => False) ((Weak.range (fun k (v : List (List Bool)) => Tail v M (K - M) ∧ k ≤ K ⊔ M) (by omega) ?_ ?_).mono ?_)
    fun _ h => h.elim
  · exact ⟨ht.1, by omega⟩
  · rintro k v hk1 hk2 ⟨g1, g2⟩
    refine Weak.rd.bind fun row hrow => Weak.wr.bind ?_
    rintro row' ⟨hlt, rfl⟩
    refine Weak.wr.mono ?_
    rintro v' ⟨_, rfl⟩
    have := g1 k row hk1 hrow
    refine ⟨fun i r hi hr => ?_, by omega⟩
    rw [List.getElem?_set] at hr
    split at hr
    · simp only [Option.some.injEq] at hr
      rw [← hr, List.length_set, this]
    · exact g1 i r hi hr
  · rintro v ⟨_, h⟩
    omega

end Verif.Sparse
