import Mathlib.Tactic.ByContra
import Mathlib.Tactic.DefEqTransformations
import Verif.Prelude.Loops
import Verif.Spec.Module

/-! # Lemmas on task execution -/

namespace Verif.Module
open Exec

variable {α : Type}

theorem frame_get? (b : List α) (bpf f i : Nat) : (frame b bpf f)[i]? = if i < bpf then b[f * bpf + i]? else none := by
  unfold frame
  rw [List.getElem?_take]
  split
  · rw [List.getElem?_drop]
  · rfl

theorem ow_get? {b w : List α} {off i : Nat} (h : off + w.length ≤ b.length) :
    (b.take off ++ w ++ b.drop (off + w.length))[i]? = if off ≤ i ∧ i < off + w.length then w[i - off]? else b[i]? := by
  rw [List.getElem?_append, List.getElem?_append]
  simp only [List.length_append, List.length_take, List.getElem?_take, List.getElem?_drop,
    Nat.min_eq_left (show off ≤ b.length by omega)]
  by_cases h1 : i < off
  · rw [if_pos (show i < off + w.length by omega), if_pos h1, if_pos h1, if_neg (by omega)]
  · by_cases h2 : i < off + w.length
    · rw [if_pos h2, if_neg h1, if_pos (by omega)]
    · rw [if_neg h2, if_neg (by omega)]
      congr 1; omega

theorem frame_ow {b w : List α} {bpf a k f : Nat} (hw : w.length = k * bpf) (h : (a + k) * bpf ≤ b.length) :
    frame (b.take (a * bpf) ++ w ++ b.drop (a * bpf + w.length)) bpf f =
      if a ≤ f ∧ f < a + k then frame w bpf (f - a) else frame b bpf f := by
  have h' : a * bpf + w.length ≤ b.length := by rw [hw, ← Nat.add_mul]; exact h
  apply ext_of_getElem?
  intro i
  rw [frame_get?]
  by_cases hi : i < bpf
  · rw [if_pos hi, ow_get? h', hw]
    by_cases hf : a ≤ f ∧ f < a + k
    · obtain ⟨d, rfl⟩ := Nat.exists_eq_add_of_le hf.1
      have hdk : d + 1 ≤ k := by omega
      have := Nat.mul_le_mul_right bpf hdk
      rw [if_pos hf, frame_get?, if_pos hi, if_pos (by rw [Nat.add_mul] at *; omega)]
      congr 1
      rw [Nat.add_sub_cancel_left, Nat.add_mul]; omega
    · rw [if_neg hf, frame_get?, if_pos hi, if_neg]
      rintro ⟨h1, h2⟩
      apply hf
      constructor
      · by_contra hc
        have := Nat.mul_le_mul_right bpf (show f + 1 ≤ a by omega)
        rw [Nat.add_mul] at this; omega
      · by_contra hc
        have := Nat.mul_le_mul_right bpf (show a + k ≤ f by omega)
        rw [Nat.add_mul] at this; omega
  · rw [if_neg hi]
    split <;> rw [frame_get?, if_neg hi]

theorem frame_read {b : List α} {bpf a k f : Nat} (hf : f < k) :
    frame ((b.drop (a * bpf)).take (k * bpf)) bpf f = frame b bpf (a + f) := by
  apply ext_of_getElem?
  intro i
  rw [frame_get?, frame_get?]
  split
  · rename_i hi
    have := Nat.mul_le_mul_right bpf (show f + 1 ≤ k by omega)
    rw [Nat.add_mul] at this
    rw [List.getElem?_take, if_pos (by omega), List.getElem?_drop]
    congr 1
    rw [Nat.add_mul]; omega
  · rfl

theorem readAt_ok {b : List α} {off len : Nat} (h : off + len ≤ b.length) :
    readAt b off len = ok ((b.drop off).take len) := if_pos h

theorem writeAt_ok {b w : List α} {off : Nat} (h : off + w.length ≤ b.length) :
    writeAt b off w = ok (b.take off ++ w ++ b.drop (off + w.length)) := if_pos h

theorem ow_length {b w : List α} {off : Nat} (h : off + w.length ≤ b.length) :
    (b.take off ++ w ++ b.drop (off + w.length)).length = b.length := by
  simp only [List.length_append, List.length_take, List.length_drop]; omega

/-- What a codelet call does to memory. -/
theorem call_sat {S : Socks} {npw : Nat} {cod : Codelet α} {ptr : Nat → Ptr} {fid w : Nat} {m : Mem α}
    {φ : (Nat → List α) → Nat → List α} (hφ : Framewise S npw cod φ)
    (hb : ∀ s, s < S.n → (ptr s).off + npw * S.bpf s ≤ (m.buf (ptr s) s).length) (hw : w < m.status.length) :
    ∃ win : Nat → List α, (∀ s, s < S.n → win s = ((m.buf (ptr s) s).drop (ptr s).off).take (npw * S.bpf s)) ∧
      (call S npw cod ptr fid w m).Sat fun m' =>
        (∀ s, m'.user s = if s < S.n ∧ S.isOut s = true ∧ (ptr s).tmp = false then
          (m.user s).take (ptr s).off ++ (cod fid win).2 s ++ (m.user s).drop ((ptr s).off + ((cod fid win).2 s).length)
          else m.user s) ∧
        (∀ s, m'.tmp s = if s < S.n ∧ S.isOut s = true ∧ (ptr s).tmp = true then
          (m.tmp s).take (ptr s).off ++ (cod fid win).2 s ++ (m.tmp s).drop ((ptr s).off + ((cod fid win).2 s).length)
          else m.tmp s) ∧
        m'.status = m.status.set w (cod fid win).1 := by
  have h1 : (forN S.n (fun s (win : Nat → List α) => readAt (m.buf (ptr s) s) (ptr s).off (npw * S.bpf s) >>= fun v =>
      ok (fun t => if t = s then v else win t)) (fun _ => [])).Sat fun win =>
        ∀ s, s < S.n → win s = ((m.buf (ptr s) s).drop (ptr s).off).take (npw * S.bpf s) := by
    apply forN_inv (fun k (win : Nat → List α) =>
      ∀ s, s < k → win s = ((m.buf (ptr s) s).drop (ptr s).off).take (npw * S.bpf s))
    · intro s hs; omega
    · intro i win hi hI
      rw [readAt_ok (hb i hi), bind_ok, sat_ok]
      intro s hs
      beta_reduce
      split
      · rename_i h; rw [h]
      · exact hI s (by omega)
  obtain ⟨win, he, hwin⟩ := h1
  refine ⟨win, hwin, ?_⟩
  have hlen : ∀ s, s < S.n → (win s).length = npw * S.bpf s := by
    intro s hs
    rw [hwin s hs, List.length_take, List.length_drop]
    have := hb s hs
    omega
  have hc := hφ fid win hlen
  unfold call
  rw [he, bind_ok]
  show ((forN S.n _ m) >>= _).Sat _
  have h2 : (forN S.n (fun s (m : Mem α) => if S.isOut s then
      writeAt (m.buf (ptr s) s) (ptr s).off ((cod fid win).2 s) >>= fun b => ok (m.setBuf (ptr s) s b)
    else ok m) m).Sat fun m' =>
        (∀ s, m'.user s = if s < S.n ∧ S.isOut s = true ∧ (ptr s).tmp = false then
          (m.user s).take (ptr s).off ++ (cod fid win).2 s ++ (m.user s).drop ((ptr s).off + ((cod fid win).2 s).length)
          else m.user s) ∧
        (∀ s, m'.tmp s = if s < S.n ∧ S.isOut s = true ∧ (ptr s).tmp = true then
          (m.tmp s).take (ptr s).off ++ (cod fid win).2 s ++ (m.tmp s).drop ((ptr s).off + ((cod fid win).2 s).length)
          else m.tmp s) ∧ m'.status = m.status := by
    apply forN_inv (fun k (m' : Mem α) =>
        (∀ s, m'.user s = if s < k ∧ S.isOut s = true ∧ (ptr s).tmp = false then
          (m.user s).take (ptr s).off ++ (cod fid win).2 s ++ (m.user s).drop ((ptr s).off + ((cod fid win).2 s).length)
          else m.user s) ∧
        (∀ s, m'.tmp s = if s < k ∧ S.isOut s = true ∧ (ptr s).tmp = true then
          (m.tmp s).take (ptr s).off ++ (cod fid win).2 s ++ (m.tmp s).drop ((ptr s).off + ((cod fid win).2 s).length)
          else m.tmp s) ∧ m'.status = m.status)
    · refine ⟨fun s => ?_, fun s => ?_, rfl⟩ <;> rw [if_neg (by omega)]
    · rintro i m' hi ⟨hu, ht, hs⟩
      by_cases ho : S.isOut i = true
      · rw [if_pos ho]
        have hbuf : m'.buf (ptr i) i = m.buf (ptr i) i := by
          unfold Mem.buf
          have hn : ∀ q, ¬ (i < i ∧ q) := fun q h => Nat.lt_irrefl _ h.1
          rw [hu i, ht i, if_neg (hn _), if_neg (hn _)]
        have hl := hb i hi
        have := (hc i hi ho).1
        rw [hbuf, writeAt_ok (by rw [this]; exact hl), bind_ok, sat_ok]
        unfold Mem.setBuf
        cases hp : (ptr i).tmp
        · rw [if_neg (by simp)]
          refine ⟨fun s => ?_, fun s => ?_, hs⟩
          · show (if s = i then _ else m'.user s) = _
            by_cases e : s = i
            · subst e
              rw [if_pos rfl, if_pos ⟨by omega, ho, hp⟩]
              simp only [Mem.buf, hp, Bool.false_eq_true, if_false]
            · rw [if_neg e, hu s]
              congr 1
              exact propext ⟨fun h => ⟨by omega, h.2⟩, fun h => ⟨by omega, h.2⟩⟩
          · show m'.tmp s = _
            rw [ht s]
            by_cases e : s = i
            · subst e; rw [if_neg (by omega), if_neg (by rw [hp]; simp)]
            · congr 1
              exact propext ⟨fun h => ⟨by omega, h.2⟩, fun h => ⟨by omega, h.2⟩⟩
        · rw [if_pos rfl]
          refine ⟨fun s => ?_, fun s => ?_, hs⟩
          · show m'.user s = _
            rw [hu s]
            by_cases e : s = i
            · subst e; rw [if_neg (by omega), if_neg (by rw [hp]; simp)]
            · congr 1
              exact propext ⟨fun h => ⟨by omega, h.2⟩, fun h => ⟨by omega, h.2⟩⟩
          · show (if s = i then _ else m'.tmp s) = _
            by_cases e : s = i
            · subst e
              rw [if_pos rfl, if_pos ⟨by omega, ho, hp⟩]
              simp only [Mem.buf, hp, if_true]
            · rw [if_neg e, ht s]
              congr 1
              exact propext ⟨fun h => ⟨by omega, h.2⟩, fun h => ⟨by omega, h.2⟩⟩
      · rw [if_neg ho, sat_ok]
        refine ⟨fun s => ?_, fun s => ?_, hs⟩
        · rw [hu s]
          congr 1
          apply propext
          constructor
          · intro h; exact ⟨by omega, h.2⟩
          · intro h
            refine ⟨?_, h.2⟩
            by_contra hc
            have : s = i := by omega
            exact ho (this ▸ h.2.1)
        · rw [ht s]
          congr 1
          apply propext
          constructor
          · intro h; exact ⟨by omega, h.2⟩
          · intro h
            refine ⟨?_, h.2⟩
            by_contra hc
            have : s = i := by omega
            exact ho (this ▸ h.2.1)
  refine h2.bind ?_
  rintro m' ⟨hu, ht, hs⟩
  rw [hs, wr_lt hw, bind_ok, sat_ok]
  exact ⟨hu, ht, rfl⟩

theorem Processed.refl {S : Socks} {F : Nat} {φ : (Nat → List α) → Nat → List α} {a : Nat → List α} :
    Processed S F φ (fun _ => False) a a :=
  fun _ _ => ⟨rfl, fun _ => rfl, fun _ _ _ => ⟨False.elim, fun _ => rfl⟩⟩

theorem Processed.inputs {S : Socks} {F : Nat} {φ : (Nat → List α) → Nat → List α} {P : Nat → Prop} {a b : Nat → List α}
    (h : Processed S F φ P a b) (f : Nat) : inputs S b f = inputs S a f := by
  funext s
  unfold Module.inputs
  split
  · rename_i hs
    rw [(h s hs.1).2.1 hs.2]
  · rfl

theorem Processed.trans {S : Socks} {F : Nat} {φ : (Nat → List α) → Nat → List α} {P Q R : Nat → Prop} {a b c : Nat → List α}
    (h1 : Processed S F φ P a b) (h2 : Processed S F φ Q b c) (hR : ∀ f, f < F → (R f ↔ P f ∨ Q f)) :
    Processed S F φ R a c := by
  intro s hs
  obtain ⟨l1, i1, o1⟩ := h1 s hs
  obtain ⟨l2, i2, o2⟩ := h2 s hs
  refine ⟨l2.trans l1, fun h => (i2 h).trans (i1 h), fun h f hf => ?_⟩
  have hin := h1.inputs f
  by_cases hq : Q f
  · have := (o2 h f hf).1 hq
    rw [hin] at this
    exact ⟨fun _ => this, fun hn => absurd ((hR f hf).2 (Or.inr hq)) hn⟩
  · rw [(o2 h f hf).2 hq]
    exact ⟨fun hr => (o1 h f hf).1 (((hR f hf).1 hr).resolve_right hq),
      fun hn => (o1 h f hf).2 fun hp => hn ((hR f hf).2 (Or.inl hp))⟩

theorem Processed.congr {S : Socks} {F : Nat} {φ : (Nat → List α) → Nat → List α} {P Q : Nat → Prop} {a b : Nat → List α}
    (h : Processed S F φ P a b) (hPQ : ∀ f, f < F → (Q f ↔ P f)) : Processed S F φ Q a b := by
  intro s hs
  obtain ⟨l1, i1, o1⟩ := h s hs
  exact ⟨l1, i1, fun h f hf => ⟨fun hq => (o1 h f hf).1 ((hPQ f hf).1 hq), fun hn => (o1 h f hf).2 fun hp => hn ((hPQ f hf).2 hp)⟩⟩

/-- A direct call on frames `a` to `a + npw` of the sockets' buffers. -/
theorem call_user {S : Socks} {npw F a : Nat} {cod : Codelet α} {fid w : Nat} {m : Mem α}
    {φ : (Nat → List α) → Nat → List α} (hφ : Framewise S npw cod φ) {ptr : Nat → Ptr}
    (hp : ∀ s, ptr s = ⟨false, a * S.bpf s⟩) (hu : ∀ s, s < S.n → (m.user s).length = F * S.bpf s)
    (ha : a + npw ≤ F) (hw : w < m.status.length) :
    (call S npw cod ptr fid w m).Sat fun m' => m'.tmp = m.tmp ∧
      Processed S F φ (fun f => a ≤ f ∧ f < a + npw) m.user m'.user ∧
      ∃ win : Nat → List α, (∀ s, s < S.n → (win s).length = npw * S.bpf s) ∧
        (∀ j, j < npw → inputs S win j = inputs S m.user (a + j)) ∧
        m'.status = m.status.set w (cod fid win).1 := by
  have hb : ∀ s, s < S.n → (ptr s).off + npw * S.bpf s ≤ (m.buf (ptr s) s).length := by
    intro s hs
    rw [hp s]
    show a * S.bpf s + npw * S.bpf s ≤ (m.user s).length
    rw [hu s hs, ← Nat.add_mul]
    exact Nat.mul_le_mul_right _ ha
  obtain ⟨win, hwin, m', hm', h1, h2, h3⟩ := call_sat (fid := fid) hφ hb hw
  have hlen : ∀ s, s < S.n → (win s).length = npw * S.bpf s := by
    intro s hs
    rw [hwin s hs, List.length_take, List.length_drop]
    have := hb s hs
    omega
  have hins : ∀ j, j < npw → inputs S win j = inputs S m.user (a + j) := by
    intro j hj
    funext s
    unfold inputs
    split
    · rename_i hs
      rw [hwin s hs.1, hp s]
      exact frame_read hj
    · rfl
  refine ⟨m', hm', ?_, ?_, win, hlen, hins, h3⟩
  · funext s
    rw [h2 s, hp s, if_neg (by simp)]
  · intro s hs
    rw [h1 s, hp s]
    have hbs := hb s hs
    rw [hp s] at hbs
    have hc := hφ fid win hlen s hs
    by_cases ho : S.isOut s = true
    · rw [if_pos ⟨hs, ho, rfl⟩]
      obtain ⟨hcl, hcf⟩ := hc ho
      refine ⟨ow_length (by rw [hcl]; exact hbs), fun h => (by rw [ho] at h; cases h), fun _ f hf => ?_⟩
      rw [frame_ow hcl (by rw [hu s hs]; exact Nat.mul_le_mul_right _ ha)]
      constructor
      · intro h
        rw [if_pos h, hcf _ (by omega), hins _ (by omega), Nat.add_sub_cancel' h.1]
      · intro h
        rw [if_neg h]
    · rw [if_neg (by simp [ho])]
      exact ⟨rfl, fun _ => rfl, fun h => absurd h ho⟩

/-- A call on the task's own buffers. -/
theorem call_tmp {S : Socks} {npw : Nat} {cod : Codelet α} {fid w : Nat} {m : Mem α}
    {φ : (Nat → List α) → Nat → List α} (hφ : Framewise S npw cod φ)
    (ht : ∀ s, s < S.n → (m.tmp s).length = npw * S.bpf s) (hw : w < m.status.length) :
    (call S npw cod tmpPtr fid w m).Sat fun m' => m'.user = m.user ∧
      (∀ s, s < S.n → (m'.tmp s).length = npw * S.bpf s) ∧
      (∀ s, s < S.n → S.isOut s = true → ∀ j, j < npw → frame (m'.tmp s) (S.bpf s) j = φ (inputs S m.tmp j) s) ∧
      ∃ win : Nat → List α, (∀ s, s < S.n → win s = m.tmp s) ∧ m'.status = m.status.set w (cod fid win).1 := by
  have hb : ∀ s, s < S.n → (tmpPtr s).off + npw * S.bpf s ≤ (m.buf (tmpPtr s) s).length := by
    intro s hs
    show 0 + npw * S.bpf s ≤ (m.tmp s).length
    rw [ht s hs]; omega
  obtain ⟨win, hwin, m', hm', h1, h2, h3⟩ := call_sat (fid := fid) hφ hb hw
  have hwin' : ∀ s, s < S.n → win s = m.tmp s := by
    intro s hs
    rw [hwin s hs]
    show ((m.tmp s).drop 0).take _ = _
    rw [List.drop_zero, ← ht s hs, List.take_length]
  have hlen : ∀ s, s < S.n → (win s).length = npw * S.bpf s := fun s hs => by rw [hwin' s hs, ht s hs]
  have key : ∀ s, s < S.n → S.isOut s = true → m'.tmp s = (cod fid win).2 s := by
    intro s hs ho
    have hcl := (hφ fid win hlen s hs ho).1
    rw [h2 s, if_pos ⟨hs, ho, rfl⟩]
    show (m.tmp s).take 0 ++ _ ++ (m.tmp s).drop (0 + _) = _
    rw [List.take_zero, List.nil_append, hcl, Nat.zero_add, ← ht s hs, List.drop_length, List.append_nil]
  refine ⟨m', hm', ?_, ?_, ?_, win, hwin', h3⟩
  · funext s
    rw [h1 s, if_neg (by simp [tmpPtr])]
  · intro s hs
    by_cases ho : S.isOut s = true
    · rw [key s hs ho]; exact (hφ fid win hlen s hs ho).1
    · rw [h2 s, if_neg (by simp [ho]), ht s hs]
  · intro s hs ho j hj
    rw [key s hs ho, (hφ fid win hlen s hs ho).2 j hj]
    congr 1
    funext t
    unfold inputs
    split
    · rename_i h; rw [hwin' t h.1]
    · rfl

theorem copyIn_sat {S : Socks} {f k pos npw F : Nat} {m : Mem α} (hu : ∀ s, s < S.n → (m.user s).length = F * S.bpf s)
    (ht : ∀ s, s < S.n → (m.tmp s).length = npw * S.bpf s) (hf : f + k ≤ F) (hp : pos + k ≤ npw) :
    (copyIn S f k pos m).Sat fun m' => m'.user = m.user ∧ m'.status = m.status ∧
      (∀ s, s < S.n → (m'.tmp s).length = npw * S.bpf s) ∧
      ∀ j, pos ≤ j → j < pos + k → inputs S m'.tmp j = inputs S m.user (f + (j - pos)) := by
  refine (forN_inv (fun n (m' : Mem α) => m'.user = m.user ∧ m'.status = m.status ∧
      (∀ s, s < S.n → (m'.tmp s).length = npw * S.bpf s) ∧
      ∀ s, s < n → S.isOut s = false → ∀ j, pos ≤ j → j < pos + k →
        frame (m'.tmp s) (S.bpf s) j = frame (m.user s) (S.bpf s) (f + (j - pos))) ?_ ?_).mono ?_
  · exact ⟨rfl, rfl, ht, fun s hs => by omega⟩
  · rintro i m' hi ⟨h1, h2, h3, h4⟩
    by_cases ho : S.isOut i = true
    · rw [if_pos ho, sat_ok]
      refine ⟨h1, h2, h3, fun s hs hso => h4 s ?_ hso⟩
      by_contra hc
      have : s = i := by omega
      rw [this, ho] at hso; cases hso
    · rw [if_neg ho, h1]
      have hr : f * S.bpf i + k * S.bpf i ≤ (m.user i).length := by
        rw [hu i hi, ← Nat.add_mul]; exact Nat.mul_le_mul_right _ hf
      have hl : (((m.user i).drop (f * S.bpf i)).take (k * S.bpf i)).length = k * S.bpf i := by
        rw [List.length_take, List.length_drop]; omega
      have hwr : (pos + k) * S.bpf i ≤ (m'.tmp i).length := by
        rw [h3 i hi]; exact Nat.mul_le_mul_right _ hp
      rw [readAt_ok hr, bind_ok, writeAt_ok (by rw [hl, ← Nat.add_mul]; exact hwr), bind_ok, sat_ok]
      refine ⟨by simpa using h1, h2, fun s hs => ?_, fun s hs hso j hj1 hj2 => ?_⟩
      · show (if s = i then _ else m'.tmp s).length = _
        split
        · rename_i e; subst e
          rw [ow_length (by rw [hl, ← Nat.add_mul]; exact hwr), h3 s hs]
        · exact h3 s hs
      · show frame (if s = i then _ else m'.tmp s) _ _ = _
        by_cases e : s = i
        · subst e
          rw [if_pos rfl, frame_ow hl hwr, if_pos ⟨hj1, hj2⟩, frame_read (by omega)]
        · rw [if_neg e]; exact h4 s (by omega) hso j hj1 hj2
  · rintro m' ⟨h1, h2, h3, h4⟩
    refine ⟨h1, h2, h3, fun j hj1 hj2 => ?_⟩
    funext s
    unfold inputs
    split
    · rename_i h; exact h4 s h.1 h.2 j hj1 hj2
    · rfl

theorem copyOut_sat {S : Socks} {f k pos npw F : Nat} {m : Mem α} (hu : ∀ s, s < S.n → (m.user s).length = F * S.bpf s)
    (ht : ∀ s, s < S.n → (m.tmp s).length = npw * S.bpf s) (hf : f + k ≤ F) (hp : pos + k ≤ npw) :
    (copyOut S f k pos m).Sat fun m' => m'.tmp = m.tmp ∧ m'.status = m.status ∧
      ∀ s, s < S.n → (m'.user s).length = F * S.bpf s ∧ (S.isOut s = false → m'.user s = m.user s) ∧
        (S.isOut s = true → ∀ g, (f ≤ g ∧ g < f + k → frame (m'.user s) (S.bpf s) g = frame (m.tmp s) (S.bpf s) (pos + (g - f))) ∧
          (¬ (f ≤ g ∧ g < f + k) → frame (m'.user s) (S.bpf s) g = frame (m.user s) (S.bpf s) g)) := by
  refine (forN_inv (fun n (m' : Mem α) => m'.tmp = m.tmp ∧ m'.status = m.status ∧
      (∀ s, n ≤ s → m'.user s = m.user s) ∧
      ∀ s, s < n → (m'.user s).length = F * S.bpf s ∧ (S.isOut s = false → m'.user s = m.user s) ∧
        (S.isOut s = true → ∀ g, (f ≤ g ∧ g < f + k → frame (m'.user s) (S.bpf s) g = frame (m.tmp s) (S.bpf s) (pos + (g - f))) ∧
          (¬ (f ≤ g ∧ g < f + k) → frame (m'.user s) (S.bpf s) g = frame (m.user s) (S.bpf s) g))) ?_ ?_).mono ?_
  · exact ⟨rfl, rfl, fun _ _ => rfl, fun s hs => by omega⟩
  · rintro i m' hi ⟨h1, h2, h3, h4⟩
    by_cases ho : S.isOut i = true
    · rw [if_pos ho, h1, h3 i (Nat.le_refl _)]
      have hr : pos * S.bpf i + k * S.bpf i ≤ (m.tmp i).length := by
        rw [ht i hi, ← Nat.add_mul]; exact Nat.mul_le_mul_right _ hp
      have hl : (((m.tmp i).drop (pos * S.bpf i)).take (k * S.bpf i)).length = k * S.bpf i := by
        rw [List.length_take, List.length_drop]; omega
      have hwr : (f + k) * S.bpf i ≤ (m.user i).length := by
        rw [hu i hi]; exact Nat.mul_le_mul_right _ hf
      rw [readAt_ok hr, bind_ok, writeAt_ok (by rw [hl, ← Nat.add_mul]; exact hwr), bind_ok, sat_ok]
      refine ⟨by simpa using h1, h2, fun s hs => ?_, fun s hs => ?_⟩
      · show (if s = i then _ else m'.user s) = _
        rw [if_neg (by omega), h3 s (by omega)]
      · show (if s = i then _ else m'.user s).length = _ ∧ (_ → (if s = i then _ else m'.user s) = _) ∧
          (_ → ∀ g, (_ → frame (if s = i then _ else m'.user s) _ _ = _) ∧ (_ → frame (if s = i then _ else m'.user s) _ _ = _))
        by_cases e : s = i
        · subst e
          rw [if_pos rfl]
          refine ⟨by rw [ow_length (by rw [hl, ← Nat.add_mul]; exact hwr), hu s hi], fun h => (by rw [ho] at h; cases h), fun _ g => ?_⟩
          rw [frame_ow hl hwr]
          refine ⟨fun h => ?_, fun h => if_neg h⟩
          rw [if_pos h, frame_read (by omega)]
        · rw [if_neg e]; exact h4 s (by omega)
    · rw [if_neg ho, sat_ok]
      refine ⟨h1, h2, fun s hs => h3 s (by omega), fun s hs => ?_⟩
      by_cases e : s = i
      · subst e
        rw [h3 s (Nat.le_refl _)]
        exact ⟨hu s hi, fun _ => rfl, fun h => absurd h ho⟩
      · exact h4 s (by omega)
  · rintro m' ⟨h1, h2, -, h4⟩
    exact ⟨h1, h2, h4⟩

/-- Copying frames in, calling the codelet, copying them out. -/
theorem through_tmp {S : Socks} {npw F f k pos : Nat} {cod : Codelet α} {fid w : Nat} {m : Mem α}
    {φ : (Nat → List α) → Nat → List α} (hφ : Framewise S npw cod φ)
    (hu : ∀ s, s < S.n → (m.user s).length = F * S.bpf s)
    (ht : ∀ s, s < S.n → (m.tmp s).length = npw * S.bpf s) (hf : f + k ≤ F) (hp : pos + k ≤ npw)
    (hw : w < m.status.length) :
    (copyIn S f k pos m >>= fun m => call S npw cod tmpPtr fid w m >>= fun m => copyOut S f k pos m).Sat fun m' =>
      (∀ s, s < S.n → (m'.tmp s).length = npw * S.bpf s) ∧
      Processed S F φ (fun g => f ≤ g ∧ g < f + k) m.user m'.user ∧
      ∃ win : Nat → List α, (∀ s, s < S.n → (win s).length = npw * S.bpf s) ∧
        (∀ j, j < k → inputs S win (pos + j) = inputs S m.user (f + j)) ∧
        m'.status = m.status.set w (cod fid win).1 := by
  refine (copyIn_sat hu ht hf hp).bind ?_
  rintro m1 ⟨u1, s1, t1, i1⟩
  refine (call_tmp (fid := fid) (w := w) hφ t1 (by rw [s1]; exact hw)).bind ?_
  rintro m2 ⟨u2, t2, o2, win, hwin, s2⟩
  refine (copyOut_sat (F := F) (by rw [u2, u1]; exact hu) t2 hf hp).mono ?_
  rintro m3 ⟨t3, s3, h3⟩
  refine ⟨by rw [t3]; exact t2, ?_, win, fun s hs => by rw [hwin s hs, t1 s hs], ?_, ?_⟩
  · intro s hs
    obtain ⟨a, b, c⟩ := h3 s hs
    rw [u2, u1] at b c
    refine ⟨by rw [a, hu s hs], b, fun ho g hg => ?_⟩
    obtain ⟨c1, c2⟩ := c ho g
    refine ⟨fun h => ?_, c2⟩
    rw [c1 h, o2 s hs ho _ (by omega), i1 _ (by omega) (by omega)]
    congr 2
    omega
  · intro j hj
    have : inputs S win (pos + j) = inputs S m1.tmp (pos + j) := by
      funext s
      unfold inputs
      split
      · rename_i h; rw [hwin s h.1]
      · rfl
    rw [this, i1 _ (by omega) (by omega), Nat.add_sub_cancel_left]
  · rw [s3, s2, s1]

end Verif.Module
