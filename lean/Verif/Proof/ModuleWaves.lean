import Verif.Proof.Module

/-! # Lemmas on the execution of waves -/

namespace Verif.Module
open Exec

variable {α : Type}

theorem Conf.Good.pos {c : Conf} (g : c.Good) : 0 < c.nWaves := by
  by_contra h
  have := g.waves.2
  have := g.frames
  rw [show c.nWaves = 0 by omega] at *
  omega

theorem Conf.Good.rest_zero {c : Conf} (g : c.Good) (h : c.rest = 0) : c.nFrames = c.nWaves * c.npw := by
  have hp := g.pos
  obtain ⟨h1, h2⟩ := g.waves
  have := g.rest
  rw [h] at this
  obtain ⟨q, hq⟩ := Nat.dvd_of_mod_eq_zero this.symm
  rw [Nat.mul_comm] at hq
  rw [hq] at h1 h2 ⊢
  have e1 := Nat.lt_of_mul_lt_mul_right h1
  have e2 := Nat.le_of_mul_le_mul_right h2 g.npw
  congr 1
  omega

theorem Conf.Good.rest_pos {c : Conf} (g : c.Good) (h : c.rest ≠ 0) :
    c.nFrames = (c.nWaves - 1) * c.npw + c.rest ∧ c.rest < c.npw := by
  have hp := g.pos
  obtain ⟨h1, h2⟩ := g.waves
  have hr := g.rest
  have hlt : c.rest < c.npw := by rw [hr]; exact Nat.mod_lt _ g.npw
  refine ⟨?_, hlt⟩
  have hd := Nat.div_add_mod c.nFrames c.npw
  rw [← hr, Nat.mul_comm] at hd
  rw [← hd] at h1 h2
  have e1 : c.nWaves - 1 < c.nFrames / c.npw + 1 := by
    apply Nat.lt_of_mul_lt_mul_right (a := c.npw)
    rw [Nat.add_mul]; omega
  have e2 : c.nFrames / c.npw < c.nWaves := by
    apply Nat.lt_of_mul_lt_mul_right (a := c.npw)
    omega
  have : c.nWaves - 1 = c.nFrames / c.npw := by omega
  rw [this]; omega

/-- State of the loop over full waves, after wave `k` was reached. -/
structure LoopInv (S : Socks) (c : Conf) (cod : Codelet α) (φ : (Nat → List α) → Nat → List α) (m0 : Mem α) (i : Nat)
    (x : Mem α × Nat × Int) : Prop where
  le : x.2.1 ≤ i
  go : x.2.2 ≠ FAILURE_STOP → x.2.1 = i
  tmp : x.1.tmp = m0.tmp
  proc : Processed S c.nFrames φ (fun f => f < x.2.1 * c.npw) m0.user x.1.user
  len : x.1.status.length = c.nWaves
  ran : ∀ w, w < x.2.1 → RanWave S c cod m0.user w x.1.status[w]?
  unk : ∀ w, x.2.1 ≤ w → w < c.nWaves → x.1.status[w]? = some UNKNOWN
  nostop : ∀ w, w + 1 < x.2.1 → x.1.status[w]? ≠ some FAILURE_STOP
  last : 0 < x.2.1 → x.1.status[x.2.1 - 1]? = some x.2.2
  stop : x.2.2 = FAILURE_STOP → 0 < x.2.1

theorem RanWave.congr {S : Socks} {c : Conf} {cod : Codelet α} {a b : Nat → List α} {w : Nat} {st : Option Int}
    (h : RanWave S c cod a w st) (hab : ∀ f, inputs S a f = inputs S b f) : RanWave S c cod b w st := by
  obtain ⟨win, h1, h2, h3⟩ := h
  exact ⟨win, h1, fun j hj hf => by rw [h2 j hj hf, hab], h3⟩

theorem waveLoop_sat {S : Socks} {c : Conf} {cod : Codelet α} {φ : (Nat → List α) → Nat → List α} {m : Mem α}
    (g : c.Good) (hφ : Framewise S c.npw cod φ) (hm : Fits S c m) (hs : ∀ w, w < c.nWaves → m.status[w]? = some UNKNOWN) :
    (waveLoop S c.npw cod (c.nWaves - 1) (m, 0, 0)).Sat (LoopInv S c cod φ m (c.nWaves - 1)) := by
  apply forN_inv (LoopInv S c cod φ m)
  · exact ⟨Nat.le_refl _, fun _ => rfl, rfl, Processed.refl.congr (fun f _ => by simp), hm.status, fun w hw => absurd hw (Nat.not_lt_zero _),
      fun w _ hw => hs w hw, fun w hw => absurd hw (Nat.not_lt_zero _), fun h => absurd h (Nat.lt_irrefl _), fun h => by cases h⟩
  · rintro i ⟨mm, w, e⟩ hi I
    by_cases he : e ≠ FAILURE_STOP
    · rw [if_pos he]
      have hwi : w = i := I.go he
      subst hwi
      have hlen : mm.status.length = c.nWaves := I.len
      have hw1 : (w + 1) * c.npw ≤ c.nFrames := by
        have := Nat.mul_le_mul_right c.npw (show w + 1 ≤ c.nWaves - 1 by omega)
        have := g.waves.1
        omega
      have hmul : (w + 1) * c.npw = w * c.npw + c.npw := by rw [Nat.add_mul]; omega
      have hu : ∀ s, s < S.n → (mm.user s).length = c.nFrames * S.bpf s := fun s hs => by
        rw [(I.proc s hs).1, hm.user s hs]
      refine (call_user (w := w) (fid := w * c.npw) (m := mm) (F := c.nFrames) (a := w * c.npw) hφ (ptr := wavePtr S c.npw w)
        (fun s => rfl) hu (by omega) (by show w < mm.status.length; omega)).bind ?_
      rintro m' ⟨t', p', win, wl, wi, s'⟩
      have hst : m'.status[w]? = some (cod (w * c.npw) win).1 := by
        rw [s', List.getElem?_set_self (by omega)]
      rw [rd_eq hst, bind_ok, sat_ok]
      have hin : ∀ f, inputs S mm.user f = inputs S m.user f := fun f => I.proc.inputs f
      refine ⟨Nat.le_refl _, fun _ => rfl, t'.trans I.tmp, I.proc.trans p' ?_, by show m'.status.length = _; rw [s', List.length_set]; exact hlen, ?_, ?_, ?_, ?_, ?_⟩
      · intro f _
        show f < (w + 1) * c.npw ↔ f < w * c.npw ∨ w * c.npw ≤ f ∧ f < w * c.npw + c.npw
        omega
      · intro v hv
        show RanWave S c cod m.user v m'.status[v]?
        by_cases e : v = w
        · subst e
          exact ⟨win, wl, fun j hj _ => by rw [wi j hj, hin], hst⟩
        · rw [s', List.getElem?_set_ne (by omega)]
          exact I.ran v (by show v < w; simp only at hv; omega)
      · intro v h1 h2
        show m'.status[v]? = _
        simp only at h1
        rw [s', List.getElem?_set_ne (by omega)]
        exact I.unk v (by show w ≤ v; omega) h2
      · intro v hv
        show m'.status[v]? ≠ _
        simp only at hv
        rw [s', List.getElem?_set_ne (by omega)]
        by_cases e2 : v + 1 < w
        · exact I.nostop v e2
        · have h := I.last (by show 0 < w; omega)
          simp only at h
          rw [show v = w - 1 by omega, h]
          intro hc
          exact he (Option.some.inj hc)
      · intro _
        exact hst
      · intro _
        exact Nat.succ_pos _
    · rw [if_neg he, sat_ok]
      exact ⟨Nat.le_succ_of_le I.le, fun h => absurd h he, I.tmp, I.proc, I.len, I.ran, I.unk, I.nostop, I.last, I.stop⟩

/-- The last wave, whichever it is. -/
theorem lastWave_sat {S : Socks} {c : Conf} {cod : Codelet α} {φ : (Nat → List α) → Nat → List α} {m : Mem α} {w : Nat}
    (g : c.Good) (hφ : Framewise S c.npw cod φ) (hm : Fits S c m) (hw : w < c.nWaves) (hlast : c.rest = 0 ∨ w = c.nWaves - 1) :
    (lastWave S c cod w m).Sat fun m' =>
      Processed S c.nFrames φ (fun f => w * c.npw ≤ f ∧ f < w * c.npw + c.npw) m.user m'.user ∧
      ∃ st, m'.status = m.status.set w st ∧ RanWave S c cod m.user w (some st) := by
  unfold lastWave
  by_cases hr : c.rest = 0
  · rw [if_pos hr]
    have hF := g.rest_zero hr
    have hw1 : (w + 1) * c.npw ≤ c.nFrames := by
      rw [hF]; exact Nat.mul_le_mul_right _ (by omega)
    rw [Nat.add_mul] at hw1
    refine (call_user (w := w) (fid := w * c.npw) (m := m) (F := c.nFrames) (a := w * c.npw) hφ (ptr := wavePtr S c.npw w)
        (fun s => rfl) hm.user (by omega) (by rw [hm.status]; exact hw)).mono ?_
    rintro m' ⟨-, p', win, wl, wi, s'⟩
    exact ⟨p', _, s', win, wl, fun j hj _ => wi j hj, rfl⟩
  · rw [if_neg hr]
    obtain ⟨hF, hlt⟩ := g.rest_pos hr
    have hw' := hlast.resolve_left hr
    rw [← hw'] at hF
    simp only []
    rw [if_neg (by omega)]
    have hk : c.nFrames - w * c.npw = c.rest := by omega
    rw [hk]
    have hnpw : 1 < c.npw := by omega
    refine (through_tmp (w := w) (fid := w * c.npw) (pos := 0) (F := c.nFrames) hφ hm.user (hm.tmp hnpw) (by omega) (by omega)
      (by rw [hm.status]; exact hw)).mono ?_
    rintro m' ⟨-, p', win, wl, wi, s'⟩
    refine ⟨p'.congr ?_, _, s', win, wl, fun j hj hf => ?_, rfl⟩
    · intro f hf
      constructor <;> intro h <;> omega
    · have := wi j (by omega)
      rwa [Nat.zero_add] at this

theorem status_init {c : Conf} {st : List Int} (h : st.length = c.nWaves) :
    ∃ st', forN c.nWaves (fun w st => wr st w UNKNOWN) st = ok st' ∧ st'.length = c.nWaves ∧
      ∀ w, w < c.nWaves → st'[w]? = some UNKNOWN := by
  obtain ⟨st', h1, h2, h3⟩ := forN_fill (n := c.nWaves) (off := 0) (g := fun _ => UNKNOWN) (out := st) (by omega)
  simp only [Nat.zero_add] at h1
  refine ⟨st', h1, by omega, fun w hw => ?_⟩
  rw [h3, if_pos (by omega)]

theorem call_userPtr {S : Socks} {npw F : Nat} {cod : Codelet α} {fid w : Nat} {m : Mem α}
    {φ : (Nat → List α) → Nat → List α} (hφ : Framewise S npw cod φ)
    (hu : ∀ s, s < S.n → (m.user s).length = F * S.bpf s) (ha : npw ≤ F) (hw : w < m.status.length) :
    (call S npw cod userPtr fid w m).Sat fun m' => m'.tmp = m.tmp ∧
      Processed S F φ (fun f => f < npw) m.user m'.user ∧
      ∃ win : Nat → List α, (∀ s, s < S.n → (win s).length = npw * S.bpf s) ∧
        (∀ j, j < npw → inputs S win j = inputs S m.user j) ∧
        m'.status = m.status.set w (cod fid win).1 := by
  refine (call_user (a := 0) (F := F) (fid := fid) hφ (ptr := userPtr) (fun s => by simp [userPtr]) hu (by omega) hw).mono ?_
  rintro m' ⟨a, b, win, c, d, e⟩
  refine ⟨a, b.congr fun f _ => by simp, win, c, fun j hj => ?_, e⟩
  rw [d j hj, Nat.zero_add]

theorem set_status {st st' : List Int} {n w : Nat} {v : Int} (hl : st.length = n)
    (hu : ∀ w, w < n → st[w]? = some UNKNOWN) (hw : w < n) (h : st' = st.set w v) :
    st'.length = n ∧ st'[w]? = some v ∧ ∀ x, x ≠ w → x < n → st'[x]? = some UNKNOWN := by
  subst h
  refine ⟨by rw [List.length_set, hl], List.getElem?_set_self (by omega), fun x hx hn => ?_⟩
  rw [List.getElem?_set_ne (by omega), hu x hn]

/-- `exec(-1)`. -/
theorem exec_all {S : Socks} {c : Conf} {cod : Codelet α} {φ : (Nat → List α) → Nat → List α} {m : Mem α} (managed : Bool)
    (g : c.Good) (hφ : Framewise S c.npw cod φ) (hm : Fits S c m) :
    ∃ m' k, exec_ S c cod (-1) managed m = ok m' ∧ 0 < k ∧ k ≤ c.nWaves ∧
      Processed S c.nFrames φ (fun f => f < k * c.npw) m.user m'.user ∧ m'.status.length = c.nWaves ∧
      (∀ w, w < k → RanWave S c cod m.user w m'.status[w]?) ∧
      (∀ w, k ≤ w → w < c.nWaves → m'.status[w]? = some UNKNOWN) ∧
      (∀ w, w + 1 < k → m'.status[w]? ≠ some FAILURE_STOP) ∧
      (k < c.nWaves → m'.status[k - 1]? = some FAILURE_STOP) := by
  obtain ⟨st, h1, h2, h3⟩ := status_init hm.status
  have hpos := g.pos
  unfold exec_
  rw [h1, bind_ok]
  simp only []
  have hm' : Fits S c { m with status := st } := ⟨hm.user, hm.tmp, h2⟩
  by_cases hd : direct c (-1) managed
  · rw [if_pos hd]
    have hnpw : c.npw = c.nFrames := by
      simp only [direct, decide_eq_true_eq] at hd
      omega
    have hnw : c.nWaves = 1 := by
      have := g.waves.1
      rw [hnpw] at this
      have : (c.nWaves - 1) < 1 := Nat.lt_of_mul_lt_mul_right (a := c.nFrames) (by omega)
      omega
    rw [if_pos trivial, Nat.zero_mod, Nat.zero_div]
    obtain ⟨m', e, -, p', win, wl, wi, s'⟩ := call_userPtr (F := c.nFrames) (fid := 0) (w := 0) hφ hm'.user (by omega)
      (by show 0 < st.length; omega)
    obtain ⟨a1, a2, a3⟩ := set_status h2 h3 (by omega) s'
    refine ⟨m', 1, e, by omega, by omega, p'.congr fun f _ => by rw [Nat.one_mul], a1, ?_, fun w h4 h5 => by omega, fun w hw => by omega, fun hk => by omega⟩
    intro w hw
    rw [show w = 0 by omega]
    refine ⟨win, wl, fun j hj _ => ?_, by rw [a2, Nat.zero_mul]⟩
    rw [wi j hj, Nat.zero_mul, Nat.zero_add]
  · rw [if_neg hd, if_neg (by omega), if_pos (by omega)]
    unfold waves
    obtain ⟨⟨mm, w, e⟩, hx, I⟩ := waveLoop_sat g hφ hm' h3
    rw [Nat.sub_zero, hx, bind_ok]
    simp only []
    by_cases he : e ≠ FAILURE_STOP
    · rw [if_pos he]
      have hw : w = c.nWaves - 1 := I.go he
      have hmm : Fits S c mm := ⟨fun s hs => by rw [(I.proc s hs).1]; exact hm.user s hs,
        fun h s hs => by rw [show mm.tmp = m.tmp from I.tmp]; exact hm.tmp h s hs, I.len⟩
      obtain ⟨m', e', p', st', s', r'⟩ := lastWave_sat (w := w) g hφ hmm (by omega) (Or.inr hw)
      have hlen : mm.status.length = c.nWaves := I.len
      refine ⟨m', c.nWaves, e', hpos, Nat.le_refl _, I.proc.trans p' ?_, by rw [s', List.length_set]; exact hlen, ?_, fun w h4 h5 => by omega, ?_, fun hk => by omega⟩
      · intro f hf
        show f < c.nWaves * c.npw ↔ f < w * c.npw ∨ w * c.npw ≤ f ∧ f < w * c.npw + c.npw
        have : c.nWaves * c.npw = w * c.npw + c.npw := by
          rw [show c.nWaves = w + 1 by omega, Nat.add_mul]; omega
        omega
      · intro v hv
        by_cases ev : v = w
        · subst ev
          rw [s', List.getElem?_set_self (by omega)]
          exact r'.congr fun f => I.proc.inputs f
        · rw [s', List.getElem?_set_ne (by omega)]
          exact I.ran v (by show v < w; omega)
      · intro v hv
        rw [s', List.getElem?_set_ne (by omega)]
        by_cases e2 : v + 1 < w
        · exact I.nostop v e2
        · have h := I.last (by show 0 < w; omega)
          simp only at h
          rw [show v = w - 1 by omega, h]
          intro hc
          exact he (Option.some.inj hc)
    · rw [if_neg he]
      have he' : e = FAILURE_STOP := Classical.not_not.1 he
      have hk := I.stop he'
      have hle : w ≤ c.nWaves - 1 := I.le
      refine ⟨mm, w, rfl, hk, by omega, I.proc, I.len, I.ran, I.unk, I.nostop, fun _ => ?_⟩
      have := I.last hk
      simp only at this
      rw [this, he']

/-- `exec(frame_id)` in managed memory. -/
theorem exec_one {S : Socks} {c : Conf} {cod : Codelet α} {φ : (Nat → List α) → Nat → List α} {m : Mem α} {f : Nat}
    (g : c.Good) (hφ : Framewise S c.npw cod φ) (hm : Fits S c m) (hf : f < c.nFrames) (hf0 : 0 < f ∨ c.npw = 1) :
    ∃ m', exec_ S c cod f true m = ok m' ∧ Processed S c.nFrames φ (fun g => g = f) m.user m'.user ∧
      m'.status.length = c.nWaves ∧ ∀ w, w ≠ f / c.npw → w < c.nWaves → m'.status[w]? = some UNKNOWN := by
  obtain ⟨st, h1, h2, h3⟩ := status_init hm.status
  have hpos := g.pos
  have hnp := g.npw
  unfold exec_
  rw [h1, bind_ok]
  simp only []
  have hm' : Fits S c { m with status := st } := ⟨hm.user, hm.tmp, h2⟩
  have hfw : f / c.npw < c.nWaves := by
    rw [Nat.div_lt_iff_lt_mul hnp]
    have := g.waves.2
    omega
  have hmod : f % c.nFrames = f := Nat.mod_eq_of_lt hf
  by_cases hd : direct c f true
  · rw [if_pos hd, if_neg (by omega), Int.toNat_natCast, hmod]
    have hfn : f = 0 ∧ c.npw = 1 := by
      simp only [direct, decide_eq_true_eq, Bool.true_eq_false, false_and, false_or] at hd
      rcases hf0 with h | h
      · omega
      · refine ⟨?_, h⟩
        omega
    have hfr := g.frames
    obtain ⟨m', e, -, p', win, wl, wi, s'⟩ := call_userPtr (F := c.nFrames) (fid := f) (w := f / c.npw) hφ hm'.user (by omega)
      (by show _ < st.length; omega)
    obtain ⟨a1, a2, a3⟩ := set_status h2 h3 hfw s'
    exact ⟨m', e, p'.congr fun g _ => by omega, a1, a3⟩
  · rw [if_neg hd]
    by_cases hn : (f : Int) > 0 ∧ True ∧ c.npw > 1
    · rw [if_pos hn, Int.toNat_natCast, hmod]
      obtain ⟨m', e, -, p', win, wl, wi, s'⟩ := through_tmp (w := f / c.npw) (fid := f / c.npw * c.npw) (pos := f % c.npw) (k := 1) (f := f)
        (F := c.nFrames) (m := { m with status := st }) hφ hm'.user (hm'.tmp hn.2.2) (by omega) (by have := Nat.mod_lt f hnp; omega)
        (by show _ < st.length; omega)
      obtain ⟨a1, a2, a3⟩ := set_status h2 h3 hfw s'
      exact ⟨m', e, p'.congr fun g _ => by omega, a1, a3⟩
    · rw [if_neg hn, if_neg (by omega), Int.toNat_natCast]
      have hn1 : c.npw = 1 := by
        rcases hf0 with h | h
        · have : ¬ c.npw > 1 := fun h' => hn ⟨by omega, trivial, h'⟩
          omega
        · exact h
      have hr : c.rest = 0 := by rw [g.rest, hn1, Nat.mod_one]
      have hF := g.rest_zero hr
      rw [hn1, Nat.mul_one] at hF
      have hfm : f % c.nWaves = f := Nat.mod_eq_of_lt (by omega)
      rw [hfm]
      unfold waves waveLoop
      rw [show f + 1 - 1 - f = 0 by omega, forN_zero, bind_ok]
      simp only []
      rw [if_pos (show (0 : Int) ≠ FAILURE_STOP by decide)]
      obtain ⟨m', e', p', st', s', r'⟩ := lastWave_sat (w := f) g hφ hm' (by omega) (Or.inl hr)
      rw [hn1, Nat.div_one] at hfw
      obtain ⟨a1, a2, a3⟩ := set_status h2 h3 hfw s'
      refine ⟨m', e', p'.congr fun g _ => ?_, a1, ?_⟩
      · rw [hn1]; omega
      · rw [hn1, Nat.div_one]; exact a3

/-- `exec(0)` in managed memory processes the whole first wave. -/
theorem exec_zero {S : Socks} {c : Conf} {cod : Codelet α} {φ : (Nat → List α) → Nat → List α} {m : Mem α}
    (g : c.Good) (hφ : Framewise S c.npw cod φ) (hm : Fits S c m) :
    ∃ m', exec_ S c cod 0 true m = ok m' ∧ Processed S c.nFrames φ (fun g => g < c.npw) m.user m'.user ∧
      m'.status.length = c.nWaves ∧ ∀ w, w ≠ 0 → w < c.nWaves → m'.status[w]? = some UNKNOWN := by
  obtain ⟨st, h1, h2, h3⟩ := status_init hm.status
  have hpos := g.pos
  have hnp := g.npw
  have hfr := g.frames
  unfold exec_
  rw [h1, bind_ok]
  simp only []
  have hm' : Fits S c { m with status := st } := ⟨hm.user, hm.tmp, h2⟩
  by_cases hd : direct c 0 true
  · rw [if_pos hd, if_neg (by omega)]
    have hle : c.npw ≤ c.nFrames := by
      simp only [direct, decide_eq_true_eq, Bool.true_eq_false, false_and, false_or] at hd
      by_contra hc
      have h1 : c.rest = c.nFrames := by rw [g.rest]; exact Nat.mod_eq_of_lt (by omega)
      have h2 : (c.nWaves - 1) < 1 := Nat.lt_of_mul_lt_mul_right (a := c.npw) (by have := g.waves.1; omega)
      omega
    show ∃ m', call S c.npw cod userPtr 0 (0 % c.nFrames / c.npw) _ = _ ∧ _
    rw [Nat.zero_mod, Nat.zero_div]
    obtain ⟨m', e, -, p', win, wl, wi, s'⟩ := call_userPtr (F := c.nFrames) (fid := 0) (w := 0) hφ hm'.user hle
      (by show _ < st.length; omega)
    obtain ⟨a1, a2, a3⟩ := set_status h2 h3 hpos s'
    exact ⟨m', e, p', a1, a3⟩
  · rw [if_neg hd, if_neg (by omega), if_neg (by omega)]
    have hnw : c.nWaves = 1 := by
      have : ¬ c.nWaves > 1 := fun h => hd (by simp [direct, h])
      omega
    show ∃ m', waves S c cod (0 % c.nWaves) (0 % c.nWaves + 1) _ = _ ∧ _
    rw [Nat.zero_mod]
    unfold waves waveLoop
    rw [show 0 + 1 - 1 - 0 = 0 by omega, forN_zero, bind_ok]
    simp only []
    rw [if_pos (show (0 : Int) ≠ FAILURE_STOP by decide)]
    obtain ⟨m', e', p', st', s', r'⟩ := lastWave_sat (w := 0) g hφ hm' hpos (Or.inr (by omega))
    obtain ⟨a1, a2, a3⟩ := set_status h2 h3 hpos s'
    refine ⟨m', e', p'.congr fun g _ => ?_, a1, a3⟩
    simp

end Verif.Module
