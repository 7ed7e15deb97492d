import Verif.Proof.ModuleWaves
import Verif.Proof.ModuleFrames

/-! # C34, C55: task execution and frame bookkeeping -/

namespace Verif.Module
open Exec

/-! ## C55 -/

theorem op_spec {fuel : Nat} {bytes : List Nat} {m : Mod} (hf : 0 < fuel) (h : ModInv bytes m) (o : ModOp) (ho : o.arg m < 2 ^ 24) :
    (o.arg m = 0 ∧ m.op fuel o = ⟨m, some .invalidArgument⟩) ∨
    (0 < o.arg m ∧ ∃ m', m.op fuel o = ⟨m', none⟩ ∧ OpSpec bytes m o m' ∧ m'.nFrames < 2 ^ 24) := by
  have hfr : 0 < m.nFrames := h.good.frames
  have hnp : 0 < m.npw := h.good.npw
  cases o with
  | nFrames n =>
    by_cases hn : n = 0
    · left
      refine ⟨hn, ?_⟩
      subst hn
      show Mod.setNFrames fuel m 0 = _
      unfold Mod.setNFrames
      rw [if_pos (show m.nFrames ≠ 0 by omega)]
      unfold Mod.setFrames
      rw [if_pos rfl, seq_some]
    · right
      refine ⟨Nat.pos_of_ne_zero hn, ?_⟩
      obtain ⟨m', e, g, a, b, z, d⟩ := setNFrames_spec (n := n) h.good h.sizes (by omega) ho (Or.inl hf)
      refine ⟨m', e, ⟨g, z, fun hs => ?_, a, b, d⟩, by rw [a]; exact ho⟩
      rw [b] at hs
      rw [d, if_pos hs, a]
  | npw p =>
    by_cases hn : p = 0
    · left
      refine ⟨hn, ?_⟩
      subst hn
      show Mod.setNpw fuel m 0 = _
      unfold Mod.setNpw
      rw [if_pos (show m.npw ≠ 0 by omega)]
      unfold Mod.setWave
      rw [if_pos rfl, seq_some]
    · right
      refine ⟨Nat.pos_of_ne_zero hn, ?_⟩
      obtain ⟨m', e, g, a, b, z, d⟩ := setNpw_spec (p := p) h.good h.sizes h.small (by omega) (fun _ => ho) (Or.inl hf)
      refine ⟨m', e, ⟨g, z, fun hs => ?_, a, b, d⟩, ?_⟩
      · rw [b] at hs
        rw [d, if_pos hs, a]
      · rw [d]; split
        · exact ho
        · exact h.small
  | single b =>
    right
    refine ⟨hfr, ?_⟩
    show ∃ m', Mod.setSingle fuel m b = _ ∧ _
    unfold Mod.setSingle
    obtain ⟨m1, e1, g1, a1, b1, z1, d1⟩ := setNFrames_spec (m := { m with single := b }) (n := m.nFrames) (fuel := fuel) h.good h.sizes hfr h.small (Or.inl hf)
    rw [e1, seq_none]
    obtain ⟨m', e, g, a, b', z, d⟩ := setNpw_spec (p := m1.nFrames) (fuel := fuel) g1 z1 (by rw [a1]; exact h.small) (by omega) (fun _ => by rw [a1]; exact h.small) (Or.inl hf)
    have hn : m'.nFrames = m.nFrames := by rw [d]; split <;> exact a1
    refine ⟨m', e, ⟨g, z, fun _ => ?_, b'.trans b1, hn, a.trans a1⟩, by rw [hn]; exact h.small⟩
    rw [a, a1, hn]

theorem reach_inv {fuel : Nat} {bytes : List Nat} {m : Mod} (hf : 0 < fuel) (h : Reach fuel bytes m) : ModInv bytes m := by
  induction h with
  | init =>
    refine ⟨⟨Nat.zero_lt_one, Nat.zero_lt_one, ⟨Nat.zero_lt_one, Nat.le_refl 1⟩, (Nat.mod_self 1).symm⟩,
      (show 1 < 2 ^ 24 by decide), (fun h => by cases h), ?_⟩
    · simp [SizesOk, Mod.init]
  | op o hr ha ih =>
    rcases op_spec hf ih o ha with ⟨-, e⟩ | ⟨-, m', e, s, hs⟩
    · rw [e]; exact ih
    · rw [e]; exact ⟨s.1, hs, s.2.2.1, s.2.1⟩

/-- C55: after any history of `set_n_frames`, `set_n_frames_per_wave` and `set_single_wave` calls on a module whose sockets
are not bound (arguments below `2^24`), a call with 0 throws and changes nothing, and any other call succeeds, gives the
requested numbers, and leaves the module consistent: `n_waves` waves are just enough for `n_frames` frames, the remainder
is `n_frames mod n_frames_per_wave`, every socket has `n_frames` times its size, the status socket one entry per wave, and
a single-wave module has one wave. -/
theorem C55_histories (bytes : List Nat) (m : Mod) (h : Reach 1 bytes m) (o : ModOp) (ho : o.arg m < 2 ^ 24) :
    (m.conf.Good ∧ SizesOk bytes m ∧ (m.single = true → m.npw = m.nFrames)) ∧
    ((o.arg m = 0 ∧ m.op 1 o = ⟨m, some .invalidArgument⟩) ∨
     (0 < o.arg m ∧ ∃ m', m.op 1 o = ⟨m', none⟩ ∧ OpSpec bytes m o m')) := by
  have hi := reach_inv (by decide) h
  refine ⟨⟨hi.good, hi.sizes, hi.single⟩, ?_⟩
  rcases op_spec (fuel := 1) (by decide) hi o ho with h | ⟨h1, m', h2, h3, -⟩
  · exact Or.inl h
  · exact Or.inr ⟨h1, m', h2, h3⟩

/-- Ten frames in waves of three: four waves, the last one of a single frame. -/
example : ((((Mod.init [8, 2]).op 1 (.nFrames 10)).mod.op 1 (.npw 3)).mod.conf, (((Mod.init [8, 2]).op 1 (.nFrames 10)).mod.op 1 (.npw 3)).mod.socks)
    = (⟨10, 3, 4, 1⟩, [⟨false, 80, false⟩, ⟨false, 20, false⟩, ⟨true, 16, false⟩]) := by decide +kernel

/-- C55, the bound on the arguments matters: with `2^25 + 1` frames in waves of one frame, the number of waves, computed in
single precision, misses the last frame. -/
theorem C55_float_waves (bytes : List Nat) :
    ((Mod.init bytes).op 1 (.nFrames (2 ^ 25 + 1))).mod.nFrames = 2 ^ 25 + 1 ∧
    ((Mod.init bytes).op 1 (.nFrames (2 ^ 25 + 1))).mod.npw = 1 ∧
    ((Mod.init bytes).op 1 (.nFrames (2 ^ 25 + 1))).mod.nWaves = 2 ^ 25 := by
  have hc : ceilDivF32 (toF32 (2 ^ 25 + 1)) (toF32 1) = 2 ^ 25 := by decide +kernel
  show (Mod.setNFrames 1 (Mod.init bytes) _).mod.nFrames = _ ∧ (Mod.setNFrames 1 (Mod.init bytes) _).mod.npw = _ ∧
    (Mod.setNFrames 1 (Mod.init bytes) _).mod.nWaves = _
  unfold Mod.setNFrames
  rw [if_pos (show (Mod.init bytes).nFrames ≠ 2 ^ 25 + 1 by simp [Mod.init])]
  unfold Mod.setFrames
  rw [if_neg (by decide)]
  simp only []
  rw [show (Mod.init bytes).npw = 1 from rfl, hc]
  unfold Res.seq
  split
  · rw [if_neg (by simp [Mod.init])]; exact ⟨rfl, rfl, rfl⟩
  · exact ⟨rfl, rfl, rfl⟩

/-- C55, the hypothesis that no socket is bound matters: with a bound socket of non-zero size, `set_n_frames` throws, yet
the module has already taken the new number of frames. -/
theorem C55_bound_not_restored (m : Mod) (n : Nat) (hf : 0 < m.nFrames) (hn : 0 < n) (hne : n ≠ m.nFrames) (s : Sck) (hs : s ∈ m.socks)
    (hb : s.bound = true) (hst : s.status = false) (hz : 0 < s.bytes) (hd : m.nFrames ∣ s.bytes) :
    (m.op 1 (.nFrames n)).err = some .runtimeError ∧ (m.op 1 (.nFrames n)).mod.nFrames = n ∧ s ∈ (m.op 1 (.nFrames n)).mod.socks := by
  have key : ∀ (f : Sck → Option Sck) (l : List Sck), f s = none → s ∈ l → (updSocks f l).2 = true ∧ s ∈ (updSocks f l).1 := by
    intro f l hfs
    induction l with
    | nil => intro h; cases h
    | cons t l ih =>
      intro h
      unfold updSocks
      cases ht : f t with
      | none => exact ⟨rfl, h⟩
      | some t' =>
        have hne : s ≠ t := by rintro rfl; rw [hfs] at ht; cases ht
        have := ih ((List.mem_cons.1 h).resolve_left hne)
        exact ⟨this.1, List.mem_cons_of_mem _ this.2⟩
  obtain ⟨q, hq⟩ := hd
  have hq0 : 0 < q := by
    rcases Nat.eq_zero_or_pos q with h | h
    · rw [h] at hq; omega
    · exact h
  have hfs : updFrames (ceilDivF32 (toF32 n) (toF32 m.npw)) m.nFrames n s = none := by
    unfold updFrames Sck.setBytes
    rw [if_neg (by simp [hst]), hb, hq, Nat.mul_div_cancel_left _ hf, if_pos, if_pos rfl]
    rw [Nat.mul_comm]
    intro h
    exact hne (Nat.eq_of_mul_eq_mul_right hq0 h)
  obtain ⟨k1, k2⟩ := key _ _ hfs hs
  show (Mod.setNFrames 1 m n).err = _ ∧ (Mod.setNFrames 1 m n).mod.nFrames = _ ∧ s ∈ (Mod.setNFrames 1 m n).mod.socks
  unfold Mod.setNFrames
  rw [if_pos (fun h => hne h.symm)]
  unfold Mod.setFrames
  rw [if_neg (by omega)]
  simp only [k1, if_true]
  rw [seq_some]
  exact ⟨rfl, rfl, k2⟩

/-- A bound four-byte socket: the call throws, `get_n_frames` is 3 and the socket is still sized for one frame. -/
example : ((⟨1, 1, 1, 0, false, [⟨false, 4, true⟩, ⟨true, 4, false⟩]⟩ : Mod).op 1 (.nFrames 3)) =
    ⟨⟨3, 1, 3, 0, false, [⟨false, 4, true⟩, ⟨true, 4, false⟩]⟩, some .runtimeError⟩ := by decide +kernel

/-! ## C34 -/

/-- C34: for a task whose work on each frame depends only on that frame, `exec(-1)` runs a number `k ≥ 1` of waves, in
order; exactly the frames of these waves have been processed, each output being what the frame alone gives; the waves that
ran have the status the codelet returned; only the last one of them can have returned `FAILURE_STOP`, and it did if
`k` is not the number of waves; the remaining waves have status `UNKNOWN` and their frames are untouched.  (Memory safety
included.) -/
theorem C34_all_frames {α : Type} (S : Socks) (c : Conf) (cod : Codelet α) (φ : (Nat → List α) → Nat → List α) (m : Mem α)
    (fast managed : Bool) (g : c.Good) (hφ : Framewise S c.npw cod φ) (hm : Fits S c m) :
    ∃ m' k, exec S c cod fast true (-1) managed m = ok m' ∧ 0 < k ∧ k ≤ c.nWaves ∧
      Processed S c.nFrames φ (fun f => f < k * c.npw) m.user m'.user ∧ m'.status.length = c.nWaves ∧
      (∀ w, w < k → RanWave S c cod m.user w m'.status[w]?) ∧
      (∀ w, k ≤ w → w < c.nWaves → m'.status[w]? = some UNKNOWN) ∧
      (∀ w, w + 1 < k → m'.status[w]? ≠ some FAILURE_STOP) ∧
      (k < c.nWaves → m'.status[k - 1]? = some FAILURE_STOP) := by
  have : exec S c cod fast true (-1) managed m = exec_ S c cod (-1) managed m := by
    unfold exec; cases fast <;> simp
  rw [this]
  exact exec_all managed g hφ hm

/-- C34: without a stop, the outputs do not depend on the size of the waves: every frame has been processed. -/
theorem C34_any_wave_size {α : Type} (S : Socks) (c : Conf) (cod : Codelet α) (φ : (Nat → List α) → Nat → List α) (m : Mem α)
    (fast managed : Bool) (g : c.Good) (hφ : Framewise S c.npw cod φ) (hm : Fits S c m)
    (hs : ∀ fid win, (cod fid win).1 ≠ FAILURE_STOP) :
    ∃ m', exec S c cod fast true (-1) managed m = ok m' ∧ Processed S c.nFrames φ (fun _ => True) m.user m'.user := by
  obtain ⟨m', k, h1, h2, h3, h4, h5, h6, h7, h8, h9⟩ := C34_all_frames S c cod φ m fast managed g hφ hm
  refine ⟨m', h1, h4.congr fun f hf => ⟨fun _ => ?_, fun _ => trivial⟩⟩
  have hk : k = c.nWaves := by
    by_contra hk
    have h10 := h9 (by omega)
    obtain ⟨win, -, -, e⟩ := h6 (k - 1) (by omega)
    rw [h10] at e
    exact hs _ _ (Option.some.inj e).symm
  rw [hk]
  exact Nat.lt_of_lt_of_le hf g.waves.2

/-- C34: `exec(frame_id)` processes that frame and no other.  (For frame 0 only when a wave has a single frame, see
`C34_frame_zero`.) -/
theorem C34_one_frame {α : Type} (S : Socks) (c : Conf) (cod : Codelet α) (φ : (Nat → List α) → Nat → List α) (m : Mem α) (f : Nat)
    (fast : Bool) (g : c.Good) (hφ : Framewise S c.npw cod φ) (hm : Fits S c m) (hf : f < c.nFrames) (hf0 : 0 < f ∨ c.npw = 1) :
    ∃ m', exec S c cod fast true f true m = ok m' ∧ Processed S c.nFrames φ (fun g => g = f) m.user m'.user ∧
      m'.status.length = c.nWaves ∧ ∀ w, w ≠ f / c.npw → w < c.nWaves → m'.status[w]? = some UNKNOWN := by
  have : exec S c cod fast true f true m = exec_ S c cod f true m := by
    unfold exec; cases fast
    · rw [if_neg (by simp), if_neg (by omega), if_pos rfl]
    · simp
  rw [this]
  exact exec_one g hφ hm hf hf0

/-- C34, defect: `exec(0)` processes the whole first wave, not only frame 0. -/
theorem C34_frame_zero {α : Type} (S : Socks) (c : Conf) (cod : Codelet α) (φ : (Nat → List α) → Nat → List α) (m : Mem α)
    (fast : Bool) (g : c.Good) (hφ : Framewise S c.npw cod φ) (hm : Fits S c m) :
    ∃ m', exec S c cod fast true 0 true m = ok m' ∧ Processed S c.nFrames φ (fun g => g < c.npw) m.user m'.user ∧
      m'.status.length = c.nWaves ∧ ∀ w, w ≠ 0 → w < c.nWaves → m'.status[w]? = some UNKNOWN := by
  have : exec S c cod fast true 0 true m = exec_ S c cod 0 true m := by
    have := g.frames
    unfold exec; cases fast
    · rw [if_neg (by simp), if_neg (by omega), if_pos rfl]
    · simp
  rw [this]
  exact exec_zero g hφ hm

/-- C34: a frame identifier out of range is rejected, and so is a task some socket of which has no buffer. -/
theorem C34_rejects {α : Type} (S : Socks) (c : Conf) (cod : Codelet α) (m : Mem α) (fed managed : Bool) (f : Int) :
    (f < -1 ∨ (c.nFrames : Int) ≤ f → exec S c cod false fed f managed m = exc .lengthError) ∧
    (-1 ≤ f ∧ f < c.nFrames → exec S c cod false false f managed m = exc .runtimeError) := by
  constructor
  · intro h
    unfold exec
    rw [if_neg (by simp), if_pos (by omega)]
  · intro h
    unfold exec
    rw [if_neg (by simp), if_neg (by omega), if_neg (by simp)]

/-! Non-vacuity: a task with one input and one output socket of two bytes per frame, whose codelet adds one to every byte
of the wave. -/

/-- One input, one output. -/
def exS : Socks := ⟨2, fun s => s == 1, fun _ => 2⟩

/-- Adds one to every byte. -/
def exCod : Codelet Nat := fun _ win => (0, fun _ => (win 0).map (· + 1))

theorem exCod_framewise (npw : Nat) : Framewise exS npw exCod (fun ins _ => (ins 0).map (· + 1)) := by
  intro fid win hw s hs ho
  refine ⟨?_, fun j hj => ?_⟩
  · show ((win 0).map _).length = _
    rw [List.length_map, hw 0 (by decide)]; rfl
  · show frame ((win 0).map (· + 1)) 2 j = (inputs exS win j 0).map (· + 1)
    rw [show inputs exS win j 0 = frame (win 0) 2 j from rfl]
    simp [frame, List.map_drop, List.map_take]

/-- Five frames in waves of two: the last wave is partial. -/
def exMem : Mem Nat := ⟨fun s => if s = 0 then [1, 2, 3, 4, 5, 6, 7, 8, 9, 10] else List.replicate 10 0, fun _ => List.replicate 4 0, [0, 0, 0]⟩

example : Fits exS ⟨5, 2, 3, 1⟩ exMem ∧ (⟨5, 2, 3, 1⟩ : Conf).Good :=
  ⟨⟨by intro s hs; simp only [exS] at hs ⊢; unfold exMem; simp only; split <;> rfl, fun _ s _ => rfl, rfl⟩, ⟨by decide, by decide, by decide, rfl⟩⟩

example : ((exec exS ⟨5, 2, 3, 1⟩ exCod false true (-1) true exMem).toOption.map fun m => (m.user 1, m.status)) =
    some ([2, 3, 4, 5, 6, 7, 8, 9, 10, 11], [0, 0, 0]) := by decide +kernel

example : ((exec exS ⟨5, 2, 3, 1⟩ exCod false true 3 true exMem).toOption.map fun m => (m.user 1, m.status)) =
    some ([0, 0, 0, 0, 0, 0, 8, 9, 0, 0], [-2, 0, -2]) := by decide +kernel

example : ((exec exS ⟨5, 2, 3, 1⟩ exCod false true 0 true exMem).toOption.map fun m => (m.user 1, m.status)) =
    some ([2, 3, 4, 5, 0, 0, 0, 0, 0, 0], [0, -2, -2]) := by decide +kernel

end Verif.Module
