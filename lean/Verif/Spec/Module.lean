import Verif.Model.Module

/-!
# Specification vocabulary for module bookkeeping and task execution
-/

namespace Verif.Module

/-- Frame `f` of a buffer made of frames of `bpf` bytes. -/
def frame {α : Type _} (b : List α) (bpf f : Nat) : List α := (b.drop (f * bpf)).take bpf

/-- Frame `f` of every input buffer (nothing for output sockets). -/
def inputs {α : Type _} (S : Socks) (bufs : Nat → List α) (f : Nat) : Nat → List α :=
  fun s => if s < S.n ∧ S.isOut s = false then frame (bufs s) (S.bpf s) f else []

/-- The task's work on each frame depends only on that frame: whatever the windows of `npw` frames it is given, each frame
of each output window is `φ` of the same frame of the input windows.  Nothing is assumed of the status. -/
def Framewise {α : Type _} (S : Socks) (npw : Nat) (cod : Codelet α) (φ : (Nat → List α) → Nat → List α) : Prop :=
  ∀ fid win, (∀ s, s < S.n → (win s).length = npw * S.bpf s) → ∀ s, s < S.n → S.isOut s = true →
    ((cod fid win).2 s).length = npw * S.bpf s ∧
    ∀ j, j < npw → frame ((cod fid win).2 s) (S.bpf s) j = φ (inputs S win j) s

/-- The frame counts are consistent: `n_waves` waves of `npw` frames are just enough for `n_frames` frames. -/
structure Conf.Good (c : Conf) : Prop where
  frames : 0 < c.nFrames
  npw : 0 < c.npw
  waves : (c.nWaves - 1) * c.npw < c.nFrames ∧ c.nFrames ≤ c.nWaves * c.npw
  rest : c.rest = c.nFrames % c.npw

/-- Every socket has a buffer of `n_frames` frames, the task's own buffers are large enough for a wave when a wave has
several frames, and there is a status per wave. -/
structure Fits {α : Type _} (S : Socks) (c : Conf) (m : Mem α) : Prop where
  user : ∀ s, s < S.n → (m.user s).length = c.nFrames * S.bpf s
  tmp : 1 < c.npw → ∀ s, s < S.n → (m.tmp s).length = c.npw * S.bpf s
  status : m.status.length = c.nWaves

/-- From buffers `a` to buffers `b` of `F` frames, exactly the frames satisfying `P` have been processed: inputs are
untouched, each output frame satisfying `P` is `φ` of the input frame, every other output frame is as before. -/
def Processed {α : Type _} (S : Socks) (F : Nat) (φ : (Nat → List α) → Nat → List α) (P : Nat → Prop)
    (a b : Nat → List α) : Prop :=
  ∀ s, s < S.n → (b s).length = (a s).length ∧ (S.isOut s = false → b s = a s) ∧
    (S.isOut s = true → ∀ f, f < F →
      (P f → frame (b s) (S.bpf s) f = φ (inputs S a f) s) ∧ (¬ P f → frame (b s) (S.bpf s) f = frame (a s) (S.bpf s) f))

/-- Every socket has `n_frames` times its initial size, the status socket four bytes per wave. -/
def SizesOk (bytes : List Nat) (m : Mod) : Prop :=
  m.socks = bytes.map (fun b => ⟨false, b * m.nFrames, false⟩) ++ [⟨true, 4 * m.nWaves, false⟩]

end Verif.Module

namespace Verif.Module

/-- Status `st` of wave `w` is what the codelet returned when called on frames `w * npw`, `w * npw + 1`, ... (the last
wave may be completed with arbitrary frames). -/
def RanWave {α : Type _} (S : Socks) (c : Conf) (cod : Codelet α) (bufs : Nat → List α) (w : Nat) (st : Option Int) : Prop :=
  ∃ win : Nat → List α, (∀ s, s < S.n → (win s).length = c.npw * S.bpf s) ∧
    (∀ j, j < c.npw → w * c.npw + j < c.nFrames → inputs S win j = inputs S bufs (w * c.npw + j)) ∧
    st = some (cod (w * c.npw) win).1

/-- What a call must do: the numbers requested, and everything consistent. -/
def OpSpec (bytes : List Nat) (m : Mod) (o : ModOp) (m' : Mod) : Prop :=
  m'.conf.Good ∧ SizesOk bytes m' ∧ (m'.single = true → m'.npw = m'.nFrames) ∧
    match o with
    | .nFrames n => m'.nFrames = n ∧ m'.single = m.single ∧ m'.npw = if m.single then n else m.npw
    | .npw p => m'.npw = p ∧ m'.single = m.single ∧ m'.nFrames = if m.single then p else m.nFrames
    | .single b => m'.single = b ∧ m'.nFrames = m.nFrames ∧ m'.npw = m.nFrames

/-- Argument of a call. -/
def ModOp.arg (m : Mod) : ModOp → Nat
  | .nFrames n => n
  | .npw p => p
  | .single _ => m.nFrames

/-- A state reachable from the construction by calls with arguments below `2^24`, starting with sockets of `bytes` bytes;
calls that throw are part of histories. -/
inductive Reach (fuel : Nat) (bytes : List Nat) : Mod → Prop where
  | init : Reach fuel bytes (Mod.init bytes)
  | op {m : Mod} (o : ModOp) : Reach fuel bytes m → o.arg m < 2 ^ 24 → Reach fuel bytes (m.op fuel o).mod

end Verif.Module
