import Verif.Model.Events

/-!
# Fast generator of Gaussian noise

Models `src/Tools/Algo/Draw_generator/Gaussian_noise_generator/Fast/Gaussian_noise_generator_fast.cpp` for floats (for other types every draw throws,
`:39-51`).  The members and `set_seed` (`:25-36`) are those of the generator of events, `Events.Gen`.
-/

namespace Verif.Gaussian
open Exec Verif.Float Verif.Prng Verif.Events

/-- The functions of the library, of vectors or of scalars, and `twopi`. -/
structure Fns where
  log : Fl → Fl
  sqrt : Fl → Fl
  sin : Fl → Fl
  cos : Fl → Fl
  twopi : Fl

/-- `radius`, `Gaussian_noise_generator_fast.cpp:96` and `:117`. -/
def radius (f : Fns) (sigma u1 : Fl) : Fl := b32.mul (f.sqrt (b32.mul (f.log u1) (.fin (-2)))) sigma

/-- `radius * trig(theta) + mu`, `Gaussian_noise_generator_fast.cpp:96-106` and `:117-124`. -/
def sample (f : Fns) (trig : Fl → Fl) (sigma mu u1 u2 : Fl) : Fl :=
  b32.add (b32.mul (radius f sigma u1) (trig (b32.mul u2 f.twopi))) mu

/-- `get_random_simd`, `Gaussian_noise_generator_fast.cpp:53-64`: one value per lane. -/
def drawReg (L : Nat) (simd : List Prng) : Exec (List Fl × List Prng) :=
  forN L (fun l (r : List Fl × List Prng) => do
    let q ← rd r.2 l
    let x ← randReal simdOo q
    let simd ← wr r.2 l x.2
    let us ← wr r.1 l x.1
    ok (us, simd)) (List.replicate L .nan, simd)

/-- `generate`, `Gaussian_noise_generator_fast.cpp:80-139`; `fv` are the vector functions, `fs` the scalar ones.  The conversions of the length to `int`
are the identity: it is less than 2^31. -/
def generate (fv fs : Fns) (L : Nat) (aligned : Bool) (g : Gen) (noise : List Fl) (n : Nat) (sigma mu : Fl) : Exec (Gen × List Fl) :=
  if aligned = false then exc .runtimeError
  else do
    let r ← forN (n / (L * 2)) (fun v (r : List Prng × List Fl) => do
      let a ← drawReg L r.1
      let b ← drawReg L a.2
      let noise ← forN L (fun l noise => do
        let u1 ← rd a.1 l
        let u2 ← rd b.1 l
        wr noise (v * (L * 2) + l) (sample fv fv.cos sigma mu u1 u2)) r.2
      let noise ← forN L (fun l noise => do
        let u1 ← rd a.1 l
        let u2 ← rd b.1 l
        wr noise (v * (L * 2) + L + l) (sample fv fv.sin sigma mu u1 u2)) noise
      ok (b.2, noise)) (g.simd, noise)
    let t ← forN ((n / 2 * 2 - n / (L * 2) * (L * 2)) / 2) (fun i (t : Prng × List Fl) => do
      let a ← randReal (oo b32) t.1
      let b ← randReal (oo b32) a.2
      let noise ← wr t.2 (n / (L * 2) * (L * 2) + 2 * i) (sample fs fs.sin sigma mu a.1 b.1)
      let noise ← wr noise (n / (L * 2) * (L * 2) + 2 * i + 1) (sample fs fs.cos sigma mu a.1 b.1)
      ok (b.2, noise)) (g.mt, r.2)
    if n ≠ n / 2 * 2 then do
      let a ← randReal (oo b32) t.1
      let b ← randReal (oo b32) a.2
      let noise ← wr t.2 (n - 1) (sample fs fs.sin sigma mu a.1 b.1)
      ok (⟨b.2, r.1⟩, noise)
    else ok (⟨t.1, r.1⟩, t.2)

/-- A call of a method. -/
inductive Op where
  | seed (s : BitVec 32)
  | gen (n : Nat) (sigma mu : Fl) (buf : List Fl)

/-- Several calls with aligned buffers, and the noise drawn by each. -/
def run (fv fs : Fns) (L : Nat) (g : Gen) : List Op → Exec (Gen × List (List Fl))
  | [] => ok (g, [])
  | .seed s :: l => g.setSeed L s >>= fun g => run fv fs L g l >>= fun q => ok (q.1, [] :: q.2)
  | .gen n sigma mu buf :: l => generate fv fs L true g buf n sigma mu >>= fun r => run fv fs L r.1 l >>= fun q => ok (q.1, r.2 :: q.2)

end Verif.Gaussian
