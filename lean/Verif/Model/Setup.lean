/-
Model of the experimental setup (setup.py, free_bound.py), of the convolution with the instrument
function, of the sampling of scattering models (models.py) and of the Compton shift
(plasma_physics.py).

Angles are in radian: the conversions `deg2rad` of the code, which act on quantities with units, are
not modelled.
-/
import Verif.Model.Interp
import Mathlib.Analysis.SpecialFunctions.Trigonometric.Basic
import Mathlib.Analysis.SpecialFunctions.Pow.Real

set_option autoImplicit false

namespace Verif.Expt

open Real

/-- Physical constants, in any system of units. -/
structure Consts where
  hbar : ℝ
  c : ℝ
  e : ℝ
  eps0 : ℝ
  me : ℝ
  kB : ℝ
  hbar_pos : 0 < hbar
  c_pos : 0 < c
  e_pos : 0 < e
  eps0_pos : 0 < eps0
  me_pos : 0 < me
  kB_pos : 0 < kB

/-- setup.py 24-83 `Setup`.  The instrument is a function of a frequency shift. -/
structure Setup where
  angle : ℝ
  energy : ℝ
  measured : List ℝ
  instrument : ℝ → ℝ
  correctK : Bool
  frc : ℝ

/-- setup.py 24-32, the constructor with its two default arguments. -/
def mkSetup (angle energy : ℝ) (measured : List ℝ) (instrument : ℝ → ℝ)
    (correctK : Bool := true) (frc : ℝ := 0) : Setup :=
  ⟨angle, energy, measured, instrument, correctK, frc⟩

variable (u : Consts)

/-- setup.py 175-181 `lambda0`; Planck's constant is `2 π ħ`. -/
noncomputable def Setup.lambda0 (s : Setup) : ℝ := 2 * π * u.hbar * u.c / s.energy

/-- setup.py 96-103 `k`. -/
noncomputable def Setup.k (s : Setup) : ℝ := 4 * π / s.lambda0 u * sin (s.angle / 2)

/-- setup.py 111-121: momentum transfer between photons with wave numbers `kin` and `kout`. -/
noncomputable def transfer (kin kout angle : ℝ) : ℝ :=
  sqrt (kout ^ 2 + kin ^ 2 - 2 * kout * kin * cos angle)

/-- setup.py 105-124 `full_k`, one entry per energy channel. -/
noncomputable def Setup.fullK (s : Setup) : List ℝ :=
  s.measured.map fun E =>
    if s.correctK then transfer (s.energy / u.hbar / u.c) (E / u.hbar / u.c) s.angle else s.k u

/-- setup.py 126-148 `frequency_redistribution_correction`. -/
noncomputable def Setup.frequencyRedistribution (s : Setup) : List ℝ :=
  s.measured.map fun E => (E / s.energy) ^ s.frc

/-- plasma_physics.py 12-37 `plasma_frequency`. -/
noncomputable def plasmaFrequency (ne : ℝ) : ℝ := sqrt (u.e ^ 2 * ne / (u.eps0 * u.me))

/-- setup.py 158-167: wave number of light with frequency `omega` in a plasma with plasma frequency
`wpl`. -/
noncomputable def photonK (omega wpl : ℝ) : ℝ := omega / u.c * sqrt (1 - wpl ^ 2 / omega ^ 2)

/-- setup.py 150-173 `dispersion_corrected_k`. -/
noncomputable def Setup.dispersionK (s : Setup) (ne : ℝ) : List ℝ :=
  s.measured.map fun E =>
    if s.correctK then
      transfer (photonK u (s.energy / u.hbar) (plasmaFrequency u ne))
        (photonK u (E / u.hbar) (plasmaFrequency u ne)) s.angle
    else s.k u

/-- plasma_physics.py 40-46 `thomson_momentum_transfer`. -/
noncomputable def thomsonMomentumTransfer (energy angle : ℝ) : ℝ :=
  2 * energy / (u.hbar * u.c) * sin (angle / 2)

/-- setup.py 256-293 `get_probe_setup`. -/
noncomputable def getProbeSetup (k : ℝ) (s : Setup) : Setup :=
  mkSetup s.angle (u.hbar * k * u.c / (2 * sin (s.angle / 2))) s.measured s.instrument s.correctK s.frc

/-- plasma_physics.py 387-402 `compton_energy`. -/
noncomputable def comptonEnergy (energy angle : ℝ) : ℝ :=
  energy * (1 - 1 / (1 + energy / (u.me * u.c ^ 2) * (1 - cos angle)))

/-! ### Mirrored setup -/

/-- free_bound.py 17-48 `FreeBoundFlippedSetup.__init__`.  The attribute `frc_exponent` is not set in
the code; here it is zero, and nothing below reads it. -/
def flip (s : Setup) : Setup :=
  { s with measured := s.measured.map fun E => 2 * s.energy - E, frc := 0 }

/-- free_bound.py 50-70 `FreeBoundFlippedSetup.full_k`, of a mirrored setup `s`. -/
noncomputable def flippedFullK (s : Setup) : List ℝ :=
  s.measured.map fun E =>
    if s.correctK then
      transfer (s.energy / u.hbar / u.c) ((2 * s.energy - E) / u.hbar / u.c) s.angle
    else s.k u

/-- free_bound.py 72-98 `FreeBoundFlippedSetup.dispersion_corrected_k`, of a mirrored setup `s`. -/
noncomputable def flippedDispersionK (s : Setup) (ne : ℝ) : List ℝ :=
  s.measured.map fun E =>
    if s.correctK then
      transfer (photonK u (s.energy / u.hbar) (plasmaFrequency u ne))
        (photonK u ((2 * s.energy - E) / u.hbar) (plasmaFrequency u ne)) s.angle
    else s.k u

/-- A bound-free model that works channel by channel, such as models.py 2658-2776
`SchumacherImpulse.evaluate_raw`: the value of a channel is a function `f` of the wave number of the
setup, of the energy shift of the channel and of the wave number `k` of the channel. -/
noncomputable def boundFree (f : ℝ → ℝ → ℝ → ℝ) (s : Setup) (ks : List ℝ) : List ℝ :=
  List.zipWith (fun E k => f (s.k u) (E - s.energy) k) s.measured ks

/-- models.py 2665: bound-free scattering for a setup and an electron density. -/
noncomputable def boundFreeRaw (f : ℝ → ℝ → ℝ → ℝ) (s : Setup) (ne : ℝ) : List ℝ :=
  boundFree u f s (s.dispersionK u ne)

/-- models.py 3087-3096 `DetailedBalance.evaluate_raw`. -/
noncomputable def freeBoundRaw (f : ℝ → ℝ → ℝ → ℝ) (s : Setup) (ne Te : ℝ) : List ℝ :=
  List.zipWith (fun fb E => fb * exp (-(E - s.energy) / (Te * u.kB)))
    (boundFree u f (flip s) (flippedDispersionK u (flip s) ne)) s.measured

/-! ### Convolution -/

/-- `jnp.convolve(a, b, mode="same")` for arrays of the same length `n`: the full convolution, cut to
the `n` entries that start at index `(n - 1) / 2`.  Modelled from the documentation of jax, as the
library is not part of the repository. -/
noncomputable def convolveSame (a b : List ℝ) : List ℝ :=
  (List.range a.length).map fun i =>
    ((List.range a.length).map fun j =>
      -- entry `j` of `a` meets entry `i + (n - 1) / 2 - j` of `b`
      if j ≤ i + (a.length - 1) / 2 then
        a.getD j 0 * b.getD (i + (a.length - 1) / 2 - j) 0
      else 0).sum

/-- `jnpu.mean`. -/
noncomputable def mean (l : List ℝ) : ℝ := l.sum / l.length

/-- `jnpu.min` of a non-empty list. -/
noncomputable def minimum : List ℝ → ℝ
  | [] => 0
  | [a] => a
  | a :: l => min a (minimum l)

/-- setup.py 234-246, the grid on which the instrument function is evaluated. -/
noncomputable def convGrid (s : Setup) : List ℝ :=
  let grid := s.measured.map fun E => (E - mean s.measured) / u.hbar
  grid.map (· + minimum (grid.map fun x => |x|))

/-- setup.py 209-253 `convolve_stucture_factor_with_instrument`. -/
noncomputable def convolve (S : List ℝ) (s : Setup) : List ℝ :=
  (convolveSame S ((convGrid u s).map s.instrument)).map
    (· * ((s.measured.getD 1 0 - s.measured.getD 0 0) / u.hbar))

/-! ### Sampling of scattering models -/

/-- `jnpu.linspace(a, b, m)`. -/
noncomputable def linspace (a b : ℝ) (m : ℕ) : List ℝ :=
  (List.range m).map fun (j : ℕ) => a + j * ((b - a) / ((m : ℝ) - 1))

/-- models.py 225-233 `ScatteringModel.sample_grid`. -/
noncomputable def sampleGrid (s : Setup) (m : ℕ) : List ℝ :=
  linspace (s.measured.getD 0 0) (s.measured.getD (s.measured.length - 1) 0) m

/-- models.py 253-258, the setup with few energies.  The two options of the setup are not handed
over. -/
noncomputable def lowRes (s : Setup) (m : ℕ) : Setup :=
  mkSetup s.angle s.energy (sampleGrid s m) s.instrument

/-- models.py 250-268, the spectrum before the convolution, on the measured energies. -/
noncomputable def rawSpectrum (evaluateRaw : Setup → List ℝ) (samplePoints : Option ℕ) (s : Setup) :
    List ℝ :=
  match samplePoints with
  | none => evaluateRaw s
  | some m =>
    let low := lowRes s m
    s.measured.map fun E =>
      Interp.interpLR low.measured.length (Interp.arr low.measured) (Interp.arr (evaluateRaw low))
        0 0 E

/-- models.py 235-270 `ScatteringModel.evaluate`, for a model with the given `evaluate_raw`. -/
noncomputable def evaluate (evaluateRaw : Setup → List ℝ) (samplePoints : Option ℕ) (s : Setup) :
    List ℝ :=
  List.zipWith (· * ·) (convolve u (rawSpectrum evaluateRaw samplePoints s) s)
    s.frequencyRedistribution

end Verif.Expt
