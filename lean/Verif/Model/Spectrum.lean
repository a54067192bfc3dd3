/-
The whole spectrum: `PlasmaState.probe`, with the contributions as they are evaluated by models.py.

The spectra of the models before the convolution are arguments here, functions of the setup; what they are is
modelled in FreeFree, Bound and StaticSf.
-/
import Verif.Model.StaticSf

set_option autoImplicit false

namespace Verif.Spectrum

open Real Verif.Expt

variable (u : Consts)

/-- A model under one of the keys of plasmastate.py 485-488. -/
inductive Part where
  /-- models.py 296-316 `Neglect` -/
  | neglect
  /-- models.py 336-467 `IonFeatModel`, with its Rayleigh weight and the mean atomic number of the state -/
  | ionic (weight : Setup → ℝ) (meanZ : ℝ)
  /-- models.py 173-270 `ScatteringModel`, with `evaluate_raw` and `sample_points` -/
  | scattering (raw : Setup → List ℝ) (samplePoints : Option ℕ)

/-- models.py 305-313, 458-467 and 235-270 `evaluate`. -/
noncomputable def Part.evaluate (s : Setup) : Part → List ℝ
  | .neglect => s.measured.map fun _ => 0
  | .ionic W Z => List.zipWith (fun E f => Ssf.ionFeature (W s) (s.instrument ((E - s.energy) / u.hbar)) f Z) s.measured
      s.frequencyRedistribution
  | .scattering raw m => Expt.evaluate u raw m s

/-- `a + b` for arrays of the same length. -/
noncomputable def plus (a b : List ℝ) : List ℝ := List.zipWith (· + ·) a b

/-- The models that `probe` reads. -/
structure Parts where
  ionic : Part
  freeFree : Part
  boundFree : Part
  freeBound : Part

/-- plasmastate.py 471-490 `probe`. -/
noncomputable def probe (p : Parts) (s : Setup) : List ℝ :=
  plus (plus (plus (p.ionic.evaluate u s) (p.freeFree.evaluate u s)) (p.boundFree.evaluate u s)) (p.freeBound.evaluate u s)

/-! ### Channels without a value -/

/-- The sum of terms some of which may be NaN. -/
noncomputable def sumO : List (Option ℝ) → Option ℝ
  | [] => some 0
  | a :: l => a.bind fun x => (sumO l).map fun y => x + y

/-- `jnp.convolve(a, b, mode="same")` as in `convolveSame`, for an array `a` with entries that may be NaN (`none`) and an
array `b` of the same length.  Only those pairs of entries are multiplied which overlap. -/
noncomputable def convolveSameO (a : List (Option ℝ)) (b : List ℝ) : List (Option ℝ) :=
  (List.range a.length).map fun i =>
    sumO ((List.range a.length).map fun j =>
      if j ≤ i + (a.length - 1) / 2 ∧ i + (a.length - 1) / 2 - j < b.length then
        (a.getD j none).map fun x => x * b.getD (i + (a.length - 1) / 2 - j) 0
      else some 0)

/-- setup.py 209-253 `convolve_stucture_factor_with_instrument` and models.py 269-270, without sampling, for a spectrum
with channels that may be NaN. -/
noncomputable def evaluateO (S : List (Option ℝ)) (s : Setup) : List (Option ℝ) :=
  List.zipWith (fun y f => y.map fun x => x * ((s.measured.getD 1 0 - s.measured.getD 0 0) / u.hbar) * f)
    (convolveSameO S ((convGrid u s).map s.instrument)) s.frequencyRedistribution

end Verif.Spectrum
