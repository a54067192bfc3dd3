/-
Model of the instrument functions: /repo/src/jaxrts/instrument_function.py.

Frequencies and energies are real numbers in one system of units, so the conversion of widths from
energies to frequencies (a factor) is not modelled.  `FromCallable` (282-341), which wraps a function,
and the reading of files (492-519) are not modelled either.
-/
import Verif.Model.Interp
import Mathlib.Analysis.SpecialFunctions.Pow.Real
import Mathlib.Analysis.SpecialFunctions.Trigonometric.Basic
import Mathlib.Analysis.SpecialFunctions.Log.Basic

set_option autoImplicit false

namespace Verif.Instrument

open Real

/-- instrument_function.py 77, 84: the factor between `fwhm` and `sigma`. -/
noncomputable def fwhmFactor : ℝ := 2 * sqrt (2 * log 2)

/-- instrument_function.py 76-80, 142, 146, 217: `sigma` of an instrument function given by its
`fwhm`. -/
noncomputable def sigmaOfFwhm (fwhm : ℝ) : ℝ := fwhm / fwhmFactor

/-- instrument_function.py 82-84 `Gaussian.fwhm`. -/
noncomputable def gaussianFwhm (sigma : ℝ) : ℝ := sigma * fwhmFactor

/-- instrument_function.py 223-225 `SuperGaussian.fwhm`; the exponent is not used. -/
noncomputable def superGaussianFwhm (sigma _power : ℝ) : ℝ := sigma * fwhmFactor

/-- instrument_function.py 392-417 `instrument_gaussian`, called by 86-87 `Gaussian.__call__`. -/
noncomputable def gaussian (x sigma : ℝ) : ℝ :=
  1 / (sigma * sqrt (2 * π)) * exp (-0.5 * x ^ 2 / sigma ^ 2)

/-- instrument_function.py 154-161 `TwinGaussian.__call__`. -/
noncomputable def twinGaussian (sigma1 sigma2 omega : ℝ) : ℝ :=
  let norm1 := sqrt (2 * π * sigma1 ^ 2)
  let norm2 := sqrt (2 * π * sigma2 ^ 2)
  (if omega < 0 then gaussian omega sigma1 * norm1 else gaussian omega sigma2 * norm2) /
    (0.5 * norm1 + 0.5 * norm2)

/-- `jnp.trapezoid(y, x)` for arrays of `n` entries. -/
noncomputable def trapezoid (n : ℕ) (y x : ℕ → ℝ) : ℝ :=
  ∑ i ∈ Finset.range (n - 1), (x (i + 1) - x i) * (y (i + 1) + y i) / 2

/-- instrument_function.py 452-455: 600 points from -10 to 10. -/
noncomputable def superGrid (sigma : ℝ) (i : ℕ) : ℝ :=
  (-10 * sigma + i * (20 * sigma / 599)) / sigma

/-- instrument_function.py 456-459: the norm of the super-Gaussian, by the trapezoid rule. -/
noncomputable def superNorm (sigma power : ℝ) : ℝ :=
  trapezoid 600 (fun i => exp (-((0.5 * superGrid sigma i ^ 2) ^ power))) (superGrid sigma)

/-- instrument_function.py 420-463 `instrument_supergaussian`, called by 227-228. -/
noncomputable def superGaussian (x sigma power : ℝ) : ℝ :=
  exp (-((0.5 * x ^ 2 / sigma ^ 2) ^ power)) / (superNorm sigma power * sigma)

/-- instrument_function.py 466-489 `instrument_lorentzian`. -/
noncomputable def lorentzian (x gamma : ℝ) : ℝ := 1 / (π * gamma * (1 + (x / gamma) ^ 2))

/-- instrument_function.py 366-368 `FromArray.__init__`: the stored intensities. -/
noncomputable def normalisedInts (n : ℕ) (x ints : ℕ → ℝ) (i : ℕ) : ℝ := ints i / trapezoid n ints x

/-- instrument_function.py 370-376 `FromArray.__call__`. -/
noncomputable def fromArray (n : ℕ) (x ints : ℕ → ℝ) (omega : ℝ) : ℝ :=
  Interp.interpLR n x (normalisedInts n x ints) 0 0 omega

end Verif.Instrument
