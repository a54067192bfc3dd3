/-
The Fourier transform of a rotationally symmetric function by the quadrature of Ogata:
/repo/src/jaxrts/hypernetted_chain.py 18-85.

Numbers are real.  `dpsi` replaces a NaN, which appears where `sinh (pi sinh t)` overflows, by 1; over the reals
the quotient is always defined and the branch is not modelled (Props/Ogata shows that 1 is the limit).  `nansum`
is the sum, units are left out.
-/
import Mathlib.Analysis.SpecialFunctions.Trigonometric.Basic
import Mathlib.Analysis.SpecialFunctions.Trigonometric.DerivHyp
import Mathlib.Analysis.SpecialFunctions.Pow.Real
import Verif.Model.Interp

set_option autoImplicit false

open Real

namespace Verif.Ogata

/-- hypernetted_chain.py 19-21 `psi`. -/
noncomputable def psi (t : ℝ) : ℝ := t * tanh (π * sinh t / 2)

/-- hypernetted_chain.py 24-29 `dpsi`, without the branch for NaN. -/
noncomputable def dpsi (t : ℝ) : ℝ := (π * t * cosh t + sinh (π * sinh t)) / (1 + cosh (π * sinh t))

/-- hypernetted_chain.py 33-35 `bessel_3_2`. -/
noncomputable def bessel32 (x : ℝ) : ℝ := sqrt (2 / (π * x)) * (sin x / x - cos x)

/-- hypernetted_chain.py 38-40 `bessel_0_5`. -/
noncomputable def bessel05 (x : ℝ) : ℝ := sqrt (2 / (π * x)) * sin x

/-- hypernetted_chain.py 43-45 `bessel_neg0_5`. -/
noncomputable def besselNeg05 (x : ℝ) : ℝ := sqrt (2 / (π * x)) * cos x

/-- hypernetted_chain.py 48-52 `bessel_2ndkind_0_5`. -/
noncomputable def besselSecond05 (x : ℝ) : ℝ :=
  (bessel05 x * cos (0.5 * π) - besselNeg05 x) / sin (0.5 * π)

/-- hypernetted_chain.py 69 `y_k`, for `r_k = i`. -/
noncomputable def y (h : ℝ) (i : ℕ) : ℝ := π * psi (h * i) / h

/-- hypernetted_chain.py 77 `w_k`, for `r_k = i`. -/
noncomputable def w (i : ℕ) : ℝ := besselSecond05 (π * i) / bessel32 (π * i)

/-- hypernetted_chain.py 72-79 `f_int`: the table of `f r^(3/2)` of length `n` at `x`. -/
noncomputable def fInt (n : ℕ) (r f : ℕ → ℝ) (x : ℝ) : ℝ :=
  Interp.interpLR n r (fun i => f i * r i ^ (3 / 2 : ℝ)) (f 0 * r 0 ^ (3 / 2 : ℝ))
    (f (n - 1) * r (n - 1) ^ (3 / 2 : ℝ)) x

/-- hypernetted_chain.py 83 an element of `series_sum`. -/
noncomputable def term (n : ℕ) (r f : ℕ → ℝ) (h onek : ℝ) (i : ℕ) : ℝ :=
  π * w i * fInt n r f (y h i / onek) * bessel05 (y h i) * dpsi (h * i)

/-- hypernetted_chain.py 55-90 `fourier_transform_ogata` at one element `onek` of `k`. -/
noncomputable def fourierOgata (n : ℕ) (r f : ℕ → ℝ) (N : ℕ) (h onek : ℝ) : ℝ :=
  let res := (∑ j ∈ Finset.range N, term n r f h onek (j + 1)) / onek ^ 3 * onek ^ (3 / 2 : ℝ)
  res * (2 * π) ^ (3 / 2 : ℝ)

end Verif.Ogata
