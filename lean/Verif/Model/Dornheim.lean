/-
Model of the static local field correction of Dornheim et al.
(ee_localfieldcorrections_dornheim_2021.py, ee_localfieldcorrections.py).

The expression `double` (2500 lines, generated by a computer algebra program) for the second
derivative of the exchange-correlation free energy is not modelled: it is the parameter `dbl`.
-/
import Verif.Model.Response
import Mathlib.Analysis.SpecialFunctions.Trigonometric.DerivHyp
import Mathlib.Data.List.GetD

set_option autoImplicit false

namespace Verif.Dornheim

open Real Verif.Expt Verif.Resp

/-- ee_localfieldcorrections_dornheim_2021.py 16-17 `qf`. -/
noncomputable def qf (rs : ℝ) : ℝ := (9 / 4 * π) ^ ((1.0 : ℝ) / 3.0) / rs

/-- 20-21 `Ef`. -/
noncomputable def ef (rs : ℝ) : ℝ := qf rs * qf rs * 0.5

/-- 24-25 `density`. -/
noncomputable def density (rs : ℝ) : ℝ := 3.0 / 4.0 / π / rs ^ 3

/-- 28-29 `inverse_temperature`. -/
noncomputable def inverseTemperature (rs t : ℝ) : ℝ := 1.0 / (ef rs * t)

/-- 2506-2510 `Groth_A`; `dbl` is `double`. -/
noncomputable def grothA (dbl : ℝ → ℝ → ℝ) (rs t : ℝ) : ℝ :=
  let n := density rs
  let beta := inverseTemperature rs t
  let factor := dbl n beta;
  -qf rs ^ 2 / (4.0 * π) * factor

/-- 2516-2559 `OnTop`. -/
noncomputable def onTop (rs t : ℝ) : ℝ :=
  (1.0 + (0.18315 + 18.4377 * t) / (1.0 + t * 24.1339 + t * t * t * 1.86499) * sqrt rs +
      (-0.0784043 + -0.24368 * sqrt t) / (1.0 + t * 0.252577 + t * t * 0.127043) * rs) /
    (1.0 + (1.02232 + 2.23663 * sqrt t + 0.448937 * t * sqrt t) / (1.0 + t * 0.445526 + t * t * 0.408504) * rs +
      (0.0837741 + 0.0589015 * sqrt t) / (1.0 + t * -0.598508 + t * t * 0.513162) * rs * rs * rs)

/-- 2566-2567 `Activation`. -/
noncomputable def activation (x a b : ℝ) : ℝ := 0.5 * (tanh (b * (x - a)) + 1.0)

/-- 2572-2576 `x_m`. -/
noncomputable def xM (theta : ℝ) : ℝ := 2.64 + 0.31 * theta + 0.08 * theta ^ 2

/-- 2582-2619 `ABCD`. -/
def abcd : List ℚ :=
  [0.66477593, -4.59280227, 1.24649624, -1.27089927, 1.26706839, -0.4327608, 2.09717766, 1.15424724,
    -0.65356955, -1.0206202, 5.16041218, -0.23880981, 1.07356921, -1.67311761, 0.58928105, 0.8469662,
    1.54029035, -0.71145445, -2.31252076, 5.83181391, 2.29489749, 1.76614589, -0.09710839, -0.33180686,
    0.56560236, 1.10948188, -0.43213648, 1.3742155, -4.01393906, -1.65187145, -1.75381153, -1.17022854,
    0.76772906, 0.63867766, 1.07863273, -0.35630091]

/-- 2632-2649: the fit to the static correction, the first part of `G_fit_wrap_extended`. -/
noncomputable def gFit (A alpha beta gamma delta x : ℝ) : ℝ :=
  A * x * x * (1.0 + alpha * x + beta * x ^ (0.5 : ℝ)) /
    (1.0 + gamma * x + delta * x ^ (1.25 : ℝ) + A * x ^ 2)

/-- 2625-2667 `G_fit_wrap_extended`. -/
noncomputable def gWrap (dbl : ℝ → ℝ → ℝ) (x rs theta alpha beta gamma delta : ℝ) : ℝ :=
  let G := gFit (grothA dbl rs theta) alpha beta gamma delta x
  let top := 0.5 * onTop rs theta
  let Ginfty := 1.0 - top
  let A := activation x (xM theta) 3.0
  G * (1.0 - A) + A * Ginfty

/-- 2672-2685 `alpha_extended`, `beta_extended`, `gamma_extended`, `delta_extended`. -/
noncomputable def rsExtended (rs a b c : ℝ) : ℝ := (a + b * rs) / (1.0 + c * rs)

/-- 2689-2690 `f_extended`. -/
noncomputable def fExtended (t a b c : ℝ) : ℝ := a + b * t + c * t ^ (1.5 : ℝ)

/-- 2699-2772: one of the four parameters, from nine coefficients that start at `i`. -/
noncomputable def param (i : ℕ) (rs theta : ℝ) : ℝ :=
  let f (j : ℕ) : ℝ := fExtended theta (abcd.getD j 0 : ℚ) (abcd.getD (j + 1) 0 : ℚ) (abcd.getD (j + 2) 0 : ℚ)
  rsExtended rs (f i) (f (i + 3)) (f (i + 6))

/-- 2694-2778 `G_analytical`. -/
noncomputable def gAnalytical (dbl : ℝ → ℝ → ℝ) (x rs theta : ℝ) : ℝ :=
  gWrap dbl x rs theta (param 0 rs theta) (param 9 rs theta) (param 18 rs theta) (param 27 rs theta)

/-- ee_localfieldcorrections.py 311-327 `eelfc_dornheim2021`, and models.py 4734-4745
`SLFCDornheimAnalytical2021.evaluate`. -/
noncomputable def eelfcDornheim (u : Consts) (dbl : ℝ → ℝ → ℝ) (k T n : ℝ) : ℝ :=
  let theta := T / (fermiEnergy u n / u.kB)
  gAnalytical dbl (k / fermiWavenumber n) (wignerSeitz n / bohr u) theta

end Verif.Dornheim
