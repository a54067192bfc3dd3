/-
Model of the fits of Dandrea et al. to the susceptibility: the coefficients in free_free.py 837-921.

Real numbers instead of floating point numbers.
-/
import Verif.Model.Response
import Verif.Model.FermiInt

set_option autoImplicit false

namespace Verif.Resp

open Real Verif.Expt Verif.FermiInt

/-- free_free.py 839-841: the Fermi integral of order -1/2 without its norm. -/
noncomputable def danI0 (eta0 : ℝ) : ℝ := fermiNeg12 eta0 * Gamma (-1 / 2 + 1)

/-- free_free.py 842-844: order 3/2. -/
noncomputable def danI15 (eta0 : ℝ) : ℝ := fermi32 eta0 * Gamma (3 / 2 + 1)

/-- free_free.py 845-847: order 5/2. -/
noncomputable def danI25 (eta0 : ℝ) : ℝ := fermi52 eta0 * Gamma (5 / 2 + 1)

/-- free_free.py 849-851. -/
noncomputable def danA2 (θ : ℝ) : ℝ :=
  (-0.2280 + θ) / (0.4222 + -0.6466 * θ ^ (0.70572 : ℝ) + 5.8820 * θ ^ 2)

/-- free_free.py 852-858. -/
noncomputable def danA4 (θ : ℝ) : ℝ :=
  (1 - 3.0375 * θ + 64.646 * θ ^ 2) /
    (19.608 - 96.978 * θ + 423.66 * θ ^ 2 - 331.01 * θ ^ 3 + 20.833 * 64.646 * θ ^ 4)

/-- free_free.py 859-865. -/
noncomputable def danA6 (θ : ℝ) : ℝ :=
  (-0.1900 + θ) / (0.36538 - 2.2575 * θ + 22.942 * θ ^ 2 - 43.492 * θ ^ 3 + 106.40 * θ ^ 4)

/-- free_free.py 866-874. -/
noncomputable def danA8 (θ : ℝ) : ℝ :=
  (0.91 - 6.4453 * θ + 12.2324 * θ ^ 2) /
    (1 - 7.1316 * θ + 22.725 * θ ^ 2 + 58.092 * θ ^ 3 - 436.02 * θ ^ 4 - 826.51 * θ ^ 5 +
      4912.9 * θ ^ 6)

/-- free_free.py 877, the numerator of `J`. -/
noncomputable def danJNum (θ : ℝ) : ℝ :=
  1 + 3248.8 * θ ^ 2 - 691.47 * θ ^ 4 - 3202700 * θ ^ 7

/-- free_free.py 878-892, the denominator of `J`. -/
noncomputable def danJDen (θ : ℝ) : ℝ :=
  1 + (3248.8 - π ^ 2 / 6) * θ ^ 2 - 4535.6 * θ ^ 4 - 462400 * θ ^ 6 +
    (3 * sqrt 2 * -3202700 / (4 * sqrt π) * θ ^ (15 / 2 : ℝ) + 3 * -3202700 / 4 * θ ^ 9)

/-- free_free.py 877-892. -/
noncomputable def danJ (θ : ℝ) : ℝ := danJNum θ / danJDen θ

/-- free_free.py 893. -/
noncomputable def danKNum (θ : ℝ) : ℝ :=
  1 - 4.8780 * θ ^ 2 + 473.25 * θ ^ 4 - 2337.5 * θ ^ 7

/-- free_free.py 894-907. -/
noncomputable def danKDen (θ : ℝ) : ℝ :=
  1 + (-4.8780 - 3 * π ^ 2 / 4) * θ ^ 2 + 348.31 * θ ^ 4 + 1517.3 * θ ^ 7 -
    7 * sqrt 2 * -2337.5 / (8 * sqrt π) * θ ^ (17 / 2 : ℝ) - 3 * -2337.5 / 8 * θ ^ 10

/-- free_free.py 908. -/
noncomputable def danK (θ : ℝ) : ℝ := danKNum θ / danKDen θ

/-- free_free.py 837-921, all coefficients of `_phi_Dandrea`. -/
noncomputable def danCoeffs (θ eta0 : ℝ) : DandreaCoeffs :=
  let I0 := danI0 eta0
  let a2 := danA2 θ
  let a4 := danA4 θ
  let a6 := danA6 θ
  let a8 := danA8 θ
  let b2 := a2 + 2 * danJ θ / (3 * sqrt θ * I0)
  let b4 := b2 ^ 2 - a2 * b2 + a4 + 2 * danK θ / (15 * sqrt θ * I0)
  let b10 := 3 / 2 * sqrt θ * I0 * a8
  let b8 := 3 / 2 * sqrt θ * I0 * a6 - 1 / 2 * θ ^ (5 / 2 : ℝ) * danI15 eta0 * b10
  let b6 := 3 / 2 * sqrt θ * I0 * a4 - 1 / 2 * θ ^ (5 / 2 : ℝ) * danI15 eta0 * b8 -
    3 / 10 * θ ^ (7 / 2 : ℝ) * danI25 eta0 * b10
  { i0 := I0, a2 := a2, a4 := a4, a6 := a6, a8 := a8, b2 := b2, b4 := b4, b6 := b6, b8 := b8, b10 := b10 }

/-- free_free.py 1003-1005: the reduced chemical potential. -/
noncomputable def danEta (θ : ℝ) : ℝ :=
  inverseFermi12 ((2 / 3 * θ ^ (-3 / 2 : ℝ)) / Gamma (1 / 2 + 1))

/-- The fits of free_free.py 837-921 and 1003-1005. -/
noncomputable def danFits : DandreaFits := ⟨danEta, danCoeffs⟩

end Verif.Resp
