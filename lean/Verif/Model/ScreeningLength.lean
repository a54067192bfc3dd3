/-
Model of the screening length models (models.py 4063-4165), of the screening lengths in free_free.py
1255-1299, and of the de Broglie wavelengths of a state.

Real numbers instead of floating point numbers, the integral of `quadgk` is the exact one; the
conversion of the result to angstroms is a change of units and left out.
-/
import Verif.Model.Fermi
import Verif.Model.Ipd
import Verif.Model.FermiInt

set_option autoImplicit false

namespace Verif.Resp

open Real Verif.Expt Verif.Ipd Verif.FermiInt

variable (u : Consts)

/-- models.py 4085-4089 `DebyeHueckelScreeningLength.evaluate`, for electrons of temperature `T` and
density `n`. -/
noncomputable def slDebye (T n : ℝ) : ℝ := debyeLength u [(n, 1)] T

/-- models.py 4110-4117 `Gericke2010ScreeningLength.evaluate`. -/
noncomputable def slGericke (T n : ℝ) : ℝ := debyeLength u [(n, 1)] (temperatureInterpolation u n T 4)

/-- models.py 4134-4142 `ArbitraryDegeneracyScreeningLength.evaluate`. -/
noncomputable def slArbitrary (T n : ℝ) : ℝ :=
  1 / inverseScreeningE u fermiNeg12 (chemPotIchimaru u) n T

/-- free_free.py 1255-1280 `inverse_screening_length_exact`; the energies are in any unit. -/
noncomputable def invScreeningExact (T mu : ℝ) : ℝ :=
  sqrt (u.e ^ 2 * u.me ^ (3 / 2 : ℝ) / (sqrt 2 * π ^ 2 * u.eps0 * u.hbar ^ 3) *
    ∫ ε in Set.Ioi (0 : ℝ), ε ^ (-1 / 2 : ℝ) * (exp ((ε - mu) / (u.kB * T)) + 1)⁻¹)

/-- free_free.py 1283-1290 `inverse_screening_length_non_degenerate`. -/
noncomputable def invScreeningNonDegenerate (n T : ℝ) : ℝ :=
  sqrt (n * u.e ^ 2 / (u.eps0 * u.kB * T))

/-- free_free.py 1293-1299 `statically_screened_ie_debye_potential`. -/
noncomputable def debyePotentialIE (q kappa Zf : ℝ) : ℝ :=
  -Zf * u.e ^ 2 / (u.eps0 * (q ^ 2 + kappa ^ 2))

end Verif.Resp
