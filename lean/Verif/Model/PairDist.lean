/-
Model of the pair distribution functions of Arkhipov, Baimbetov and Davletov
(static_structure_factors.py).
-/
import Verif.Model.StaticSf
import Mathlib.MeasureTheory.Integral.Bochner.Set
import Mathlib.MeasureTheory.Measure.Lebesgue.Basic

set_option autoImplicit false

namespace Verif.Ssf

open Real MeasureTheory Verif.Expt Verif.Resp

variable (u : Consts)

/-- static_structure_factors.py 577-590, 638-651, 701-714: from a potential in Fourier space to the
one at the distance `r`.  `quad` is the exact integral; the ångström of the integration variable
cancels and is left out. -/
noncomputable def radialPotential (Phi : ℝ → ℝ) (r : ℝ) : ℝ :=
  let integ := ∫ k in Set.Ioi (0 : ℝ), Phi k * (sin (k * r) * k)
  4 * π / r * (integ / (2 * π) ^ 3)

/-- static_structure_factors.py 533-592 `g_ee_ABD`. -/
noncomputable def gEe (r Te Ti ne mi Zf : ℝ) : ℝ :=
  exp (-radialPotential (fun k => phiEe u k Te Ti ne mi Zf) r / (u.kB * Te))

/-- static_structure_factors.py 595-653 `g_ii_ABD`. -/
noncomputable def gIi (r Te Ti ne mi Zf : ℝ) : ℝ :=
  exp (-radialPotential (fun k => phiIi u k Te Ti ne mi Zf) r / (u.kB * Ti))

/-- static_structure_factors.py 656-717 `g_ei_ABD`. -/
noncomputable def gEi (r Te Ti ne mi Zf : ℝ) : ℝ :=
  exp (-radialPotential (fun k => phiEi u k Te Ti ne mi Zf) r / (u.kB * tRsGreg Te Ti u.me mi))

end Verif.Ssf
