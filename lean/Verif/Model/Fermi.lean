/-
Model of chemical potentials and effective temperatures (plasma_physics.py,
static_structure_factors.py) and of the static local field corrections (ee_localfieldcorrections.py).

Numbers are exact.  Decimal literals of the code are the rationals they denote.
-/
import Verif.Model.Response

set_option autoImplicit false

namespace Verif.Resp

open Real Verif.Expt

variable (u : Consts)

/-- plasma_physics.py 13-36 `plasma_frequency`. -/
noncomputable def plasmaFrequency (n : ℝ) : ℝ := sqrt (u.e ^ 2 * n / (u.eps0 * u.me))

/-- plasma_physics.py 211-212: the low temperature expansion, in units of the Fermi energy. -/
noncomputable def chemLow (x : ℝ) : ℝ := 1 - π ^ 2 / 12 * x ^ 2 - π ^ 4 / 80 * x ^ 4

/-- plasma_physics.py 214-219: the high temperature expansion. -/
noncomputable def chemHigh (x : ℝ) : ℝ :=
  x * log (4 / 3 / sqrt π / x ^ (3 / 2 : ℝ)) + 1 / 3 * sqrt (2 / π) / x ^ (1 / 2 : ℝ) -
    (16 * sqrt 3 - 27) / (81 * π) / x ^ 2

/-- plasma_physics.py 200-221 `chem_pot_sommerfeld_fermi_interpolation`. -/
noncomputable def chemPotSommerfeld (T n : ℝ) : ℝ :=
  let x := T / fermiTemperature u n
  (if chemLow x < chemHigh x then chemHigh x else chemLow x) * fermiEnergy u n

/-- plasma_physics.py 243-256: the fit of Ichimaru in terms of the degeneracy parameter, in units of
the thermal energy. -/
noncomputable def ichimaruF (A B b theta : ℝ) : ℝ :=
  -3 / 2 * log theta + log (4 / (3 * sqrt π)) +
    (A * theta ^ (-b - 1) + B * theta ^ (-(b + 1) / 2)) / (1 + A * theta ^ (-b))

/-- plasma_physics.py 224-257 `chem_pot_interpolationIchimaru`. -/
noncomputable def chemPotIchimaru (T n : ℝ) : ℝ :=
  ichimaruF (25954 / 100000) (72 / 1000) (858 / 1000) (u.kB * T / fermiEnergy u n) * u.kB * T

/-- static_structure_factors.py 34-38: the quantum temperature of `T_cf_Greg` (also
ee_localfieldcorrections.py 69-72). -/
noncomputable def tQuantum (n : ℝ) : ℝ :=
  fermiTemperature u n / (13251 / 10000 - 1779 / 10000 * sqrt (wignerSeitz n / bohr u))

/-- static_structure_factors.py 26-38 `T_cf_Greg`. -/
noncomputable def tCfGreg (T n : ℝ) : ℝ := sqrt (T ^ 2 + tQuantum u n ^ 2)

/-- plasmastate.py 334-354 `PlasmaState.Teff_e`, as a function of temperature and density of the electrons. -/
noncomputable def teffE (T n : ℝ) : ℝ :=
  let rs := wignerSeitz n / bohr u
  let Tq := fermiEnergy u n / (13251 / 10000 - 1779 / 10000 * sqrt rs) / u.kB
  sqrt (Tq ^ 2 + T ^ 2)

/-- plasmastate.py 365-379 `PlasmaState.ee_coupling`. -/
noncomputable def eeCoupling (T n : ℝ) : ℝ :=
  let d := (3 / (4 * π * n)) ^ (1 / 3 : ℝ)
  u.e ^ 2 / (4 * π * u.eps0 * u.kB * T * d)

/-- static_structure_factors.py 41-56 `T_i_eff_Greg`. -/
noncomputable def tIEffGreg (Ti TD : ℝ) : ℝ := sqrt (Ti ^ 2 + 3 / (2 * π ^ 2) * TD ^ 2)

/-- static_structure_factors.py 177-203 `_T_rs_Greg2006`. -/
noncomputable def tRsGreg (Tr Ts mr ms : ℝ) : ℝ := (ms * Tr + mr * Ts) / (mr + ms)

/-- static_structure_factors.py 112-119 `_k_D_AD`. -/
noncomputable def kDAD (T n : ℝ) (Zf : ℝ := 1) : ℝ := sqrt (Zf * n * u.e ^ 2 / (u.eps0 * u.kB * T))

/-- static_structure_factors.py 59-85 `T_Debye_Bohm_Staver`. -/
noncomputable def tDebyeBohmStaver (Te n mi Zf : ℝ) : ℝ :=
  let kmax := (6 * π ^ 2 * n / Zf) ^ (1 / 3 : ℝ)
  let omega := sqrt (Zf * u.e ^ 2 * n / (u.eps0 * mi))
  u.hbar / u.kB * sqrt (omega ^ 2 / (1 + kDAD u Te n ^ 2 / kmax ^ 2))

/-! ### Static local field corrections -/

/-- ee_localfieldcorrections.py 157-164 and 260-268: the shape shared by Utsumi and Ichimaru and by
Farid et al., for `Q = k / k_F`. -/
noncomputable def lfcShape (A B C D Q : ℝ) : ℝ :=
  A * Q ^ 4 + B * Q ^ 2 + C +
    (A * Q ^ 4 + D * Q ^ 2 - C) * ((4 - Q ^ 2) / (4 * Q)) * log |(2 + Q) / (2 - Q)|

/-- ee_localfieldcorrections.py 118-164 `eelfc_utsumiichimaru` for given `gamma_0` and `g0_ee` (fits in
the density, lines 129-148, not modelled). -/
noncomputable def lfcUtsumi (gamma0 g0 Q : ℝ) : ℝ :=
  let A := 29 / 1000
  let B := 9 / 16 * gamma0 - 3 / 64 * (1 - g0) - 16 / 15 * A
  let C := -3 / 4 * gamma0 + 9 / 16 * (1 - g0) - 16 / 5 * A
  lfcShape A B C (B + 8 / 3 * A) Q

/-- ee_localfieldcorrections.py 167-268 `eelfc_farid` for given `gamma_0`, `b0A`, `b0B`, `b0C`, `bm2`
(fits in the density, lines 175-253, not modelled). -/
noncomputable def lfcFarid (gamma0 b0A b0B b0C bm2 Q : ℝ) : ℝ :=
  let a := 29 / 1000
  let b0 := b0A + b0B + b0C
  let A := 63 / 64 * a + 15 / 4096 * (b0A - 2 * (b0B + b0C) - 16 * bm2)
  let B := 9 / 16 * gamma0 + 7 / 16 * bm2 - 3 / 64 * b0 - 16 / 15 * A
  let C := -3 / 4 * gamma0 + 3 / 4 * bm2 + 9 / 16 * b0 - 16 / 5 * A
  let D := 9 / 16 * gamma0 - 9 / 16 * bm2 - 3 / 64 * b0 + 8 / 5 * A
  lfcShape A B C D Q

/-- ee_localfieldcorrections.py 115: the last line of `eelfc_geldartvosko`, for given `gamma_T` and
`gT_ee_0` (lines 66-113, not modelled). -/
noncomputable def lfcGeldartVosko (k kF gammaT g : ℝ) : ℝ :=
  k ^ 2 / (1 / gammaT * kF ^ 2 + (1 - g)⁻¹ * k ^ 2)

end Verif.Resp
