/-
Model of the response functions of the free electrons: plasma_physics.py (basic formulas, relations
between the dielectric function and the susceptibility), ee_localfieldcorrections.py (application
of a local field correction and the interpolated corrections) and free_free.py (dielectric functions
in random phase approximation, fluctuation dissipation theorem).

Numbers are exact.  `quadgk` is replaced by the integral it approximates; where an integral does not
exist, it is zero in the model, and so is a quotient with denominator zero (the code would return
`inf` or `nan` there).
-/
import Verif.Model.Setup
import Mathlib.Analysis.SpecialFunctions.Complex.Log
import Mathlib.Analysis.SpecialFunctions.Trigonometric.Arctan
import Mathlib.MeasureTheory.Integral.IntervalIntegral.Basic
import Mathlib.MeasureTheory.Measure.Lebesgue.Basic

set_option autoImplicit false

namespace Verif.Resp

open Real Verif.Expt MeasureTheory

variable (u : Consts)

/-! ### plasma_physics.py -/

/-- plasma_physics.py 49-71 `coulomb_potential_fourier`. -/
noncomputable def coulombFourier (Z1 Z2 k : ℝ) : ℝ := 1 / u.eps0 * (Z1 * Z2 * u.e ^ 2) / k ^ 2

/-- `coulomb_potential_fourier(-1, -1, k)`, used all over free_free.py; free_free.py 312 writes the
same value as `e**2 / eps0 / k**2`. -/
noncomputable def vee (k : ℝ) : ℝ := coulombFourier u (-1) (-1) k

/-- plasma_physics.py 74-90 `kin_energy`. -/
noncomputable def kinEnergy (k : ℝ) : ℝ := u.hbar ^ 2 * k ^ 2 / (2 * u.me)

/-- plasma_physics.py 93-118 `fermi_dirac`. -/
noncomputable def fermiDirac (k mu T : ℝ) : ℝ :=
  1 / (exp ((kinEnergy u k - mu) / (u.kB * T)) + 1)

/-- plasma_physics.py 121-124 `fermi_wavenumber`. -/
noncomputable def fermiWavenumber (n : ℝ) : ℝ := (3 * π ^ 2 * n) ^ (1 / 3 : ℝ)

/-- plasma_physics.py 127-150 `fermi_energy`. -/
noncomputable def fermiEnergy (n : ℝ) : ℝ :=
  u.hbar ^ 2 / (2 * u.me) * (3 * π ^ 2 * n) ^ (2 / 3 : ℝ)

/-- plasma_physics.py 153-170 `fermi_temperature`. -/
noncomputable def fermiTemperature (n : ℝ) : ℝ := fermiEnergy u n / u.kB

/-- plasma_physics.py 173-197 `wiegner_seitz_radius`. -/
noncomputable def wignerSeitz (n : ℝ) : ℝ := (3 / (4 * π * n)) ^ (1 / 3 : ℝ)

/-- plasma_physics.py 260-284 `Debye_Hueckel_screening_length`, for a list of densities and
charges. -/
noncomputable def debyeLength (nZ : List (ℝ × ℝ)) (T : ℝ) : ℝ :=
  sqrt (u.eps0 * u.kB * T / (nZ.map fun p => p.1 * (p.2 * u.e) ^ 2).sum)

/-- plasma_physics.py 287-318 `temperature_interpolation`. -/
noncomputable def temperatureInterpolation (n T : ℝ) (power : ℕ := 2) : ℝ :=
  (T ^ power + (fermiEnergy u n / u.kB) ^ power) ^ (1 / (power : ℝ))

/-- plasma_physics.py 381-384 `therm_de_broglie_wl`. -/
noncomputable def thermDeBroglie (T : ℝ) : ℝ := u.hbar * sqrt (2 * π / (u.me * u.kB * T))

/-- plasma_physics.py 321-348 `degeneracy_param`. -/
noncomputable def degeneracyParam (n T : ℝ) : ℝ := n * thermDeBroglie u T ^ 3

/-- plasma_physics.py 351-353 `interparticle_spacing`. -/
noncomputable def interparticleSpacing (Z1 Z2 n : ℝ) : ℝ :=
  (3 * (Z1 * Z2) ^ (1 / 2 : ℝ) / (4 * π * n)) ^ (1 / 3 : ℝ)

/-- plasma_physics.py 356-378 `coupling_param`. -/
noncomputable def couplingParam (Z1 Z2 n T : ℝ) : ℝ :=
  Z1 * Z2 * 1 * u.e ^ 2 / (4 * π * u.eps0 * interparticleSpacing Z1 Z2 n * 1 * u.kB * T)

/-- plasma_physics.py 405-420 `susceptibility_from_epsilon`. -/
noncomputable def susceptibilityFromEpsilon (eps : ℂ) (k : ℝ) : ℂ := (eps⁻¹ - 1) / (vee u k : ℂ)

/-- plasma_physics.py 423-437 `epsilon_from_susceptibility`. -/
noncomputable def epsilonFromSusceptibility (xi : ℂ) (k : ℝ) : ℂ := (1 + (vee u k : ℂ) * xi)⁻¹

/-- plasma_physics.py 440-457 `noninteracting_susceptibility_from_eps_RPA`. -/
noncomputable def noninteractingFromEps (eps : ℂ) (k : ℝ) : ℂ := (1 - eps) / (vee u k : ℂ)

/-! ### ee_localfieldcorrections.py -/

/-- ee_localfieldcorrections.py 26-34 `xi_lfc_corrected`. -/
noncomputable def xiLfc (xi0 : ℂ) (v lfc : ℝ) : ℂ := xi0 / (1 - v * (1 - lfc) * xi0)

/-- ee_localfieldcorrections.py 42-56 `eelfc_hubbard`. -/
noncomputable def lfcHubbard (k n : ℝ) : ℝ := k ^ 2 / (2 * (k ^ 2 + fermiWavenumber n ^ 2))

/-- ee_localfieldcorrections.py 271-289 `eelfc_interp_gregori2007` and 292-308
`eelfc_interp_fortmann2010`.  The two values that are interpolated (Utsumi-Ichimaru resp. Farid at
zero temperature, Geldart-Vosko at finite temperature) are parameters; `theta` is `T / T_F`. -/
noncomputable def lfcInterp (zeroT geldartVosko theta : ℝ) : ℝ :=
  (zeroT + theta * geldartVosko) / (1 + theta)

/-- ee_localfieldcorrections.py 283-287 and 302-306: `T_e / T_F`. -/
noncomputable def lfcTheta (T n : ℝ) : ℝ := T / fermiTemperature u n

/-! ### Fluctuation dissipation theorem -/

/-- free_free.py 168-222 `S0ee_from_dielectric_func_FDT`. -/
noncomputable def s0eeDielectric (k T n E : ℝ) (eps : ℂ) : ℝ :=
  -(u.hbar / (1 - exp (-(E / (u.kB * T)))) * (u.eps0 * k ^ 2 / (π * u.e ^ 2 * n)) * (1 / eps).im)

/-- free_free.py 225-275 `S0ee_from_susceptibility_FDT`. -/
noncomputable def s0eeSusceptibility (k T n E : ℝ) (xi : ℂ) : ℝ :=
  -(u.hbar / (π * n * vee u k) / (1 - exp (-(E / (u.kB * T)))) * (xi * (vee u k : ℂ)).im)

/-! ### Salpeter's dielectric function -/

/-- free_free.py 70-108 `_W_salpeter`. -/
noncomputable def wSalpeter (x : ℝ) : ℂ :=
  ⟨1 - 2 * x * exp (-x ^ 2) * ∫ t in (0 : ℝ)..x, exp (t ^ 2), sqrt π * x * exp (-x ^ 2)⟩

/-- free_free.py 141-143: thermal velocity. -/
noncomputable def thermalVelocity (T : ℝ) : ℝ := sqrt (u.kB * T / u.me)

/-- free_free.py 145: reduced frequency. -/
noncomputable def xSalpeter (k T E : ℝ) : ℝ := E / u.hbar / (sqrt 2 * k * thermalVelocity u T)

/-- free_free.py 147-151: reduced wave number. -/
noncomputable def kappaSalpeter (k T : ℝ) : ℝ :=
  u.hbar * k / (2 * sqrt 2 * u.me * thermalVelocity u T)

/-- free_free.py 154-158: square of the plasma frequency. -/
noncomputable def plasmaFreqSq (n : ℝ) : ℝ := n * u.e ^ 2 / (u.me * u.eps0)

/-- free_free.py 111-165 `dielectric_function_salpeter`. -/
noncomputable def epsSalpeter (k T n E : ℝ) : ℂ :=
  let x := xSalpeter u k T E
  let kap := kappaSalpeter u k T
  1 + ((plasmaFreqSq u n / (k ^ 2 * thermalVelocity u T ^ 2) * (1 / (4 * kap)) : ℝ) : ℂ) *
    ((1 - wSalpeter (x + kap)) / ((x + kap : ℝ) : ℂ) -
      (1 - wSalpeter (x - kap)) / ((x - kap : ℝ) : ℂ))

/-- free_free.py 278-315 `S0_ee_Salpeter`. -/
noncomputable def s0eeSalpeter (k T n E : ℝ) (lfc : ℝ := 0) : ℝ :=
  let E := -E
  let eps := epsSalpeter u k T n E
  let xi0 := noninteractingFromEps u eps k
  let xi := xiLfc xi0 (u.e ^ 2 / u.eps0 / k ^ 2) lfc
  s0eeSusceptibility u k T n E xi

/-! ### Random phase approximation, real energies -/

/-- `jnp.logaddexp(0, x)`. -/
noncomputable def logaddexp0 (x : ℝ) : ℝ := log (exp 0 + exp x)

/-- free_free.py 393-394: `ω m_e / (ħ k)`. -/
noncomputable def kappaRPA (k E : ℝ) : ℝ := E / u.hbar * u.me / (u.hbar * k)

/-- free_free.py 365-402 `_imag_diel_func_RPA_no_damping`. -/
noncomputable def imagRPANoDamping (k E mu T : ℝ) : ℝ :=
  let kap := kappaRPA u k E
  let pref := u.kB * T * u.me ^ 2 * u.e ^ 2 / (2 * π * u.eps0 * u.hbar ^ 4 * k ^ 3)
  let e1 := (mu - kinEnergy u (-k / 2 - kap)) / (u.kB * T)
  let e2 := (mu - kinEnergy u (k / 2 - kap)) / (u.kB * T);
  -pref * (logaddexp0 e1 - logaddexp0 e2)

/-- free_free.py 772-782 and 810-820: argument of the logarithm in the undamped real part. -/
noncomputable def lnArgRPA (k kap Q : ℝ) : ℝ :=
  |kap - k / 2 - Q| * |kap + k / 2 + Q| / (|kap - k / 2 + Q| * |kap + k / 2 - Q|)

/-- free_free.py 770-785 and 808-823: the integrand, after `Q /= unit`. -/
noncomputable def integrandRPANoDamping (k kap mu T unit t : ℝ) : ℝ :=
  t / unit * fermiDirac u (t / unit) mu T * log (lnArgRPA k kap (t / unit)) * unit

/-- free_free.py 715-834 `_real_diel_func_RPA_no_damping` with `unsave=False`: the integral is split
at the singular point. -/
noncomputable def realRPANoDamping (k E mu T : ℝ) : ℝ :=
  let kap := kappaRPA u k E
  let pref := u.e ^ 2 * u.me / (2 * π ^ 2 * u.eps0 * u.hbar ^ 2 * k ^ 3)
  let unit := 1 / |min (kap - k / 2) (-kap - k / 2)|
  let integral := (∫ t in Set.Ioc (0 : ℝ) 1, integrandRPANoDamping u k kap mu T unit t) +
    ∫ t in Set.Ioi (1 : ℝ), integrandRPANoDamping u k kap mu T unit t
  1 + pref * (integral * (1 / unit ^ 2))

/-- free_free.py 450, 688, 804-806: inverse thermal wave number, used as unit of the
integration. -/
noncomputable def thermalUnit (T : ℝ) : ℝ := sqrt (u.hbar ^ 2 / (2 * u.me) / (u.kB * T))

/-- free_free.py 715-834 `_real_diel_func_RPA_no_damping` with `unsave=True`. -/
noncomputable def realRPANoDampingUnsave (k E mu T : ℝ) : ℝ :=
  let kap := kappaRPA u k E
  let pref := u.e ^ 2 * u.me / (2 * π ^ 2 * u.eps0 * u.hbar ^ 2 * k ^ 3)
  let unit := thermalUnit u T
  let integral := ∫ t in Set.Ioi (0 : ℝ), integrandRPANoDamping u k kap mu T unit t
  1 + pref * (integral * (1 / unit ^ 2))

/-- free_free.py 1059-1094 `dielectric_function_RPA_no_damping`. -/
noncomputable def epsRPANoDamping (k E mu T : ℝ) (unsave : Bool := false) : ℂ :=
  ⟨bif unsave then realRPANoDampingUnsave u k E mu T else realRPANoDamping u k E mu T,
    imagRPANoDamping u k E mu T⟩

/-- free_free.py 1161-1203 `S0_ee_RPA_no_damping`. -/
noncomputable def s0eeRPANoDamping (k T n E mu : ℝ) (lfc : ℝ := 0) (unsave : Bool := false) : ℝ :=
  let E := -E
  let eps := epsRPANoDamping u k E mu T unsave
  let xi0 := noninteractingFromEps u eps k
  let xi := xiLfc xi0 (vee u k) lfc
  s0eeSusceptibility u k T n E xi

/-! ### Random phase approximation, complex energies -/

/-- free_free.py 405-480 `_imag_diel_func_RPA`: where the damping vanishes, the undamped function is
returned (it is real only for real energies; the model passes the real part). -/
noncomputable def imagRPA (k : ℝ) (E : ℂ) (mu T : ℝ) : ℝ :=
  let kap := E.re / u.hbar * u.me / (u.hbar * k)
  let del := E.im / u.hbar * u.me / (u.hbar * k)
  let pref := -(u.e ^ 2 * u.me) / (2 * π ^ 2 * u.eps0 * u.hbar ^ 2 * k ^ 3)
  let unit := thermalUnit u T
  let integrand := fun t : ℝ =>
    let Q := t / unit
    Q * fermiDirac u Q mu T *
      (arctan ((kap - k / 2 - Q) / del) + arctan ((kap + k / 2 + Q) / del) -
        arctan ((kap - k / 2 + Q) / del) - arctan ((kap + k / 2 - Q) / del)) * unit
  if del = 0 then imagRPANoDamping u k E.re mu T
  else pref * ((∫ t in Set.Ioi (0 : ℝ), integrand t) * (1 / unit ^ 2))

/-- free_free.py 639-712 `_real_diel_func_RPA`. -/
noncomputable def realRPA (k : ℝ) (E : ℂ) (mu T : ℝ) : ℝ :=
  let kap := E.re / u.hbar * u.me / (u.hbar * k)
  let del := E.im / u.hbar * u.me / (u.hbar * k)
  let pref := u.e ^ 2 * u.me / (4 * π ^ 2 * u.eps0 * u.hbar ^ 2 * k ^ 3)
  let unit := thermalUnit u T
  let integrand := fun t : ℝ =>
    let Q := t / unit
    Q * fermiDirac u Q mu T *
      log ((del ^ 2 + (kap - k / 2 - Q) ^ 2) * (del ^ 2 + (kap + k / 2 + Q) ^ 2) /
        ((del ^ 2 + (kap - k / 2 + Q) ^ 2) * (del ^ 2 + (kap + k / 2 - Q) ^ 2))) * unit
  1 + pref * ((∫ t in Set.Ioi (0 : ℝ), integrand t) * (1 / unit ^ 2))

/-- free_free.py 1095-1128 `dielectric_function_RPA`. -/
noncomputable def epsRPA (k : ℝ) (E : ℂ) (mu T : ℝ) : ℂ := ⟨realRPA u k E mu T, imagRPA u k E mu T⟩

/-- free_free.py 513-519 and 590-596: the reduced frequency, a complex number. -/
noncomputable def redW (k : ℝ) (E : ℂ) (T : ℝ) : ℂ :=
  E / u.hbar / k / ((sqrt 2 * thermalVelocity u T : ℝ) : ℂ)

/-- free_free.py 521 and 598. -/
noncomputable def kapRewrite (k T : ℝ) : ℝ := u.hbar * k / 2 / sqrt (2 * u.me * u.kB * T)

/-- free_free.py 524-527 and 601-604. -/
noncomputable def prefRewrite (k T : ℝ) : ℝ :=
  1 / (2 * sqrt π * (u.kB * T) * kapRewrite u k T /
    (u.me * u.kB * T / (2 * π * u.hbar ^ 2)) ^ (3 / 2 : ℝ))

/-- free_free.py 482-557 `_real_diel_func_RPA_rewrite`. -/
noncomputable def realRPARewrite (k : ℝ) (E : ℂ) (mu T : ℝ) : ℝ :=
  let a := (redW u k E T).re
  let b := (redW u k E T).im
  let kap := kapRewrite u k T
  let eta := mu / (u.kB * T)
  let unit := 1 / |a|
  let integrand := fun t : ℝ =>
    let w := t / unit
    ((w - a) / ((w - a) ^ 2 + b ^ 2) + (w + a) / ((w + a) ^ 2 + b ^ 2)) *
      (log (1 + exp (eta - (w + kap) ^ 2)) - log (1 + exp (eta - (w - kap) ^ 2)))
  let integral := (∫ t in Set.Ioc (0 : ℝ) 1, integrand t) + ∫ t in Set.Ioi (1 : ℝ), integrand t
  1 - prefRewrite u k T * (integral * (1 / unit) * vee u k)

/-- free_free.py 559-637 `_imag_diel_func_RPA_rewrite`. -/
noncomputable def imagRPARewrite (k : ℝ) (E : ℂ) (mu T : ℝ) : ℝ :=
  let a := (redW u k E T).re
  let b := (redW u k E T).im
  let kap := kapRewrite u k T
  let eta := mu / (u.kB * T)
  let unit := 1 / |a|
  let integrand := fun t : ℝ =>
    let w := t / unit
    (1 / ((w - a) ^ 2 + b ^ 2) - 1 / ((w + a) ^ 2 + b ^ 2)) *
      (b * log ((1 + exp (eta - (w + kap) ^ 2)) / (1 + exp (eta - (w - kap) ^ 2))))
  let integral := (∫ t in Set.Ioc (0 : ℝ) 1, integrand t) + ∫ t in Set.Ioi (1 : ℝ), integrand t;
  -1 * (prefRewrite u k T * (integral * (1 / unit) * vee u k))

/-- free_free.py 1131-1159 `dielectric_function_RPA_rewrite`. -/
noncomputable def epsRPARewrite (k : ℝ) (E : ℂ) (mu T : ℝ) : ℂ :=
  ⟨realRPARewrite u k E mu T, imagRPARewrite u k E mu T⟩

/-- The damped dielectric function chosen by `rpa_rewrite` (free_free.py 1244-1247 and the four
Born-Mermin functions). -/
noncomputable def epsDamped (rewrite : Bool) (k : ℝ) (E : ℂ) (mu T : ℝ) : ℂ :=
  bif rewrite then epsRPARewrite u k E mu T else epsRPA u k E mu T

/-- free_free.py 1204-1251 `S0_ee_RPA`.  The energy may be complex; the fluctuation dissipation
theorem is evaluated for real energies only, and so is the model. -/
noncomputable def s0eeRPA (k T n E mu : ℝ) (lfc : ℝ := 0) (rewrite : Bool := true) : ℝ :=
  let E := -E
  let eps := epsDamped u rewrite k (E : ℂ) mu T
  let xi0 := noninteractingFromEps u eps k
  let xi := xiLfc xi0 (u.e ^ 2 / u.eps0 / k ^ 2) lfc
  s0eeSusceptibility u k T n E xi

/-! ### The fits of Dandrea et al. -/

/-- The coefficients of free_free.py 837-921, which depend on `theta` and `eta0` only: `i0` is
`I_min05_eta0`, `a` are a2, a4, a6, a8 and `b` are b2, b4, b6, b8, b10.  Their values are in
Model/Dandrea. -/
structure DandreaCoeffs where
  i0 : ℝ
  a2 : ℝ
  a4 : ℝ
  a6 : ℝ
  a8 : ℝ
  b2 : ℝ
  b4 : ℝ
  b6 : ℝ
  b8 : ℝ
  b10 : ℝ

/-- free_free.py 923-930 `_phi_Dandrea`. -/
noncomputable def phiDandrea (co : DandreaCoeffs) (x theta : ℝ) : ℝ :=
  let num := 1 + co.a2 * x ^ 2 + co.a4 * x ^ 4 + co.a6 * x ^ 6 + co.a8 * x ^ 8
  let den := 1 + co.b2 * x ^ 2 + co.b4 * x ^ 4 + co.b6 * x ^ 6 + co.b8 * x ^ 8 + co.b10 * x ^ 10
  sqrt theta * co.i0 * x * (num / den)

/-- free_free.py 933-958 `_real_susceptibility_func_RPA_Dandrea`. -/
noncomputable def realDandrea (co : DandreaCoeffs) (theta Q rs z alpha : ℝ) : ℝ :=
  let xp := z / Q + Q
  let xm := z / Q - Q;
  -alpha * rs / (4 * π * Q ^ 3) * (phiDandrea co xp theta - phiDandrea co xm theta)

/-- free_free.py 961-984 `_imag_susceptibility_func_RPA_Dandrea`. -/
noncomputable def imagDandrea (theta Q rs z eta0 alpha : ℝ) : ℝ :=
  let xp := z / Q + Q
  let xm := z / Q - Q;
  -alpha * rs * theta / (8 * Q ^ 3) *
    log ((1 + exp (eta0 - 1 / theta * xm ^ 2)) / (1 + exp (eta0 - 1 / theta * xp ^ 2)))

/-- The Bohr radius (a unit of the registry, not of the code). -/
noncomputable def bohr : ℝ := 4 * π * u.eps0 * u.hbar ^ 2 / (u.me * u.e ^ 2)

/-- The two fits `noninteracting_susceptibility_Dandrea1986` calls, as functions of `theta`:
`etaFit` stands for free_free.py 1003-1005 (inverse Fermi integral of math.py) and `coeffs` for the
coefficients above; `danFits` in Model/Dandrea are those of the code. -/
structure DandreaFits where
  etaFit : ℝ → ℝ
  coeffs : ℝ → ℝ → DandreaCoeffs

/-- free_free.py 987-1012 `noninteracting_susceptibility_Dandrea1986`. -/
noncomputable def xiDandrea (d : DandreaFits) (k E T n : ℝ) : ℂ :=
  let theta := T * u.kB / fermiEnergy u n
  let alpha := (4 / (9 * π)) ^ (1 / 3 : ℝ)
  let rs := wignerSeitz n / bohr u
  let Q := k / (2 * fermiWavenumber n)
  let z := E / (4 * fermiEnergy u n)
  let eta0 := d.etaFit theta
  (1 / (vee u k : ℂ)) * ⟨realDandrea (d.coeffs theta eta0) theta Q rs z alpha,
    imagDandrea theta Q rs z eta0 alpha⟩

/-- free_free.py 1015-1056 `dielectric_function_RPA_Dandrea1986`. -/
noncomputable def epsDandrea (d : DandreaFits) (k E T n : ℝ) : ℂ :=
  1 - (vee u k : ℂ) * xiDandrea u d k E T n

/-- free_free.py 1764-1778 `S0_ee_RPA_Dandrea`. -/
noncomputable def s0eeDandrea (d : DandreaFits) (k T n E : ℝ) (lfc : ℝ := 0) : ℝ :=
  let E := -E
  let xi0 := xiDandrea u d k E T n
  let xi := xiLfc xi0 (u.e ^ 2 / u.eps0 / k ^ 2) lfc
  s0eeSusceptibility u k T n E xi

end Verif.Resp
