/-
Model of the Born-Mermin approximation: electron-ion collision frequency in Born approximation and
the dielectric functions with collisions (free_free.py).

Numbers are exact and integrals are exact, see `Verif.Model.Response`.  A quotient by zero is zero in
the model; the theorems about these functions exclude the energies at which the code divides by zero.
`jnp.interp` of complex values acts on the real and the imaginary part.
-/
import Verif.Model.Response
import Verif.Model.Interp

set_option autoImplicit false

namespace Verif.Resp

open Real Verif.Expt Verif.Interp MeasureTheory

variable (u : Consts)

/-- free_free.py 1318-1322 and the same lines of the other collision frequencies. -/
noncomputable def bornPref (Zf : ℝ) : ℝ := u.eps0 / (6 * π ^ 2 * Zf * u.e ^ 2 * u.me)

/-- free_free.py 1324-1342: the integrand, for a dielectric function `eps q E`, the electron-ion
potential `V` and the static structure factor `S`. -/
noncomputable def bornIntegrand (eps : ℝ → ℝ → ℂ) (V S : ℝ → ℝ) (E q : ℝ) : ℂ :=
  ((q ^ 6 * V q ^ 2 * S q : ℝ) : ℂ) * (eps q E - eps q 0) * ((1 / (E / u.hbar) : ℝ) : ℂ) *
    (-Complex.I)

/-- free_free.py 1303-1357 `collision_frequency_BA_full` for `KKT=False`, and with another dielectric
function 1413-1465 `collision_frequency_BA_fullFit`. -/
noncomputable def bornNu (eps : ℝ → ℝ → ℂ) (V S : ℝ → ℝ) (Zf E : ℝ) : ℂ :=
  ⟨(∫ q in Set.Ioi (0 : ℝ), (bornIntegrand u eps V S E q).re) * bornPref u Zf,
    (∫ q in Set.Ioi (0 : ℝ), (bornIntegrand u eps V S E q).im) * bornPref u Zf⟩

/-- The dielectric function used in `collision_frequency_BA_full` (1328-1334) and
`collision_frequency_BA_Chapman_interp` (1507-1524). -/
noncomputable def bornEpsRPA (mu T q E : ℝ) : ℂ := epsRPANoDamping u q E mu T true

/-- `jnp.linspace(a, b, n)`. -/
noncomputable def linspace (a b : ℝ) (n : ℕ) : List ℝ :=
  (List.range n).map fun i : ℕ => a + (i : ℝ) * ((b - a) / ((n : ℝ) - 1))

/-- free_free.py 1541-1549: the nodes, mirrored to negative energies; with `s = 1` (1572-1577) the
real and with `s = -1` (1578-1583) the imaginary values. -/
def mirror (s : ℝ) (l : List ℝ) : List ℝ := (l.reverse.map fun x => s * x) ++ l

/-- free_free.py 1468-1590 `collision_frequency_BA_Chapman_interp` and 1593-1706
`collision_frequency_BA_Chapman_interpFit`, for `KKT=False`: the collision frequency is calculated at
`N` positive energies and interpolated.  `nu` is the collision frequency at one energy. -/
noncomputable def chapmanNu (nu : ℝ → ℂ) (Emin Emax : ℝ) (N : ℕ) (E : ℝ) : ℂ :=
  let nodes := linspace Emin Emax N
  ⟨interpL (mirror (-1) nodes) (mirror 1 (nodes.map fun x => (nu x).re)) E,
    interpL (mirror (-1) nodes) (mirror (-1) (nodes.map fun x => (nu x).im)) E⟩

/-- free_free.py 1729-1744: `dielectric_function_BMA_full` calculates the collision frequency on a
grid of 1000 points between ten times the lowest and ten times the highest energy of the call.
(`Es` is the array of energies, `E` one of them.) -/
noncomputable def fullNu (nu : ℝ → ℂ) (Es : List ℝ) (E : ℝ) : ℂ :=
  let grid := linspace (10 * Es.foldl min (Es.headD 0)) (10 * Es.foldl max (Es.headD 0)) 1000
  ⟨interpL grid (grid.map fun x => (nu x).re) E, interpL grid (grid.map fun x => (nu x).im) E⟩

/-- free_free.py 1746-1761: Mermin's formula in `dielectric_function_BMA_full`; `eps` is the damped
and `epsStat` the static dielectric function. -/
noncomputable def merminFull (w : ℝ) (nu eps epsStat : ℂ) : ℂ :=
  let num := (1 + Complex.I * nu / w) * (eps - 1)
  let den := 1 + Complex.I * (nu / w) * (eps - 1) / (epsStat - 1)
  1 + num / den

/-- free_free.py 1864-1867: Mermin's formula in `dielectric_function_BMA_chapman_interpFit`, for the
polarisabilities `p0` and `pnu`. -/
noncomputable def merminFit (w : ℝ) (nu pnu p0 : ℂ) : ℂ :=
  let num := (w + Complex.I * nu) * p0 * pnu
  let den := p0 * w + Complex.I * nu * pnu
  1 + num / den

/-- free_free.py 2035-2038: Mermin's formula in `dielectric_function_BMA_chapman_interp`. -/
noncomputable def merminInterp (w : ℝ) (nu pnu p0 : ℂ) : ℂ :=
  let num := w * p0 * pnu + Complex.I * nu * p0 * pnu
  let den := p0 * w + Complex.I * nu * pnu
  1 + num / den

/-- free_free.py 1962-1975: Mermin's formula in `susceptibility_BMA_Fortmann`, after the local field
correction of both susceptibilities. -/
noncomputable def merminFortmann (V lfc w : ℝ) (nu xiDyn xiStat : ℂ) : ℂ :=
  let dyn := xiDyn / (1 - V * (1 - lfc) * xiDyn)
  let stat := xiStat / (1 - V * (1 - lfc) * xiStat)
  let pref := 1 - Complex.I * w / nu
  let num := dyn * stat
  let den := dyn - (Complex.I * w / nu) * stat
  pref * num / den

/-- Parameters shared by the Born-Mermin functions: chemical potential, temperature, density, static
structure factor, electron-ion potential, charge, cutoffs, number of points, `rpa_rewrite`. -/
structure BornArgs where
  mu : ℝ
  T : ℝ
  n : ℝ
  S : ℝ → ℝ
  V : ℝ → ℝ
  Zf : ℝ
  Emin : ℝ
  Emax : ℝ
  N : ℕ := 20
  rewrite : Bool := true

/-- The complex energy `E + 1j * hbar * coll_freq` of the damped dielectric functions. -/
noncomputable def dampedEnergy (E : ℝ) (nu : ℂ) : ℂ := E + Complex.I * u.hbar * nu

/-- free_free.py 1468-1590, with the dielectric function in random phase approximation. -/
noncomputable def nuInterp (b : BornArgs) (E : ℝ) : ℂ :=
  chapmanNu (bornNu u (bornEpsRPA u b.mu b.T) b.V b.S b.Zf) b.Emin b.Emax b.N E

/-- free_free.py 1593-1706, with the fits of Dandrea et al. -/
noncomputable def nuInterpFit (d : DandreaFits) (b : BornArgs) (E : ℝ) : ℂ :=
  chapmanNu (bornNu u (fun q E => epsDandrea u d q E b.T b.n) b.V b.S b.Zf) b.Emin b.Emax b.N E

/-- free_free.py 1709-1761 `dielectric_function_BMA_full` for `KKT=False`, at the energy `E` of the
array `Es`. -/
noncomputable def epsBMAFull (b : BornArgs) (k : ℝ) (Es : List ℝ) (E : ℝ) : ℂ :=
  let nu := fullNu (bornNu u (bornEpsRPA u b.mu b.T) b.V b.S b.Zf) Es E
  merminFull (E / u.hbar) nu (epsDamped u b.rewrite k (dampedEnergy u E nu) b.mu b.T)
    (epsRPANoDamping u k 0 b.mu b.T true)

/-- free_free.py 1978-2038 `dielectric_function_BMA_chapman_interp`. -/
noncomputable def epsBMAInterp (b : BornArgs) (k E : ℝ) : ℂ :=
  let nu := nuInterp u b E
  merminInterp (E / u.hbar) nu (epsDamped u b.rewrite k (dampedEnergy u E nu) b.mu b.T - 1)
    (epsRPANoDamping u k 0 b.mu b.T true - 1)

/-- free_free.py 1808-1867 `dielectric_function_BMA_chapman_interpFit`. -/
noncomputable def epsBMAFit (d : DandreaFits) (b : BornArgs) (k E : ℝ) : ℂ :=
  let nu := nuInterpFit u d b E
  merminFit (E / u.hbar) nu (epsDamped u b.rewrite k (dampedEnergy u E nu) b.mu b.T - 1)
    (epsDandrea u d k 0 b.T b.n - 1)

/-- free_free.py 1907-1975 `susceptibility_BMA_Fortmann`. -/
noncomputable def xiBMAFortmann (d : DandreaFits) (b : BornArgs) (k E lfc : ℝ) : ℂ :=
  let nu := nuInterpFit u d b E
  merminFortmann (vee u k) lfc (E / u.hbar) nu
    (noninteractingFromEps u (epsDamped u b.rewrite k (dampedEnergy u E nu) b.mu b.T) k)
    (xiDandrea u d k 0 b.T b.n)

/-- free_free.py 1781-1805 `S0_ee_BMA`. -/
noncomputable def s0eeBMA (b : BornArgs) (k : ℝ) (Es : List ℝ) (E lfc : ℝ) : ℝ :=
  let Es := Es.map fun x => -x
  let E := -E
  let xi0 := noninteractingFromEps u (epsBMAFull u b k Es E) k
  s0eeSusceptibility u k b.T b.n E (xiLfc xi0 (u.e ^ 2 / u.eps0 / k ^ 2) lfc)

/-- free_free.py 2041-2081 `S0_ee_BMA_chapman_interp`. -/
noncomputable def s0eeBMAInterp (b : BornArgs) (k E lfc : ℝ) : ℝ :=
  let E := -E
  let xi0 := noninteractingFromEps u (epsBMAInterp u b k E) k
  s0eeSusceptibility u k b.T b.n E (xiLfc xi0 (u.e ^ 2 / u.eps0 / k ^ 2) lfc)

/-- free_free.py 2084-2124 `S0_ee_BMA_chapman_interpFit`. -/
noncomputable def s0eeBMAFit (d : DandreaFits) (b : BornArgs) (k E lfc : ℝ) : ℝ :=
  let E := -E
  let xi0 := noninteractingFromEps u (epsBMAFit u d b k E) k
  s0eeSusceptibility u k b.T b.n E (xiLfc xi0 (u.e ^ 2 / u.eps0 / k ^ 2) lfc)

/-- free_free.py 2127-2163 `S0_ee_BMA_Fortmann`. -/
noncomputable def s0eeBMAFortmann (d : DandreaFits) (b : BornArgs) (k E lfc : ℝ) : ℝ :=
  let E := -E
  s0eeSusceptibility u k b.T b.n E (xiBMAFortmann u d b k E lfc)

end Verif.Resp
