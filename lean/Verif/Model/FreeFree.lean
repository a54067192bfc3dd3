/-
The free-free models of /repo/src/jaxrts/models.py 1369-2592: `evaluate_raw` and `susceptibility`, around the functions
of free_free.py.  Units are not modelled, numbers are exact and integrals are exact.  A channel in which the code
computes the quotient of two zeros has the value `none`; a single one of them makes the spectrum after the convolution
with the instrument function useless.
-/
import Verif.Model.Mermin
import Verif.Model.Dandrea
import Verif.Model.Setup

set_option autoImplicit false

namespace Verif.FreeFree

open Real Verif.Expt Verif.Resp Verif.Interp

/-- What the models read from the plasma state: the charges, number fractions and atomic numbers, the density and the
temperature of the electrons, the results of the models for the chemical potential, for 'BM S_ii' and for 'BM V_eiS'
(models.py 1816-1827 `_prepare_BM`), and the local field correction as a function of the wave number. -/
structure State (m : ℕ) where
  Zfree : Fin m → ℝ
  x : Fin m → ℝ
  ZA : Fin m → ℝ
  ne : ℝ
  Te : ℝ
  mu : ℝ
  S : ℝ → ℝ
  V : ℝ → ℝ
  lfc : ℝ → ℝ

/-- The attributes of the Born-Mermin models, models.py 1868-1885: cutoffs, `no_of_freq` and `RPA_rewrite`.  `KKT` is
false here, see `Verif.Model.Kkt` for the other case. -/
structure Opts where
  Emin : ℝ
  Emax : ℝ
  N : ℕ
  rewrite : Bool

inductive Model where
  | salpeter
  | rpa
  | dandrea
  | bornMerminFull (rewrite : Bool)
  | bornMermin (o : Opts)
  | bornMerminFit (o : Opts)
  | bornMerminFortmann (o : Opts)

variable {m : ℕ} (u : Consts)

/-- models.py 1825 `mean_Z_free`, and the same sum in 1433-1435, 1510-1512 and 1596-1598. -/
noncomputable def State.meanZfree (s : State m) : ℝ := ∑ a, s.Zfree a * s.x a

/-- plasmastate.py 301-306 `mean_Z_A`. -/
noncomputable def State.meanZA (s : State m) : ℝ := ∑ a, s.ZA a * s.x a

/-- The arguments of the functions with collisions, e.g. models.py 1986-2002. -/
noncomputable def bornArgs (s : State m) (o : Opts) : BornArgs :=
  ⟨s.mu, s.Te, s.ne, s.S, s.V, s.meanZfree, o.Emin, o.Emax, o.N, o.rewrite⟩

/-- One entry of setup.py 150-173 `dispersion_corrected_k`, for the channel at the energy `E`. -/
noncomputable def kAt (p : Setup) (ne E : ℝ) : ℝ :=
  if p.correctK then
    transfer (photonK u (p.energy / u.hbar) (plasmaFrequency u ne)) (photonK u (E / u.hbar) (plasmaFrequency u ne)) p.angle
  else p.k u

/-- models.py 1580-1581: the energies around zero in `RPA_DandreaFit.evaluate_raw`. -/
noncomputable def dandreaWindow (ne : ℝ) : ℝ := 1 / 1000000 * u.hbar * plasmaFrequency u ne

/-- `See_0` in `evaluate_raw`, for the channel at the energy `E`: models.py 1424-1431, 1499-1508, 1570-1597, 1700-1713,
1985-2001, 2245-2262 and 2508-2524.  There is no value at the energy of the probe, where the fluctuation dissipation
theorem (free_free.py 269-273) divides zero by zero, but in `RPA_DandreaFit`; in Salpeter's approximation there is none at
the recoil energy as well (free_free.py 159-163). -/
noncomputable def see (s : State m) (p : Setup) (E : ℝ) : Model → Option ℝ
  | .salpeter =>
    if E - p.energy = 0 ∨ |E - p.energy| = kinEnergy u (kAt u p s.ne E) then none
    else some (s0eeSalpeter u (kAt u p s.ne E) s.Te s.ne (E - p.energy) (s.lfc (p.k u)))
  | .rpa =>
    if E - p.energy = 0 then none
    else some (s0eeRPANoDamping u (kAt u p s.ne E) s.Te s.ne (E - p.energy) s.mu (s.lfc (kAt u p s.ne E)))
  | .dandrea =>
    if E - p.energy = 0 then
      some ((s0eeDandrea u (danFits) (p.k u) s.Te s.ne (-dandreaWindow u s.ne) (s.lfc (p.k u)) +
        s0eeDandrea u (danFits) (p.k u) s.Te s.ne (dandreaWindow u s.ne) (s.lfc (p.k u))) / 2)
    else some (s0eeDandrea u (danFits) (kAt u p s.ne E) s.Te s.ne (E - p.energy) (s.lfc (kAt u p s.ne E)))
  | .bornMerminFull rw =>
    if E - p.energy = 0 then none
    else some (s0eeBMA u (bornArgs s ⟨0, 0, 0, rw⟩) (kAt u p s.ne E) (p.measured.map fun y => y - p.energy) (E - p.energy)
      (s.lfc (p.k u)))
  | .bornMermin o =>
    if E - p.energy = 0 then none
    else some (s0eeBMAInterp u (bornArgs s o) (kAt u p s.ne E) (E - p.energy) (s.lfc (p.k u)))
  | .bornMerminFit o =>
    if E - p.energy = 0 then none
    else some (s0eeBMAFit u (danFits) (bornArgs s o) (kAt u p s.ne E) (E - p.energy) (s.lfc (p.k u)))
  | .bornMerminFortmann o =>
    if E - p.energy = 0 then none
    else some (s0eeBMAFortmann u (danFits) (bornArgs s o) (kAt u p s.ne E) (E - p.energy) (s.lfc (p.k u)))

/-- `evaluate_raw` in one channel, models.py 1433-1444 and the same lines of the other models: times the mean charge, zero
without free electrons, per electron. -/
noncomputable def rawAt (s : State m) (p : Setup) (md : Model) (E : ℝ) : Option ℝ :=
  (if ∑ a, s.Zfree a = 0 then some 0 else (see u s p E md).map fun y => y * s.meanZfree).map fun y => y / s.meanZA

/-- `evaluate_raw`. -/
noncomputable def evaluateRaw (s : State m) (p : Setup) (md : Model) : List (Option ℝ) := p.measured.map (rawAt u s p md)

/-- models.py 1756-1764, 2047-2055 and 2308-2316: outside of the window from `-E0` to `E0` the function itself, inside the
straight line through the values at the borders. -/
noncomputable def smooth (E0 : ℝ) (border chi : ℝ → ℂ) (E : ℝ) : ℂ :=
  if E0 < |E| then chi E
  else ⟨interpL [-E0, E0] [(border (-E0)).re, (border E0).re] E, interpL [-E0, E0] [(border (-E0)).im, (border E0).im] E⟩

/-- models.py 1749-1753 and the same lines of the other models: from the dielectric function to the susceptibility. -/
noncomputable def chiOf (s : State m) (p : Setup) (eps : ℂ) : ℂ :=
  xiLfc (noninteractingFromEps u eps (p.k u)) (vee u (p.k u)) (s.lfc (p.k u))

/-- `susceptibility`, models.py 1447-1467, 1525-1548, 1612-1628, 1726-1764, 2014-2055, 2275-2316 and 2537-2562, at the
energy `E` of the array `Es` (it matters for `BornMermin_Full` only). -/
noncomputable def susceptibility (s : State m) (p : Setup) (Es : List ℝ) (E : ℝ) : Model → ℂ
  | .salpeter => chiOf u s p (epsSalpeter u (p.k u) s.Te s.ne E)
  | .rpa => chiOf u s p (epsRPANoDamping u (p.k u) E s.mu s.Te)
  | .dandrea => xiLfc (xiDandrea u danFits (p.k u) E s.Te s.ne) (vee u (p.k u)) (s.lfc (p.k u))
  | .bornMerminFull rw =>
    let E0 := 1 / 10000 * u.hbar * plasmaFrequency u s.ne
    smooth E0 (fun y => chiOf u s p (epsBMAFull u (bornArgs s ⟨0, 0, 0, rw⟩) (p.k u) [-E0, E0] y))
      (fun y => chiOf u s p (epsBMAFull u (bornArgs s ⟨0, 0, 0, rw⟩) (p.k u) Es y)) E
  | .bornMermin o =>
    let chi := fun y => chiOf u s p (epsBMAInterp u (bornArgs s o) (p.k u) y)
    smooth (1 / 10000 * u.hbar * plasmaFrequency u s.ne) chi chi E
  | .bornMerminFit o =>
    let chi := fun y => chiOf u s p (epsBMAFit u danFits (bornArgs s o) (p.k u) y)
    smooth (1 / 100 * u.hbar * plasmaFrequency u s.ne) chi chi E
  | .bornMerminFortmann o => xiBMAFortmann u danFits (bornArgs s o) (p.k u) E (s.lfc (p.k u))

end Verif.FreeFree
