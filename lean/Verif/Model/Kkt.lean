/-
Model of the Kramers-Kronig transform (free_free.py), by which the collision frequencies obtain
their imaginary part from the real part if the flag `KKT` is set.

Numbers are exact.  Energies are in one unit and `ħ` cancels (free_free.py 62-66), so units do not
appear.  The code divides by zero at the grid point of the principal value before it discards the
quotient (`jnp.where`); the quotient by zero of the model is discarded as well.
-/
import Verif.Model.Mermin
import Verif.Model.Instrument

set_option autoImplicit false

namespace Verif.Kkt

open Real Verif.Interp Verif.Instrument Verif.Resp

/-- free_free.py 36-43 `_KKT_single_point`, for arrays of `N` entries. -/
noncomputable def kktPoint (N : ℕ) (E I : ℕ → ℝ) (eps E' : ℝ) : ℝ :=
  let integrand := fun i => I i / (E i - E');
  trapezoid N (fun i => if E i < E' - eps then integrand i else 0) E +
    trapezoid N (fun i => if E i > E' + eps then integrand i else 0) E

/-- free_free.py 55: `linspace(-E_max, E_max, N)`. -/
noncomputable def kktGrid (Emax : ℝ) (N : ℕ) (i : ℕ) : ℝ :=
  -Emax + (i : ℝ) * ((Emax - -Emax) / ((N : ℝ) - 1))

/-- free_free.py 54: `max(|E_vals|)` of an array of `n` entries. -/
noncomputable def kktMax (n : ℕ) (E : ℕ → ℝ) : ℝ :=
  ((List.range n).map fun i => |E i|).foldl max |E 0|

/-- free_free.py 46-67 `KramersKronigTransform`, at the energy `x`: `E` and `I` are arrays of `n`
entries, `N` is `no_of_points`. -/
noncomputable def kkt (n : ℕ) (E I : ℕ → ℝ) (eps : ℝ) (N : ℕ) (x : ℝ) : ℝ :=
  let Emax := kktMax n E
  let grid := kktGrid Emax N
  let Iinterp := fun i => interp n E I (grid i)
  interp N grid (fun j => kktPoint N grid Iinterp eps (grid j) * (-1 / π)) x

/-- free_free.py 1549-1565 (and 1665-1681): the interpolated collision frequency with `KKT=True`; the
defaults of `KramersKronigTransform` are an exclusion of `1e-3` eV and 1000 points.  Energies are in
electron volts. -/
noncomputable def chapmanNuKkt (nu : ℝ → ℂ) (Emin Emax : ℝ) (N : ℕ) (E : ℝ) : ℂ :=
  let nodes := linspace Emin Emax N
  let extE := mirror (-1) nodes
  let extRe := mirror 1 (nodes.map fun x => (nu x).re)
  let extIm := extE.map fun x => kkt extE.length (arr extE) (arr extRe) (1 / 1000) 1000 x
  ⟨interpL extE extRe E, interpL extE extIm E⟩

end Verif.Kkt
