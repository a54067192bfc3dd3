/-
Thermometry with the imaginary time correlation function: /repo/src/jaxrts/analysis.py, and the search for
extrema in /repo/src/jaxrts/helpers.py.  Numbers are real; energies are in eV, the unit in which the code
adds its small numbers.
-/
import Verif.Model.Interp
import Verif.Model.Instrument
import Verif.Model.Setup
import Mathlib.Analysis.Calculus.Deriv.Basic

set_option autoImplicit false

namespace Verif.Itcf

open Real

open Classical in
/-- analysis.py 38-39: the pairs of energies and intensities, sorted by the energy (`jnp.argsort` is a
stable sort). -/
noncomputable def sortedPairs (d : List (ℝ × ℝ)) : List (ℝ × ℝ) := d.mergeSort (fun a b => decide (a.1 ≤ b.1))

/-- analysis.py 44. -/
noncomputable def small : ℝ := 1 / 100000000

open Classical in
/-- analysis.py 45-57: `E_sorted`, the energies together with four more of them. -/
noncomputable def nodes (d : List (ℝ × ℝ)) (Emin Emax : ℝ) : List ℝ :=
  ((sortedPairs d).map Prod.fst ++ [Emin - small, Emin + small, Emax + small, Emax - small]).mergeSort
    (fun a b => decide (a ≤ b))

/-- analysis.py 58: the intensity at a node. -/
noncomputable def value (d : List (ℝ × ℝ)) (x : ℝ) : ℝ :=
  Interp.interpL ((sortedPairs d).map Prod.fst) ((sortedPairs d).map Prod.snd) x

open Classical in
/-- analysis.py 63-69: `cut_kernel` at a node. -/
noncomputable def cutKernel (hbar : ℝ) (d : List (ℝ × ℝ)) (tau Emin Emax x : ℝ) : ℝ :=
  if Emin ≤ x ∧ x ≤ Emax then value d x * exp (-tau * x) / hbar else 0

/-- analysis.py 17-74 `twoSidedLaplace`. -/
noncomputable def laplace (hbar : ℝ) (d : List (ℝ × ℝ)) (tau Emin Emax : ℝ) : ℝ :=
  let E := nodes d Emin Emax
  Instrument.trapezoid E.length (Interp.arr (E.map (cutKernel hbar d tau Emin Emax))) (Interp.arr E)

/-- An `ITCF` object, analysis.py 105-127; the energies belong to the intensities. -/
structure ITCF where
  S : List (ℝ × ℝ)
  instrument : List (ℝ × ℝ)
  Ecut : ℝ
  raw : Bool

/-- analysis.py 141-159 `ITCF.F`. -/
noncomputable def ITCF.F (o : ITCF) (hbar tau : ℝ) : ℝ :=
  let LS := laplace hbar o.S tau (-o.Ecut) o.Ecut
  let Li := laplace hbar o.instrument tau (-o.Ecut) o.Ecut
  if o.raw then LS else LS / Li

open Classical in
/-- `jnp.argmin`, from its documentation: the first position of the minimum. -/
noncomputable def argmin (l : List ℝ) : ℕ := l.findIdx (fun x => decide (∀ y ∈ l, x ≤ y))

/-- analysis.py 77-102 `_ITCFT_grid`: the temperature. -/
noncomputable def gridT (hbar kB : ℝ) (S instrument : List (ℝ × ℝ)) (tau : List ℝ) (Ecut : ℝ) : ℝ :=
  let L := tau.map fun t => laplace hbar S t (-Ecut) Ecut / laplace hbar instrument t (-Ecut) Ecut
  1 / (2 * tau.getD (argmin L) 0 * kB)

/-- analysis.py 272-292 `ITCF_fsum`: the derivative at zero. -/
noncomputable def fsum (o : ITCF) (hbar : ℝ) : ℝ := deriv (fun t => o.F hbar t) 0

/-- analysis.py 296-314 `ITCF_ssf`. -/
noncomputable def ssf (o : ITCF) (hbar : ℝ) : ℝ := o.F hbar 0

/-! ### Extrema -/

/-- helpers.py 289-299 `body_fun`; `f` is the gradient. -/
noncomputable def secantBody (f : ℝ → ℝ) (xmin xmax : ℝ) (s : ℝ × ℝ × ℕ) : ℝ × ℝ × ℕ :=
  let x0 := s.1
  let x1 := s.2.1
  let f0 := f x0
  let f1 := f x1
  let next := x1 - f1 * (x1 - x0) / (f1 - f0)
  (x1, min (max next xmin) xmax, s.2.2 + 1)

open Classical in
/-- helpers.py 301-305 `cond_fun`. -/
noncomputable def secantCond (f : ℝ → ℝ) (tol : ℝ) (maxIter : ℕ) (s : ℝ × ℝ × ℕ) : Bool :=
  decide (tol ≤ |f s.1 - f s.2.1|) && decide (s.2.2 < maxIter)

/-- `jax.lax.while_loop`, helpers.py 309. -/
inductive SecantWhile (f : ℝ → ℝ) (xmin xmax tol : ℝ) (maxIter : ℕ) : ℝ × ℝ × ℕ → ℝ × ℝ × ℕ → Prop
  | stop {s} : secantCond f tol maxIter s = false → SecantWhile f xmin xmax tol maxIter s s
  | step {s t} : secantCond f tol maxIter s = true → SecantWhile f xmin xmax tol maxIter (secantBody f xmin xmax s) t →
      SecantWhile f xmin xmax tol maxIter s t

/-- helpers.py 250-311 `secant_extrema_finding` returns `x` and `i`. -/
def Secant (func : ℝ → ℝ) (xmin xmax tol : ℝ) (maxIter : ℕ) (x : ℝ) (i : ℕ) : Prop :=
  ∃ t, SecantWhile (deriv func) xmin xmax tol maxIter ((xmin + xmax) / 2, xmax, 0) t ∧ x = t.2.1 ∧ i = t.2.2

/-- analysis.py 162-179 `ITCF.get_T`, with the gradient with respect to `tau` in units of 1/keV (lines 130-132). -/
def ITCF.GetT (o : ITCF) (hbar kB tauMax T : ℝ) : Prop :=
  ∃ sol i, Secant (fun t => o.F hbar (t / 1000)) (1 / 100000000) (1000 * tauMax) (1 / 10000000) 100000 sol i ∧
    T = 1 / (2 * (sol / 1000) * kB)

/-! ### From a setup -/

/-- analysis.py 246 and 266: `E_shift`. -/
noncomputable def shifts (s : Expt.Setup) : List ℝ := s.measured.map fun E => -(E - s.energy)

/-- analysis.py 247 and 267: `instrument` at these energies. -/
noncomputable def instrumentAt (u : Expt.Consts) (s : Expt.Setup) : List ℝ :=
  (shifts s).map fun E => s.instrument (-E / u.hbar)

/-- analysis.py 251-268 `ITCF_from_setup`. -/
noncomputable def fromSetup (u : Expt.Consts) (S : List ℝ) (s : Expt.Setup) (Ecut : ℝ) (raw : Bool) : ITCF :=
  ⟨(shifts s).zip S, (shifts s).zip (instrumentAt u s), Ecut, raw⟩

/-- analysis.py 227-248 `ITCFT_grid`: the temperature. -/
noncomputable def itcftGrid (u : Expt.Consts) (S : List ℝ) (tau : List ℝ) (s : Expt.Setup) (Ecut : ℝ) : ℝ :=
  gridT u.hbar u.kB ((shifts s).zip S) ((shifts s).zip (instrumentAt u s)) tau Ecut

/-- analysis.py 206-224 `ITCFT` returns `T`. -/
def Itcft (u : Expt.Consts) (S : List ℝ) (tauMax : ℝ) (s : Expt.Setup) (Ecut : ℝ) (raw : Bool) (T : ℝ) : Prop :=
  (fromSetup u S s Ecut raw).GetT u.hbar u.kB tauMax T

end Verif.Itcf
