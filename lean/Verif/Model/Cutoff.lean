/-
Model of the guess of the energies between which the collision frequency is interpolated
(free_free.py, models.py).

Here the "not a number" of floating point matters, so a value is an `Option ℝ` with `none` for
"not a number": `jnp.max` returns it if it occurs, and comparisons with it are false.  All other
numbers are exact.
-/
import Verif.Model.Mermin

set_option autoImplicit false

namespace Verif.Cutoff

open Real Verif.Expt Verif.Resp

variable (u : Consts)

/-- free_free.py 1764-1778 `S0_ee_RPA_Dandrea` with its value at zero energy: there
free_free.py 270-272 multiplies `1 / (1 - exp 0)`, infinity, by the imaginary part of the
susceptibility, zero. -/
noncomputable def seeDandrea (d : DandreaFits) (k T n E : ℝ) : Option ℝ :=
  if E = 0 then none else some (s0eeDandrea u d k T n E)

/-- The larger of two values. -/
noncomputable def maxOpt : Option ℝ → Option ℝ → Option ℝ
  | some x, some y => some (max x y)
  | _, _ => none

/-- `jnp.max` of a list. -/
noncomputable def maxNan (l : List (Option ℝ)) : Option ℝ := l.foldl maxOpt (l.headD none)

/-- `a > b`. -/
noncomputable def gtNan : Option ℝ → Option ℝ → Bool
  | some a, some b => decide (a > b)
  | _, _ => false

/-- free_free.py 2166-2185 `guess_E_cutoff_max`; `See` is the structure factor at the wave number,
temperature and density of the call. -/
noncomputable def guessMax (See : ℝ → Option ℝ) (Emax : ℝ) (KKT : Bool) : ℝ :=
  let E := Resp.linspace 0 (10 * Emax) 500
  let S := E.map See
  let top := E.foldl max (E.headD 0)
  let bound := maxNan (S.map fun s => s.map (· * 1e-4))
  let picked := List.zipWith (fun s e => if gtNan s bound then e else top) S E
  let cut := |picked.foldl min (picked.headD 0) * 1.5|;
  bif KKT then cut else min cut Emax

/-- free_free.py 2188-2191 `guess_E_cutoff_min`. -/
noncomputable def guessMin (n : ℝ) (KKT : Bool) : ℝ :=
  let Epe := plasmaFrequency u n * u.hbar
  bif KKT then 1e-6 * Epe else Epe / 2

/-- models.py 1915-1937 `guess_E_cutoffs` (and 2175-2197, 2438-2460), given the wave number and the
largest energy. -/
noncomputable def guessCutoffs (d : DandreaFits) (k T n Emax : ℝ) (KKT : Bool) : ℝ × ℝ :=
  (guessMin u n KKT, guessMax (seeDandrea u d k T n) Emax KKT)

/-- models.py 1964-1974: `prepare` keeps a positive cutoff and replaces any other by the guess. -/
noncomputable def prepareCutoff (old guess : ℝ) : ℝ := if old > 0 then old else guess

end Verif.Cutoff
