/-
`SchumacherImpulseFitRk`, the bound-free model that is scaled to fulfil the f-sum rule:
/repo/src/jaxrts/models.py 2930-3050, together with `DetailedBalance` on top of it.

A model of bound-free or of free-free scattering is a function of the wave number of the setup, of the energy
shift of a channel and of the wave number of the channel, see `Expt.boundFree`.  The replacement of values that
are not a number by zero (lines 3033-3035) is not modelled; where the code divides by zero the result is `none`.
-/
import Verif.Model.Itcf

set_option autoImplicit false

namespace Verif.FitRk

open Real Verif.Expt

/-- `jnpu.max` of a non-empty list. -/
noncomputable def maximum : List ℝ → ℝ
  | [] => 0
  | [a] => a
  | a :: l => max a (maximum l)

variable (u : Consts) (f g : ℝ → ℝ → ℝ → ℝ) (ne Te : ℝ)

/-- models.py 2982-2988: `setup_dispersion_off`. -/
def off (s : Setup) : Setup := mkSetup s.angle s.energy s.measured s.instrument false

/-- models.py 3011 and 3018: `E_cut`. -/
noncomputable def cut (s : Setup) : ℝ := maximum (s.measured.map fun E => E - s.energy)

/-- models.py 2980, 3005-3012 and 3021: the numerator of `r_k`; `g` is the free-free model. -/
noncomputable def numerator (s : Setup) : ℝ :=
  -1 * u.hbar ^ 2 * s.k u ^ 2 / (2 * u.me) -
    Itcf.fsum (Itcf.fromSetup u (boundFreeRaw u g (off s) ne) (off s) (cut s) true) u.hbar

/-- models.py 2990-3003 and 3014-3019: `fb_bf_fsum`; `f` is `SchumacherImpulse(r_k=1.0)`. -/
noncomputable def denominator (s : Setup) : ℝ :=
  Itcf.fsum (Itcf.fromSetup u
    (List.zipWith (· + ·) (freeBoundRaw u f (off s) ne Te) (boundFreeRaw u f (off s) ne)) (off s) (cut s) true) u.hbar

open Classical in
/-- models.py 2972-3022 `SchumacherImpulseFitRk.r_k`; `none`: division by zero. -/
noncomputable def rk (s : Setup) : Option ℝ :=
  if denominator u f ne Te s = 0 then none else some (numerator u g ne s / denominator u f ne Te s)

/-- models.py 3024-3035 `SchumacherImpulseFitRk.evaluate_raw`, of an ordinary setup. -/
noncomputable def boundFreeFit (s : Setup) : Option (List ℝ) :=
  (rk u f g ne Te s).map fun r => (boundFreeRaw u f s ne).map (· * r)

/-- models.py 3024-3035 `SchumacherImpulseFitRk.evaluate_raw`, of the mirror image of a setup, which has its own
wave numbers (free_bound.py 72-98), and its own `r_k`. -/
noncomputable def boundFreeFitFlipped (s : Setup) : Option (List ℝ) :=
  (rk u f g ne Te (flip s)).map fun r => (boundFree u f (flip s) (flippedDispersionK u (flip s) ne)).map (· * r)

/-- models.py 3087-3096 `DetailedBalance.evaluate_raw`, with `SchumacherImpulseFitRk` for the bound-free
scattering. -/
noncomputable def freeBoundFit (s : Setup) : Option (List ℝ) :=
  (boundFreeFitFlipped u f g ne Te s).map fun l =>
    List.zipWith (fun fb E => fb * exp (-(E - s.energy) / (Te * u.kB))) l s.measured

/-- The sum of free-free, bound-free and free-bound scattering, plasmastate.py 485-491 without the ionic part, before the convolution
with the instrument. -/
noncomputable def inelastic (s : Setup) : Option (List ℝ) :=
  (boundFreeFit u f g ne Te s).bind fun bf => (freeBoundFit u f g ne Te s).map fun fb =>
    List.zipWith (· + ·) (List.zipWith (· + ·) (boundFreeRaw u g s ne) bf) fb

/-- The same with the default for the free-bound scattering, `Neglect` (plasmastate.py 117, models.py 295-331). -/
noncomputable def inelasticDefault (s : Setup) : Option (List ℝ) :=
  (boundFreeFit u f g ne Te s).map fun bf => List.zipWith (· + ·) (boundFreeRaw u g s ne) bf

end Verif.FitRk
