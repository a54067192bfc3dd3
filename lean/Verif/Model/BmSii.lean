/-
The ion structure factor which the Born-Mermin models use for the collision frequency,
/repo/src/jaxrts/models.py 1783-1813 (`_build_cached_S_ii`), 4926-4980 (`Sum_Sii`) and 4983-5096
(`AverageAtom_Sii`), over the real numbers.  Units and array shapes are not modelled.
-/
import Verif.Model.HncFeat
import Verif.Model.Setup

set_option autoImplicit false

namespace Verif.BmSii

open Real Verif.Expt Verif.HncFeat

/-- models.py 4946-4960 `Sum_Sii._combine_S_ab`. -/
noncomputable def combine {m : ℕ} (x : Fin m → ℝ) (S : Fin m → Fin m → ℝ) : ℝ := ∑ a, ∑ b, sqrt (x a * x b) * S a b

/-- The model in 'ionic scattering', models.py 355-391: either it has structure factors on a grid
(`supports_S_ii_grid`), and `S_ii` interpolates them (850-852, 1045 and 1136-1138), or there is only `S_ii`. -/
inductive IonFeat (m : ℕ) where
  | onGrid (c : Settings) (S : ℕ → Matrix (Fin m) (Fin m) ℝ)
  | direct (S : Setup → Fin m → Fin m → ℝ)

/-- `S_ii` of the model in 'ionic scattering', models.py 850-852, 1136-1138 or as given. -/
noncomputable def IonFeat.sIi {m : ℕ} (u : Consts) (s : Setup) : IonFeat m → Fin m → Fin m → ℝ
  | .onGrid c S => hncInterp c S (s.k u)
  | .direct S => S s

/-- The model in 'BM S_ii'.  For `AverageAtom_Sii` the structure factor of the average atom on its grid is given, the
result of models.py 5061-5086. -/
inductive BmModel where
  | sum
  | averageAtom (c : Settings) (S : ℕ → ℝ)

/-- models.py 4941-4944 and 5041-5047 `check_supports_S_ii_grid`, together with 4962-4969 and 5061-5086
`S_ii_on_grid`: the grid and the values on it. -/
noncomputable def BmModel.onGrid {m : ℕ} (x : Fin m → ℝ) (feat : IonFeat m) : BmModel → Option (Settings × (ℕ → ℝ))
  | .sum =>
    match feat with
    | .onGrid c S => some (c, fun i => combine x (S i))
    | .direct _ => none
  | .averageAtom c S => some (c, S)

/-- models.py 4971-4980 and 5088-5096 `evaluate`. -/
noncomputable def BmModel.evaluate {m : ℕ} (u : Consts) (x : Fin m → ℝ) (feat : IonFeat m) (s : Setup) : BmModel → ℝ
  | .sum => combine x (feat.sIi u s)
  | .averageAtom c S => hncInterp c (fun i => Matrix.of fun _ _ => S i) (s.k u) (0 : Fin 1) 0

/-- models.py 1783-1813 `_build_cached_S_ii`: the function of the wave number handed to the collision frequencies. -/
noncomputable def cached {m : ℕ} (u : Consts) (x : Fin m → ℝ) (feat : IonFeat m) (bm : BmModel) (s : Setup) (k : ℝ) : ℝ :=
  match bm.onGrid x feat with
  | some (c, S) => Interp.interp (2 ^ c.pot) c.k S k
  | none => bm.evaluate u x feat (getProbeSetup u k s)

end Verif.BmSii
