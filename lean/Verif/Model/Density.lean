/-
Model of the densities of a plasma state: helpers.py (mass fractions, mass density), plasmastate.py
(derived quantities, expansion into integer charges) and `averagePlasmaState` of models.py.

The parallel arrays `ions`, `Z_free`, `mass_density` and `T_i` of a `PlasmaState`, whose lengths the
constructor compares (plasmastate.py 66-72), are one list of species here.
-/
import Mathlib.Algebra.Order.Archimedean.Real.Basic
import Mathlib.Algebra.BigOperators.Group.List.Basic

set_option autoImplicit false

namespace Verif.Density

/-! ### helpers.py -/

/-- helpers.py 121-163 `mass_from_number_fraction`; `none` is the `ValueError`. -/
noncomputable def massFromNumberFraction (x masses : List ℝ) : Option (List ℝ) :=
  if x.length ≠ masses.length then none
  else
    let prod := List.zipWith (· * ·) x masses
    some (prod.map (· / prod.sum))

/-- helpers.py 166-231 `mass_density_from_electron_density` with `partial=False`; `none` is the
`ValueError`. -/
noncomputable def massDensity (nE : ℝ) (Z x masses : List ℝ) : Option ℝ :=
  if ¬ (x.length = Z.length ∧ Z.length = masses.length) then none
  else
    let nom := (List.zipWith (· * ·) masses x).sum
    let denom := (List.zipWith (· * ·) Z x).sum
    some (nE * nom / denom)

/-- helpers.py 166-231 `mass_density_from_electron_density` with `partial=True`. -/
noncomputable def massDensityPartial (nE : ℝ) (Z x masses : List ℝ) : Option (List ℝ) := do
  let rho ← massDensity nE Z x masses
  let w ← massFromNumberFraction x masses
  return w.map (· * rho)

/-! ### plasmastate.py -/

/-- One ion species of a plasma state: the element (atomic number, mass, calculated radius), the
charge, the partial mass density and the temperature. -/
structure Species where
  ZA : ℝ
  mass : ℝ
  radius : ℝ
  zFree : ℝ
  rho : ℝ
  T : ℝ

/-- A plasma state, without its models (plasmastate.py 57-120). -/
structure State where
  species : List Species
  Te : ℝ
  /-- `_overwritten["ion_core_radius"]` (plasmastate.py 109-113). -/
  overwritten : List ℝ

/-- plasmastate.py 57-120 `PlasmaState.__init__`: no radius is overwritten, which is marked by `-1`. -/
def mkState (species : List Species) (Te : ℝ) : State :=
  ⟨species, Te, species.map fun _ => -1⟩

/-- plasmastate.py 325-328 `n_i`, for one species. -/
noncomputable def Species.nI (s : Species) : ℝ := s.rho / s.mass

/-- plasmastate.py 325-328 `n_i`. -/
noncomputable def State.nI (s : State) : List ℝ := s.species.map Species.nI

/-- plasmastate.py 330-333 `n_e`. -/
noncomputable def State.nE (s : State) : ℝ := (s.species.map fun a => a.nI * a.zFree).sum

/-- plasmastate.py 419-425 `number_fraction`. -/
noncomputable def State.numberFraction (s : State) : List ℝ := s.nI.map (· / s.nI.sum)

/-- plasmastate.py 308-313 `Z_core`. -/
def Species.zCore (s : Species) : ℝ := s.ZA - s.zFree

/-- plasmastate.py 225-236, one species: the two entries made of it, at the even and the odd index. -/
noncomputable def Species.split (a : Species) : List Species :=
  [{ a with zFree := ⌊a.zFree⌋, rho := (1 - (a.zFree - ⌊a.zFree⌋)) * a.rho },
   { a with zFree := ⌈a.zFree⌉, rho := (a.zFree - ⌊a.zFree⌋) * a.rho }]

/-- plasmastate.py 216-243 `expand_integer_ionization_states`.  The state is a deep copy, so the
overwritten radii are kept as they are. -/
noncomputable def State.expand (s : State) : State :=
  { s with species := s.species.flatMap Species.split }

/-- `jnpu.where(cond, a, b)` for one dimensional arrays, `cond` and `a` of the same length: arrays of
length one are repeated, other lengths have to agree; `none` is the error raised otherwise. -/
noncomputable def whereBroadcast (p : ℝ → Bool) (a b : List ℝ) : Option (List ℝ) :=
  let pick := fun u v => if p u then u else v
  if a.length = b.length then some (List.zipWith pick a b)
  else match a, b with
    | [u], b => some (b.map fun v => pick u v)
    | a, [v] => some (a.map fun u => pick u v)
    | _, _ => none

/-- plasmastate.py 393-399 `ion_core_radius`. -/
noncomputable def State.ionCoreRadius (s : State) : Option (List ℝ) :=
  whereBroadcast (fun u => decide (0 < u)) s.overwritten (s.species.map (·.radius))

/-- plasmastate.py 401-409, assignment to `ion_core_radius`. -/
def State.setIonCoreRadius (s : State) (value : List ℝ) : State := { s with overwritten := value }

/-! ### models.py -/

/-- `jnpu.sum(q * state.number_fraction)` for a quantity `q` with one entry per species. -/
noncomputable def State.mean (s : State) (q : Species → ℝ) : ℝ :=
  (List.zipWith (· * ·) (s.species.map q) s.numberFraction).sum

/-- models.py 4903-4923 `averagePlasmaState`.  The calculated radius of a `MixElement` is zero
(elements.py 1727). -/
noncomputable def State.average (s : State) : State :=
  { s with species := [
      { ZA := s.mean (·.ZA), mass := s.mean (·.mass), radius := 0, zFree := s.mean (·.zFree),
        rho := s.mean (·.rho), T := s.mean (·.T) }] }

end Verif.Density
