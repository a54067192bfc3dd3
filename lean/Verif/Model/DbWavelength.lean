/-
Model of `PlasmaState.db_wavelength`, plasmastate.py 427-468.
-/
import Verif.Model.Elements
import Verif.Model.Response

set_option autoImplicit false

namespace Verif.DbWavelength

open Real Verif.Elements

/-- An entry of the argument `kind`: a string or another object. -/
inductive Par where
  | str (s : String)
  | obj (o : Obj)

/-- What a call leads to: a value, a failed assertion or the `NotImplementedError` of elements.py 1692. -/
inductive Outcome (α : Type) where
  | returned (v : α)
  | assertion
  | notImplemented

open Classical in
/-- plasmastate.py 434 `par == "e-"`: elements and average atoms compare with the method of elements.py 1690-1697, everything else
with that of python. -/
noncomputable def isElectron : Par → Res Bool
  | .str s => .ok (decide (s = "e-"))
  | .obj .other => .ok false
  | .obj o => match pyEq o .other with
    | .ok p => .ok (decide p)
    | .raised => .raised

/-- The operand of a comparison; a string is no element. -/
def Par.toObj : Par → Obj
  | .str _ => .other
  | .obj o => o

open Classical in
/-- plasmastate.py 435 `par in self.ions`: the ions are compared with `par` one after the other, until one is equal.  (Python first
looks whether the two are the same object; entries which are objects of the list do not get here, see `isElectron`.) -/
noncomputable def inIons (par : Par) : List Obj → Res Bool
  | [] => .ok false
  | i :: ions => match pyEq i par.toObj with
    | .raised => .raised
    | .ok p => if p then .ok true else inIons par ions

/-- plasmastate.py 437-450, the wavelength of the electrons. -/
noncomputable def electronWavelength (u : Expt.Consts) (Te : ℝ) : ℝ :=
  2 * π * u.hbar / sqrt (2 * π * 1 * u.me * 1 * u.kB * Te)

/-- plasmastate.py 433-468, the loop, with the list `wavelengths`.  In line 459 the list of the ions is compared with an entry, which
calls the method of the entry with a list as argument. -/
noncomputable def loop (u : Expt.Consts) (Te : ℝ) (ions : List Obj) : List Par → List ℝ → Outcome (List ℝ)
  | [], acc => .returned acc
  | par :: kind, acc => match isElectron par with
    | .raised => .notImplemented
    | .ok true => loop u Te ions kind (acc ++ [electronWavelength u Te])
    | .ok false => match inIons par ions with
      | .raised => .notImplemented
      | .ok false => .assertion
      | .ok true => .notImplemented

/-- plasmastate.py 427-468 `PlasmaState.db_wavelength` for a list; a string is put into a list (431-432).  There is no `return`, so
that the value is `None`. -/
noncomputable def dbWavelength (u : Expt.Consts) (Te : ℝ) (ions : List Obj) (kind : List Par) : Outcome (Option (List ℝ)) :=
  match loop u Te ions kind [] with
  | .returned _ => .returned none
  | .assertion => .assertion
  | .notImplemented => .notImplemented

end Verif.DbWavelength
