/-
`to_array` (units.py 13-37) and the numbers in a plasma state (plasmastate.py 60-107).

A unit is a factor and a dimension (of any type `D`); units with an offset, such as degrees Celsius, are not modelled.  `none`
stands for an exception, and for lists that mix quantities and plain numbers, whose treatment by `jnp.array` (units.py 35) is not
part of this project.  Arrays have one dimension.
-/
import Mathlib.Data.Real.Basic
import Mathlib.Data.List.Basic
import Mathlib.Tactic.FieldSimp
import Mathlib.Tactic.Ring
import Mathlib.Tactic.NormNum

set_option autoImplicit false

namespace Verif.Units

variable {D : Type} [DecidableEq D]

/-- A unit: its size in the units of the registry, and what it measures. -/
structure Unit' (D : Type) where
  size : ℝ
  dim : D
  pos : 0 < size

/-- An entry of a list. -/
inductive Item (D : Type)
  | number (x : ℝ)
  | quantity (m : ℝ) (u : Unit' D)

/-- An array, with or without unit. -/
inductive Arr (D : Type)
  | plain (l : List ℝ)
  | unit (l : List ℝ) (u : Unit' D)

/-- What a user may pass: an array or a list (or tuple). -/
inductive Arg (D : Type)
  | array (a : Arr D)
  | list (l : List (Item D))

/-- `Quantity.m_as`: the magnitude in another unit; plain numbers do not have this method. -/
noncomputable def Item.mAs (u : Unit' D) : Item D → Option ℝ
  | .number _ => none
  | .quantity m v => if v.dim = u.dim then some (m * v.size / u.size) else none

/-- `jnp.array` of a list, units.py 35: of plain numbers. -/
def Item.plain? : Item D → Option ℝ
  | .number x => some x
  | .quantity _ _ => none

/-- units.py 13-37 `to_array`.  The first entry of an empty list raises an `IndexError`, which is not caught (line 34). -/
noncomputable def toArray : Arg D → Option (Arr D)
  | .array a => some a
  | .list [] => none
  | .list (.quantity m u :: l) => ((.quantity m u :: l).mapM (Item.mAs u)).map fun l => .unit l u
  | .list (.number x :: l) => ((.number x :: l).mapM Item.plain?).map .plain

/-- `len`. -/
def Arr.length : Arr D → ℕ
  | .plain l => l.length
  | .unit l _ => l.length

/-- `len`. -/
def Arg.length : Arg D → ℕ
  | .array a => a.length
  | .list l => l.length

/-- The temperature of the electrons as it may be given: a number with unit, an array or a list. -/
inductive Temp (D : Type)
  | scalar (m : ℝ) (u : Unit' D)
  | array (l : List ℝ) (u : Unit' D)
  | list (l : List (Item D))

/-- The numbers in a plasma state. -/
structure State (D : Type) where
  nions : ℕ
  Zfree : Arr D
  massDensity : Arr D
  Te : Item D
  Ti : Arr D

/-- plasmastate.py 91-99: `self.T_e`; the first entry of an empty array is taken as an exception. -/
def electronT : Temp D → Option (Item D)
  | .scalar m u => some (.quantity m u)
  | .array l u => l.head?.map fun m => .quantity m u
  | .list l => l.head?

/-- plasmastate.py 102: `T_e * jnp.ones(self.nions)`, with the rules for the shapes of a product; a list cannot be multiplied. -/
def defaultT (n : ℕ) : Temp D → Option (Arr D)
  | .scalar m u => some (.unit (List.replicate n m) u)
  | .array l u => if l.length = n then some (.unit l u)
      else match l with
        | [m] => some (.unit (List.replicate n m) u)
        | l => if n = 1 then some (.unit l u) else none
  | .list _ => none

/-- plasmastate.py 101-107: `self.T_i`. -/
noncomputable def ionT (n : ℕ) (Te : Temp D) : Option (Arg D) → Option (Arr D)
  | some t => toArray t
  | none => defaultT n Te

open Classical in
/-- plasmastate.py 60-107 `PlasmaState.__init__`, for `n` ions. -/
noncomputable def init (n : ℕ) (Z rho : Arg D) (Te : Temp D) (Ti : Option (Arg D)) : Option (State D) :=
  if n = Z.length ∧ n = rho.length ∧ (∀ t, Ti = some t → n = t.length) then
    (toArray Z).bind fun Z => (toArray rho).bind fun rho => (electronT Te).bind fun te =>
      (ionT n Te Ti).map fun ti => ⟨n, Z, rho, te, ti⟩
  else none

end Verif.Units
