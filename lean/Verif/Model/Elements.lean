/-
Model of the chemical elements: /repo/src/jaxrts/elements.py and `invert_dict` of helpers.py.
-/
import Verif.Model.ElementTables
import Mathlib.Algebra.Order.Archimedean.Real.Basic

set_option autoImplicit false

namespace Verif.Elements

/-! ### Dictionaries -/

/-- Assignment `d[k] = v` to a python dict, a list of pairs with distinct keys in order of
insertion: an existing key keeps its place. -/
def dictSet {α β : Type} [DecidableEq α] : List (α × β) → α → β → List (α × β)
  | [], k, v => [(k, v)]
  | (k', v') :: d, k, v => if k' = k then (k', v) :: d else (k', v') :: dictSet d k v

/-- helpers.py 88-98 `invert_dict`.  `none` is the `ValueError` for repeated values. -/
def invertDict {α β : Type} [DecidableEq β] (d : List (α × β)) : Option (List (β × α)) :=
  let out := d.foldl (fun o kv => dictSet o kv.2 kv.1) []
  if d.length ≠ out.length then none else some out

/-! ### Elements -/

/-- helpers.py 22-39 `orbital_map`. -/
def orbitalMap : List (String × Nat) :=
  [("1s", 0), ("2s", 1), ("2p", 2), ("3s", 3), ("3p", 4), ("3d", 5), ("4s", 6), ("4p", 7),
   ("4d", 8), ("4f", 9)]

/-- What `Element` is called with (elements.py 1632): a symbol, or a number which `int` turns into
an integer. -/
inductive Identifier where
  | sym (s : String)
  | num (z : Int)

/-- The instance attributes of `Element` (elements.py 1632-1671).  Left out:
`electron_distribution`, which is modelled in `Interp`, and the calculated radius, a plain table
entry. -/
structure Elem where
  Z : Nat
  symbol : String
  name : String
  mass : Nat
  econfs : List (List Nat)
  energies : List Nat
  weights : List Nat
  coldBindingEnergies : List Nat
  deriving DecidableEq, Repr

/-- elements.py 1650-1671, `cold_binding_energies` from a row of the table of cold edges.  All
entries are even in the unit of the table, so the division is exact. -/
def coldBinding (Eb : List Nat) : List Nat :=
  let e := fun i => Eb.getD i 0
  [e 0, e 1, (e 2 + e 3) / 2, e 4, (e 5 + e 6) / 2, (e 7 + e 8) / 2, 0, 0, 0, 0]

/-- elements.py 1617-1628, 1632-1671: the constructor once the atomic number and the symbol are
known; `none` is a `KeyError` of one of the tables. -/
def elementFor (Z : Nat) (symbol : String) : Option Elem := do
  let name ← names.lookup Z
  let mass ← masses.lookup Z
  let econfs ← econf.lookup Z
  let energies ← ionizationEnergies.lookup Z
  let weights ← statisticalWeights.lookup Z
  let eb ← coldEdges.lookup Z
  return ⟨Z, symbol, name, mass, econfs, energies, weights, coldBinding eb⟩

/-- elements.py 1632-1671 `Element.__init__`; `none` is an exception. -/
def mkElement : Identifier → Option Elem
  | .sym s => do
    let inv ← invertDict symbols
    let Z ← inv.lookup s
    elementFor Z s
  | .num z =>
    if z < 0 then none
    else do
      let s ← symbols.lookup z.toNat
      elementFor z.toNat s

/-- elements.py 1542-1560 `electron_distribution`. -/
def electronDistributionTable (Z : Nat) : Option (List Nat) :=
  (econf.lookup Z).bind fun rows => rows.head?

/-! ### Equality of elements -/

/-- Objects that are compared: elements, average atoms (`MixElement`, with real charge), and
anything else. -/
inductive Obj where
  | elem (Z : Nat)
  | mix (Z : ℝ)
  | other

/-- Result of a comparison or of `hash`. -/
inductive Res (α : Type) where
  | ok (a : α)
  | raised

/-- elements.py 1690-1697 `Element.__eq__(self, other)`, also inherited by `MixElement`; `self` is
an element or a mix. -/
noncomputable def eqMethod : Obj → Obj → Res Prop
  | _, .other => .raised
  | _, .mix _ => .ok False
  | .elem Z, .elem Z' => .ok (Z = Z')
  | .mix z, .elem Z' => .ok (z = Z')
  | .other, _ => .raised

/-- `a == b` in python.  `MixElement` (elements.py 1706) is a subclass of `Element`, so for
`element == mix` python calls the method of the right operand first. -/
noncomputable def pyEq : Obj → Obj → Res Prop
  | .elem Z, .mix z => eqMethod (.mix z) (.elem Z)
  | a, b => eqMethod a b

/-- elements.py 1702-1703 `Element.__hash__`, also inherited by `MixElement`: python only accepts
integers, and the charge of a mix is a float. -/
def pyHash : Obj → Res Nat
  | .elem Z => .ok Z
  | .mix _ => .raised
  | .other => .raised

/-! ### Binding energies of ions -/

/-- A three dimensional array, indexed by atomic number, charge and orbital. -/
abbrev Table := Nat → Nat → Nat → Nat

/-- `table.at[Z, charge, orbital_idx].set(energy)`. -/
def Table.set (t : Table) (Z c o e : Nat) : Table :=
  fun Z' c' o' => if Z' = Z ∧ c' = c ∧ o' = o then e else t Z' c' o'

/-- elements.py 547-554, the loop over the orbitals of one ion. -/
def fillIon (Z c : Nat) (t : Table) (es : List (String × Nat)) : Table :=
  es.foldl (fun t oe => match orbitalMap.lookup oe.1 with
    | some i => t.set Z c i oe.2
    | none => t) t

/-- elements.py 546-554, the loop over the charges of one element. -/
def fillElement (Z : Nat) (t : Table) (ions : List (Nat × List (String × Nat) × List (String × Nat))) :
    Table :=
  ions.foldl (fun t ion => fillIon Z ion.1 t ion.2.2) t

/-- elements.py 539-554 `_edge_position_table_ionization_states`; float32 rounding of the entries is
not modelled. -/
def edgeTable : Table :=
  facData.foldl (fun t row => fillElement row.1 t row.2.2) (fun _ _ _ => 0)

/-- elements.py 524 `max_Z`. -/
def maxZ : Nat := (facData.map (·.1)).foldl max 0

/-- elements.py 525-532 `max_charge_state`. -/
def maxCharge : Nat :=
  (facData.map fun r => (r.2.2.map (·.1)).foldl max 0).foldl max 0

/-- `jnp.round`: to the nearest integer, halves to the even one. -/
noncomputable def roundHalfEven (x : ℝ) : Int :=
  if x - ⌊x⌋ < 1 / 2 then ⌊x⌋
  else if 1 / 2 < x - ⌊x⌋ then ⌊x⌋ + 1
  else if ⌊x⌋ % 2 = 0 then ⌊x⌋ else ⌊x⌋ + 1

/-- elements.py 1673-1688 `Element.get_binding_energies` for an element with atomic number `Z`, at
one (real) charge. -/
noncomputable def getBindingEnergies (Z : Nat) (charge : ℝ) (orbital : Nat) : Nat :=
  let safeZ := min Z maxZ
  let safeCharge := min (max (roundHalfEven charge) 0) maxCharge
  edgeTable safeZ safeCharge.toNat orbital

end Verif.Elements
