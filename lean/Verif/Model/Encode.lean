/-
Model of how saving.py writes and reads single values: numbers, arrays, quantities and elements.
-/
import Verif.Model.Elements

set_option autoImplicit false

namespace Verif.Encode

open Verif.Elements

/-- Types of array entries.  Simplification: other widths and complex numbers are left out. -/
inductive Dt where
  | f64 | f32 | i64 | i32 | bool
  deriving DecidableEq, Repr

/-- An entry of an array. -/
inductive Sc (α : Type) where
  | flt (x : α)
  | int (i : Int)
  | bool (b : Bool)
  deriving DecidableEq

/-- An array: its type, its shape, and its entries in the order of the memory (the last index
runs fastest). -/
structure Arr (α : Type) where
  dt : Dt
  shape : List Nat
  data : List (Sc α)

/-- Python values.  `jarr` is a `jax.Array`, `narr` an `onp.ndarray`, `nsc` a numpy scalar, `mix` a
`MixElement`.  Units are pairs of a name and an exponent. -/
inductive V (α : Type) where
  | none
  | bool (b : Bool)
  | int (i : Int)
  | flt (x : α)
  | str (s : String)
  | nsc (dt : Dt) (x : Sc α)
  | jarr (a : Arr α)
  | narr (a : Arr α)
  | quant (m : V α) (units : List (String × Sc α))
  | elem (e : Elem)
  | mix (z : α)
  | list (vs : List (V α))
  | tuple (vs : List (V α))

/-- JSON documents. -/
inductive J (α : Type) where
  | null
  | bool (b : Bool)
  | int (i : Int)
  | num (x : α)
  | str (s : String)
  | arr (js : List (J α))
  | obj (type : String) (value : J α)

variable {α : Type}

/-- `list(array)` for an array with `n` rows of `k` entries each. -/
def rows (k : Nat) : Nat → List (Sc α) → List (List (Sc α))
  | 0, _ => []
  | n + 1, d => d.take k :: rows k n (d.drop k)

/-- The encoder for a numpy scalar: `onp.float64` is a python float and is written by the json
module, integers by saving.py 137-138; all others raise `TypeError` (saving.py 154). -/
def encScalar : Dt → Sc α → Option (J α)
  | .f64, .flt x => some (.num x)
  | .i64, .int i => some (.int i)
  | .i32, .int i => some (.int i)
  | _, _ => none

/-- The encoded entries of `list(onp.array(obj))` (saving.py 129, 135): numpy scalars for a vector,
arrays of numpy, encoded by saving.py 132-136, otherwise.  An array without dimensions cannot be
iterated (`TypeError`). -/
def encRows (dt : Dt) : List Nat → List (Sc α) → Option (List (J α))
  | [], _ => none
  | [_], d => d.mapM (encScalar dt)
  | n :: m :: ds, d => (rows (m :: ds).prod n d).mapM fun r =>
      (encRows dt (m :: ds) r).map fun l => .obj "ndArray" (.arr l)

/-- `float(x)` of an entry. -/
def toFloat [IntCast α] : Sc α → α
  | .flt x => x
  | .int i => (i : α)
  | .bool b => ((if b then 1 else 0 : Int) : α)

/-- saving.py 127-131, a `jax.Array`.  `list` of an array without dimensions raises a `TypeError`,
which is caught; errors of the entries are raised later and are not. -/
def encJax [IntCast α] (a : Arr α) : Option (J α) :=
  match a.shape, a.data with
  | [], x :: _ => some (.num (toFloat x))
  | [], [] => none
  | _, _ => (encRows a.dt a.shape a.data).map fun l => .obj "Array" (.arr l)

/-- The exponent of a unit, an int or a float of python. -/
def encExponent : Sc α → J α
  | .flt x => .num x
  | .int i => .int i
  | .bool b => .bool b

/-- `tuple(self._units.items())`, the second entry of pint's `Quantity.to_tuple`. -/
def encUnits (us : List (String × Sc α)) : J α :=
  .arr (us.map fun u => .arr [.str u.1, encExponent u.2])

mutual

/-- `saving.dumps` (saving.py 300-315) with `JaXRTSEncoder.default` (saving.py 120-138): `none` is
an exception. -/
def enc [IntCast α] : V α → Option (J α)
  | .none => some .null
  | .bool b => some (.bool b)
  | .int i => some (.int i)
  | .flt x => some (.num x)
  | .str s => some (.str s)
  | .nsc dt x => encScalar dt x
  | .jarr a => encJax a
  | .narr a => (encRows a.dt a.shape a.data).map fun l => .obj "ndArray" (.arr l)
  | .quant m us => (enc m).map fun j => .obj "Quantity" (.arr [j, encUnits us])
  | .elem e => some (.obj "Element" (.str e.symbol))
  | .mix _ => some (.obj "Element" (.str "MIX"))
  | .list vs => (encAll vs).map .arr
  | .tuple vs => (encAll vs).map .arr

/-- Each value of a list. -/
def encAll [IntCast α] : List (V α) → Option (List (J α))
  | [] => some []
  | v :: vs =>
      match enc v, encAll vs with
      | some j, some js => some (j :: js)
      | _, _ => Option.none

end

/-- A python float. -/
def asFlt : V α → Option (Sc α)
  | .flt x => some (.flt x)
  | _ => Option.none

/-- A python int. -/
def asInt : V α → Option (Sc α)
  | .int i => some (.int i)
  | _ => Option.none

/-- A numpy array of given type and shape. -/
def asRow (dt : Dt) (shape : List Nat) : V α → Option (List (Sc α))
  | .narr a => if a.dt = dt ∧ a.shape = shape then some a.data else Option.none
  | _ => Option.none

/-- `onp.array(val)` and `jnp.array(val)` (saving.py 226, 230) of a list, with 64 bit enabled
(free_free.py 33).  Simplification: lists of mixed entries, which saving does not write for an
array, give `none`. -/
def stack : List (V α) → Option (Arr α)
  | [] => some ⟨.f64, [0], []⟩
  | .flt x :: vs => (vs.mapM asFlt).map fun xs => ⟨.f64, [xs.length + 1], .flt x :: xs⟩
  | .int i :: vs => (vs.mapM asInt).map fun xs => ⟨.i64, [xs.length + 1], .int i :: xs⟩
  | .narr a :: vs => (vs.mapM (asRow a.dt a.shape)).map fun ds =>
      ⟨a.dt, (ds.length + 1) :: a.shape, a.data ++ ds.flatten⟩
  | _ => Option.none

/-- An exponent read by the json module. -/
def decExponent : V α → Option (Sc α)
  | .flt x => some (.flt x)
  | .int i => some (.int i)
  | .bool b => some (.bool b)
  | _ => Option.none

/-- An entry of the dictionary `UnitsContainer(val[1])`. -/
def decUnit : V α → Option (String × Sc α)
  | .list [.str s, e] => (decExponent e).map fun e => (s, e)
  | _ => Option.none

/-- `JaXRTSDecoder.object_hook` (saving.py 225-232) for a decoded value. -/
def hook (type : String) (v : V α) : Option (V α) :=
  match type, v with
  | "ndArray", .list vs => (stack vs).map .narr
  | "Array", .list vs => (stack vs).map .jarr
  | "Quantity", .list [m, .list us] => (us.mapM decUnit).map fun us => .quant m us
  | "Element", .str s => (mkElement (.sym s)).map .elem
  | _, _ => Option.none

mutual

/-- `saving.load` (saving.py 318-363), from the inside to the outside. -/
def dec : J α → Option (V α)
  | .null => some .none
  | .bool b => some (.bool b)
  | .int i => some (.int i)
  | .num x => some (.flt x)
  | .str s => some (.str s)
  | .arr js => (decAll js).map .list
  | .obj t j => (dec j).bind (hook t)

/-- Each value of a list. -/
def decAll : List (J α) → Option (List (V α))
  | [] => some []
  | j :: js =>
      match dec j, decAll js with
      | some v, some vs => some (v :: vs)
      | _, _ => Option.none

end

/-- What is loaded from what was saved. -/
def reload [IntCast α] (v : V α) : Option (V α) := (enc v).bind dec

/-! ### The grid of a potential -/

/-- `jnpu.linspace(start, stop, num)`. -/
noncomputable def linspace (a b : ℝ) (n : Nat) : List ℝ :=
  (List.range n).map fun i : Nat => a + (i : ℝ) * ((b - a) / ((n - 1 : Nat) : ℝ))

/-- saving.py 96-108 and 260-264: the grid is written as its minimum, maximum and length, and is
read by `linspace`; the minimum of an empty grid raises (`none`).  Units are left out. -/
noncomputable def reloadGrid : List ℝ → Option (List ℝ)
  | [] => none
  | x :: xs => some (linspace (xs.foldl min x) (xs.foldl max x) (xs.length + 1))

end Verif.Encode
