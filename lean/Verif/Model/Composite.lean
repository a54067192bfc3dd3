/-
Sums and multiples of model objects: `IPDModel.__add__`, `IPDSum` (/repo/src/jaxrts/models.py) and
`HNCPotential.__add__`, `HNCPotential.__mul__`, `PotentialSum`, `ScaledPotential`
(/repo/src/jaxrts/hnc_potentials.py).

Objects and python lists live in a heap, because `__add__` passes lists on by reference.  What a
model that is not a sum or a multiple evaluates to is abstract: a function of the model and of its
`include_electrons` setting.
-/
import Mathlib.Algebra.Module.Defs
import Mathlib.Logic.Relation

set_option autoImplicit false

namespace Verif.Composite

/-- `include_electrons`, hnc_potentials.py 297-315.  IPD models have no such setting; they are
modelled with `off` throughout. -/
inductive Mode
  | off | averaged | separated
  deriving DecidableEq, Repr

/-- A reference to an object, and a reference to a python list. -/
abbrev Ref := Nat
abbrev ListRef := Nat

/-- An object.  `plain a m` is any model that is neither a sum nor a multiple, with its parameters
`a` and `include_electrons = m`.  `sum l m` is a `PotentialSum` (hnc_potentials.py 594-620) or an
`IPDSum` (models.py 4009-4026) whose attribute `potentials`/`list_of_ipds` is the list `l`.
`scaled p c m` is a `ScaledPotential` (hnc_potentials.py 711-722).  `model_key` and `_transform_r`
are left out. -/
inductive Obj (A K : Type)
  | plain (a : A) (m : Mode)
  | sum (l : ListRef) (m : Mode)
  | scaled (p : Ref) (c : K) (m : Mode)

/-- The memory: objects and lists, in order of creation. -/
structure Heap (A K : Type) where
  objs : List (Obj A K)
  lists : List (List Ref)

variable {A K : Type}

/-- Reading `include_electrons` (hnc_potentials.py 622-624, 725-727). -/
def Obj.mode : Obj A K → Mode
  | .plain _ m => m
  | .sum _ m => m
  | .scaled _ _ m => m

/-- The object with another `include_electrons`, without passing it on. -/
def Obj.withMode (m : Mode) : Obj A K → Obj A K
  | .plain a _ => .plain a m
  | .sum l _ => .sum l m
  | .scaled p c _ => .scaled p c m

/-- `isinstance(x, PotentialSum)` / `isinstance(x, IPDSum)`: the list of the sum. -/
def Obj.asSum : Obj A K → Option ListRef
  | .sum l _ => some l
  | _ => none

/-- A new python list. -/
def Heap.newList (h : Heap A K) (rs : List Ref) : Heap A K × ListRef :=
  ({ h with lists := h.lists ++ [rs] }, h.lists.length)

/-- `xs.append(r)`: changes the list in place. -/
def Heap.appendTo (h : Heap A K) (l : ListRef) (r : Ref) : Heap A K :=
  { h with lists := h.lists.set l ((h.lists.getD l []) ++ [r]) }

/-- A new object. -/
def Heap.newObj (h : Heap A K) (o : Obj A K) : Heap A K × Ref :=
  ({ h with objs := h.objs ++ [o] }, h.objs.length)

/-- The lists built by `a + b`: models.py 3483-3490, hnc_potentials.py 553-560.  When `a` is a sum,
its own list is used, and it is extended in place unless `b` is a sum. -/
def Heap.join (h : Heap A K) (a b : Ref) : Option (Heap A K × ListRef) :=
  match h.objs[a]?, h.objs[b]? with
  | some oa, some ob =>
    let (h1, la) := match oa.asSum with
      | some l => (h, l)
      | none => h.newList [a]
    match ob.asSum with
    | some lb => some (h1.newList (h1.lists.getD la [] ++ h1.lists.getD lb []))
    | none => some (h1.appendTo la b, la)
  | _, _ => none

/-- `a + b` for IPD models: models.py 3477-3491 and `IPDSum.__init__` 4017-4026. -/
def Heap.addIpd (h : Heap A K) (a b : Ref) : Option (Heap A K × Ref) :=
  (h.join a b).map fun (h1, l) => h1.newObj (.sum l .off)

/-- Storing `include_electrons` on one object. -/
def Heap.store (h : Heap A K) (r : Ref) (m : Mode) : Heap A K :=
  match h.objs[r]? with
  | some o => { h with objs := h.objs.set r (o.withMode m) }
  | none => h

/-- The setters of `include_electrons` applied to all objects of a list one after the other:
hnc_potentials.py 626-634 for sums, 729-736 for multiples, a plain attribute otherwise.  `n` bounds
the depth of the recursion; `none` is python's `RecursionError`. -/
def Heap.setMode : Nat → Heap A K → List Ref → Mode → Option (Heap A K)
  | 0, _, _, _ => none
  | _ + 1, h, [], _ => some h
  | n + 1, h, r :: rs, m =>
    match h.objs[r]? with
    | some (.plain _ _) => Heap.setMode n (h.store r m) rs m
    | some (.sum l _) =>
      (Heap.setMode n (h.store r m) (h.lists.getD l []) m).bind fun h1 => Heap.setMode n h1 rs m
    | some (.scaled p _ _) =>
      (Heap.setMode n (h.store r m) [p] m).bind fun h1 => Heap.setMode n h1 rs m
    | none => none

/-- `include_electrons` of an object. -/
def Heap.modeOf (h : Heap A K) (r : Ref) : Option Mode := (h.objs[r]?).map Obj.mode

/-- The setting of a new sum: hnc_potentials.py 604-619. -/
def Heap.jointMode (h : Heap A K) (rs : List Ref) : Mode :=
  if rs.any (fun r => h.modeOf r == some .separated) then .separated
  else if rs.any (fun r => h.modeOf r == some .averaged) then .averaged
  else .off

/-- `PotentialSum(list)`: hnc_potentials.py 602-620. -/
def Heap.newSum (n : Nat) (h : Heap A K) (l : ListRef) : Option (Heap A K × Ref) :=
  let m := h.jointMode (h.lists.getD l [])
  let (h1, r) := h.newObj (.sum l m)
  (h1.setMode n [r] m).map fun h2 => (h2, r)

/-- `a + b` for potentials: hnc_potentials.py 547-561. -/
def Heap.addPot (n : Nat) (h : Heap A K) (a b : Ref) : Option (Heap A K × Ref) :=
  (h.join a b).bind fun (h1, l) => h1.newSum n l

/-- `ScaledPotential(p, c)`: hnc_potentials.py 718-722. -/
def Heap.newScaled (n : Nat) (h : Heap A K) (p : Ref) (c : K) : Option (Heap A K × Ref) :=
  match h.modeOf p with
  | some m =>
    let (h1, r) := h.newObj (.scaled p c m)
    (h1.setMode n [r] m).map fun h2 => (h2, r)
  | none => none

/-- `a * c`: hnc_potentials.py 563-569, and 766-772 when `a` is itself a multiple. -/
def Heap.mulPot [Mul K] (n : Nat) (h : Heap A K) (a : Ref) (c : K) : Option (Heap A K × Ref) :=
  match h.objs[a]? with
  | some (.scaled p c0 _) => h.newScaled n p (c * c0)
  | some _ => h.newScaled n a c
  | none => none

/-- Evaluation of a list of objects, and the sum of the results: `Eval f h o n rs v` says that
evaluating the objects `rs` one after the other ends after `n` evaluations and that the results
add up to `v`.  Evaluation of a sum: `IPDSum.evaluate` models.py 4028-4034,
`PotentialSum.full_r` and the five other methods, hnc_potentials.py 640-692; of a multiple:
hnc_potentials.py 742-764.  `f a m` is what a plain model evaluates to, for one of those methods
and one plasma state.  If `o = some m`, every plain model is evaluated as if its
`include_electrons` were `m`; `o = none` is the evaluation by the code.
An evaluation that does not end has no `v`. -/
inductive Eval {V : Type} [AddCommMonoid V] [SMul K V] (f : A → Mode → V) (h : Heap A K)
    (o : Option Mode) : Nat → List Ref → V → Prop
  | nil : Eval f h o 0 [] 0
  | plain {r rs a m n v} : h.objs[r]? = some (.plain a m) → Eval f h o n rs v →
      Eval f h o (n + 1) (r :: rs) (f a (o.getD m) + v)
  | sum {r rs l m ms n u k v} : h.objs[r]? = some (.sum l m) → h.lists[l]? = some ms →
      Eval f h o k ms u → Eval f h o n rs v → Eval f h o (k + n + 1) (r :: rs) (u + v)
  | scaled {r rs p c m n u k v} : h.objs[r]? = some (.scaled p c m) →
      Eval f h o k [p] u → Eval f h o n rs v → Eval f h o (k + n + 1) (r :: rs) (c • u + v)

/-- The object `r` evaluates to `v`. -/
def Evals {V : Type} [AddCommMonoid V] [SMul K V] (f : A → Mode → V) (h : Heap A K) (r : Ref)
    (v : V) : Prop := ∃ n, Eval f h none n [r] v

/-- The object `r` evaluates to `v` when all plain models it consists of have the setting `m`. -/
def EvalsAt {V : Type} [AddCommMonoid V] [SMul K V] (f : A → Mode → V) (h : Heap A K) (m : Mode)
    (r : Ref) (v : V) : Prop := ∃ n, Eval f h (some m) n [r] v

/-- `y` is a direct part of `x`: a member of a sum, or what a multiple multiplies. -/
def Part (h : Heap A K) (x y : Ref) : Prop :=
  (∃ l m ms, h.objs[x]? = some (.sum l m) ∧ h.lists[l]? = some ms ∧ y ∈ ms) ∨
  (∃ c m, h.objs[x]? = some (.scaled y c m))

/-- `y` is `x` or a part of it at some depth. -/
def Within (h : Heap A K) : Ref → Ref → Prop := Relation.ReflTransGen (Part h)

/-- `x` is, or contains, a sum whose list is `l`. -/
def Uses (h : Heap A K) (x : Ref) (l : ListRef) : Prop :=
  ∃ y m, Within h x y ∧ h.objs[y]? = some (.sum l m)

end Verif.Composite
