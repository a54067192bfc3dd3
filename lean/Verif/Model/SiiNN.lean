/-
Model of `src/jaxrts/experimental/SiiNN.py`: the network for the static structure factors and the ion feature
model that evaluates it.  Numbers are exact and units are not modelled (temperatures are in eV, densities in
g/cc, wave numbers in inverse angstrom).  Reading the checkpoint (320-363), the random initial weights, the
devices (303-311) and the flattening (453-463) are not modelled: weights and norms are parameters.
Exceptions are `none`.
-/
import Mathlib.Analysis.SpecialFunctions.Exp
import Mathlib.Algebra.BigOperators.Group.List.Basic
import Mathlib.Algebra.BigOperators.Group.Finset.Basic
import Mathlib.Algebra.Order.Archimedean.Real.Basic

set_option autoImplicit false

namespace Verif.SiiNN

/-! ### The network -/

/-- A `flax.nnx.Linear` layer with its kernel and bias. -/
structure Layer where
  inF : ℕ
  outF : ℕ
  kernel : ℕ → ℕ → ℝ
  bias : ℕ → ℝ

/-- `flax.nnx.Linear.__call__`: the product fails if the sizes differ. -/
noncomputable def Layer.apply (L : Layer) (x : List ℝ) : Option (List ℝ) :=
  if x.length = L.inF then
    some ((List.range L.outF).map fun j => (∑ i ∈ Finset.range L.inF, x.getD i 0 * L.kernel i j) + L.bias j)
  else none

/-- `flax.nnx.silu`, used in SiiNN.py 91. -/
noncomputable def silu (x : ℝ) : ℝ := x / (1 + Real.exp (-x))

/-- SiiNN.py 26-93 `NNModel` and 145-300 `NNModelExpandedZ` (`expanded`): the attributes. -/
structure Net where
  expanded : Bool
  noOfAtoms : ℕ
  linears : List Layer
  normT : ℝ
  normRho : ℝ
  normZ : List ℝ
  normK : ℝ

/-- The sizes of the layers in SiiNN.py 63-67, from the hidden layers `dhid`. -/
def sizes (din : ℕ) (dhid : List ℕ) (dout : ℕ) : List (ℕ × ℕ) :=
  (din :: dhid).zip (dhid ++ [dout])

/-- SiiNN.py 31-85 `NNModel.__init__`, 188-216 `NNModelExpandedZ.__init__`.  `w` and `b` are kernel and bias
of each layer (random at first, replaced by training).  `dhid[0]` fails for an empty list.  A missing
`no_of_atoms` is `din - 3`; negative numbers of atoms (`din` below 3) are excluded by `none`. -/
def init (expanded : Bool) (din : ℕ) (dhid : List ℕ) (dout : ℕ) (noOfAtoms : Option ℕ)
    (w : ℕ → ℕ → ℕ → ℝ) (b : ℕ → ℕ → ℝ) : Option Net :=
  if dhid = [] ∨ (noOfAtoms = none ∧ din < 3) then none
  else
    let n := noOfAtoms.getD (din - 3)
    let first := if expanded then din + n else din
    some
      { expanded := expanded
        noOfAtoms := n
        linears := (sizes first dhid dout).mapIdx fun l s => ⟨s.1, s.2, w l, b l⟩
        normT := 1
        normRho := 1
        normZ := List.replicate n 1
        normK := 1 }

/-- SiiNN.py 95-102 `NNModel.set_norms`. -/
def Net.setNorms (N : Net) (T rho : ℝ) (Z : List ℝ) (k : ℝ) : Net :=
  { N with normT := T, normRho := rho, normZ := Z, normK := k }

/-- SiiNN.py 117-121 `NNModel.din` and 285-300 `NNModelExpandedZ.din`. -/
def Net.din (N : Net) : Option ℕ :=
  N.linears.head?.map fun L => if N.expanded then L.inF - N.noOfAtoms else L.inF

/-- SiiNN.py 124-128 `NNModel.dhid`. -/
def Net.dhid (N : Net) : List ℕ := N.linears.tail.map fun L => L.inF

/-- SiiNN.py 131-135 `NNModel.dout`. -/
def Net.dout (N : Net) : Option ℕ := N.linears.getLast?.map fun L => L.outF

/-- SiiNN.py 88-93 `NNModel.__call__`. -/
noncomputable def callLayers : List Layer → List ℝ → Option (List ℝ)
  | [], _ => none
  | [L], x => L.apply x
  | L :: Ls, x => (L.apply x).bind fun y => callLayers Ls (y.map silu)

/-- Product of two arrays with one axis, as `numpy` broadcasts them: equal lengths, or one of length one. -/
def broadcast (f : ℝ → ℝ → ℝ) (x y : List ℝ) : Option (List ℝ) :=
  if x.length = y.length then some (List.zipWith f x y)
  else if y.length = 1 then some (x.map fun a => f a (y.getD 0 0))
  else if x.length = 1 then some (y.map fun a => f (x.getD 0 0) a)
  else none

/-- SiiNN.py 218-277 `NNModelExpandedZ.expand_Z_features`, for one input vector. -/
noncomputable def Net.expandZ (N : Net) (x : List ℝ) : Option (List ℝ) :=
  let left := x.take 2
  let Z := (x.drop 2).take N.noOfAtoms
  let right := x.drop (2 + N.noOfAtoms)
  (broadcast (· * ·) Z N.normZ).map fun Zphys =>
    let n := Zphys.map fun z => ((⌊z⌋ : ℤ) : ℝ)
    let phi := Zphys.map fun z => z - ((⌊z⌋ : ℤ) : ℝ)
    left ++ phi ++ n ++ right

/-- SiiNN.py 88-93 and 280-282 `__call__`. -/
noncomputable def Net.call (N : Net) (x : List ℝ) : Option (List ℝ) :=
  if N.expanded then (N.expandZ x).bind (callLayers N.linears) else callLayers N.linears x

/-! ### The ion feature -/

variable {α : Type} [DecidableEq α]

/-- An ion species of the plasma state: its element, number fraction, charge and mass density. -/
structure Ion (α : Type) where
  elem : α
  fraction : ℝ
  charge : ℝ
  rho : ℝ

/-- SiiNN.py 380-381: `list(dict.fromkeys(elements))`, the elements without repetitions. -/
def unique (names : List α) : List α :=
  names.foldl (fun acc e => if e ∈ acc then acc else acc ++ [e]) []

/-- SiiNN.py 386: the positions of one element in the plasma state. -/
def indices (ions : List α) (e : α) : List ℕ :=
  (List.range ions.length).filter fun i => decide (ions[i]? = some e)

/-- SiiNN.py 384-389: an array needs rows of equal length. -/
def idxArr (names ions : List α) : Option (List (List ℕ)) :=
  let rows := (unique names).map (indices ions)
  if ∀ r ∈ rows, ∀ s ∈ rows, r.length = s.length then some rows else none

/-- SiiNN.py 395-404: the mean charge of the species with the given positions. -/
noncomputable def meanCharge (ions : List (Ion α)) (row : List ℕ) : ℝ :=
  let get := fun i => (ions[i]?.map fun s => (s.fraction, s.charge)).getD (0, 0)
  (row.map fun i => (get i).1 * (get i).2).sum / (row.map fun i => (get i).1).sum

/-- SiiNN.py 407-420: the input of the network.  `T` is the temperature, `k` the wave number. -/
noncomputable def input (N : Net) (names : List α) (ions : List (Ion α)) (T k : ℝ) : Option (List ℝ) :=
  (idxArr names (ions.map fun s => s.elem)).bind fun rows =>
    (broadcast (· / ·) (rows.map (meanCharge ions)) N.normZ).map fun Z =>
      [T / N.normT, (ions.map fun s => s.rho).sum / N.normRho] ++ Z ++ [k / N.normK]

/-- `jnp.triu_indices(m)`, SiiNN.py 434. -/
def triu (m : ℕ) : List (ℕ × ℕ) :=
  (List.range m).flatMap fun i => (List.range' i (m - i)).map fun j => (i, j)

/-- SiiNN.py 435-436: the upper triangle. -/
noncomputable def upper (m : ℕ) (v : List ℝ) (i j : ℕ) : ℝ :=
  if (i, j) ∈ triu m then v.getD ((triu m).idxOf (i, j)) 0 else 0

/-- SiiNN.py 437: the symmetric matrix. -/
noncomputable def sBase (m : ℕ) (v : List ℝ) (i j : ℕ) : ℝ :=
  upper m v i j + if j < i then upper m v j i else 0

/-- SiiNN.py 440-443: the permutation. -/
def perm (names ions : List α) : Option (List ℕ) :=
  (idxArr names ions).map fun rows => rows.foldl (fun p row => p ++ row) []

/-- SiiNN.py 366-450 `NNSiiModel.S_ii`: the number of rows and columns and the entries.  `names` are the
elements of the network in the order of the checkpoint, without the plus signs (line 379).  Assigning an
array of another length than the triangle fails (lengths of one, which would be broadcast, are excluded).
Positions beyond the size of the matrix are clamped by `jax`. -/
noncomputable def sII (N : Net) (names : List α) (ions : List (Ion α)) (T k : ℝ) : Option (ℕ × (ℕ → ℕ → ℝ)) :=
  (input N names ions T k).bind fun x =>
    (N.call x).bind fun v =>
      if v.length = (triu names.length).length then
        (perm names (ions.map fun s => s.elem)).map fun p =>
          (p.length, fun a b =>
            sBase names.length v (min (p.getD a 0) (names.length - 1)) (min (p.getD b 0) (names.length - 1)))
      else none

end Verif.SiiNN
