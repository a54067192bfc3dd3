/-
Model of the two ways in which jaxrts takes objects apart and rebuilds them:

* the pytree protocol (`_tree_flatten` / `_tree_unflatten`) that `jax.jit`, `jax.grad` and
  `jax.tree_util` use, registered for every class in `/repo/src/jaxrts/__init__.py` 74-84,
  `setup.py` 296-300, `plasmastate.py` 578-582, `free_bound.py` 119-123, `helpers.py` 753-757;
* saving and loading as JSON (`/repo/src/jaxrts/saving.py`).

Objects are trees of named attributes of any size and depth.
-/
import Verif.Model.Registry

set_option autoImplicit false

namespace Verif.Tree

open Verif.Registry (Cls)

/-- The classes whose objects are taken apart: every concrete model and potential class, the
instrument functions (instrument_function.py), the two set-ups (setup.py, free_bound.py) and
`PlasmaState`.  Simplification: the instrument function `FromCallable`, whose children are the
leaves of arbitrary bound arguments, is left out. -/
inductive TCls where
  | model (c : Cls)
  | Gaussian | TwinGaussian | SuperGaussian | Lorentzian | FromArray
  | Setup | FreeBoundFlippedSetup | PlasmaState
deriving DecidableEq

/-- How `_tree_flatten` packs the static attributes: `(self.a, self.b)`, `{"k": self.a, ...}`, or
just `self.a`; `ignored` means that `_tree_unflatten` does not look at them. -/
inductive AuxShape where
  | tuple (attrs : List String)
  | dict (entries : List (String × String))
  | bare (attr : String)
  | ignored
deriving DecidableEq

/-- Attributes that exist on an object once `__init__` (including the inherited ones that it
calls) has returned: the `self.x = ...` statements of the `__init__` methods of models.py (from
line 67), hnc_potentials.py (from line 296), instrument_function.py (50, 105, 182, 245, 345),
setup.py (24), free_bound.py (35), plasmastate.py (60-117).  `PotentialSum` and
`ScaledPotential` keep `include_electrons` in `_include_electrons` (hnc_potentials.py 623-634,
725-736), `PlasmaState` keeps the overwritten radius in `_overwritten["ion_core_radius"]`. -/
def ctorAttrs : TCls → List String
  | .model .FixedSii =>
      ["_S_ii", "model_key"]
  | .model .OnePotentialHNCIonFeat =>
      ["r_min", "r_max", "SVT", "pot", "mix", "tmult", "cramer_solve_max_size", "model_key"]
  | .model .ThreePotentialHNCIonFeat =>
      ["r_min", "r_max", "pot", "mix", "SVT", "tmult", "model_key"]
  | .model .PeakCollection =>
      ["k_pos", "intensity", "peak_function", "model_key"]
  | .model .DebyeWallerSolid =>
      ["S_plasma", "b", "model_key"]
  | .model .QCSalpeterApproximation | .model .RPA | .model .RPA_DandreaFit
  | .model .SchumacherImpulseFitRk | .model .DetailedBalance =>
      ["sample_points", "model_key"]
  | .model .BornMermin_Full =>
      ["RPA_rewrite", "KKT", "sample_points", "model_key"]
  | .model .BornMermin | .model .BornMermin_Fit | .model .BornMermin_Fortmann =>
      ["RPA_rewrite", "KKT", "E_cutoff_min", "E_cutoff_max", "sample_points", "model_key",
       "no_of_freq"]
  | .model .SchumacherImpulse | .model .SchumacherImpulseColdEdges =>
      ["r_k", "sample_points", "model_key"]
  | .model .FormFactorLowering =>
      ["Z_squared_correction", "model_key"]
  | .model .ConstantChemPotential | .model .ConstantDebyeTemp | .model .ConstantIPD
  | .model .ConstantScreeningLength | .model .LFCConstant =>
      ["value", "model_key"]
  | .model .DebyeHueckelIPD | .model .StewartPyattIPD =>
      ["arb_deg", "model_key"]
  | .model .StewartPyattPrestonIPD =>
      ["crowley_correction", "arb_deg", "model_key"]
  | .model .IonSphereIPD | .model .EckerKroellIPD =>
      ["arb_deg", "C", "model_key"]
  | .model .IPDSum =>
      ["list_of_ipds", "model_key"]
  | .model .AverageAtom_Sii =>
      ["r_min", "r_max", "pot", "mix", "tmult", "model_key"]
  | .model .PotentialSum =>
      ["potentials", "model_key", "_include_electrons"]
  | .model .ScaledPotential =>
      ["potential", "factor", "_include_electrons", "model_key"]
  | .model .CoulombPotential | .model .DebyeHueckelPotential | .model .KelbgPotential
  | .model .KlimontovichKraeftPotential | .model .DeutschPotential
  | .model .SpinAveragedEEExchange =>
      ["_transform_r", "model_key", "include_electrons"]
  | .model .EmptyCorePotential | .model .PauliClassicalMap
  | .model .SpinSeparatedEEExchange =>
      ["include_electrons", "_transform_r", "model_key"]
  | .model .YukawaShortRangeRepulsion =>
      ["sigma", "_transform_r", "model_key", "include_electrons"]
  | .model .SoftCorePotential =>
      ["beta", "include_electrons", "_transform_r", "model_key"]
  | .Gaussian =>
      ["sigma"]
  | .TwinGaussian =>
      ["sigma1", "sigma2"]
  | .SuperGaussian =>
      ["sigma", "power"]
  | .Lorentzian =>
      ["gamma"]
  | .FromArray =>
      ["omega", "ints"]
  | .Setup =>
      ["scattering_angle", "energy", "measured_energy", "instrument",
       "correct_k_dispersion", "frc_exponent"]
  | .FreeBoundFlippedSetup =>
      ["scattering_angle", "energy", "measured_energy", "instrument", "correct_k_dispersion"]
  | .PlasmaState =>
      ["ions", "Z_free", "mass_density", "T_i", "models", "_overwritten.ion_core_radius", "T_e"]
  | _ => ["model_key"]

/-- The attributes that `_tree_flatten` returns as children, in order.  Methods starting at
models.py 144, 749, 902, 1191, 1254, 1348, 273, 1766, 2057, 2318, 2565, 2778, 2913, 3037,
3230, 3358, 3395, 3512, 3603, 3664, 3764, 3843, 3942, 4053, 4165, 4885, 5099;
hnc_potentials.py 695, 775, 572, 1387, 1515, 1624; instrument_function.py 91, 165, 232, 268,
380; setup.py 184; free_bound.py 96; plasmastate.py 518. -/
def flatChildren : TCls → List String
  | .model .FixedSii =>
      ["_S_ii"]
  | .model .OnePotentialHNCIonFeat | .model .ThreePotentialHNCIonFeat
  | .model .AverageAtom_Sii =>
      ["r_min", "r_max", "mix", "tmult"]
  | .model .PeakCollection =>
      ["k_pos", "intensity", "peak_function"]
  | .model .DebyeWallerSolid =>
      ["S_plasma", "b"]
  | .model .BornMermin | .model .BornMermin_Fit | .model .BornMermin_Fortmann =>
      ["E_cutoff_min", "E_cutoff_max"]
  | .model .ConstantChemPotential | .model .ConstantDebyeTemp | .model .ConstantIPD
  | .model .ConstantScreeningLength | .model .LFCConstant =>
      ["value"]
  | .model .IonSphereIPD | .model .EckerKroellIPD =>
      ["C"]
  | .model .IPDSum =>
      ["list_of_ipds"]
  | .model .PotentialSum =>
      ["potentials"]
  | .model .ScaledPotential =>
      ["potential", "factor"]
  | .model .CoulombPotential | .model .DebyeHueckelPotential | .model .KelbgPotential
  | .model .KlimontovichKraeftPotential | .model .DeutschPotential
  | .model .EmptyCorePotential | .model .PauliClassicalMap
  | .model .SpinSeparatedEEExchange | .model .SpinAveragedEEExchange =>
      ["_transform_r"]
  | .model .YukawaShortRangeRepulsion =>
      ["_transform_r", "sigma"]
  | .model .SoftCorePotential =>
      ["_transform_r", "beta"]
  | .Gaussian =>
      ["sigma"]
  | .TwinGaussian =>
      ["sigma1", "sigma2"]
  | .SuperGaussian =>
      ["sigma", "power"]
  | .Lorentzian =>
      ["gamma"]
  | .FromArray =>
      ["omega", "ints"]
  | .Setup =>
      ["scattering_angle", "energy", "measured_energy", "instrument", "frc_exponent"]
  | .FreeBoundFlippedSetup =>
      ["scattering_angle", "energy", "measured_energy", "instrument"]
  | .PlasmaState =>
      ["Z_free", "mass_density", "T_e", "T_i", "_overwritten.ion_core_radius", "models"]
  | _ => []

/-- The attributes that `_tree_flatten` returns as auxiliary data (same methods). -/
def flatAux : TCls → AuxShape
  | .model .OnePotentialHNCIonFeat =>
      .tuple ["model_key", "pot", "SVT", "cramer_solve_max_size"]
  | .model .ThreePotentialHNCIonFeat =>
      .tuple ["model_key", "pot", "SVT"]
  | .model .QCSalpeterApproximation | .model .RPA | .model .RPA_DandreaFit
  | .model .SchumacherImpulseFitRk | .model .DetailedBalance =>
      .tuple ["model_key", "sample_points"]
  | .model .BornMermin_Full =>
      .tuple ["model_key", "sample_points", "RPA_rewrite", "KKT"]
  | .model .BornMermin | .model .BornMermin_Fit | .model .BornMermin_Fortmann =>
      .tuple ["model_key", "sample_points", "no_of_freq", "RPA_rewrite", "KKT"]
  | .model .SchumacherImpulse | .model .SchumacherImpulseColdEdges =>
      .tuple ["model_key", "sample_points", "r_k"]
  | .model .FormFactorLowering =>
      .tuple ["model_key", "Z_squared_correction"]
  | .model .DebyeHueckelIPD | .model .StewartPyattIPD | .model .EckerKroellIPD =>
      .tuple ["model_key", "arb_deg"]
  | .model .StewartPyattPrestonIPD =>
      .tuple ["model_key", "arb_deg", "crowley_correction"]
  | .model .IonSphereIPD =>
      .bare "model_key"
  | .model .AverageAtom_Sii =>
      .tuple ["model_key", "pot"]
  | .model .PotentialSum | .model .ScaledPotential =>
      .dict [("include_electrons", "_include_electrons"), ("model_key", "model_key")]
  | .model .CoulombPotential | .model .DebyeHueckelPotential | .model .KelbgPotential
  | .model .KlimontovichKraeftPotential | .model .DeutschPotential
  | .model .EmptyCorePotential | .model .YukawaShortRangeRepulsion
  | .model .SoftCorePotential | .model .PauliClassicalMap | .model .SpinSeparatedEEExchange
  | .model .SpinAveragedEEExchange =>
      .dict [("include_electrons", "include_electrons"), ("model_key", "model_key")]
  | .Gaussian | .TwinGaussian | .SuperGaussian | .Lorentzian | .FromArray =>
      .tuple []
  | .Setup | .FreeBoundFlippedSetup =>
      .tuple ["correct_k_dispersion"]
  | .PlasmaState =>
      .tuple ["ions"]
  | _ => .tuple ["model_key"]

/-- The attributes that `_tree_unflatten` assigns from its children, by tuple unpacking; `none`
if it does not look at them.  Methods starting at models.py 150, 755, 913, 1201, 1260, 1354,
279, 1777, 2072, 2333, 2580, 2788, 2923, 3046, 3236, 3364, 3401, 3518, 3609, 3670, 3770,
3849, 3948, 4059, 4171, 4891, 5108; hnc_potentials.py 704, 784, 581, 1396, 1524, 1633;
instrument_function.py 97, 171, 238, 276, 386; setup.py 196; free_bound.py 107;
plasmastate.py 531. -/
def unflatChildren : TCls → Option (List String)
  | .model .FixedSii =>
      some ["_S_ii"]
  | .model .OnePotentialHNCIonFeat | .model .ThreePotentialHNCIonFeat
  | .model .AverageAtom_Sii =>
      some ["r_min", "r_max", "mix", "tmult"]
  | .model .PeakCollection =>
      some ["k_pos", "intensity", "peak_function"]
  | .model .DebyeWallerSolid =>
      some ["S_plasma", "b"]
  | .model .BornMermin | .model .BornMermin_Fit | .model .BornMermin_Fortmann =>
      some ["E_cutoff_min", "E_cutoff_max"]
  | .model .ConstantChemPotential | .model .ConstantDebyeTemp | .model .ConstantIPD
  | .model .ConstantScreeningLength | .model .LFCConstant =>
      some ["value"]
  | .model .IonSphereIPD | .model .EckerKroellIPD =>
      some ["C"]
  | .model .IPDSum =>
      some ["list_of_ipds"]
  | .model .PotentialSum =>
      some ["potentials"]
  | .model .ScaledPotential =>
      some ["potential", "factor"]
  | .model .CoulombPotential | .model .DebyeHueckelPotential | .model .KelbgPotential
  | .model .KlimontovichKraeftPotential | .model .DeutschPotential
  | .model .EmptyCorePotential | .model .PauliClassicalMap
  | .model .SpinSeparatedEEExchange | .model .SpinAveragedEEExchange =>
      some ["_transform_r"]
  | .model .YukawaShortRangeRepulsion =>
      some ["_transform_r", "sigma"]
  | .model .SoftCorePotential =>
      some ["_transform_r", "beta"]
  | .Gaussian =>
      some ["sigma"]
  | .TwinGaussian =>
      some ["sigma1", "sigma2"]
  | .SuperGaussian =>
      some ["sigma", "power"]
  | .Lorentzian =>
      some ["gamma"]
  | .FromArray =>
      some ["omega", "ints"]
  | .Setup =>
      some ["scattering_angle", "energy", "measured_energy", "instrument", "frc_exponent"]
  | .FreeBoundFlippedSetup =>
      some ["scattering_angle", "energy", "measured_energy", "instrument"]
  | .PlasmaState =>
      some ["Z_free", "mass_density", "T_e", "T_i", "_overwritten.ion_core_radius", "models"]
  | _ => none

/-- The attributes that `_tree_unflatten` assigns from the auxiliary data (same methods). -/
def unflatAux : TCls → AuxShape
  | .model .OnePotentialHNCIonFeat =>
      .tuple ["model_key", "pot", "SVT", "cramer_solve_max_size"]
  | .model .ThreePotentialHNCIonFeat =>
      .tuple ["model_key", "pot", "SVT"]
  | .model .QCSalpeterApproximation | .model .RPA | .model .RPA_DandreaFit
  | .model .SchumacherImpulseFitRk | .model .DetailedBalance =>
      .tuple ["model_key", "sample_points"]
  | .model .BornMermin_Full =>
      .tuple ["model_key", "sample_points", "RPA_rewrite", "KKT"]
  | .model .BornMermin | .model .BornMermin_Fit | .model .BornMermin_Fortmann =>
      .tuple ["model_key", "sample_points", "no_of_freq", "RPA_rewrite", "KKT"]
  | .model .SchumacherImpulse | .model .SchumacherImpulseColdEdges =>
      .tuple ["model_key", "sample_points", "r_k"]
  | .model .FormFactorLowering =>
      .tuple ["model_key", "Z_squared_correction"]
  | .model .DebyeHueckelIPD | .model .StewartPyattIPD | .model .EckerKroellIPD =>
      .tuple ["model_key", "arb_deg"]
  | .model .StewartPyattPrestonIPD =>
      .tuple ["model_key", "arb_deg", "crowley_correction"]
  | .model .IonSphereIPD =>
      .bare "model_key"
  | .model .AverageAtom_Sii =>
      .tuple ["model_key", "pot"]
  | .model .PotentialSum | .model .ScaledPotential =>
      .dict [("model_key", "model_key"), ("include_electrons", "_include_electrons")]
  | .model .CoulombPotential | .model .DebyeHueckelPotential | .model .KelbgPotential
  | .model .KlimontovichKraeftPotential | .model .DeutschPotential
  | .model .EmptyCorePotential | .model .YukawaShortRangeRepulsion
  | .model .SoftCorePotential | .model .PauliClassicalMap | .model .SpinSeparatedEEExchange
  | .model .SpinAveragedEEExchange =>
      .dict [("model_key", "model_key"), ("include_electrons", "include_electrons")]
  | .Gaussian | .TwinGaussian | .SuperGaussian | .Lorentzian | .FromArray =>
      .ignored
  | .Setup | .FreeBoundFlippedSetup =>
      .tuple ["correct_k_dispersion"]
  | .PlasmaState =>
      .tuple ["ions"]
  | _ => .tuple ["model_key"]


/-! ### Values and one level of the two protocols -/

/-- A string, or any other value that is not taken apart: a number, a `Quantity`, an array, an
`Element`, a function.  `α` is arbitrary. -/
inductive Atom (α : Type) where
  | str (s : String)
  | val (x : α)
deriving DecidableEq

/-- Python values.  An object carries the names and values of its attributes (`__dict__`). -/
inductive Val (α : Type) where
  | none
  | atom (a : Atom α)
  | tuple (vs : List (Val α))
  | list (vs : List (Val α))
  /-- `jit` tells `JittableDict` (helpers.py 234-246) from a plain `dict` -/
  | dict (jit : Bool) (keys : List String) (vs : List (Val α))
  | obj (c : TCls) (names : List String) (vs : List (Val α))

/-- Auxiliary data as a value. -/
inductive Aux (β : Type) where
  | tuple (vs : List β)
  | dict (keys : List String) (vs : List β)
  | bare (v : β)

/-- `getattr(obj, n)` / `d[n]`. -/
def look {β : Type} (names : List String) (vs : List β) (n : String) : Option β :=
  (names.zip vs).lookup n

/-- `obj._tree_flatten()`; `none` is `AttributeError`. -/
def flattenAttrs {β : Type} (c : TCls) (names : List String) (vs : List β) :
    Option (List β × Aux β) := do
  let children ← (flatChildren c).mapM (look names vs)
  let aux ← match flatAux c with
    | .tuple as => (as.mapM (look names vs)).map .tuple
    | .dict es => ((es.map Prod.snd).mapM (look names vs)).map (.dict (es.map Prod.fst))
    | .bare a => (look names vs a).map .bare
    | .ignored => Option.none
  return (children, aux)

/-- `(obj.a, obj.b) = vs`; `none` is `ValueError`. -/
def unpack {β : Type} (as : List String) (vs : List β) : Option (List (String × β)) :=
  if as.length = vs.length then some (as.zip vs) else Option.none

/-- The assignments made by `cls._tree_unflatten(aux, children)`. -/
def unflattenAttrs {β : Type} (c : TCls) (children : List β) (aux : Aux β) :
    Option (List (String × β)) := do
  let cs ← match unflatChildren c with
    | Option.none => some []
    | some as => unpack as children
  let xs ← match unflatAux c, aux with
    | .tuple as, .tuple vs => unpack as vs
    | .dict es, .dict ks vs => es.mapM fun e => (look ks vs e.1).map fun v => (e.2, v)
    | .bare a, .bare v => some [(a, v)]
    | .ignored, _ => some []
    | _, _ => Option.none
  return cs ++ xs

/-- Names of the attributes of an object after the given assignments.  Two attribute
dictionaries are the same if they agree by name, so the names are put into the order of
`ctorAttrs`; attributes that no constructor sets come last. -/
def builtNames {β : Type} (c : TCls) (kvs : List (String × β)) : List String :=
  (ctorAttrs c).filter (fun n => (kvs.lookup n).isSome) ++
    (kvs.map Prod.fst).filter (fun n => n ∉ ctorAttrs c)

/-- The values that belong to `builtNames`. -/
def builtVals {β : Type} (c : TCls) (kvs : List (String × β)) : List β :=
  (builtNames c kvs).filterMap fun n => kvs.lookup n

/-- The attributes that methods other than the constructor, `_tree_flatten` and `_tree_unflatten`
may read.  The only attribute that is set and never read is `arb_deg` of `IonSphereIPD`
(models.py 3804; `evaluate` and `all_element_states`, 3808-3841, read only `self.C`). -/
def readAttrs : TCls → List String
  | .model .IonSphereIPD => ["C", "model_key"]
  | c => ctorAttrs c

/-! ### The pytree protocol on whole trees -/

/-- `PyTreeDef`: everything but the leaves. -/
inductive Def (α : Type) where
  | none
  | leaf
  | tuple (ds : List (Def α))
  | list (ds : List (Def α))
  | dict (jit : Bool) (keys : List String) (ds : List (Def α))
  | obj (c : TCls) (aux : Aux (Val α)) (ds : List (Def α))

mutual

/-- `jax.tree_util.tree_flatten`.  `None` has no leaves.  Simplification: the entries of a plain
`dict` are taken in the order of insertion (jax sorts them by key). -/
def flat {α : Type} : Val α → Option (List (Atom α) × Def α)
  | .none => some ([], .none)
  | .atom a => some ([a], .leaf)
  | .tuple vs => (gather (flatEach vs)).map fun p => (p.1, .tuple p.2)
  | .list vs => (gather (flatEach vs)).map fun p => (p.1, .list p.2)
  | .dict jit keys vs => (gather (flatEach vs)).map fun p => (p.1, .dict jit keys p.2)
  | .obj c names vs => do
      let (children, _) ← flattenAttrs c names (flatEach vs)
      let (_, aux) ← flattenAttrs c names vs
      let p ← gather children
      return (p.1, .obj c aux p.2)

/-- Each value of a list. -/
def flatEach {α : Type} : List (Val α) → List (Option (List (Atom α) × Def α))
  | [] => []
  | v :: vs => flat v :: flatEach vs

/-- Concatenate the leaves of neighbours. -/
def gather {α : Type} : List (Option (List (Atom α) × Def α)) →
    Option (List (Atom α) × List (Def α))
  | [] => some ([], [])
  | Option.none :: _ => Option.none
  | some (ls, d) :: rest =>
      match gather rest with
      | Option.none => Option.none
      | some (ls', ds) => some (ls ++ ls', d :: ds)

end

mutual

/-- `jax.tree_util.tree_unflatten`: consumes its leaves from the front of the list and returns
the remaining ones. -/
def unflat {α : Type} : Def α → List (Atom α) → Option (Val α × List (Atom α))
  | .none, ls => some (.none, ls)
  | .leaf, [] => Option.none
  | .leaf, a :: ls => some (.atom a, ls)
  | .tuple ds, ls => (unflatAll ds ls).map fun p => (.tuple p.1, p.2)
  | .list ds, ls => (unflatAll ds ls).map fun p => (.list p.1, p.2)
  | .dict jit keys ds, ls => (unflatAll ds ls).map fun p => (.dict jit keys p.1, p.2)
  | .obj c aux ds, ls => do
      let (vs, rest) ← unflatAll ds ls
      let kvs ← unflattenAttrs c vs aux
      return (.obj c (builtNames c kvs) (builtVals c kvs), rest)

/-- Neighbouring subtrees. -/
def unflatAll {α : Type} : List (Def α) → List (Atom α) → Option (List (Val α) × List (Atom α))
  | [], ls => some ([], ls)
  | d :: ds, ls =>
      match unflat d ls with
      | Option.none => Option.none
      | some (v, ls') =>
        match unflatAll ds ls' with
        | Option.none => Option.none
        | some (vs, ls'') => some (v :: vs, ls'')

end

/-! ### Saving as JSON -/

/-- `cls.__name__`, the name of the class statement. -/
def className : Cls → String
  | .Neglect => "Neglect"
  | .ArkhipovIonFeat => "ArkhipovIonFeat"
  | .Gregori2003IonFeat => "Gregori2003IonFeat"
  | .Gregori2006IonFeat => "Gregori2006IonFeat"
  | .CHSIonFeat => "CHSIonFeat"
  | .FixedSii => "FixedSii"
  | .OnePotentialHNCIonFeat => "OnePotentialHNCIonFeat"
  | .ThreePotentialHNCIonFeat => "ThreePotentialHNCIonFeat"
  | .PeakCollection => "PeakCollection"
  | .DebyeWallerSolid => "DebyeWallerSolid"
  | .QCSalpeterApproximation => "QCSalpeterApproximation"
  | .RPA => "RPA"
  | .RPA_DandreaFit => "RPA_DandreaFit"
  | .BornMermin_Full => "BornMermin_Full"
  | .BornMermin => "BornMermin"
  | .BornMermin_Fit => "BornMermin_Fit"
  | .BornMermin_Fortmann => "BornMermin_Fortmann"
  | .SchumacherImpulse => "SchumacherImpulse"
  | .SchumacherImpulseColdEdges => "SchumacherImpulseColdEdges"
  | .SchumacherImpulseFitRk => "SchumacherImpulseFitRk"
  | .DetailedBalance => "DetailedBalance"
  | .PaulingFormFactors => "PaulingFormFactors"
  | .FormFactorLowering => "FormFactorLowering"
  | .IchimaruChemPotential => "IchimaruChemPotential"
  | .SommerfeldChemPotential => "SommerfeldChemPotential"
  | .NonDegenerateElectronChemPotential => "NonDegenerateElectronChemPotential"
  | .DegenerateElectronChemPotential => "DegenerateElectronChemPotential"
  | .ConstantChemPotential => "ConstantChemPotential"
  | .ConstantDebyeTemp => "ConstantDebyeTemp"
  | .BohmStaver => "BohmStaver"
  | .ConstantIPD => "ConstantIPD"
  | .DebyeHueckelIPD => "DebyeHueckelIPD"
  | .StewartPyattPrestonIPD => "StewartPyattPrestonIPD"
  | .StewartPyattIPD => "StewartPyattIPD"
  | .IonSphereIPD => "IonSphereIPD"
  | .EckerKroellIPD => "EckerKroellIPD"
  | .PauliBlockingIPD => "PauliBlockingIPD"
  | .IPDSum => "IPDSum"
  | .DebyeHueckelScreeningLength => "DebyeHueckelScreeningLength"
  | .Gericke2010ScreeningLength => "Gericke2010ScreeningLength"
  | .ArbitraryDegeneracyScreeningLength => "ArbitraryDegeneracyScreeningLength"
  | .ConstantScreeningLength => "ConstantScreeningLength"
  | .LinearResponseScreeningGericke2010 => "LinearResponseScreeningGericke2010"
  | .GregoriCHSScreening => "GregoriCHSScreening"
  | .FiniteWavelengthScreening => "FiniteWavelengthScreening"
  | .DebyeHueckelScreening => "DebyeHueckelScreening"
  | .LinearResponseScreening => "LinearResponseScreening"
  | .Gregori2004Screening => "Gregori2004Screening"
  | .SLFCGeldart1966 => "SLFCGeldart1966"
  | .SLFCUtsumi1982 => "SLFCUtsumi1982"
  | .SLFCFarid1993 => "SLFCFarid1993"
  | .ESLFCDornheim2021 => "ESLFCDornheim2021"
  | .SLFCInterpFortmann2010 => "SLFCInterpFortmann2010"
  | .SLFCInterpGregori2007 => "SLFCInterpGregori2007"
  | .LFCConstant => "LFCConstant"
  | .Sum_Sii => "Sum_Sii"
  | .AverageAtom_Sii => "AverageAtom_Sii"
  | .DebyeHueckel_BM_V => "DebyeHueckel_BM_V"
  | .FiniteWavelength_BM_V => "FiniteWavelength_BM_V"
  | .NoEdge => "NoEdge"
  | .NonNegative => "NonNegative"
  | .Heaviside => "Heaviside"
  | .Fermi => "Fermi"
  | .PotentialSum => "PotentialSum"
  | .ScaledPotential => "ScaledPotential"
  | .CoulombPotential => "CoulombPotential"
  | .DebyeHueckelPotential => "DebyeHueckelPotential"
  | .KelbgPotential => "KelbgPotential"
  | .KlimontovichKraeftPotential => "KlimontovichKraeftPotential"
  | .DeutschPotential => "DeutschPotential"
  | .EmptyCorePotential => "EmptyCorePotential"
  | .YukawaShortRangeRepulsion => "YukawaShortRangeRepulsion"
  | .SoftCorePotential => "SoftCorePotential"
  | .PauliClassicalMap => "PauliClassicalMap"
  | .SpinSeparatedEEExchange => "SpinSeparatedEEExchange"
  | .SpinAveragedEEExchange => "SpinAveragedEEExchange"

/-- `obj.__name__`, the class attribute of that name that most classes define. models.py 959
(`ThreePotentialHNCIonFeat`), 3559, 3641, 3720, 3800, 3884, 3971; for the others it repeats the
name of the class. -/
def instName : Cls → String
  | .ThreePotentialHNCIonFeat => "ThreePotentialHNC"
  | .DebyeHueckelIPD => "DebyeHueckel"
  | .StewartPyattPrestonIPD => "StewartPyatt"
  | .StewartPyattIPD => "StewartPyatt"
  | .IonSphereIPD => "IonSphere"
  | .EckerKroellIPD => "EckerKroell"
  | .PauliBlockingIPD => "PauliBlocking"
  | c => className c

/-- All classes returned by `get_all_models_list` (collections.py 150-162; both arguments are
ignored there). -/
def allCls : List Cls :=
  [.Neglect, .ArkhipovIonFeat, .Gregori2003IonFeat, .Gregori2006IonFeat, .CHSIonFeat,
  .FixedSii, .OnePotentialHNCIonFeat, .ThreePotentialHNCIonFeat, .PeakCollection,
  .DebyeWallerSolid, .QCSalpeterApproximation, .RPA, .RPA_DandreaFit, .BornMermin_Full,
  .BornMermin, .BornMermin_Fit, .BornMermin_Fortmann, .SchumacherImpulse,
  .SchumacherImpulseColdEdges, .SchumacherImpulseFitRk, .DetailedBalance, .PaulingFormFactors,
  .FormFactorLowering, .IchimaruChemPotential, .SommerfeldChemPotential,
  .NonDegenerateElectronChemPotential, .DegenerateElectronChemPotential,
  .ConstantChemPotential, .ConstantDebyeTemp, .BohmStaver, .ConstantIPD, .DebyeHueckelIPD,
  .StewartPyattPrestonIPD, .StewartPyattIPD, .IonSphereIPD, .EckerKroellIPD,
  .PauliBlockingIPD, .IPDSum, .DebyeHueckelScreeningLength, .Gericke2010ScreeningLength,
  .ArbitraryDegeneracyScreeningLength, .ConstantScreeningLength,
  .LinearResponseScreeningGericke2010, .GregoriCHSScreening, .FiniteWavelengthScreening,
  .DebyeHueckelScreening, .LinearResponseScreening, .Gregori2004Screening, .SLFCGeldart1966,
  .SLFCUtsumi1982, .SLFCFarid1993, .ESLFCDornheim2021, .SLFCInterpFortmann2010,
  .SLFCInterpGregori2007, .LFCConstant, .Sum_Sii, .AverageAtom_Sii, .DebyeHueckel_BM_V,
  .FiniteWavelength_BM_V, .NoEdge, .NonNegative, .Heaviside, .Fermi, .PotentialSum,
  .ScaledPotential, .CoulombPotential, .DebyeHueckelPotential, .KelbgPotential,
  .KlimontovichKraeftPotential, .DeutschPotential, .EmptyCorePotential,
  .YukawaShortRangeRepulsion, .SoftCorePotential, .PauliClassicalMap,
  .SpinSeparatedEEExchange, .SpinAveragedEEExchange]

/-- JSON documents.  Simplification: the encodings of quantities, arrays, elements and functions
(saving.py 120-153, 219-232) are taken to be lossless and are one opaque `atom`. -/
inductive J (α : Type) where
  | null
  | atom (a : Atom α)
  | arr (js : List (J α))
  | obj (keys : List String) (js : List (J α))

/-- What saving.py does with the grid `_transform_r` of a potential: `jnpu.min`, `jnpu.max`,
`len` (saving.py 91-93) and `jnpu.linspace` (saving.py 264). -/
structure Grid (α : Type) where
  lo : α → α
  hi : α → α
  num : α → α
  lin : α → α → α → α

/-- `_children_labels`: instrument_function.py 89, 163, 230, 273, 378; plasmastate.py 507-514. -/
def childLabels : TCls → Option (List String)
  | .Gaussian => some ["sigma"]
  | .TwinGaussian => some ["sigma1", "sigma2"]
  | .SuperGaussian => some ["sigma", "power"]
  | .Lorentzian => some ["gamma"]
  | .FromArray => some ["omega", "intensity"]
  | .PlasmaState =>
      some ["Z_free", "mass_density", "T_e", "T_i", "ion_core_radius", "models"]
  | _ => none

/-- `_aux_labels`: plasmastate.py 515. -/
def auxLabels : TCls → Option (List String)
  | .PlasmaState => some ["ions"]
  | _ => none

/-- `isinstance(obj, HNCPotential)`: the classes of hnc_potentials.py are those that are allowed
as a potential. -/
def isPotential (c : Cls) : Bool :=
  Registry.Key.iiPot ∈ Registry.allowedKeys c || Registry.Key.eiPot ∈ Registry.allowedKeys c

/-- `zip(labels, vs, strict=False)` as a dictionary (saving.py 40-45). -/
def labelled {α : Type} (labels : List String) (vs : List (J α)) : J α :=
  .obj ((labels.zip vs).map Prod.fst) ((labels.zip vs).map Prod.snd)

/-- saving.py 82-108: the grid of a potential is replaced by its limits and its length. -/
def packGrid {α : Type} (g : Grid α) (names : List String) : List (J α) → Option (List (J α))
  | children =>
    if "_transform_r" ∈ names then
      match children with
      | .atom (.val x) :: rest =>
          some (.obj ["start", "stop", "num"]
            [.atom (.val (g.lo x)), .atom (.val (g.hi x)), .atom (.val (g.num x))] :: rest)
      | _ => none
    else some children

/-- `_flatten_obj` (saving.py 37-46) after its children and auxiliary data were encoded. -/
def packTree {α : Type} (c : TCls) (children : List (J α)) (aux : Aux (J α)) : J α :=
  .arr [match childLabels c with
        | some ls => labelled ls children
        | none => .arr children,
        match auxLabels c, aux with
        | some ls, .tuple vs => labelled ls vs
        | _, .tuple vs => .arr vs
        | _, .dict ks vs => .obj ks vs
        | _, .bare v => v]

/-- Name under which an instrument function is saved (`obj.__class__.__name__`, saving.py 118). -/
def instrumentName : TCls → String
  | .Gaussian => "Gaussian"
  | .TwinGaussian => "TwinGaussian"
  | .SuperGaussian => "SuperGaussian"
  | .Lorentzian => "Lorentzian"
  | .FromArray => "FromArray"
  | _ => ""

/-- `JaXRTSEncoder.default` (saving.py 68-119) for an object whose attributes are encoded. -/
def packObj {α : Type} (g : Grid α) (c : TCls) (names : List String) (es : List (J α)) :
    Option (J α) := do
  let (children, aux) ← flattenAttrs c names es
  match c with
  | .PlasmaState => return .obj ["_type", "value"] [.atom (.str "PlasmaState"), packTree c children aux]
  | .Setup | .FreeBoundFlippedSetup =>
      return .obj ["_type", "value"] [.atom (.str "Setup"), packTree c children aux]
  | .model m =>
      if isPotential m then
        let children ← packGrid g names children
        return .obj ["_type", "value"] [.atom (.str "HNCPotential"),
          .arr [.atom (.str (instName m)), packTree c children aux]]
      else
        return .obj ["_type", "value"] [.atom (.str "Model"),
          .arr [.atom (.str (instName m)), packTree c children aux]]
  | _ => return .obj ["_type", "value"] [.atom (.str "InstrumentFunction"),
          .arr [.atom (.str (instrumentName c)), packTree c children aux]]

mutual

/-- `saving.dumps` (saving.py 300-315): the json module writes tuples and lists as arrays and
dictionaries (also `JittableDict`) as objects, and calls `JaXRTSEncoder.default` for the rest.
Simplification: an object is only written if all its attributes can be written. -/
def dump {α : Type} (g : Grid α) : Val α → Option (J α)
  | .none => some .null
  | .atom a => some (.atom a)
  | .tuple vs => (dumpAll g vs).map .arr
  | .list vs => (dumpAll g vs).map .arr
  | .dict _ keys vs => (dumpAll g vs).map (.obj keys)
  | .obj c names vs =>
      match dumpAll g vs with
      | Option.none => Option.none
      | some es => packObj g c names es

/-- Each value of a list. -/
def dumpAll {α : Type} (g : Grid α) : List (Val α) → Option (List (J α))
  | [] => some []
  | v :: vs =>
      match dump g v with
      | Option.none => Option.none
      | some j =>
        match dumpAll g vs with
        | Option.none => Option.none
        | some js => some (j :: js)

end

/-- The elements of a list or tuple, as in `name, tree = val`. -/
def asSeq {α : Type} : Val α → Option (List (Val α))
  | .tuple vs => some vs
  | .list vs => some vs
  | _ => Option.none

/-- `_parse_tree_save` (saving.py 49-57), children. -/
def parseChildren {α : Type} (c : TCls) (v : Val α) : Option (List (Val α)) :=
  match childLabels c, v with
  | some ls, .dict _ ks vs => ls.mapM (look ks vs)
  | some _, _ => Option.none
  | Option.none, v => asSeq v

/-- `_parse_tree_save` (saving.py 49-57), auxiliary data, and the way in which `_tree_unflatten`
reads them. -/
def parseAux {α : Type} (c : TCls) (v : Val α) : Option (Aux (Val α)) :=
  match auxLabels c, v with
  | some ls, .dict _ ks vs => (ls.mapM (look ks vs)).map .tuple
  | some _, _ => Option.none
  | Option.none, v =>
    match unflatAux c, v with
    | .tuple _, v => (asSeq v).map .tuple
    | .dict _, .dict _ ks vs => some (.dict ks vs)
    | .dict _, _ => Option.none
    | .bare _, v => some (.bare v)
    | .ignored, v => some (.bare v)

/-- `new._tree_unflatten(aux_data, children)` on the saved tree `[children, aux]`. -/
def parseTree {α : Type} (c : TCls) (tree : Val α) : Option (List (Val α) × List (String × Val α)) := do
  match ← asSeq tree with
  | [ch, aux] =>
      let children ← parseChildren c ch
      let kvs ← unflattenAttrs c children (← parseAux c aux)
      return (children, kvs)
  | _ => Option.none

/-- `new._transform_r = jnpu.linspace(**children[0])` (saving.py 260-264). -/
def regrid {α : Type} (g : Grid α) (children : List (Val α)) (kvs : List (String × Val α)) :
    Option (List (String × Val α)) :=
  if "_transform_r" ∈ kvs.map Prod.fst then
    match children with
    | .dict _ ks vs :: _ =>
      match look ks vs "start", look ks vs "stop", look ks vs "num" with
      | some (.atom (.val a)), some (.atom (.val b)), some (.atom (.val n)) =>
          some (("_transform_r", .atom (.val (g.lin a b n))) :: kvs)
      | _, _, _ => Option.none
    | _ => Option.none
  else some kvs

/-- The object after the assignments `kvs`. -/
def build {α : Type} (c : TCls) (kvs : List (String × Val α)) : Val α :=
  .obj c (builtNames c kvs) (builtVals c kvs)

/-- `JaXRTSDecoder.object_hook` (saving.py 214-276) for a JSON object whose entries are decoded
already; `none` is an exception.  The dictionaries `self.models` and `self.hnc_potentials`
(saving.py 193-205) are keyed by the name of the class statement. -/
def hook {α : Type} (g : Grid α) (keys : List String) (vs : List (Val α)) : Option (Val α) :=
  match look keys vs "_type" with
  | some (.atom (.str "Model")) => do
      match ← asSeq (← look keys vs "value") with
      | [.atom (.str name), tree] =>
          let m ← allCls.find? fun m => className m == name
          return build (.model m) (← parseTree (.model m) tree).2
      | _ => Option.none
  | some (.atom (.str "HNCPotential")) => do
      match ← asSeq (← look keys vs "value") with
      | [.atom (.str name), tree] =>
          let m ← allCls.find? fun m => className m == name
          let (children, kvs) ← parseTree (.model m) tree
          return build (.model m) (← regrid g children kvs)
      | _ => Option.none
  | some (.atom (.str "InstrumentFunction")) => do
      match ← asSeq (← look keys vs "value") with
      | [.atom (.str name), tree] =>
          let c ← [TCls.Gaussian, .TwinGaussian, .SuperGaussian, .Lorentzian, .FromArray].find?
            fun c => instrumentName c == name
          return build c (← parseTree c tree).2
      | _ => Option.none
  | some (.atom (.str "PlasmaState")) => do
      return build .PlasmaState (← parseTree .PlasmaState (← look keys vs "value")).2
  | some (.atom (.str "Setup")) => do
      return build .Setup (← parseTree .Setup (← look keys vs "value")).2
  | _ => some (.dict false keys vs)

mutual

/-- `saving.load` (saving.py 318-363): the json module decodes from the inside to the outside and
calls the hook for every object. -/
def load {α : Type} (g : Grid α) : J α → Option (Val α)
  | .null => some .none
  | .atom a => some (.atom a)
  | .arr js => (loadAll g js).map .list
  | .obj keys js =>
      match loadAll g js with
      | Option.none => Option.none
      | some vs => hook g keys vs

/-- Each value of a list. -/
def loadAll {α : Type} (g : Grid α) : List (J α) → Option (List (Val α))
  | [] => some []
  | j :: js =>
      match load g j with
      | Option.none => Option.none
      | some v =>
        match loadAll g js with
        | Option.none => Option.none
        | some vs => some (v :: vs)

end

/-! ### Equality -/

/-- `PlasmaState.__eq__` (plasmastate.py 548-575): the numerical children without the models, the
auxiliary data of the models in the order of their sorted keys, the ions and the set of keys.
The keys of a dictionary are unique, so comparing the lists over sorted keys together with the key
sets is comparing key by key.  Simplification: `jnpu.equal(...).all()` is equality of values. -/
def stateEq {α : Type} (a b : Val α) : Prop :=
  match a, b with
  | .obj .PlasmaState na va, .obj .PlasmaState nb vb =>
      (∀ n ∈ ["Z_free", "mass_density", "T_e", "T_i", "_overwritten.ion_core_radius"],
        look na va n = look nb vb n) ∧
      look na va "ions" = look nb vb "ions" ∧
      match look na va "models", look nb vb "models" with
      | some (.dict _ ka ma), some (.dict _ kb mb) =>
          (∀ k, k ∈ ka ↔ k ∈ kb) ∧
          ∀ k ∈ ka, (look ka ma k).bind staticOf = (look kb mb k).bind staticOf
      | _, _ => False
  | _, _ => False
where
  /-- `model._tree_flatten()[1]` -/
  staticOf : Val α → Option (Aux (Val α))
    | .obj c names vs => (flattenAttrs c names vs).map Prod.snd
    | _ => Option.none

/-- `Model.__eq__` (models.py 157-163), which potentials do not have: the class is not
compared. -/
def modelEq {α : Type} (a b : Val α) : Prop :=
  match a, b with
  | .obj (.model ca) na va, .obj (.model cb) nb vb =>
      isPotential ca = false ∧ isPotential cb = false ∧
      flattenAttrs (.model ca) na va = flattenAttrs (.model cb) nb vb
  | _, _ => False

end Verif.Tree
