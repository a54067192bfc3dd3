/-
The lists of available models: /repo/src/jaxrts/collections.py, and the look-up tables which the decoder of
saving.py (193-212) and `__init__.py` (76-84) make of them.

A module is the list of its attributes in the order of `dir`.  The test `"__class__" in dir(obj_name)` (62,
113) is on a string and always true.  A value of `types` may also be a single string, for which `in` looks for
a part of the string; for the strings "models" and "hnc_potentials" that is the same as for a list with one
entry.
-/
import Verif.Model.Tree

set_option autoImplicit false

namespace Verif.Collections

open Verif.Registry Verif.Tree

/-- An attribute of a module: its name, the object (for a class, its identity), whether
`inspect.isabstract` holds, and `allowed_keys` if it is in `dir` of the object. -/
structure Entry (α : Type) where
  name : String
  obj : α
  isAbstract : Bool
  keys : Option (List Key)
deriving DecidableEq

/-- `str.startswith("_")`. -/
def isPrivate (name : String) : Bool := name.toList.head? == some '_'

/-- The two modules. -/
structure Modules (α : Type) where
  models : List (Entry α)
  potentials : List (Entry α)

/-- `all_models[k].append(x)` for a `defaultdict(list)`: collections.py 58, 78-81. -/
def append {β : Type} (d : List (Key × List β)) (k : Key) (x : β) : List (Key × List β) :=
  match d with
  | [] => [(k, [x])]
  | (k', l) :: rest => if k' = k then (k', l ++ [x]) :: rest else (k', l) :: append rest k x

/-- collections.py 70-81: one attribute of a module. -/
def addEntry {α β : Type} (show_ : Entry α → β) (d : List (Key × List β)) (e : Entry α) : List (Key × List β) :=
  match e.keys with
  | some ks => if !e.isAbstract && !isPrivate e.name then ks.foldl (fun d k => append d k (show_ e)) d else d
  | none => d

/-- collections.py 59-63: the modules to look at. -/
def considered {α : Type} (M : Modules α) (types : List String) : List (List (Entry α)) :=
  (if "models" ∈ types then [M.models] else []) ++ (if "hnc_potentials" ∈ types then [M.potentials] else [])

/-- collections.py 29-83 `get_all_models`, with what is appended as an argument. -/
def getAllModels {α β : Type} (M : Modules α) (show_ : Entry α → β) (types : List String) : List (Key × List β) :=
  (considered M types).foldl (fun d m => m.foldl (addEntry show_) d) []

/-- A class or its name: the two kinds of results. -/
inductive Item (α : Type) where
  | cls (c : α)
  | name (s : String)
deriving DecidableEq

/-- collections.py 78-81: what is appended. -/
def item {α : Type} (namesOnly : Bool) (e : Entry α) : Item α := bif namesOnly then .name e.name else .cls e.obj

/-- collections.py 150-162 `get_all_models_list`: both arguments are ignored (157).  The order of the
result is that of a set and not determined; here it is that of the dictionary. -/
def getAllModelsList {α : Type} [DecidableEq α] (M : Modules α) (_types : List String) (_namesOnly : Bool) :
    List (Item α) :=
  (((getAllModels M (item false) ["models", "hnc_potentials"]).flatMap fun q => q.2)).dedup

/-- An attribute of the module `instrument_function`; `isSub` is `isclass(obj) and issubclass(obj,
InstrumentFunction)`. -/
structure IEntry (α : Type) where
  name : String
  obj : α
  isAbstract : Bool
  isSub : Bool

/-- collections.py 98-133 `get_all_instrument_functions`. -/
def getAllInstrumentFunctions {α : Type} (M : List (IEntry α)) (namesOnly : Bool) : List (Item α) :=
  M.foldl (fun l e =>
    if !e.isAbstract && e.isSub && !isPrivate e.name then
      l ++ [bif namesOnly then .name e.name else .cls e.obj]
    else l) []

/-! ### The modules of the repository -/

/-- The classes of models.py and hnc_potentials.py. -/
inductive PyClass where
  | concrete (c : Cls)
  /-- models.py 51, 173, 336, 1369, 3440, 5120, 5219 -/
  | Model | ScatteringModel | IonFeatModel | FreeFreeModel | IPDModel | BM_V_eiSModel | EdgeModel
  /-- hnc_potentials.py 269 -/
  | HNCPotential
deriving DecidableEq

/-- The attribute of a concrete class. -/
def entry (c : Cls) : Entry PyClass := ⟨className c, .concrete c, false, some (allowedKeys c)⟩

/-- The attributes of models.py which have `allowed_keys`, sorted as in `dir`.  (The other ones are imported
modules, functions and classes without `allowed_keys`, and functions of the module.) -/
def repoModels : List (Entry PyClass) :=
  [entry .ArbitraryDegeneracyScreeningLength, entry .ArkhipovIonFeat, entry .AverageAtom_Sii,
    ⟨"BM_V_eiSModel", .BM_V_eiSModel, true, some []⟩, entry .BohmStaver, entry .BornMermin,
    entry .BornMermin_Fit, entry .BornMermin_Fortmann, entry .BornMermin_Full, entry .CHSIonFeat,
    entry .ConstantChemPotential, entry .ConstantDebyeTemp, entry .ConstantIPD, entry .ConstantScreeningLength,
    entry .DebyeHueckelIPD, entry .DebyeHueckelScreening, entry .DebyeHueckelScreeningLength,
    entry .DebyeHueckel_BM_V, entry .DebyeWallerSolid, entry .DegenerateElectronChemPotential,
    entry .DetailedBalance, entry .ESLFCDornheim2021, entry .EckerKroellIPD,
    ⟨"EdgeModel", .EdgeModel, true, some [.bfEdge]⟩, entry .Fermi, entry .FiniteWavelengthScreening,
    entry .FiniteWavelength_BM_V, entry .FixedSii, entry .FormFactorLowering,
    ⟨"FreeFreeModel", .FreeFreeModel, true, some [.freeFree]⟩, entry .Gericke2010ScreeningLength,
    entry .Gregori2003IonFeat, entry .Gregori2004Screening, entry .Gregori2006IonFeat,
    entry .GregoriCHSScreening, entry .Heaviside, ⟨"IPDModel", .IPDModel, true, some [.ipd]⟩, entry .IPDSum,
    entry .IchimaruChemPotential, ⟨"IonFeatModel", .IonFeatModel, true, some [.ionic]⟩, entry .IonSphereIPD,
    entry .LFCConstant, entry .LinearResponseScreening, entry .LinearResponseScreeningGericke2010,
    ⟨"Model", .Model, true, some []⟩, entry .Neglect, entry .NoEdge, entry .NonDegenerateElectronChemPotential,
    entry .NonNegative, entry .OnePotentialHNCIonFeat, entry .PauliBlockingIPD, entry .PaulingFormFactors,
    entry .PeakCollection, entry .QCSalpeterApproximation, entry .RPA, entry .RPA_DandreaFit,
    entry .SLFCFarid1993, entry .SLFCGeldart1966, entry .SLFCInterpFortmann2010, entry .SLFCInterpGregori2007,
    entry .SLFCUtsumi1982, ⟨"ScatteringModel", .ScatteringModel, true, some []⟩, entry .SchumacherImpulse,
    entry .SchumacherImpulseColdEdges, entry .SchumacherImpulseFitRk, entry .SommerfeldChemPotential,
    entry .StewartPyattIPD, entry .StewartPyattPrestonIPD, entry .Sum_Sii, entry .ThreePotentialHNCIonFeat]

/-- The attributes of hnc_potentials.py which have `allowed_keys`. -/
def repoPotentials : List (Entry PyClass) :=
  [entry .CoulombPotential, entry .DebyeHueckelPotential, entry .DeutschPotential, entry .EmptyCorePotential,
    ⟨"HNCPotential", .HNCPotential, true, some [.iiPot, .eiPot, .eePot]⟩, entry .KelbgPotential,
    entry .KlimontovichKraeftPotential, entry .PauliClassicalMap, entry .PotentialSum, entry .ScaledPotential,
    entry .SoftCorePotential, entry .SpinAveragedEEExchange, entry .SpinSeparatedEEExchange,
    entry .YukawaShortRangeRepulsion]

/-- The two modules of the repository. -/
def repo : Modules PyClass := ⟨repoModels, repoPotentials⟩

/-- `m.__name__` of a class, saving.py 196 and 203. -/
def PyClass.name : PyClass → String
  | .concrete c => className c
  | .Model => "Model"
  | .ScatteringModel => "ScatteringModel"
  | .IonFeatModel => "IonFeatModel"
  | .FreeFreeModel => "FreeFreeModel"
  | .IPDModel => "IPDModel"
  | .BM_V_eiSModel => "BM_V_eiSModel"
  | .EdgeModel => "EdgeModel"
  | .HNCPotential => "HNCPotential"

/-- saving.py 193-206 `JaXRTSDecoder.hnc_potentials` and `models`, evaluated at a name: the dictionary
comprehension keeps the last class of a name, then `additional_mappings` replace its entries. -/
def decoderLookup (additional : List (String × PyClass)) (types : List String) (n : String) : Option PyClass :=
  match (additional.reverse.find? fun q => q.1 == n) with
  | some q => some q.2
  | none =>
    (((getAllModelsList repo types false).filterMap fun i => match i with
      | .cls c => some c
      | .name _ => none).reverse.find? fun c => c.name == n)

end Verif.Collections
