/-
Model of the registry of models that belongs to a `PlasmaState`:
`/repo/src/jaxrts/plasmastate.py` (`__init__`, `__getitem__`, `__setitem__`,
`update_default_model`, `evaluate`, `probe`, `_eq_characteristic`, `__eq__`) and, from
`/repo/src/jaxrts/models.py` and `/repo/src/jaxrts/hnc_potentials.py`, every concrete class with
its `allowed_keys`, its `prepare` and the keys its evaluation methods read.

Python objects live in a heap and are referred to by address, so one object may sit under two
keys and be changed through either of them.
-/
import Mathlib.Data.List.Basic
import Mathlib.Tactic.Common

set_option autoImplicit false

namespace Verif.Registry

/-- The strings under which models are stored.  All the strings that occur in some
`allowed_keys` of models.py / hnc_potentials.py have their own constructor; every other string is
`other`. -/
inductive Key where
  | ionic            -- "ionic scattering"
  | freeFree         -- "free-free scattering"
  | boundFree        -- "bound-free scattering"
  | freeBound        -- "free-bound scattering"
  | ipd              -- "ipd"
  | formFactors      -- "form-factors"
  | screening        -- "screening"
  | screeningLength  -- "screening length"
  | eeLfc            -- "ee-lfc"
  | chemPot          -- "chemical potential"
  | debyeTemp        -- "Debye temperature"
  | bmSii            -- "BM S_ii"
  | bmV              -- "BM V_eiS"
  | bfEdge           -- "bf edge"
  | iiPot            -- "ion-ion Potential"
  | eiPot            -- "electron-ion Potential"
  | eePot            -- "electron-electron Potential"
  | other (name : String)
deriving DecidableEq, Repr

/-- Every concrete (non-abstract) class of models.py and hnc_potentials.py that advertises
`allowed_keys`; the constructor names are the Python class names. -/
inductive Cls where
  -- models.py 295-331
  | Neglect
  -- models.py 470-1359
  | ArkhipovIonFeat | Gregori2003IonFeat | Gregori2006IonFeat | CHSIonFeat | FixedSii
  | OnePotentialHNCIonFeat | ThreePotentialHNCIonFeat | PeakCollection | DebyeWallerSolid
  -- models.py 1390-2594
  | QCSalpeterApproximation | RPA | RPA_DandreaFit
  | BornMermin_Full | BornMermin | BornMermin_Fit | BornMermin_Fortmann
  -- models.py 2601-3096
  | SchumacherImpulse | SchumacherImpulseColdEdges | SchumacherImpulseFitRk | DetailedBalance
  -- models.py 3103-3239
  | PaulingFormFactors | FormFactorLowering
  -- models.py 3246-3369
  | IchimaruChemPotential | SommerfeldChemPotential | NonDegenerateElectronChemPotential
  | DegenerateElectronChemPotential | ConstantChemPotential
  -- models.py 3376-3433
  | ConstantDebyeTemp | BohmStaver
  -- models.py 3494-4064
  | ConstantIPD | DebyeHueckelIPD | StewartPyattPrestonIPD | StewartPyattIPD | IonSphereIPD
  | EckerKroellIPD | PauliBlockingIPD | IPDSum
  -- models.py 4071-4176
  | DebyeHueckelScreeningLength | Gericke2010ScreeningLength | ArbitraryDegeneracyScreeningLength
  | ConstantScreeningLength
  -- models.py 4186-4544
  | LinearResponseScreeningGericke2010 | GregoriCHSScreening | FiniteWavelengthScreening
  | DebyeHueckelScreening | LinearResponseScreening | Gregori2004Screening
  -- models.py 4552-4896
  | SLFCGeldart1966 | SLFCUtsumi1982 | SLFCFarid1993 | ESLFCDornheim2021
  | SLFCInterpFortmann2010 | SLFCInterpGregori2007 | LFCConstant
  -- models.py 4926-5113
  | Sum_Sii | AverageAtom_Sii
  -- models.py 5140-5212
  | DebyeHueckel_BM_V | FiniteWavelength_BM_V
  -- models.py 5243-5315
  | NoEdge | NonNegative | Heaviside | Fermi
  -- hnc_potentials.py 594-1736
  | PotentialSum | ScaledPotential | CoulombPotential | DebyeHueckelPotential | KelbgPotential
  | KlimontovichKraeftPotential | DeutschPotential | EmptyCorePotential
  | YukawaShortRangeRepulsion | SoftCorePotential | PauliClassicalMap | SpinSeparatedEEExchange
  | SpinAveragedEEExchange
deriving DecidableEq, Repr

/-- `allowed_keys` of each class (class attributes; the line numbers are those of the class in
the list above, e.g. models.py 303, 347, 1377, 2620, 2811, 2949, 3078, 3114, 3448, 4081, 4225,
4565, 4933, 5153, 5225, hnc_potentials.py 283-287, 1093, 1252, 1422). -/
def allowedKeys : Cls → List Key
  | .Neglect => [.freeFree, .boundFree, .freeBound, .ionic, .ipd]
  | .ArkhipovIonFeat | .Gregori2003IonFeat | .Gregori2006IonFeat | .CHSIonFeat | .FixedSii
  | .OnePotentialHNCIonFeat | .ThreePotentialHNCIonFeat | .PeakCollection
  | .DebyeWallerSolid => [.ionic]
  | .QCSalpeterApproximation | .RPA | .RPA_DandreaFit | .BornMermin_Full | .BornMermin
  | .BornMermin_Fit | .BornMermin_Fortmann => [.freeFree]
  | .SchumacherImpulse | .SchumacherImpulseColdEdges | .SchumacherImpulseFitRk => [.boundFree]
  | .DetailedBalance => [.freeBound]
  | .PaulingFormFactors | .FormFactorLowering => [.formFactors]
  | .IchimaruChemPotential | .SommerfeldChemPotential | .NonDegenerateElectronChemPotential
  | .DegenerateElectronChemPotential | .ConstantChemPotential => [.chemPot]
  | .ConstantDebyeTemp | .BohmStaver => [.debyeTemp]
  | .ConstantIPD | .DebyeHueckelIPD | .StewartPyattPrestonIPD | .StewartPyattIPD
  | .IonSphereIPD | .EckerKroellIPD | .PauliBlockingIPD | .IPDSum => [.ipd]
  | .DebyeHueckelScreeningLength | .Gericke2010ScreeningLength
  | .ArbitraryDegeneracyScreeningLength | .ConstantScreeningLength => [.screeningLength]
  | .LinearResponseScreeningGericke2010 | .GregoriCHSScreening | .FiniteWavelengthScreening
  | .DebyeHueckelScreening | .LinearResponseScreening | .Gregori2004Screening => [.screening]
  | .SLFCGeldart1966 | .SLFCUtsumi1982 | .SLFCFarid1993 | .ESLFCDornheim2021
  | .SLFCInterpFortmann2010 | .SLFCInterpGregori2007 | .LFCConstant => [.eeLfc]
  | .Sum_Sii | .AverageAtom_Sii => [.bmSii]
  | .DebyeHueckel_BM_V | .FiniteWavelength_BM_V => [.bmV]
  | .NoEdge | .NonNegative | .Heaviside | .Fermi => [.bfEdge]
  | .PotentialSum | .ScaledPotential | .CoulombPotential | .DebyeHueckelPotential
  | .KelbgPotential | .DeutschPotential | .YukawaShortRangeRepulsion | .PauliClassicalMap
  | .SpinSeparatedEEExchange | .SpinAveragedEEExchange => [.iiPot, .eiPot, .eePot]
  | .KlimontovichKraeftPotential | .EmptyCorePotential | .SoftCorePotential => [.eiPot]

/-- Values of `include_electrons` (hnc_potentials.py 311-313). -/
inductive Inc where
  | off | spinAveraged | spinSeparated
deriving DecidableEq, Repr

/-- Address of an object. -/
abbrev Ref := Nat

/-- A model or potential object.  `stat` stands for the constructor arguments that are put into
`aux_data` by `_tree_flatten` and `dyn` for those that are put into `children`; their values are
opaque tokens.  `modelKey = none` is the empty string set by `Model.__init__`
(models.py 68-70, hnc_potentials.py 304).  `inc` is only meaningful for potentials.
Simplification: the members of a `PotentialSum`, `ScaledPotential` or `IPDSum` are modelled
separately (`Verif.Model.Composite`). -/
structure Obj where
  cls : Cls
  modelKey : Option Key := none
  inc : Inc := .off
  stat : List Nat := []
  dyn : List Nat := []
deriving DecidableEq, Repr

/-- One statement of a `prepare` method. -/
inductive Act where
  /-- `plasma_state.update_default_model(k, c())` -/
  | default (k : Key) (c : Cls)
  /-- `plasma_state[k] = c()` -/
  | force (k : Key) (c : Cls)
  /-- `plasma_state[k].include_electrons = v` -/
  | setInc (k : Key) (v : Inc)
deriving DecidableEq, Repr

/-- `prepare` of each class as the list of its statements; `nIons` is `len(plasma_state)`.
models.py 82-93 (no-op default), 365-367, 630-632, 699-701, 831-836, 1007-1027, 1326-1328,
1490-1493, 1681-1689, 1955-1974, 2215-2234, 2478-2497, 2654-2657, 2845-2848, 2964-2970,
3081-3084, 3172-3173, 4229-4236, 4287-4289, 4372-4379, 4475-4483, 4936-4939, 5031-5039.
Simplification: the energy cut-offs that three BornMermin classes store on themselves are left
out. -/
def prepareActs (nIons : Nat) : Cls → List Act
  | .ArkhipovIonFeat | .Gregori2003IonFeat | .FixedSii | .PeakCollection =>
      [.default .formFactors .PaulingFormFactors, .default .screening .Gregori2004Screening]
  | .Gregori2006IonFeat | .CHSIonFeat | .DebyeWallerSolid =>
      [.default .formFactors .PaulingFormFactors, .default .screening .Gregori2004Screening,
       .default .debyeTemp .BohmStaver]
  | .OnePotentialHNCIonFeat =>
      [.default .formFactors .PaulingFormFactors, .default .screening .Gregori2004Screening,
       .default .iiPot .DebyeHueckelPotential, .setInc .iiPot .off]
  | .ThreePotentialHNCIonFeat =>
      [.default .formFactors .PaulingFormFactors, .default .iiPot .CoulombPotential,
       .default .eiPot .CoulombPotential, .default .eePot .KelbgPotential,
       .setInc .iiPot .spinAveraged, .setInc .eiPot .spinAveraged,
       .setInc .eePot .spinAveraged]
  | .RPA => [.default .chemPot .IchimaruChemPotential]
  | .BornMermin_Full | .BornMermin | .BornMermin_Fit | .BornMermin_Fortmann =>
      [.default .chemPot .IchimaruChemPotential, .default .bmV .FiniteWavelength_BM_V,
       if nIons = 1 then .default .bmSii .Sum_Sii else .default .bmSii .AverageAtom_Sii]
  | .SchumacherImpulse | .SchumacherImpulseColdEdges =>
      [.default .formFactors .PaulingFormFactors, .default .ipd .Neglect,
       .default .bfEdge .Heaviside]
  | .SchumacherImpulseFitRk =>
      [.default .formFactors .PaulingFormFactors, .default .ipd .Neglect,
       .default .freeFree .RPA_DandreaFit, .default .bfEdge .Heaviside]
  | .DetailedBalance => [.default .boundFree .SchumacherImpulse]
  | .FormFactorLowering => [.default .ipd .StewartPyattIPD]
  | .LinearResponseScreeningGericke2010 | .FiniteWavelengthScreening =>
      [.default .eiPot .CoulombPotential, .setInc .eiPot .spinAveraged]
  | .LinearResponseScreening =>
      [.default .eiPot .CoulombPotential, .setInc .eiPot .spinAveraged,
       .force .freeFree .RPA_DandreaFit]
  | .GregoriCHSScreening => [.default .debyeTemp .BohmStaver]
  | .Sum_Sii => [.default .ionic .OnePotentialHNCIonFeat]
  | .AverageAtom_Sii =>
      [.default .iiPot .DebyeHueckelPotential, .setInc .iiPot .off,
       .default .ionic .OnePotentialHNCIonFeat]
  | _ => []

/-- Keys for which the statements of a `prepare` name a model. -/
def actKeys : List Act → List Key
  | [] => []
  | .default k _ :: rest => k :: actKeys rest
  | .force k _ :: rest => k :: actKeys rest
  | .setInc _ _ :: rest => actKeys rest

/-- Keys whose `include_electrons` is set by the statements of a `prepare`. -/
def incKeys : List Act → List Key
  | [] => []
  | .default _ _ :: rest => incKeys rest
  | .force _ _ :: rest => incKeys rest
  | .setInc k _ :: rest => k :: incKeys rest

/-- A `PlasmaState`, reduced to the number of its ions and its registry (`self.models`,
plasmastate.py 108), together with the heap of all objects created so far. -/
structure State where
  nIons : Nat
  heap : Ref → Obj
  next : Ref
  dict : Key → Option Ref

/-- Exceptions as values. -/
inductive Err where
  /-- `KeyError` -/
  | key (k : Key)
  /-- `AttributeError` -/
  | attr (k : Key)
  /-- `RecursionError` -/
  | recursion
deriving DecidableEq, Repr

/-- `c()` : create an object. -/
def alloc (s : State) (o : Obj) : State :=
  { s with heap := Function.update s.heap s.next o, next := s.next + 1 }

/-- `obj.model_key = key` and `self.models[key] = obj` (plasmastate.py 130-131). -/
def store (s : State) (k : Key) (r : Ref) : State :=
  { s with
    heap := Function.update s.heap r { s.heap r with modelKey := some k }
    dict := Function.update s.dict k (some r) }

/-- `obj.include_electrons = v` (hnc_potentials.py 311). -/
def setInclude (s : State) (r : Ref) (v : Inc) : State :=
  { s with heap := Function.update s.heap r { s.heap r with inc := v } }

/-- The body of a `prepare` method, statement by statement; `.default` is
`PlasmaState.update_default_model` (plasmastate.py 245-285).  `set` is the nested
`plasma_state[k] = ...`.  An exception carries the state at the moment it was raised. -/
def runActs (set : State → Key → Ref → Except (Err × State) State) : State → List Act → Except (Err × State) State
  | s, [] => .ok s
  | s, .default k c :: rest =>
      match s.dict k with
      | some _ => runActs set s rest
      | none =>
        match set (alloc s { cls := c }) k s.next with
        | .ok s' => runActs set s' rest
        | .error e => .error e
  | s, .force k c :: rest =>
      match set (alloc s { cls := c }) k s.next with
      | .ok s' => runActs set s' rest
      | .error e => .error e
  | s, .setInc k v :: rest =>
      match s.dict k with
      | none => .error (.key k, s)
      | some r => runActs set (setInclude s r v) rest

/-- `PlasmaState.__setitem__` (plasmastate.py 125-131).  `check` only logs and is left out.
The first argument is the remaining depth of the Python call stack; a `prepare` may assign
further models. -/
def setItem : Nat → State → Key → Ref → Except (Err × State) State
  | 0, s, _, _ => .error (.recursion, s)
  | depth + 1, s, k, r =>
      if k ∈ allowedKeys (s.heap r).cls then
        match runActs (setItem depth) s (prepareActs s.nIons (s.heap r).cls) with
        | .ok s' => .ok (store s' k r)
        | .error e => .error e
      else .error (.key k, s)

/-- Depth of the call stack that is available to one assignment.  Python's default limit of 1000
frames gives more than this; `Verif.Props.Registry.assign_raises_iff` shows that the limit is never
reached. -/
def stackDepth : Nat := 100

/-- `state[k] = obj`. -/
def assign (s : State) (k : Key) (r : Ref) : Except (Err × State) State := setItem stackDepth s k r

/-- The empty state before the defaults of `__init__` are set (plasmastate.py 60-113). -/
def bare (nIons : Nat) : State :=
  { nIons, heap := fun _ => { cls := .Neglect }, next := 0, dict := fun _ => none }

/-- What the user can do: create a model object, assign an object to a key, or set
`include_electrons` on an object. -/
inductive Op where
  | new (c : Cls) (inc : Inc) (stat dyn : List Nat)
  | set (k : Key) (r : Ref)
  | setInc (r : Ref) (v : Inc)
deriving DecidableEq, Repr

/-- One user operation.  A failing assignment raises; the state afterwards is the one reached
when the exception was raised.  Addresses that were never handed out cannot be assigned. -/
def step (s : State) : Op → State
  | .new c inc stat dyn => alloc s { cls := c, inc, stat, dyn }
  | .set k r =>
      if r < s.next then
        match assign s k r with
        | .ok s' => s'
        | .error (_, s') => s'
      else s
  | .setInc r v => if r < s.next then setInclude s r v else s

/-- `PlasmaState.__init__` (plasmastate.py 114-117). -/
def init (nIons : Nat) : State :=
  [Op.new .DebyeHueckelScreeningLength .off [] [], Op.set .screeningLength 0,
   Op.new .LFCConstant .off [] [0], Op.set .eeLfc 1,
   Op.new .Neglect .off [] [], Op.set .freeBound 2].foldl step (bare nIons)

/-- The state after `PlasmaState(...)` followed by a list of user operations. -/
def run (nIons : Nat) (ops : List Op) : State := ops.foldl step (init nIons)

/-- `type(state[k])`, if the slot is filled (plasmastate.py 122-123). -/
def slotCls (s : State) (k : Key) : Option Cls := (s.dict k).map fun r => (s.heap r).cls

/-- `state[k].include_electrons`, if the slot is filled. -/
def slotInc (s : State) (k : Key) : Option Inc := (s.dict k).map fun r => (s.heap r).inc

/-! ### Evaluation -/

/-- The entry points through which one model evaluates another one. -/
inductive Method where
  /-- `evaluate`, `evaluate_raw`, and, for potentials, `full_r`, `full_k`, ... -/
  | eval
  /-- `S_ii`, `S_ii_on_grid`, `supports_S_ii_grid` -/
  | sii
  /-- `susceptibility` -/
  | susc
deriving DecidableEq, Repr

/-- Is the class an `IonFeatModel`? (models.py 336) -/
def isIonFeat : Cls → Bool
  | .ArkhipovIonFeat | .Gregori2003IonFeat | .Gregori2006IonFeat | .CHSIonFeat | .FixedSii
  | .OnePotentialHNCIonFeat | .ThreePotentialHNCIonFeat | .PeakCollection
  | .DebyeWallerSolid => true
  | _ => false

/-- Is the class a `FreeFreeModel`? (models.py 1369) -/
def isFreeFree : Cls → Bool
  | .QCSalpeterApproximation | .RPA | .RPA_DandreaFit | .BornMermin_Full | .BornMermin
  | .BornMermin_Fit | .BornMermin_Fortmann => true
  | _ => false

/-- Which entry points exist on which class.  `S_ii` is defined on `IonFeatModel` only
(models.py 336-467), `susceptibility` on `FreeFreeModel` only (models.py 1369-1387);
`Neglect` has neither (models.py 295-331). -/
def hasMethod (c : Cls) : Method → Bool
  | .eval => true
  | .sii => isIonFeat c
  | .susc => isFreeFree c

/-- The keys read, and the entry points called on what is found there, by each entry point of
each class.  models.py 394-434 (`Rayleigh_weight`), 642, 712-713, 855-867, 1048-1105, 1164, 1332,
1430, 1463, 1499-1507, 1532-1542, 1576-1588, 1622, 1784-1827 (`_prepare_BM`), 1710, 1751, 1997,
2042, 2258, 2303, 2520, 2558, 2680-2723, 2866-2903, 3006, 3093, 3186, 4247-4250, 4305-4306,
4389-4392, 4439, 4493-4496, 4942-4978, 5069-5074, 5164; hnc_potentials.py 849-857, 1332-1340.
Simplification: sums and scaled potentials are charged with everything that any potential may
read. -/
def reads : Cls → Method → List (Key × Method)
  | .ArkhipovIonFeat, .eval | .Gregori2003IonFeat, .eval | .FixedSii, .eval
  | .PeakCollection, .eval => [(.formFactors, .eval), (.screening, .eval)]
  | .Gregori2006IonFeat, .eval | .DebyeWallerSolid, .eval =>
      [(.formFactors, .eval), (.screening, .eval), (.debyeTemp, .eval)]
  | .Gregori2006IonFeat, .sii | .DebyeWallerSolid, .sii => [(.debyeTemp, .eval)]
  | .CHSIonFeat, .eval =>
      [(.formFactors, .eval), (.screening, .eval), (.eeLfc, .eval), (.debyeTemp, .eval)]
  | .CHSIonFeat, .sii => [(.eeLfc, .eval), (.debyeTemp, .eval)]
  | .OnePotentialHNCIonFeat, .eval =>
      [(.formFactors, .eval), (.screening, .eval), (.iiPot, .eval)]
  | .OnePotentialHNCIonFeat, .sii => [(.iiPot, .eval)]
  | .ThreePotentialHNCIonFeat, .eval =>
      [(.formFactors, .eval), (.iiPot, .eval), (.eiPot, .eval), (.eePot, .eval)]
  | .ThreePotentialHNCIonFeat, .sii => [(.iiPot, .eval), (.eiPot, .eval), (.eePot, .eval)]
  | .QCSalpeterApproximation, .eval | .QCSalpeterApproximation, .susc
  | .RPA_DandreaFit, .eval | .RPA_DandreaFit, .susc => [(.eeLfc, .eval)]
  | .RPA, .eval | .RPA, .susc => [(.chemPot, .eval), (.eeLfc, .eval)]
  | .BornMermin_Full, .eval | .BornMermin_Full, .susc | .BornMermin, .eval | .BornMermin, .susc
  | .BornMermin_Fit, .eval | .BornMermin_Fit, .susc | .BornMermin_Fortmann, .eval
  | .BornMermin_Fortmann, .susc =>
      [(.bmSii, .eval), (.bmV, .eval), (.chemPot, .eval), (.eeLfc, .eval)]
  | .SchumacherImpulse, .eval | .SchumacherImpulseColdEdges, .eval =>
      [(.ipd, .eval), (.formFactors, .eval), (.bfEdge, .eval)]
  | .SchumacherImpulseFitRk, .eval =>
      [(.ipd, .eval), (.formFactors, .eval), (.bfEdge, .eval), (.freeFree, .eval)]
  | .DetailedBalance, .eval => [(.boundFree, .eval)]
  | .FormFactorLowering, .eval => [(.ipd, .eval)]
  | .LinearResponseScreeningGericke2010, .eval =>
      [(.screeningLength, .eval), (.eeLfc, .eval), (.eiPot, .eval)]
  | .GregoriCHSScreening, .eval => [(.eeLfc, .eval), (.debyeTemp, .eval)]
  | .FiniteWavelengthScreening, .eval => [(.eiPot, .eval), (.eeLfc, .eval)]
  | .DebyeHueckelScreening, .eval => [(.screeningLength, .eval)]
  | .LinearResponseScreening, .eval => [(.freeFree, .susc), (.eiPot, .eval)]
  | .Sum_Sii, .eval => [(.ionic, .sii)]
  | .AverageAtom_Sii, .eval => [(.iiPot, .eval)]
  | .DebyeHueckel_BM_V, .eval => [(.screeningLength, .eval)]
  | .DebyeHueckelPotential, .eval | .YukawaShortRangeRepulsion, .eval | .PotentialSum, .eval
  | .ScaledPotential, .eval => [(.screeningLength, .eval)]
  | _, _ => []

/-- Perform reads one after the other, stopping at the first exception. -/
def evalAll (ev : Key → Method → Except Err Unit) : List (Key × Method) → Except Err Unit
  | [] => .ok ()
  | (k, m) :: rest =>
      match ev k m with
      | .ok () => evalAll ev rest
      | .error e => .error e

/-- Does calling the entry point `m` of the model stored under `k` raise a registry error?
`PlasmaState.__getitem__` / `evaluate` (plasmastate.py 122-123, 492-504) raise `KeyError` for an
unset key; a missing method raises `AttributeError`; otherwise all the reads of the class are
performed in turn, at one level less of the call stack.  The numerical result is not modelled. -/
def evalKey (s : State) : Nat → Key → Method → Except Err Unit
  | 0, _, _ => .error .recursion
  | depth + 1, k, m =>
      match s.dict k with
      | none => .error (.key k)
      | some r =>
          if hasMethod (s.heap r).cls m then evalAll (evalKey s depth) (reads (s.heap r).cls m)
          else .error (.attr k)

/-- `PlasmaState.probe` (plasmastate.py 470-490): the four scattering contributions. -/
def probe (s : State) : Except Err Unit :=
  evalAll (evalKey s stackDepth) [(.ionic, .eval), (.freeFree, .eval), (.boundFree, .eval),
    (.freeBound, .eval)]

/-- Shape of what `Neglect.evaluate` returns (models.py 307-313). -/
inductive Shape where
  /-- one value per measured energy -/
  | spectrum
  /-- one value per ion species -/
  | perIon
  /-- `None` -/
  | none
deriving DecidableEq, Repr

/-- `Neglect.evaluate` decides on its `model_key` what it returns (models.py 307-313). -/
def neglectShape (o : Obj) : Shape :=
  match o.modelKey with
  | some .freeFree | some .boundFree | some .freeBound | some .ionic => .spectrum
  | some .ipd => .perIon
  | _ => .none

end Verif.Registry
