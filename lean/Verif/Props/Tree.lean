/-
Properties C05 (equality), C08 (saving and loading) and C09 (pytree round trips).
-/
import Verif.Lemmas.TreeSave

set_option autoImplicit false

namespace Verif.Tree

open Verif.Registry (Cls)

/-! ### C09: flattening and unflattening loses no information -/

/-- C09.  Any value made of constructed objects, however deeply nested, can be taken apart into
leaves and a tree definition, and putting it together again gives a value of the same class that
agrees in every attribute that any method reads (`Alike`), at every depth; no leaf is left
over. -/
theorem pytree_round_trip {α : Type} (v : Val α) (h : Made (fun _ => True) v) :
    ∃ ls d v', flat v = some (ls, d) ∧ unflat d ls = some (v', []) ∧ Alike v v' := by
  obtain ⟨ls, d, v', hf, hu, ha⟩ := comesBack v h
  exact ⟨ls, d, v', hf, by simpa using hu [], ha⟩

/-- C09.  Without `IonSphereIPD` objects, the value that comes back is the very same one. -/
theorem pytree_round_trip_exact {α : Type} (v : Val α)
    (h : Made (fun c => c ≠ .model .IonSphereIPD) v) :
    ∃ ls d, flat v = some (ls, d) ∧ unflat d ls = some (v, []) := by
  obtain ⟨ls, d, hf, hu⟩ := roundTrips (fun h => h rfl) v h
  exact ⟨ls, d, hf, by simpa using hu []⟩

/-- C09.  Whatever is done to the leaves in between (tracing, differentiating, mapping), the
result is a value with exactly the new leaves and with the same tree definition: the same classes
and the same static attributes everywhere. -/
theorem pytree_map_keeps_structure {α : Type} (v : Val α) (h : Made (fun _ => True) v)
    (ls : List (Atom α)) (d : Def α) (hf : flat v = some (ls, d)) (f : Atom α → Atom α) :
    ∃ v', unflat d (ls.map f) = some (v', []) ∧ flat v' = some (ls.map f, d) := by
  obtain ⟨v', hu, hf'⟩ := refillable v h ls d hf (ls.map f) (by simp)
  exact ⟨v', by simpa using hu [], hf'⟩

/-- What `IonSphereIPD` loses: for any two values of `arb_deg`, the objects have the same leaves
and the same tree definition, and the object that comes back has no such attribute. -/
theorem ionSphere_forgets_arb_deg {α : Type} (x y c : α) :
    let ion (a : α) : Val α := .obj (.model .IonSphereIPD) ["arb_deg", "C", "model_key"]
      [.atom (.val a), .atom (.val c), .atom (.str "ipd")]
    flat (ion x) = flat (ion y) ∧
    (flat (ion x)).bind (fun p => unflat p.2 p.1) =
      some (.obj (.model .IonSphereIPD) ["C", "model_key"]
        [.atom (.val c), .atom (.str "ipd")], []) := ⟨rfl, rfl⟩

/-- A plasma state with a `DebyeWallerSolid` (whose child is a model), a sum of two potentials, one
of which is scaled, and an `IonSphereIPD`. -/
def richState (x : Nat) : Val Nat :=
  let q : Val Nat := .atom (.val x)
  let s (t : String) : Val Nat := .atom (.str t)
  let pot (c : Cls) : Val Nat := .obj (.model c) ["_transform_r", "model_key", "include_electrons"]
    [q, s "", s "off"]
  .obj .PlasmaState
    ["ions", "Z_free", "mass_density", "T_i", "models", "_overwritten.ion_core_radius", "T_e"]
    [.list [q, q], q, q, q,
     .dict true ["ionic scattering", "ion-ion Potential", "ipd"]
      [.obj (.model .DebyeWallerSolid) ["S_plasma", "b", "model_key"]
         [.obj (.model .ArkhipovIonFeat) ["model_key"] [s ""], q, s "ionic scattering"],
       .obj (.model .PotentialSum) ["potentials", "model_key", "_include_electrons"]
         [.list [pot .CoulombPotential,
            .obj (.model .ScaledPotential) ["potential", "factor", "_include_electrons", "model_key"]
              [pot .KelbgPotential, q, s "off", s ""]], s "ion-ion Potential", s "off"],
       .obj (.model .IonSphereIPD) ["arb_deg", "C", "model_key"] [q, .none, s "ipd"]],
     .none, q]

/-- The hypothesis of the theorems above is met by that state. -/
example : Made (fun _ => True) (richState 3) := by
  simp [richState, Made, MadeAll, ctorAttrs]

/-- Its leaves: the ions are static, every other number is a leaf. -/
example : (flat (richState 3)).map (fun p => p.1.length) = some 8 := by decide

/-! ### C08: saving and loading -/

/-- C08 (partial: only for classes that are written under their own name, `NameKept`).  Saving any
value made of such objects and loading it gives the same value back, with every object of its
class and every attribute as it was; only tuples have become lists and `JittableDict`s plain
dictionaries (`plain`).  What is missing are the eight classes of `name_kept_iff`, and grids
`_transform_r` that are not evenly spaced. -/
theorem saved_value_restored_partial {α : Type} (g : Grid α) (v : Val α) (h : Savable g v) :
    (dump g v).bind (load g) = some (plain v) := by
  obtain ⟨j, h1, h2⟩ := load_dump g v h
  rw [h1, Option.bind_some, h2]

/-- C08.  Which classes are written under the name under which they are looked up. -/
theorem name_kept_iff (c : TCls) : NameKept c ↔
    c ∉ [TCls.model .ThreePotentialHNCIonFeat, .model .DebyeHueckelIPD,
      .model .StewartPyattPrestonIPD, .model .StewartPyattIPD, .model .IonSphereIPD,
      .model .EckerKroellIPD, .model .PauliBlockingIPD, .FreeBoundFlippedSetup] := by
  rcases c with c | _ | _ | _ | _ | _ | _ | _ | _ <;> try cases c
  all_goals decide

/-- C08 is false as stated.  An object of any of these classes can be written, but loading what
was written fails, whatever the values of its attributes are. -/
theorem saved_object_not_restored {α : Type} (g : Grid α) (c : TCls) (hc : ¬ NameKept c)
    (vs : List (Val α)) (hl : vs.length = (ctorAttrs c).length) (hs : SavableAll g vs) :
    ∃ j, dump g (.obj c (ctorAttrs c) vs) = some j ∧ load g j = none :=
  unnamed_not_restored g c hc vs hl hs

/-- The class of such an object and the values of its attributes are unconstrained: here a
`StewartPyattIPD(arb_deg=...)`. -/
example : ¬ NameKept (.model .StewartPyattIPD) ∧
    SavableAll (α := Nat) ⟨id, id, id, fun a _ _ => a⟩ [.atom (.val 1), .atom (.str "ipd")] := by
  refine ⟨by decide, ?_⟩
  simp [SavableAll, Savable]

/-- A state without these classes meets the hypothesis of `saved_value_restored_partial`; here
evenly spaced grids are those that are unchanged by `lin (lo x) (hi x) (num x) = x`. -/
example : Savable (α := Nat) ⟨id, id, id, fun a _ _ => a⟩
    (.obj .PlasmaState
      ["ions", "Z_free", "mass_density", "T_i", "models", "_overwritten.ion_core_radius", "T_e"]
      [.list [.atom (.val 1)], .atom (.val 2), .atom (.val 3), .atom (.val 4),
       .dict true ["ion-ion Potential", "bf edge"]
        [.obj (.model .CoulombPotential) ["_transform_r", "model_key", "include_electrons"]
           [.atom (.val 7), .atom (.str "ion-ion Potential"), .atom (.str "off")],
         .obj (.model .Heaviside) ["model_key"] [.atom (.str "bf edge")]],
       .none, .atom (.val 5)]) := by
  simp [Savable, SavableAll, EvenGrid, NameKept, ctorAttrs, look, List.lookup, instName, className]

/-! ### C05: equality -/

/-- C05 (partial: only for models of the same class without numerical parameters).  If two
constructed states compare equal then they agree in ions, ionization, densities, temperatures,
overwritten core radius and in the set of keys; and where both hold a model of the same class
whose parameters are all static, both hold the same model.  What is missing is the claim for
models of different classes and for models with numerical parameters, which is false, see
`equal_states_with_different_models` and `equal_states_with_different_parameters`. -/
theorem equal_states_agree_partial {α : Type} (a b : Val α) (h : stateEq a b)
    (ha : Made (fun _ => True) a) (hb : Made (fun _ => True) b) :
    ∃ va vb ja jb ka kb ma mb,
      a = .obj .PlasmaState (ctorAttrs .PlasmaState) va ∧
      b = .obj .PlasmaState (ctorAttrs .PlasmaState) vb ∧
      look (ctorAttrs .PlasmaState) va "models" = some (.dict ja ka ma) ∧
      look (ctorAttrs .PlasmaState) vb "models" = some (.dict jb kb mb) ∧
      (∀ n ∈ ctorAttrs .PlasmaState, n ≠ "models" →
        look (ctorAttrs .PlasmaState) va n = look (ctorAttrs .PlasmaState) vb n) ∧
      (∀ k, k ∈ ka ↔ k ∈ kb) ∧
      ∀ k c n1 v1 n2 v2, look ka ma k = some (.obj c n1 v1) → look kb mb k = some (.obj c n2 v2) →
        flatChildren c = [] → (Val.obj c n1 v1 : Val α) = .obj c n2 v2 :=
  equal_states a b h ha hb

/-- C05.  Comparing states is reflexive, symmetric and transitive on constructed states. -/
theorem state_equality_is_equivalence {α : Type} :
    (∀ a : Val α, (∃ vs j k m, a = .obj .PlasmaState (ctorAttrs .PlasmaState) vs ∧
        look (ctorAttrs .PlasmaState) vs "models" = some (.dict j k m)) → stateEq a a) ∧
    (∀ a b : Val α, stateEq a b → stateEq b a) ∧
    (∀ a b c : Val α, stateEq a b → stateEq b c → stateEq a c) :=
  ⟨fun a ⟨_, _, _, _, e, hm⟩ => stateEq_refl a e hm, stateEq_symm, stateEq_trans⟩

/-- A state with one model. -/
def oneModel (key : String) (m : Val Nat) : Val Nat :=
  .obj .PlasmaState
    ["ions", "Z_free", "mass_density", "T_i", "models", "_overwritten.ion_core_radius", "T_e"]
    [.list [.atom (.val 1)], .atom (.val 2), .atom (.val 3), .atom (.val 4),
     .dict true [key] [m], .none, .atom (.val 5)]

/-- C05 is false as stated: states with different free-free models compare equal, and so do the
models. -/
theorem equal_states_with_different_models :
    let ff (c : Cls) : Val Nat := .obj (.model c) ["sample_points", "model_key"]
      [.none, .atom (.str "free-free scattering")]
    stateEq (oneModel "free-free scattering" (ff .RPA))
      (oneModel "free-free scattering" (ff .RPA_DandreaFit)) ∧
    modelEq (ff .RPA) (ff .RPA_DandreaFit) ∧ ff .RPA ≠ ff .RPA_DandreaFit ∧
    Made (fun _ => True) (oneModel "free-free scattering" (ff .RPA)) ∧
    Made (fun _ => True) (oneModel "free-free scattering" (ff .RPA_DandreaFit)) := by
  refine ⟨?_, ?_, ?_, ?_, ?_⟩
  · refine ⟨by simp [look, List.lookup], rfl, ?_⟩
    exact ⟨fun _ => Iff.rfl, by simp [look, List.lookup, stateEq.staticOf, flattenAttrs, flatAux, flatChildren]⟩
  · exact ⟨rfl, rfl, rfl⟩
  · simp
  · simp [oneModel, Made, MadeAll, ctorAttrs]
  · simp [oneModel, Made, MadeAll, ctorAttrs]

/-- C05 is false as stated: states whose local field correction has different values compare
equal (the models themselves do not). -/
theorem equal_states_with_different_parameters :
    let lfc (x : Nat) : Val Nat := .obj (.model .LFCConstant) ["value", "model_key"]
      [.atom (.val x), .atom (.str "ee-lfc")]
    stateEq (oneModel "ee-lfc" (lfc 0)) (oneModel "ee-lfc" (lfc 1)) ∧
    ¬ modelEq (lfc 0) (lfc 1) ∧
    Made (fun _ => True) (oneModel "ee-lfc" (lfc 0)) ∧
    Made (fun _ => True) (oneModel "ee-lfc" (lfc 1)) := by
  refine ⟨?_, ?_, ?_, ?_⟩
  · refine ⟨by simp [look, List.lookup], rfl, ?_⟩
    exact ⟨fun _ => Iff.rfl, by simp [look, List.lookup, stateEq.staticOf, flattenAttrs, flatAux, flatChildren]⟩
  · rintro ⟨-, -, h⟩
    simp [look, List.lookup, flattenAttrs, flatAux, flatChildren] at h
  · simp [oneModel, Made, MadeAll, ctorAttrs]
  · simp [oneModel, Made, MadeAll, ctorAttrs]

end Verif.Tree
