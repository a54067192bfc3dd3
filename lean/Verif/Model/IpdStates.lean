/-
The ionization potential depression for all charge states, `all_element_states` of the classes of
/repo/src/jaxrts/models.py 3440-4066, and `evaluate` of the same classes.

Arrays over the species are functions on `Fin n`; a number without a shape is kept apart from them, because it cannot
be indexed.  `none` stands for an exception.  The interpolated chemical potential is a parameter `mu`.
-/
import Verif.Model.Ipd

set_option autoImplicit false

namespace Verif.Ipd

open Verif.Expt

/-- The state of a plasma: atomic numbers, mean charges, densities and temperatures. -/
structure IpdState (n : ℕ) where
  Z : Fin n → ℕ
  Zfree : Fin n → ℝ
  ni : Fin n → ℝ
  Ti : Fin n → ℝ
  ne : ℝ
  Te : ℝ

/-- A number without a shape, or an array with an entry for each species. -/
inductive Val (n : ℕ) where
  | scalar (x : ℝ)
  | array (v : Fin n → ℝ)

/-- `v[idx]`: a number without a shape raises. -/
def Val.index {n : ℕ} : Val n → Fin n → Option ℝ
  | .scalar _, _ => none
  | .array v, j => some (v j)

/-- The entry of a species after broadcasting. -/
def Val.at {n : ℕ} : Val n → Fin n → ℝ
  | .scalar x, _ => x
  | .array v, j => v j

/-- `a + b` with broadcasting. -/
noncomputable def Val.add {n : ℕ} : Val n → Val n → Val n
  | .scalar x, .scalar y => .scalar (x + y)
  | a, b => .array fun j => a.at j + b.at j

/-- The models of the depression: models.py 295-331, 3494-3540, 3543-3612, 3615-3700, 3703-3773, 3776-3853,
3856-3952, 3955-4005, 4008-4065.  The second argument `arb` of `Ipd.debyeHueckel` etc. stands for `arb_deg`.
`Neglect` has its key, which is empty unless the model is set as an attribute of a state (plasmastate.py 130). -/
inductive IpdModel (n : ℕ) where
  | neglect (key : String)
  | constant (value : Val n)
  | debyeHueckel (arb : Option (ℝ → ℝ → ℝ))
  | preston (arb : Option (ℝ → ℝ → ℝ)) (crowley : Bool)
  | stewartPyatt (arb : Option (ℝ → ℝ → ℝ))
  | ionSphere (C : Option ℝ)
  | eckerKroell (arb : Option (ℝ → ℝ → ℝ)) (C : Option ℝ)
  | pauli
  | sum (models : List (IpdModel n))

variable (u : Consts) (mu : ℝ → ℝ → ℝ) {n : ℕ}

/-- ipd.py 363-488 `ipd_ecker_kroell` with its indexing of the critical density (line 430, `n_c[:, None]`), which
raises if `Z_max` is a number. -/
noncomputable def eckerKroellCall (arb : Option (ℝ → ℝ → ℝ)) (C : Option ℝ) (Zi : Fin n → ℝ) (Zmax : Val n) (s : IpdState n) :
    Option (Fin n → ℝ) :=
  match Zmax with
  | .scalar _ => none
  | .array Zm => some fun j => eckerKroell u arb C (Zi j) s.Zfree s.ni s.Ti Zm s.ne s.Te j

mutual

/-- `evaluate` of the models: models.py 305-313, 3504-3508, 3567-3576, 3652-3661, 3728-3737, 3809-3816, 3898-3911,
3975-3982, 4028-4034. -/
noncomputable def IpdModel.evaluate (s : IpdState n) : IpdModel n → Option (Val n)
  | .neglect key => if key = "ipd" then some (.array fun _ => 0) else none
  | .constant v => some v
  | .debyeHueckel arb => some (.array fun j => Ipd.debyeHueckel u arb (s.Zfree j) s.Zfree s.ni s.Ti s.ne s.Te j)
  | .preston arb crowley => some (.array fun j => Ipd.preston u arb none crowley (s.Zfree j) s.ni s.Ti s.ne s.Te j)
  | .stewartPyatt arb => some (.array fun j => Ipd.stewartPyatt u arb (s.Zfree j) s.Zfree s.ni s.Ti s.ne s.Te j)
  | .ionSphere C => some (.array fun j => Ipd.ionSphere u C (s.Zfree j) s.Zfree s.ne j)
  | .eckerKroell arb C => (eckerKroellCall u arb C s.Zfree (.array fun j => (s.Z j : ℝ)) s).map Val.array
  | .pauli => some (.array fun j => pauliBlocking u (s.Zfree j) (mu s.Te s.ne) s.Te)
  | .sum l => IpdModel.evaluateSum s (.scalar 0) l

/-- models.py 4031-4034: the loop of `IPDSum.evaluate`. -/
noncomputable def IpdModel.evaluateSum (s : IpdState n) (out : Val n) : List (IpdModel n) → Option (Val n)
  | [] => some out
  | m :: l =>
    match IpdModel.evaluate s m with
    | none => none
    | some v => IpdModel.evaluateSum s (out.add v) l

end

open Classical in
/-- The lists of the entries for the charge states from 0 to `Z - 1` of each species, if none of them raises. -/
noncomputable def stages (s : IpdState n) (entry : Fin n → ℕ → Option ℝ) : Option (Fin n → List ℝ) :=
  if ∀ j q, q < s.Z j → (entry j q).isSome then
    some fun j => (List.range (s.Z j)).map fun q => (entry j q).getD 0
  else none

mutual

/-- `all_element_states` of the models: models.py 322-331, 3526-3540, 3579-3600, 3677-3700, 3740-3761, 3819-3840,
3914-3938, 3985-4005, 4037-4051; `pop` is the argument `ion_population`. -/
noncomputable def IpdModel.all (s : IpdState n) (pop : Option (List ℝ)) : IpdModel n → Option (Fin n → List ℝ)
  | .neglect _ => stages s fun _ _ => some 0
  | .constant v => stages s fun j _ => v.index j
  | .debyeHueckel arb => stages s fun j q => some (Ipd.debyeHueckel u arb q s.Zfree s.ni s.Ti s.ne s.Te j)
  | .preston arb crowley => stages s fun j q => some (Ipd.preston u arb pop crowley q s.ni s.Ti s.ne s.Te j)
  | .stewartPyatt arb => stages s fun j q => some (Ipd.stewartPyatt u arb q s.Zfree s.ni s.Ti s.ne s.Te j)
  | .ionSphere C => stages s fun j q => some (Ipd.ionSphere u C q s.Zfree s.ne j)
  | .eckerKroell arb C => stages s fun j q => (eckerKroellCall u arb C (fun _ => (q : ℝ)) (.scalar (s.Z j)) s).map fun v => v j
  | .pauli => stages s fun j _ => some (pauliBlocking u (s.Zfree j) (mu s.Te s.ne) s.Te)
  | .sum l =>
    match IpdModel.allList s pop l with
    | none => none
    | some [] => none  -- line 4047: the first of no results
    | some (out :: rest) => some fun j => rest.foldl (fun o r => List.zipWith (· + ·) o (r j)) (out j)

/-- models.py 4042-4046: the results of all members. -/
noncomputable def IpdModel.allList (s : IpdState n) (pop : Option (List ℝ)) : List (IpdModel n) → Option (List (Fin n → List ℝ))
  | [] => some []
  | m :: l =>
    match IpdModel.all s pop m, IpdModel.allList s pop l with
    | some v, some vs => some (v :: vs)
    | _, _ => none

end

end Verif.Ipd
