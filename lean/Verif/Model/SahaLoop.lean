/-
The iterations for the mean charge: /repo/src/jaxrts/ionization.py 570-887.

The ionization potential depression and the chemical potential of the plasma state are arbitrary functions of the
charges `Z_free` (all other entries of the state stay as they are during the iteration) and, for the former, of
the distribution that is passed.  The scalar that `Z_free` is set to at the start is an array with equal entries.
Units are not modelled.
-/
import Verif.Model.Saha

set_option autoImplicit false

namespace Verif.Saha

open Real Verif.Expt Verif.Resp

variable (u : Consts)

/-- What is read from an element: atomic number, statistical weights, sorted ionization energies, the levels of
each charge state; and the density of its ions. -/
structure Elem where
  Z : ℕ
  g : ℕ → ℝ
  E : ℕ → ℝ
  levels : ℕ → List (ℝ × ℝ)
  N : ℝ

/-- The entries of a plasma state that are used. -/
structure Plasma where
  elems : List Elem
  T : ℝ
  ipd : List ℝ → Option (List ℝ) → List (ℕ → ℝ)
  mu : List ℝ → ℝ

/-- plasmastate.py 329-335 `n_e`, for the given `Z_free`. -/
noncomputable def Plasma.nE (p : Plasma) (zfree : List ℝ) : ℝ := ((p.elems.zip zfree).map fun q => q.2 * q.1.N).sum

/-- ionization.py 548-551, 606-609, 657-660, 754-757: no lowering of the continuum. -/
def Plasma.noLowering (p : Plasma) : List (ℕ → ℝ) := p.elems.map fun _ _ => 0

/-- ionization.py 553-566: the balance terms of `solve_saha`. -/
noncomputable def Plasma.sahaList (p : Plasma) (cl : List (ℕ → ℝ)) (exclude : Bool) : List Species :=
  (p.elems.zip cl).map fun q => sahaSpecies u q.1.Z q.1.g q.1.E q.2 p.T q.1.N exclude

/-- ionization.py 611-622: the balance terms of `solve_gen_saha`. -/
noncomputable def Plasma.genList (p : Plasma) (ne mu : ℝ) (cl : List (ℕ → ℝ)) (exclude : Bool) : List Species :=
  (p.elems.zip cl).map fun q => genSahaSpecies u q.1.Z q.1.g q.1.E q.2 p.T ne mu q.1.N exclude

/-- ionization.py 662-665: the balance terms of `solve_BU`. -/
noncomputable def Plasma.buList (p : Plasma) (ne mu : ℝ) (cl : List (ℕ → ℝ)) : List Species :=
  (p.elems.zip cl).map fun q => buSpecies u q.1.Z q.1.levels q.1.E q.2 p.T ne mu q.1.N

/-- The options of `calculate_mean_free_charge_saha` (ionization.py 709-715). -/
structure Options where
  useIpd : Bool
  useChemPot : Bool
  useDistribution : Bool
  exclude : Bool

/-- `plasma_state.Z_free`, `charge_distribution` and `Z_mean` during the iteration. -/
structure Loop where
  zfree : List ℝ
  dist : List ℝ
  zmean : List ℝ

/-- ionization.py 743-757, 775-784, 851-859: the lowering of the continuum. -/
def Plasma.lowering (p : Plasma) (useIpd useDistribution : Bool) (s : Loop) : List (ℕ → ℝ) :=
  if useIpd then p.ipd s.zfree (if useDistribution then some s.dist else none) else p.noLowering

/-- ionization.py 413-511 `solve_ionization`: the assigned results `charge_distribution`, `Z_mean`. -/
def Solved (l : List Species) (dist zmean : List ℝ) : Prop :=
  ∃ y, Solves l y ∧ dist = allDensities l y ∧ zmean = l.map fun s => zbar s y

/-- The balance terms of one iteration: ionization.py 742-765 and 774-797. -/
noncomputable def Plasma.stepList (p : Plasma) (o : Options) (s : Loop) : List Species :=
  let cl := p.lowering o.useIpd o.useDistribution s
  if o.useChemPot then p.genList u (p.nE s.zfree) (p.mu s.zfree) cl o.exclude else p.sahaList u cl o.exclude

/-- ionization.py 742-767 and 774-799: one iteration of `calculate_mean_free_charge_saha`. -/
def Plasma.sahaStep (p : Plasma) (o : Options) (s s' : Loop) : Prop :=
  Solved (p.stepList u o s) s'.dist s'.zmean ∧ s'.zfree = s'.zmean

/-- ionization.py 863-885: one iteration of `calculate_mean_free_charge_BU`. -/
def Plasma.buStep (p : Plasma) (useIpd useDistribution : Bool) (s s' : Loop) : Prop :=
  Solved (p.buList u (p.nE s.zfree) (p.mu s.zfree) (p.lowering useIpd useDistribution s)) s'.dist s'.zmean ∧
    s'.zfree = s'.zmean

/-- A loop of `n` iterations. -/
inductive Iter (step : Loop → Loop → Prop) : ℕ → Loop → Loop → Prop
  | zero (s : Loop) : Iter step 0 s s
  | succ {n : ℕ} {s s' s'' : Loop} : step s s' → Iter step n s' s'' → Iter step (n + 1) s s''

/-- ionization.py 731-733, 846-848: all charges are set to the largest atomic number; the previous `zfree` is
overwritten. -/
def Plasma.reset (p : Plasma) (_zfree : List ℝ) : List ℝ :=
  p.elems.map fun _ => (((p.elems.map fun e => e.Z).foldr max 0 : ℕ) : ℝ)

/-- ionization.py 709-800 `calculate_mean_free_charge_saha`, called when the charges of the state are `zfree`;
`out` holds the two results and the charges of the state afterwards. -/
def Plasma.SahaReturns (p : Plasma) (o : Options) (zfree : List ℝ) (out : Loop) : Prop :=
  ∃ s, s.zfree = p.reset zfree ∧ Solved (p.sahaList u p.noLowering true) s.dist s.zmean ∧
    Iter (p.sahaStep u o) 6 s out

/-- ionization.py 818-887 `calculate_mean_free_charge_BU`; the first solution does not change the charges of the
state. -/
def Plasma.BuReturns (p : Plasma) (useIpd useDistribution : Bool) (zfree : List ℝ) (out : Loop) : Prop :=
  ∃ s, s.zfree = p.reset zfree ∧
    Solved (p.buList u (p.nE s.zfree) (p.mu s.zfree) p.noLowering) s.dist s.zmean ∧
    Iter (p.buStep u useIpd useDistribution) 6 s out

end Verif.Saha
