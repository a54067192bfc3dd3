/-
The bound-free models `SchumacherImpulse` and `SchumacherImpulseColdEdges` as a whole, from the state of the plasma to
the spectrum before the convolution: /repo/src/jaxrts/models.py 2589-2928.

The tables of binding energies, the ionization potential depressions and the form factors are data of the ions here;
they are modelled in Elements, IpdStates and Bound.
-/
import Verif.Model.Bound

set_option autoImplicit false

namespace Verif.BoundFree

open Real Verif.Expt Verif.Bound

variable (u : Consts)

/-- What the models read of one ion. -/
structure Ion where
  /-- number fraction -/
  x : ℝ
  ZA : ℕ
  /-- mean charge -/
  charge : ℝ
  /-- elements.py 1673-1688 `get_binding_energies`, for each charge -/
  table : ℝ → Fin 10 → ℝ
  /-- elements.py 1669-1671 `cold_binding_energies` -/
  cold : Fin 10 → ℝ
  /-- the entry of the ion in the result of the 'ipd' model -/
  ipd : ℝ
  /-- the column of the ion in the result of the 'form-factors' model, for the wave number of the setup -/
  ff : ℝ → Fin 10 → ℝ

/-- The models for the key 'bf edge', models.py 5243-5315. -/
inductive Edge where
  | noEdge | nonNegative | heaviside | fermi

/-- Their `evaluate`. -/
noncomputable def Edge.evaluate (T loss E : ℝ) : Edge → ℝ
  | .noEdge => edgeNone T loss E
  | .nonNegative => edgeNonNegative T loss E
  | .heaviside => edgeHeaviside T loss E
  | .fermi => edgeFermi u T loss E

/-- models.py 2678-2687 and 2857-2864: binding energies with depression, zero in place of negative ones. -/
noncomputable def shifted (ipd : ℝ) (E : Fin 10 → ℝ) : Fin 10 → ℝ := fun o => if E o + ipd < 0 then 0 else E o + ipd

/-- models.py 2694, 2870: the population of the orbitals, with the given number of bound electrons. -/
noncomputable def population (Zcore : ℝ) : Fin 10 → ℝ := fun o => (Interp.electronDistribution Zcore).getD o 0

/-- models.py 2690-2692, 2866-2868: the charges seen by the orbitals. -/
noncomputable def effectiveCharge (ZA : ℕ) (Zcore : ℝ) : Fin 10 → ℝ := fun o => ZA - (Interp.paulingScreening Zcore).getD o 0

/-- models.py 2677-2729 `calculate_scattering_for_charge_state`. -/
noncomputable def chargeState (edge : Edge) (Te rk k0 loss k : ℝ) (i : Ion) (q : ℝ) : ℝ :=
  bfState u (loss / u.hbar) k rk (population (i.ZA - q)) (effectiveCharge i.ZA (i.ZA - q)) (i.ff k0)
    (fun o => edge.evaluate u Te loss (shifted i.ipd (i.table q) o)) (i.ZA - q)

/-- models.py 2659-2776 `SchumacherImpulse.evaluate_raw` in one channel, as a function of the wave number of the setup,
of the energy of the channel relative to that of the probe, and of the wave number of the channel. -/
noncomputable def impulse (edge : Edge) (Te rk : ℝ) (ions : List Ion) (k0 shift k : ℝ) : ℝ :=
  bfTotal (ions.map fun i => (i.x, (i.ZA : ℝ), i.charge, chargeState u edge Te rk k0 (-shift) k i))
    (ions.map fun i => (i.ZA : ℝ) * i.x).sum

/-- models.py 2855-2911: one ion of `SchumacherImpulseColdEdges.evaluate_raw`, with the mean charge in place of those of
the charge states. -/
noncomputable def coldIon (edge : Edge) (Te rk k0 loss k : ℝ) (i : Ion) : ℝ :=
  bfState u (loss / u.hbar) k rk (population (i.ZA - i.charge)) (effectiveCharge i.ZA (i.ZA - i.charge)) (i.ff k0)
    (fun o => edge.evaluate u Te loss (shifted i.ipd i.cold o)) (i.ZA - i.charge)

/-- models.py 2843-2912 `SchumacherImpulseColdEdges.evaluate_raw` in one channel. -/
noncomputable def coldImpulse (edge : Edge) (Te rk : ℝ) (ions : List Ion) (k0 shift k : ℝ) : ℝ :=
  (ions.map fun i => coldIon u edge Te rk k0 (-shift) k i * i.x).sum / (ions.map fun i => (i.ZA : ℝ) * i.x).sum

/-- models.py 2664-2667: `evaluate_raw` of both models for a setup. -/
noncomputable def evaluateRaw (cold : Bool) (edge : Edge) (Te ne rk : ℝ) (ions : List Ion) (s : Setup) : List ℝ :=
  List.zipWith (fun E k =>
    if cold then coldImpulse u edge Te rk ions (s.k u) (E - s.energy) k else impulse u edge Te rk ions (s.k u) (E - s.energy) k)
    s.measured (s.dispersionK u ne)

end Verif.BoundFree
