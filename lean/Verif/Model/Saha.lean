/-
Ionization equilibrium: /repo/src/jaxrts/ionization.py over the real numbers.  Units are not modelled.
Arrays over the charge states are functions of a natural number together with their length.
-/
import Verif.Model.Response
import Verif.Model.Bisection

set_option autoImplicit false

namespace Verif.Saha

open Real Verif.Expt Verif.Resp

variable (u : Consts)

/-- `jnp.heaviside(x, 0)`. -/
noncomputable def heav0 (x : ℝ) : ℝ := if 0 < x then 1 else 0

/-- ionization.py 40-74 `planck_larkin_partition_sum`; `levels` lists degeneracy and energy. -/
noncomputable def planckLarkin (levels : List (ℝ × ℝ)) (T : ℝ) : ℝ :=
  (levels.map fun l =>
    let ratio := l.2 / (T * u.kB)
    l.1 * (exp (-ratio) - 1 + ratio) * heav0 l.2).sum

/-- ionization.py 80-113 `saha_equation`. -/
noncomputable def sahaEquation (gi gj T dE : ℝ) : ℝ :=
  gj / gi * 2 / thermDeBroglie u T ^ 3 * exp (-dE / (u.kB * T))

/-- ionization.py 116-168 `gen_saha_equation`. -/
noncomputable def genSahaEquation (gi gj T ne dE mu : ℝ) : ℝ :=
  gj / gi * ne * exp (-dE / (1 * u.kB * T)) * exp (-mu / (1 * u.kB * T))

/-- ionization.py 171-208 `gen_balance_equation`. -/
noncomputable def genBalance (pi pj T ne mu : ℝ) : ℝ := pj / pi * ne * exp (-mu / (1 * u.kB * T))

/-- ionization.py 211-227 `BalanceTerm` together with the number `Z` of transitions and the total
density `N` of the element.  Entries with index `Z` and above are not used. -/
structure Species where
  Z : ℕ
  coeff : ℕ → ℝ
  mask : ℕ → ℝ
  N : ℝ

/-- ionization.py 233-263 `saha_balance_term` (and lines 561-565: all states are kept when
`exclude_non_negative_energies=False`).  `g` are the statistical weights, `E` the sorted energies,
`ipd` the shifts. -/
noncomputable def sahaSpecies (Z : ℕ) (g E ipd : ℕ → ℝ) (T N : ℝ) (exclude : Bool) : Species :=
  ⟨Z, fun k => sahaEquation u (g k) (g (k + 1)) T (E k + ipd k),
    fun k => if exclude then heav0 (E k + ipd k) else 1, N⟩

/-- ionization.py 266-301 `gen_saha_balance_term`. -/
noncomputable def genSahaSpecies (Z : ℕ) (g E ipd : ℕ → ℝ) (T ne mu N : ℝ) (exclude : Bool) : Species :=
  ⟨Z, fun k => genSahaEquation u (g k) (g (k + 1)) T ne (E k + ipd k) mu,
    fun k => if exclude then heav0 (E k + ipd k) else 1, N⟩

/-- ionization.py 304-363 `bu_balance_term`: `levels k` are the degeneracies and excitation energies of
the charge state `k`. -/
noncomputable def buSpecies (Z : ℕ) (levels : ℕ → List (ℝ × ℝ)) (E ipd : ℕ → ℝ) (T ne mu N : ℝ) : Species :=
  let part := fun k => if k < Z then
      planckLarkin u ((levels k).map fun l => (l.1, E k + ipd k - l.2)) T else 1
  ⟨Z, fun k => genBalance u (part k) (part (k + 1)) T ne mu, fun k => heav0 (part k), N⟩

/-- ionization.py 369-395 `_log_partition_products`: entry `i` of the result, `none` is minus
infinity. -/
noncomputable def logP (s : Species) (logNe : ℝ) (i : ℕ) : Option ℝ :=
  if i < s.Z ∧ ¬ 0 < s.mask i then none
  else some (∑ k ∈ Finset.range i, if 0 < s.mask k then log (s.coeff k) - logNe else 0)

/-- ionization.py 408: `jnp.clip(log_P, min=-500, max=500)`. -/
noncomputable def clip500 : Option ℝ → ℝ
  | none => -500
  | some x => min (max x (-500)) 500

/-- ionization.py 398-410 `_zbar_and_weights`: the softmax. -/
noncomputable def weight (s : Species) (logNe : ℝ) (i : ℕ) : ℝ :=
  exp (clip500 (logP s logNe i)) / ∑ j ∈ Finset.range (s.Z + 1), exp (clip500 (logP s logNe j))

/-- ionization.py 398-410: the mean charge. -/
noncomputable def zbar (s : Species) (logNe : ℝ) : ℝ :=
  ∑ i ∈ Finset.range (s.Z + 1), (i : ℝ) * weight s logNe i

/-- ionization.py 459: the largest possible electron density. -/
noncomputable def maxNe (l : List Species) : ℝ := (l.map fun s => (s.Z : ℝ) * s.N).sum

/-- ionization.py 469-479 `residual`. -/
noncomputable def residual (l : List Species) (logNe : ℝ) : ℝ :=
  exp logNe - (l.map fun s => s.N * zbar s logNe).sum

/-- ionization.py 481-491: `bisection` returns the logarithm of the electron density. -/
def Solves (l : List Species) (logNe : ℝ) : Prop :=
  ∃ n, Bisection.Returns (residual l) ⟨1 / 100000000, 1000, 1⟩ (log (1 / 100000000)) (log (maxNe l)) logNe n

/-- ionization.py 495-502: the densities of all charge states of one element. -/
noncomputable def densities (s : Species) (logNe : ℝ) : List ℝ :=
  (List.range (s.Z + 1)).map fun i => s.N * weight s logNe i

/-- ionization.py 504-511: the first result, the densities of all elements one after the other. -/
noncomputable def allDensities (l : List Species) (logNe : ℝ) : List ℝ :=
  (l.map fun s => densities s logNe).flatten

/-- ionization.py 681-706 `calculate_charge_state_distribution`: the densities divided by their sum. -/
noncomputable def fractions (l : List Species) (logNe : ℝ) : List ℝ :=
  (allDensities l logNe).map fun x => x / (allDensities l logNe).sum

/-! ### Thomas-Fermi ionization -/

/-- ionization.py 894-909: `x` of `_calculate_single_species_ionization_more`. `rho` in g/cc, `T` in eV,
`m` in atomic units. -/
noncomputable def moreX (rho T m Z : ℝ) : ℝ :=
  let R := rho / m / Z
  let T0 := T / Z ^ (4 / 3 : ℝ)
  let Tf := T0 / (1 + T0)
  let A := 3323 / 1000000 * T0 ^ (9718 / 10000 : ℝ) + 926148 / 10000000000 * T0 ^ (310165 / 100000 : ℝ)
  let B := -exp (-17630 / 10000 + 143175 / 100000 * Tf + 31546 / 100000 * Tf ^ 7)
  let C := -366667 / 1000000 * Tf + 983333 / 1000000
  let Q1 := A * R ^ B
  let Q := (R ^ C + Q1 ^ C) ^ (1 / C)
  143139 / 10000 * Q ^ (6624 / 10000 : ℝ)

/-- ionization.py 911: the mean charge. -/
noncomputable def moreZ (rho T m Z : ℝ) : ℝ :=
  Z * moreX rho T m Z / (1 + moreX rho T m Z + sqrt (1 + 2 * moreX rho T m Z))

/-- ionization.py 993-1009 `body_fun` of `calculate_mean_free_charge_more`; `amu` is the atomic mass
unit in gram. -/
noncomputable def moreBody {n : ℕ} (amu : ℝ) (ni m Z : Fin n → ℝ) (T : ℝ) (zb : Fin n → ℝ) : Fin n → ℝ :=
  let ne := ∑ i, ni i * zb i
  fun i => moreZ (ne / zb i * (m i * amu)) T (m i) (Z i)

open Classical in
/-- ionization.py 1011-1015 `cond_fun`. -/
noncomputable def moreCond {n : ℕ} (s : (Fin n → ℝ) × (Fin n → ℝ) × ℕ) : Bool :=
  decide ((∃ i, |s.2.1 i - s.1 i| > 1 / 100000) ∧ s.2.2 < 100)

/-- ionization.py 1017-1020 `loop_body`. -/
noncomputable def moreLoop {n : ℕ} (amu : ℝ) (ni m Z : Fin n → ℝ) (T : ℝ) (s : (Fin n → ℝ) × (Fin n → ℝ) × ℕ) :
    (Fin n → ℝ) × (Fin n → ℝ) × ℕ :=
  (s.2.1, moreBody amu ni m Z T s.2.1, s.2.2 + 1)

/-- `jax.lax.while_loop` of ionization.py 1025. -/
inductive MoreWhile {n : ℕ} (amu : ℝ) (ni m Z : Fin n → ℝ) (T : ℝ) :
    (Fin n → ℝ) × (Fin n → ℝ) × ℕ → (Fin n → ℝ) × (Fin n → ℝ) × ℕ → Prop
  | stop {s} : moreCond s = false → MoreWhile amu ni m Z T s s
  | step {s s'} : moreCond s = true → MoreWhile amu ni m Z T (moreLoop amu ni m Z T s) s' → MoreWhile amu ni m Z T s s'

/-- ionization.py 957-1027 `calculate_mean_free_charge_more` returns `z`. -/
def MoreReturns {n : ℕ} (amu : ℝ) (ni m Z : Fin n → ℝ) (T : ℝ) (z : Fin n → ℝ) : Prop :=
  ∃ s, MoreWhile amu ni m Z T (fun i => 1 / 2 * Z i, moreBody amu ni m Z T (fun i => 1 / 2 * Z i), 0) s ∧ s.2.1 = z

end Verif.Saha
