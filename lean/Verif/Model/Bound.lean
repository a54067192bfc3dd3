/-
Model of bound electrons: form_factors.py, bound_free.py, the form factor, edge and impulse
approximation models of models.py.

Numbers are exact reals.  Wave numbers, energies and effective charges carry no units.
-/
import Verif.Model.Response
import Verif.Model.Interp
import Mathlib.Analysis.SpecialFunctions.Trigonometric.Arctan
import Mathlib.Data.Nat.Factorial.Basic
import Mathlib.Algebra.BigOperators.Fin

set_option autoImplicit false

namespace Verif.Bound

open Real Verif.Expt Verif.Resp Verif.Interp

variable (u : Consts)

/-! ### Form factors -/

/-- form_factors.py 93-94 `pauling_xf`. -/
noncomputable def xf (k Z : ℝ) : ℝ := k * bohr u / (2 * Z)

/-- form_factors.py 98-100 `pauling_f10`. -/
noncomputable def f10 (k Z : ℝ) : ℝ := 1 / (1 + xf u k Z ^ 2) ^ 2

/-- form_factors.py 104-106 `pauling_f21`. -/
noncomputable def f21 (k Z : ℝ) : ℝ :=
  let x := 2 * xf u k Z
  (1 - x ^ 2) / (1 + x ^ 2) ^ 4

/-- form_factors.py 110-112 `pauling_f20`. -/
noncomputable def f20 (k Z : ℝ) : ℝ :=
  let x := 2 * xf u k Z
  (1 - 2 * x ^ 2) * f21 u k Z

/-- form_factors.py 116-118 `pauling_f32`. -/
noncomputable def f32 (k Z : ℝ) : ℝ :=
  let x := 3 * xf u k Z
  (1 - 3 * x ^ 2) * (3 - x ^ 2) / (3 * (1 + x ^ 2) ^ 6)

/-- form_factors.py 122-124 `pauling_f31`. -/
noncomputable def f31 (k Z : ℝ) : ℝ :=
  let x := 3 * xf u k Z
  (1 - 4 * x ^ 2) * f32 u k Z

/-- form_factors.py 128-130 `pauling_f30`. -/
noncomputable def f30 (k Z : ℝ) : ℝ :=
  let x := 3 * xf u k Z
  (1 - 6 * x ^ 2 + 3 * x ^ 4) * f32 u k Z

/-- form_factors.py 134-136 `pauling_f43`. -/
noncomputable def f43 (k Z : ℝ) : ℝ :=
  let x := 4 * xf u k Z
  (1 - x ^ 2) * (1 - 6 * x ^ 2 + x ^ 4) / (1 + x ^ 2) ^ 8

/-- form_factors.py 140-142 `pauling_f42`. -/
noncomputable def f42 (k Z : ℝ) : ℝ :=
  let x := 4 * xf u k Z
  (1 - 6 * x ^ 2) * f43 u k Z

/-- form_factors.py 146-148 `pauling_f41`. -/
noncomputable def f41 (k Z : ℝ) : ℝ :=
  let x := 4 * xf u k Z
  (1 - 10 * x ^ 2 + 10 * x ^ 4) * f43 u k Z

/-- form_factors.py 152-154 `pauling_f40`. -/
noncomputable def f40 (k Z : ℝ) : ℝ :=
  let x := 4 * xf u k Z
  (1 - 12 * x ^ 2 + 18 * x ^ 4 - 4 * x ^ 6) * f43 u k Z

/-- form_factors.py 157-189 `pauling_atomic_ff`: look-up by quantum numbers; `none` is the `KeyError`
of `globals()[...]`. -/
noncomputable def atomicFF (n l : ℕ) (k Z : ℝ) : Option ℝ :=
  match n, l with
  | 1, 0 => some (f10 u k Z)
  | 2, 0 => some (f20 u k Z)
  | 2, 1 => some (f21 u k Z)
  | 3, 0 => some (f30 u k Z)
  | 3, 1 => some (f31 u k Z)
  | 3, 2 => some (f32 u k Z)
  | 4, 0 => some (f40 u k Z)
  | 4, 1 => some (f41 u k Z)
  | 4, 2 => some (f42 u k Z)
  | 4, 3 => some (f43 u k Z)
  | _, _ => none

/-- form_factors.py 193-207 `pauling_all_ff` for one ion. -/
noncomputable def allFF (k : ℝ) (Z : Fin 10 → ℝ) : Fin 10 → ℝ :=
  ![f10 u k (Z 0), f20 u k (Z 1), f21 u k (Z 2), f30 u k (Z 3), f31 u k (Z 4), f32 u k (Z 5),
    f40 u k (Z 6), f41 u k (Z 7), f42 u k (Z 8), f43 u k (Z 9)]

/-- form_factors.py 211-261 `form_factor_lowering_Zeff_10`, for one of the two binding energies: the
first entry (`heLike = false`) is compared with hydrogen, the second with helium. -/
noncomputable def loweringZeff (E ZA : ℝ) (corr heLike : Bool) : ℝ :=
  let EnH : ℝ := 13605693122994 / 1000000000000
  let En := if heLike then EnH - 121318355 / 10000000 / ZA else EnH
  let En := if corr then En + 17728 / 100000000 * ZA ^ 2 else En
  sqrt (E * 1 ^ 2 / En)

/-- form_factors.py 265-306 `form_factor_lowering_10`. -/
noncomputable def lowering10 (k E0 E1 Zcore ZA : ℝ) (corr : Bool) : ℝ :=
  let fH := f10 u k (loweringZeff E0 ZA corr false)
  let fHe := f10 u k (loweringZeff E1 ZA corr true)
  let xHe := max 0 (min 1 (Zcore - 1))
  (1 - xHe) * fH + xHe * fHe

/-! ### Form factor models -/

/-- models.py 3118-3131 `PaulingFormFactors.evaluate`: one column for each ion, one row for each
orbital. -/
noncomputable def paulingFF {n : ℕ} (k : ℝ) (ZA Zcore : Fin n → ℝ) : Fin 10 → Fin n → ℝ :=
  fun orb i => allFF u k (fun o => ZA i - arr (paulingScreening (Zcore i)) o) orb

/-- `ff.at[i, j].set(v)`: the entry in row `i` and column `j`; an index outside the array is ignored
(jax drops such updates). -/
def setAt {r c : ℕ} (ff : Fin r → Fin c → ℝ) (i j : ℕ) (v : ℝ) : Fin r → Fin c → ℝ :=
  fun a b => if (a : ℕ) = i ∧ (b : ℕ) = j then v else ff a b

/-- models.py 3176-3228 `FormFactorLowering.evaluate`.  `f1s i` is the lowered 1s form factor of ion
`i` (lines 3193-3223).  Line 3226 writes it to row `i`, column 0. -/
noncomputable def loweringFF {n : ℕ} (ff : Fin 10 → Fin n → ℝ) (f1s : ℕ → ℝ) : Fin 10 → Fin n → ℝ :=
  (List.range n).foldl (fun a i => setAt a i 0 (f1s i)) ff

/-- models.py 3193-3223: the lowered 1s form factor of one ion.  `energies` is the table of ionization
energies in the order of `elem.ionization.energies`, `ipd` the (negative) shift. -/
noncomputable def lowered1s (k : ℝ) (energies : List ℝ) (ipd Zcore : ℝ) (Z : ℕ) (corr : Bool) : ℝ :=
  let rev := energies.reverse
  let fix := fun (E : ℝ) => if E < 0 then 1 / 1000000 else E
  let E0 := fix (rev.getD 0 0 + ipd)
  let E1 := fix (if Z = 1 then 0 else rev.getD 1 0 + ipd)
  lowering10 u k E0 E1 Zcore Z corr

/-! ### Compton profiles -/

/-- The fine structure constant. -/
noncomputable def alphaFS : ℝ := u.e ^ 2 / (4 * π * u.eps0 * u.hbar * u.c)

/-- bound_free.py 18-21 `_xi`. -/
noncomputable def xi (n : ℕ) (Z omega k : ℝ) : ℝ :=
  let omegaC := u.hbar * k ^ 2 / (2 * u.me)
  let q := (omega - omegaC) / (u.c * k)
  n * q / (Z * alphaFS u)

/-- bound_free.py 31-36 `_J10_BM`. -/
noncomputable def j10BM (omega k Z : ℝ) : ℝ :=
  8 / (3 * π * Z * alphaFS u * (1 + xi u 1 Z omega k ^ 2) ^ 3)

/-- bound_free.py 39-48 `_J20_BM`. -/
noncomputable def j20BM (omega k Z : ℝ) : ℝ :=
  let x := xi u 2 Z omega k
  64 / (π * Z * alphaFS u) *
    (1 / (3 * (1 + x ^ 2) ^ 3) - 1 / (1 + x ^ 2) ^ 4 + 4 / (5 * (1 + x ^ 2) ^ 5))

/-- bound_free.py 51-58 `_J21_BM`. -/
noncomputable def j21BM (omega k Z : ℝ) : ℝ :=
  let x := xi u 2 Z omega k
  64 / (15 * π * Z * alphaFS u) * ((1 + 5 * x ^ 2) / (1 + x ^ 2) ^ 5)

/-- bound_free.py 61-69 `_pref_Schumacher_1975`. -/
noncomputable def prefSchum (n l : ℕ) (Z : ℝ) : ℝ :=
  2 ^ (4 * l + 3) / π * ((Nat.factorial (n - l - 1) : ℝ) / Nat.factorial (n + l)) *
    ((n : ℝ) ^ 2 * (Nat.factorial l : ℝ) ^ 2 / (Z * alphaFS u))

/-- bound_free.py 72-76 `_phi10_Schum75`. -/
noncomputable def phi10 (y : ℝ) : ℝ := 1 / (3 * y ^ 3)

/-- bound_free.py 79-83 `_phi20_Schum75`. -/
noncomputable def phi20 (y : ℝ) : ℝ := 4 * (1 / (3 * y ^ 3) - 1 / y ^ 4 + 4 / (5 * y ^ 5))

/-- bound_free.py 86-90 `_phi21_Schum75`. -/
noncomputable def phi21 (y : ℝ) : ℝ := 1 / (4 * y ^ 4) - 1 / (5 * y ^ 5)

/-- bound_free.py 93-103 `_phi30_Schum75`. -/
noncomputable def phi30 (y : ℝ) : ℝ :=
  3 * (y ^ 3)⁻¹ - 24 * (y ^ 4)⁻¹ + 352 / 5 * (y ^ 5)⁻¹ - 256 / 3 * (y ^ 6)⁻¹ + 256 / 7 * (y ^ 7)⁻¹

/-- bound_free.py 106-115 `_phi31_Schum75`. -/
noncomputable def phi31 (y : ℝ) : ℝ :=
  16 * (4 / 3) * (y ^ 4)⁻¹ - (y ^ 5)⁻¹ + 4 / 3 * (y ^ 6)⁻¹ - 4 / 7 * (y ^ 7)⁻¹

/-- bound_free.py 118-122 `_phi32_Schum75`. -/
noncomputable def phi32 (y : ℝ) : ℝ := 3 / 5 * (y ^ 5)⁻¹ - 3 / 5 * (y ^ 6)⁻¹ + 1 / 7 * (y ^ 7)⁻¹

/-- bound_free.py 125-137 `_phi40_Schum75`. -/
noncomputable def phi40 (y : ℝ) : ℝ :=
  16 * (3 / 5) * (y ^ 3)⁻¹ - 5 * (y ^ 4)⁻¹ + 148 / 5 * (y ^ 5)⁻¹ - 256 / 3 * (y ^ 6)⁻¹ +
    128 * (y ^ 7)⁻¹ - 96 * (y ^ 8)⁻¹ + 256 / 9 * (y ^ 9)⁻¹

/-- bound_free.py 140-151 `_phi41_Schum75`. -/
noncomputable def phi41 (y : ℝ) : ℝ :=
  4 * (25 / 4) * (y ^ 4)⁻¹ - 53 * (y ^ 5)⁻¹ + 176 * (y ^ 6)⁻¹ - 1968 / 7 * (y ^ 7)⁻¹ +
    216 * (y ^ 8)⁻¹ - 64 * (y ^ 9)⁻¹

/-- bound_free.py 154-164 `_phi42_Schum75`. -/
noncomputable def phi42 (y : ℝ) : ℝ :=
  36 * (15 / 7) * (y ^ 5)⁻¹ - (y ^ 6)⁻¹ + 13 / 7 * (y ^ 7)⁻¹ - 3 / 2 * (y ^ 8)⁻¹ + 4 / 9 * (y ^ 9)⁻¹

/-- bound_free.py 167-176 `_phi43_Schum75`. -/
noncomputable def phi43 (y : ℝ) : ℝ :=
  6 / 7 * (y ^ 6)⁻¹ - 3 / 7 * (y ^ 7)⁻¹ + 3 / 8 * (y ^ 8)⁻¹ - 1 / 9 * (y ^ 9)⁻¹

/-- bound_free.py 179-193 `_phi50_Schum75`. -/
noncomputable def phi50 (y : ℝ) : ℝ :=
  25 / 3 * (y ^ 3)⁻¹ - 200 * (y ^ 4)⁻¹ + 1952 * (y ^ 5)⁻¹ - 29440 / 3 * (y ^ 6)⁻¹ + 197376 / 7 * (y ^ 7)⁻¹ -
    48 * 128 * (y ^ 8)⁻¹ + 434176 / 9 * (y ^ 9)⁻¹ - 131072 / 5 * (y ^ 10)⁻¹ + 65536 / 11 * (y ^ 11)⁻¹

/-- bound_free.py 196-209 `_phi51_Schum75`. -/
noncomputable def phi51 (y : ℝ) : ℝ :=
  100 * (y ^ 4)⁻¹ - 1424 * (y ^ 5)⁻¹ + 8384 * (y ^ 6)⁻¹ - 182848 / 7 * (y ^ 7)⁻¹ + 46 * 592 * (y ^ 8)⁻¹ -
    143360 / 3 * (y ^ 9)⁻¹ + 131072 / 5 * (y ^ 10)⁻¹ - 65536 / 11 * (y ^ 11)⁻¹

/-- bound_free.py 212-224 `_phi52_Schum75`. -/
noncomputable def phi52 (y : ℝ) : ℝ :=
  9 * (49 / 5) * (y ^ 5)⁻¹ - 91 * (y ^ 6)⁻¹ + 2417 / 7 * (y ^ 7)⁻¹ - 680 * (y ^ 8)⁻¹ + 6592 / 9 * (y ^ 9)⁻¹ -
    2048 / 5 * (y ^ 10)⁻¹ + 1024 / 11 * (y ^ 11)⁻¹

/-- bound_free.py 24-28 `_y`. -/
noncomputable def yArg (n : ℕ) (Z omega k : ℝ) : ℝ := 1 + xi u n Z omega k ^ 2

/-- bound_free.py 328-335 `_J50_Schum75`. -/
noncomputable def j50 (omega k Z : ℝ) : ℝ := prefSchum u 5 0 Z * phi50 (yArg u 5 Z omega k)

/-- bound_free.py 338-345 `_J51_Schum75`. -/
noncomputable def j51 (omega k Z : ℝ) : ℝ := prefSchum u 5 1 Z * phi51 (yArg u 5 Z omega k)

/-- bound_free.py 348-355 `_J52_Schum75`. -/
noncomputable def j52 (omega k Z : ℝ) : ℝ := prefSchum u 5 2 Z * phi52 (yArg u 5 Z omega k)

/-- bound_free.py 227-325: the ten functions `_J10_Schum75` ... `_J43_Schum75`, in the order of
`all_J_Schum75` (lines 482-498). -/
noncomputable def orbN : Fin 10 → ℕ := ![1, 2, 2, 3, 3, 3, 4, 4, 4, 4]

/-- The azimuthal quantum numbers in the same order. -/
noncomputable def orbL : Fin 10 → ℕ := ![0, 0, 1, 0, 1, 2, 0, 1, 2, 3]

/-- The functions `_phi.._Schum75` in the same order. -/
noncomputable def phiS : Fin 10 → ℝ → ℝ :=
  ![phi10, phi20, phi21, phi30, phi31, phi32, phi40, phi41, phi42, phi43]

/-- bound_free.py 227-325 and 482-498 `all_J_Schum75`. -/
noncomputable def jSchum (o : Fin 10) (omega k Z : ℝ) : ℝ :=
  prefSchum u (orbN o) (orbL o) Z * phiS o (1 + xi u (orbN o) Z omega k ^ 2)

/-- bound_free.py 358-400: the bracket of `_J10_HR`, `_J20_HR`, `_J21_HR`. -/
noncomputable def hrShape : Fin 10 → ℝ → ℝ :=
  ![fun x => 3 / 2 * x - 2 * arctan x,
    fun x => 5 * x * (1 + 3 * x ^ 4) / (1 - 5 / 2 * x ^ 2 + 5 / 2 * x ^ 4) / 8 - 2 * arctan x,
    fun x => 1 / 3 * ((10 + 15 * x ^ 2) / (1 + 5 * x ^ 2)) * x - arctan x,
    fun _ => 0, fun _ => 0, fun _ => 0, fun _ => 0, fun _ => 0, fun _ => 0, fun _ => 0]

/-- bound_free.py 358-400 and 502-532 `all_J_HR`: zero from the fourth orbital on. -/
noncomputable def jHR (o : Fin 10) (omega k Z : ℝ) : ℝ :=
  jSchum u o omega k Z * (Z * alphaFS u / (k * bohr u)) * hrShape o (xi u (orbN o) Z omega k)

/-- bound_free.py 448-478 `all_J_BM`: zero from the fourth orbital on. -/
noncomputable def jBM (o : Fin 10) (omega k Z : ℝ) : ℝ :=
  match o with
  | 0 => j10BM u omega k Z
  | 1 => j20BM u omega k Z
  | 2 => j21BM u omega k Z
  | _ => 0

/-- bound_free.py 565-580 `J_impulse_approx`, one row. -/
noncomputable def impulseApprox (o : Fin 10) (omega k pop Z : ℝ) : ℝ :=
  pop * (jSchum u o omega k Z + jHR u o omega k Z) / (u.c * k)

/-- bound_free.py 535-549 `J_BM_HR_approx`, one row. -/
noncomputable def bmHRApprox (o : Fin 10) (omega k pop Z : ℝ) : ℝ :=
  pop * (jBM u o omega k Z + jHR u o omega k Z) / (u.c * k)

/-- bound_free.py 552-562 `J_BM_approx`, one row. -/
noncomputable def bmApprox (o : Fin 10) (omega k pop Z : ℝ) : ℝ :=
  pop * jBM u o omega k Z / (u.c * k)

/-- bound_free.py 403-444 `bm_bound_wavefunction`: the functions are looked up by their names, `none` is a
`KeyError`. -/
noncomputable def bmBound (n l : ℕ) (omega k Z : ℝ) (hr : Bool) : Option ℝ :=
  let find : Option (Fin 10) :=
    if n = 1 ∧ l = 0 then some 0 else if n = 2 ∧ l = 0 then some 1 else if n = 2 ∧ l = 1 then some 2 else none
  find.map fun o => if hr then jBM u o omega k Z + jHR u o omega k Z else jBM u o omega k Z

/-! ### Edges -/

/-- `jnp.heaviside(x, 0.5)`. -/
noncomputable def heav (x : ℝ) : ℝ := if x < 0 then 0 else if x = 0 then 1 / 2 else 1

/-- models.py 5243-5255 `NoEdge.evaluate`; `loss` is `setup.energy - setup.measured_energy`. -/
def edgeNone (_T _loss _E : ℝ) : ℝ := 1

/-- models.py 5258-5273 `NonNegative.evaluate`. -/
noncomputable def edgeNonNegative (_T loss _E : ℝ) : ℝ := heav loss

/-- models.py 5276-5291 `Heaviside.evaluate`. -/
noncomputable def edgeHeaviside (_T loss E : ℝ) : ℝ := heav (loss - E)

/-- models.py 5294-5315 `Fermi.evaluate`. -/
noncomputable def edgeFermi (T loss E : ℝ) : ℝ :=
  1 - 1 / (exp (1 / (T * u.kB) * (loss - E)) + 1)

/-! ### The impulse approximation for an ion -/

/-- models.py 2695-2704: the correction `r_k`; `pop` and `ff` are population and form factors of the
ion. -/
noncomputable def rkAuto (pop ff : Fin 10 → ℝ) (Zcore : ℝ) : ℝ :=
  if Zcore = 0 then 1 else 1 - (∑ o, pop o * ff o ^ 2) / Zcore

/-- models.py 2706-2712: `r_k` as chosen by the user, a negative value selects `rkAuto`. -/
noncomputable def rkOf (rk : ℝ) (pop ff : Fin 10 → ℝ) (Zcore : ℝ) : ℝ :=
  if rk < 0 then rkAuto pop ff Zcore else rk

/-- models.py 2677-2729 `calculate_scattering_for_charge_state`: `edge o` is the edge factor of the
orbital.  A bare ion (`Z_core = 0`) gives NaN (`r_k / 0 * 0`), replaced by zero in line 2727. -/
noncomputable def bfState (omega k rk : ℝ) (pop Zeff ff edge : Fin 10 → ℝ) (Zcore : ℝ) : ℝ :=
  if Zcore = 0 then 0
  else (∑ o, rkOf rk pop ff Zcore / Zcore * impulseApprox u o omega k (pop o) (Zeff o) * edge o) * Zcore

/-- models.py 2731-2772: mixture of charge states of one ion.  `state q` is the result for the integer
charge `q`. -/
noncomputable def bfMix (state : ℝ → ℝ) (ZA charge : ℝ) : ℝ :=
  if charge = (⌊charge⌋ : ℝ) then state charge
  else
    let low : ℝ := (⌊charge⌋ : ℝ)
    let high : ℝ := (⌈charge⌉ : ℝ)
    if ZA ≤ high then (ZA - charge) * state low
    else (1 - (charge - low)) * state low + (charge - low) * state high

/-- models.py 2659-2776 `SchumacherImpulse.evaluate_raw`: sum over ions. `ions` lists number fraction,
nuclear charge, charge and the function `state` of each. -/
noncomputable def bfTotal (ions : List (ℝ × ℝ × ℝ × (ℝ → ℝ))) (meanZA : ℝ) : ℝ :=
  (ions.map fun i => bfMix i.2.2.2 i.2.1 i.2.2.1 * i.1).sum / meanZA

end Verif.Bound
