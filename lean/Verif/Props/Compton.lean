/-
C24: Compton profiles of bound electrons; C25: mixtures of charge states; C41: absorption edges.

Specification of the profiles: an electron with momentum density `ρ(p)` has the profile
`J(q) = 2 π ∫_{|q|}^∞ p ρ(p) dp`.  For the orbital `(n, l)` of a hydrogen-like atom, in terms of
`y = 1 + x²`, `x = n p / Z`, the density is proportional to
`(y - 1)^l / y^(2 l + 4) * C(1 - 2 / y)²` with the Gegenbauer polynomial `C = C_{n-l-1}^{(l+1)}`.
-/
import Verif.Model.Bound
import Verif.Lemmas.Laplace
import Verif.Props.Setup
import Verif.Props.Response
import Verif.Props.Interp
import Verif.Props.FormFactors
import Mathlib.MeasureTheory.Measure.Haar.NormedSpace
import Mathlib.MeasureTheory.Group.Integral

set_option autoImplicit false

namespace Verif.Bound

open MeasureTheory Set Real Filter Topology Verif.Expt Verif.Resp Verif.Laplace

variable (u : Consts)

/-! ### Specification -/

/-- Gegenbauer polynomials. -/
noncomputable def gegenbauer (a : ℝ) : ℕ → ℝ → ℝ
  | 0, _ => 1
  | 1, z => 2 * a * z
  | n + 2, z => (2 * (n + 1 + a) * z * gegenbauer a (n + 1) z - (n + 2 * a) * gegenbauer a n z) / (n + 2)

/-- The momentum density up to a constant. -/
noncomputable def momentumShape (n l : ℕ) (y : ℝ) : ℝ :=
  (y - 1) ^ l / y ^ (2 * l + 4) * gegenbauer (l + 1) (n - l - 1) (1 - 2 / y) ^ 2

/-- The profile up to the same constant. -/
noncomputable def profileSpec (n l : ℕ) (y : ℝ) : ℝ := ∫ t in Ioi y, momentumShape n l t

/-! ### Sums of inverse powers -/

/-- A sum of inverse powers from the third to the ninth. -/
noncomputable def invPoly (c : List ℝ) (y : ℝ) : ℝ :=
  ∑ j ∈ Finset.range 7, c.getD j 0 * (y ^ (j + 3))⁻¹

theorem invPoly_tendsto (c : List ℝ) : Tendsto (invPoly c) atTop (𝓝 0) := by
  have h : Tendsto (invPoly c) atTop (𝓝 (∑ j ∈ Finset.range 7, c.getD j 0 * 0)) :=
    tendsto_finsetSum _ fun j _ =>
      ((tendsto_pow_atTop (α := ℝ) (n := j + 3) (by omega)).inv_tendsto_atTop).const_mul _
  simpa using h

theorem invPoly_deriv (c : List ℝ) {y : ℝ} (hy : 0 < y) :
    HasDerivAt (invPoly c) (-∑ j ∈ Finset.range 7, c.getD j 0 * (j + 3) * (y ^ (j + 4))⁻¹) y := by
  unfold invPoly
  have h : ∀ j ∈ Finset.range 7, HasDerivAt (fun y : ℝ => c.getD j 0 * (y ^ (j + 3))⁻¹)
      (-(c.getD j 0 * (j + 3) * (y ^ (j + 4))⁻¹)) y := by
    intro j _
    have h1 := ((hasDerivAt_pow (j + 3) y).inv (pow_pos hy _).ne').const_mul (c.getD j 0)
    refine h1.congr_deriv ?_
    push_cast
    field_simp
    ring
  have h2 := HasDerivAt.fun_sum h
  rwa [Finset.sum_neg_distrib] at h2

theorem invPoly_integrable (c : List ℝ) : Integrable fun x : ℝ => invPoly c (1 + x ^ 2) := by
  unfold invPoly
  exact integrable_finsetSum _ fun j _ => (lorentz_integrable (by omega)).const_mul _

theorem invPoly_integral (c : List ℝ) :
    ∫ x : ℝ, invPoly c (1 + x ^ 2) =
      (c.getD 0 0 * (3 / 8) + c.getD 1 0 * (5 / 16) + c.getD 2 0 * (35 / 128) + c.getD 3 0 * (63 / 256) +
        c.getD 4 0 * (231 / 1024) + c.getD 5 0 * (429 / 2048) + c.getD 6 0 * (6435 / 32768)) * π := by
  unfold invPoly
  rw [integral_finsetSum _ fun j _ => (lorentz_integrable (by omega)).const_mul _]
  obtain ⟨h3, h4, h5, h6, h7, h8, h9⟩ := lorentz_values
  simp only [integral_const_mul, Finset.sum_range_succ, Finset.sum_range_zero, Nat.reduceAdd, h3, h4, h5,
    h6, h7, h8, h9]
  ring

/-! ### The true profiles and those of the code -/

/-- The hydrogen-like profiles. -/
noncomputable def trueCoef : Fin 10 → List ℝ :=
  ![[1 / 3], [4 / 3, -4, 16 / 5], [0, 1 / 4, -1 / 5], [3, -24, 352 / 5, -256 / 3, 256 / 7],
    [0, 4, -16, 64 / 3, -64 / 7], [0, 0, 1 / 5, -1 / 3, 1 / 7],
    [16 / 3, -80, 2368 / 5, -4096 / 3, 2048, -1536, 4096 / 9],
    [0, 25, -212, 704, -7872 / 7, 864, -256], [0, 0, 36 / 5, -36, 468 / 7, -54, 16],
    [0, 0, 0, 1 / 6, -3 / 7, 3 / 8, -1 / 9]]

/-- The profiles of the code. -/
noncomputable def codeCoef : Fin 10 → List ℝ :=
  ![[1 / 3], [4 / 3, -4, 16 / 5], [0, 1 / 4, -1 / 5], [3, -24, 352 / 5, -256 / 3, 256 / 7],
    [0, 64 / 3, -1, 4 / 3, -4 / 7], [0, 0, 3 / 5, -3 / 5, 1 / 7],
    [48 / 5, -5, 148 / 5, -256 / 3, 128, -96, 256 / 9],
    [0, 25, -53, 176, -1968 / 7, 216, -64], [0, 0, 540 / 7, -1, 13 / 7, -3 / 2, 4 / 9],
    [0, 0, 0, 6 / 7, -3 / 7, 3 / 8, -1 / 9]]

theorem momentumShape_eq (o : Fin 10) {y : ℝ} (hy : 0 < y) :
    momentumShape (orbN o) (orbL o) y =
      ∑ j ∈ Finset.range 7, (trueCoef o).getD j 0 * (j + 3) * (y ^ (j + 4))⁻¹ := by
  fin_cases o <;>
    simp [momentumShape, orbN, orbL, trueCoef, Finset.sum_range_succ, gegenbauer] <;>
    field_simp <;> ring

theorem momentumShape_nonneg (n l : ℕ) {y : ℝ} (hy : 1 ≤ y) : 0 ≤ momentumShape n l y := by
  unfold momentumShape
  have : 0 ≤ y - 1 := by linarith
  positivity

theorem profileSpec_eq (o : Fin 10) {y : ℝ} (hy : 1 ≤ y) :
    profileSpec (orbN o) (orbL o) y = invPoly (trueCoef o) y := by
  have h := integral_Ioi_of_hasDerivAt_of_nonneg' (a := y) (g := fun t => -invPoly (trueCoef o) t)
    (g' := momentumShape (orbN o) (orbL o)) (l := 0)
    (fun t ht => by
      have ht' : y ≤ t := ht
      rw [momentumShape_eq o (by linarith)]
      exact ((invPoly_deriv (trueCoef o) (by linarith)).neg).congr_deriv (neg_neg _))
    (fun t ht => momentumShape_nonneg _ _ (by have : y < t := ht; linarith))
    (by simpa using (invPoly_tendsto (trueCoef o)).neg)
  unfold profileSpec
  rw [h]
  ring

theorem phiS_eq (o : Fin 10) {y : ℝ} (hy : 0 < y) : phiS o y = invPoly (codeCoef o) y := by
  fin_cases o <;>
    simp [phiS, codeCoef, invPoly, Finset.sum_range_succ, phi10, phi20, phi21, phi30, phi31, phi32,
      phi40, phi41, phi42, phi43] <;>
    field_simp <;> ring

/-- C24: the profiles of 1s, 2s, 2p and 3s are those of hydrogen-like orbitals. -/
theorem phiS_hydrogen_partial {o : Fin 10} (ho : o ≤ 3) {y : ℝ} (hy : 1 ≤ y) :
    phiS o y = profileSpec (orbN o) (orbL o) y := by
  rw [profileSpec_eq o hy, phiS_eq o (by linarith)]
  congr 1
  fin_cases o <;> first | exact absurd ho (by decide) | simp [codeCoef, trueCoef]

/-- The integral over the profile of one electron in the code. -/
noncomputable def norms : Fin 10 → ℝ :=
  ![1, 1, 1, 1, 5063 / 48, 249 / 25, 2229 / 80, 201 / 4, 172357 / 180, 5603 / 35]

theorem alphaFS_pos : 0 < alphaFS u := by
  have := u.e_pos
  have := u.eps0_pos
  have := u.hbar_pos
  have := u.c_pos
  unfold alphaFS
  positivity

theorem pref_norm (o : Fin 10) {Z : ℝ} (hZ : 0 < Z) :
    prefSchum u (orbN o) (orbL o) Z * (Z * alphaFS u / orbN o) *
      ∫ x : ℝ, invPoly (codeCoef o) (1 + x ^ 2) = norms o := by
  have ha := alphaFS_pos u
  rw [invPoly_integral]
  unfold prefSchum
  have hpi := pi_pos
  generalize alphaFS u = al at ha
  fin_cases o <;>
    simp [orbN, orbL, codeCoef, norms, Nat.factorial] <;> field_simp <;> norm_num

/-- The true profiles carry one electron each. -/
theorem pref_norm_true (o : Fin 10) {Z : ℝ} (hZ : 0 < Z) :
    prefSchum u (orbN o) (orbL o) Z * (Z * alphaFS u / orbN o) *
      ∫ x : ℝ, invPoly (trueCoef o) (1 + x ^ 2) = 1 := by
  have ha := alphaFS_pos u
  rw [invPoly_integral]
  unfold prefSchum
  have hpi := pi_pos
  generalize alphaFS u = al at ha
  fin_cases o <;>
    simp [orbN, orbL, trueCoef, Nat.factorial] <;> field_simp <;> norm_num

/-! ### The asymmetric correction -/

theorem hrShape_odd (o : Fin 10) (x : ℝ) : hrShape o (-x) = -hrShape o x := by
  fin_cases o <;> simp [hrShape, arctan_neg] <;> ring

theorem hrShape_continuous (o : Fin 10) : Continuous (hrShape o) := by
  have h2 : ∀ x : ℝ, 1 - 5 / 2 * x ^ 2 + 5 / 2 * x ^ 4 ≠ 0 := fun x => by
    nlinarith [sq_nonneg (x ^ 2 - 1 / 2)]
  have h3 : ∀ x : ℝ, 1 + 5 * x ^ 2 ≠ 0 := fun x => by positivity
  have c1 : Continuous fun x : ℝ => 3 / 2 * x - 2 * arctan x := by
    have := continuous_arctan
    fun_prop
  have c2 : Continuous fun x : ℝ =>
      5 * x * (1 + 3 * x ^ 4) / (1 - 5 / 2 * x ^ 2 + 5 / 2 * x ^ 4) / 8 - 2 * arctan x :=
    ((Continuous.div (by fun_prop) (by fun_prop) h2).div_const 8).sub (continuous_arctan.const_mul 2)
  have c3 : Continuous fun x : ℝ => 1 / 3 * ((10 + 15 * x ^ 2) / (1 + 5 * x ^ 2)) * x - arctan x :=
    (((Continuous.div (by fun_prop) (by fun_prop) h3).const_mul _).mul continuous_id).sub continuous_arctan
  fin_cases o
  · exact c1
  · exact c2
  · exact c3
  all_goals exact continuous_const

theorem hrShape_bound (o : Fin 10) (x : ℝ) : |hrShape o x| ≤ 20 * (1 + x ^ 2) := by
  have hx : |x| ≤ 1 + x ^ 2 := by
    rw [abs_le]
    constructor <;> nlinarith [sq_nonneg (x + 1), sq_nonneg (x - 1)]
  have ha : |arctan x| ≤ 2 := by
    have h1 := arctan_lt_pi_div_two x
    have h2 := neg_pi_div_two_lt_arctan x
    have h3 := pi_le_four
    rw [abs_le]
    constructor <;> linarith
  have h2 : 0 < 1 - 5 / 2 * x ^ 2 + 5 / 2 * x ^ 4 := by nlinarith [sq_nonneg (x ^ 2 - 1 / 2)]
  have h3 : (0 : ℝ) < 1 + 5 * x ^ 2 := by positivity
  have hx2 := sq_nonneg x
  have c1 : |3 / 2 * x - 2 * arctan x| ≤ 20 * (1 + x ^ 2) := by
    refine (abs_sub _ _).trans ?_
    rw [abs_mul, abs_mul, abs_of_pos (by norm_num : (0 : ℝ) < 3 / 2), abs_two]
    linarith
  have c2 : |5 * x * (1 + 3 * x ^ 4) / (1 - 5 / 2 * x ^ 2 + 5 / 2 * x ^ 4) / 8 - 2 * arctan x| ≤
      20 * (1 + x ^ 2) := by
    refine (abs_sub _ _).trans ?_
    have e : |5 * x * (1 + 3 * x ^ 4) / (1 - 5 / 2 * x ^ 2 + 5 / 2 * x ^ 4) / 8| ≤ 50 / 8 * |x| := by
      rw [abs_div, abs_div, abs_mul, abs_mul, abs_of_pos h2, abs_of_pos (by norm_num : (0 : ℝ) < 5),
        abs_of_pos (by norm_num : (0 : ℝ) < 8), abs_of_pos (by positivity : 0 < 1 + 3 * x ^ 4),
        div_le_iff₀ (by norm_num), div_le_iff₀ h2]
      have : 1 + 3 * x ^ 4 ≤ 10 * (1 - 5 / 2 * x ^ 2 + 5 / 2 * x ^ 4) := by
        nlinarith [sq_nonneg (x ^ 2 - 25 / 44)]
      nlinarith [abs_nonneg x]
    rw [abs_mul, abs_two]
    linarith
  have c3 : |1 / 3 * ((10 + 15 * x ^ 2) / (1 + 5 * x ^ 2)) * x - arctan x| ≤ 20 * (1 + x ^ 2) := by
    refine (abs_sub _ _).trans ?_
    have e : |1 / 3 * ((10 + 15 * x ^ 2) / (1 + 5 * x ^ 2)) * x| ≤ 10 / 3 * |x| := by
      rw [abs_mul]
      apply mul_le_mul_of_nonneg_right _ (abs_nonneg x)
      rw [abs_of_pos (by positivity)]
      have : (10 + 15 * x ^ 2) / (1 + 5 * x ^ 2) ≤ 10 := by
        rw [div_le_iff₀ h3]
        nlinarith
      linarith
    linarith
  have c4 : |(0 : ℝ)| ≤ 20 * (1 + x ^ 2) := by
    rw [abs_zero]
    positivity
  fin_cases o
  · exact c1
  · exact c2
  · exact c3
  all_goals exact c4

theorem invPoly_hr_integrable (o : Fin 10) (c : List ℝ) :
    Integrable fun x : ℝ => invPoly c (1 + x ^ 2) * hrShape o x := by
  unfold invPoly
  simp_rw [Finset.sum_mul]
  refine integrable_finsetSum _ fun j _ => ?_
  have hg : Integrable fun x : ℝ => |c.getD j 0| * 20 * ((1 + x ^ 2) ^ (j + 2))⁻¹ :=
    (lorentz_integrable (by omega)).const_mul _
  refine Integrable.mono' hg ?_ (Eventually.of_forall fun x => ?_)
  · refine Continuous.aestronglyMeasurable ?_
    refine Continuous.mul (Continuous.mul continuous_const ?_) (hrShape_continuous o)
    exact Continuous.inv₀ (by fun_prop) (fun x => by positivity)
  · have hp : (0 : ℝ) < 1 + x ^ 2 := by positivity
    rw [norm_mul, norm_mul, norm_inv, norm_of_nonneg (by positivity : (0 : ℝ) ≤ (1 + x ^ 2) ^ (j + 3)),
      norm_eq_abs, norm_eq_abs]
    calc |c.getD j 0| * ((1 + x ^ 2) ^ (j + 3))⁻¹ * |hrShape o x| ≤
        |c.getD j 0| * ((1 + x ^ 2) ^ (j + 3))⁻¹ * (20 * (1 + x ^ 2)) :=
          mul_le_mul_of_nonneg_left (hrShape_bound o x) (by positivity)
      _ = |c.getD j 0| * 20 * ((1 + x ^ 2) ^ (j + 2))⁻¹ := by
          rw [pow_succ (1 + x ^ 2) (j + 2)]
          field_simp

/-- The correction moves intensity but does not change the total. -/
theorem invPoly_hr_integral (o : Fin 10) (c : List ℝ) :
    ∫ x : ℝ, invPoly c (1 + x ^ 2) * hrShape o x = 0 := by
  have h := integral_neg_eq_self (fun x : ℝ => invPoly c (1 + x ^ 2) * hrShape o x) volume
  have e : ∀ x : ℝ, invPoly c (1 + (-x) ^ 2) * hrShape o (-x) = -(invPoly c (1 + x ^ 2) * hrShape o x) := by
    intro x
    rw [hrShape_odd, neg_sq]
    ring
  simp_rw [e] at h
  rw [integral_neg] at h
  linarith

/-! ### C24 -/

/-- The profile in terms of the scaled momentum. -/
theorem impulse_eq (o : Fin 10) (omega pop : ℝ) {k Z : ℝ} :
    impulseApprox u o omega k pop Z =
      pop / (u.c * k) * prefSchum u (orbN o) (orbL o) Z *
        (invPoly (codeCoef o) (1 + xi u (orbN o) Z omega k ^ 2) + Z * alphaFS u / (k * bohr u) *
          (invPoly (codeCoef o) (1 + xi u (orbN o) Z omega k ^ 2) *
            hrShape o (xi u (orbN o) Z omega k))) := by
  unfold impulseApprox jHR jSchum
  rw [phiS_eq o (by positivity)]
  ring

/-- Integration over the frequency. -/
theorem xi_integral (n : ℕ) (hn : 1 ≤ n) {k Z : ℝ} (hk : 0 < k) (hZ : 0 < Z) (g : ℝ → ℝ) :
    ∫ omega : ℝ, g (xi u n Z omega k) = u.c * k * Z * alphaFS u / n * ∫ x : ℝ, g x := by
  have ha := alphaFS_pos u
  have hc := u.c_pos
  have hn' : (0 : ℝ) < n := by exact_mod_cast hn
  have e : ∀ omega : ℝ, xi u n Z omega k =
      n / (u.c * k * Z * alphaFS u) * (omega - u.hbar * k ^ 2 / (2 * u.me)) := by
    intro omega
    unfold xi
    field_simp
  simp_rw [e]
  rw [integral_sub_right_eq_self (fun w => g (n / (u.c * k * Z * alphaFS u) * w)),
    Measure.integral_comp_mul_left, smul_eq_mul, inv_div, abs_of_pos (by positivity)]

/-- C24: integrated over all frequencies, the impulse approximation (with the asymmetric correction)
yields `norms o` times the population of the orbital: the population itself for 1s, 2s, 2p and 3s. -/
theorem impulse_norm (o : Fin 10) (pop : ℝ) {k Z : ℝ} (hk : 0 < k) (hZ : 0 < Z) :
    ∫ omega : ℝ, impulseApprox u o omega k pop Z = pop * norms o := by
  have hc := u.c_pos
  have ha := alphaFS_pos u
  have hn : 1 ≤ orbN o := (orb_covered o).1
  have hn' : (0 : ℝ) < orbN o := by exact_mod_cast hn
  simp_rw [impulse_eq u o _ pop]
  rw [integral_const_mul, xi_integral u (orbN o) hn hk hZ (fun x => invPoly (codeCoef o) (1 + x ^ 2) +
      Z * alphaFS u / (k * bohr u) * (invPoly (codeCoef o) (1 + x ^ 2) * hrShape o x)),
    integral_add (invPoly_integrable _) ((invPoly_hr_integrable o _).const_mul _), integral_const_mul,
    invPoly_hr_integral, mul_zero, add_zero, ← pref_norm u o hZ]
  generalize (∫ x : ℝ, invPoly (codeCoef o) (1 + x ^ 2)) = I
  field_simp

theorem impulse_norm_partial {o : Fin 10} (ho : o ≤ 3) (pop : ℝ) {k Z : ℝ} (hk : 0 < k) (hZ : 0 < Z) :
    ∫ omega : ℝ, impulseApprox u o omega k pop Z = pop := by
  rw [impulse_norm u o pop hk hZ]
  have : norms o = 1 := by
    fin_cases o <;> first | exact absurd ho (by decide) | simp [norms]
  rw [this, mul_one]

/-- C24 is false for the other six orbitals: 3p electrons count 105 times, 4d electrons 957 times. -/
theorem impulse_norm_wrong {o : Fin 10} (ho : 3 < o) {pop k Z : ℝ} (hp : 0 < pop) (hk : 0 < k) (hZ : 0 < Z) :
    9 * pop < ∫ omega : ℝ, impulseApprox u o omega k pop Z := by
  rw [impulse_norm u o pop hk hZ]
  have : 9 < norms o := by
    fin_cases o <;> first | exact absurd ho (by decide) | norm_num [norms]
  nlinarith

theorem quartic30 (t : ℝ) : 0 < 3 - 24 * t + 352 / 5 * t ^ 2 - 256 / 3 * t ^ 3 + 256 / 7 * t ^ 4 := by
  have e : 3 - 24 * t + 352 / 5 * t ^ 2 - 256 / 3 * t ^ 3 + 256 / 7 * t ^ 4 =
      256 / 7 * (t ^ 2 - 7 / 6 * t + 27 / 100) ^ 2 +
        ((352 / 5 - 256 / 7 * (49 / 36 + 54 / 100)) * t ^ 2 + (256 / 3 * (27 / 100) - 24) * t +
          (3 - 256 / 7 * (27 / 100) ^ 2)) := by ring
  have h := sq_nonneg (t ^ 2 - 7 / 6 * t + 27 / 100)
  have h2 := sq_nonneg (t - 11 / 20)
  rw [e]
  nlinarith

theorem quartic40 (t : ℝ) : 0 ≤ 148 / 5 - 256 / 3 * t + 128 * t ^ 2 - 96 * t ^ 3 + 256 / 9 * t ^ 4 := by
  have e : 148 / 5 - 256 / 3 * t + 128 * t ^ 2 - 96 * t ^ 3 + 256 / 9 * t ^ 4 =
      256 / 9 * (t ^ 2 - 27 / 16 * t + 1 / 2) ^ 2 +
        ((128 - 256 / 9 * (729 / 256 + 1)) * t ^ 2 + (48 - 256 / 3) * t +
          (148 / 5 - 256 / 36)) := by ring
  have h := sq_nonneg (t ^ 2 - 27 / 16 * t + 1 / 2)
  have h2 := sq_nonneg (t - 1)
  rw [e]
  nlinarith

theorem quartic41 (t : ℝ) : 0 < 25 - 53 * t + 176 * t ^ 2 - 1968 / 7 * t ^ 3 + 152 * t ^ 4 := by
  have e : 25 - 53 * t + 176 * t ^ 2 - 1968 / 7 * t ^ 3 + 152 * t ^ 4 =
      152 * (t ^ 2 - 123 / 133 * t + 1 / 10) ^ 2 +
        ((176 - 152 * ((123 / 133) ^ 2 + 1 / 5)) * t ^ 2 + (152 * (123 / 133) / 5 - 53) * t +
          (25 - 152 / 100)) := by ring
  have h := sq_nonneg (t ^ 2 - 123 / 133 * t + 1 / 10)
  have h2 := sq_nonneg (t - 4 / 5)
  rw [e]
  nlinarith

/-- The code's profile as a power series in the inverse momentum factor. -/
noncomputable def inT : Fin 10 → ℝ → ℝ
  | 0, _ => 1 / 3
  | 1, t => 4 * (1 / 3 - t + 4 / 5 * t ^ 2)
  | 2, t => 1 / 4 - 1 / 5 * t
  | 3, t => 3 - 24 * t + 352 / 5 * t ^ 2 - 256 / 3 * t ^ 3 + 256 / 7 * t ^ 4
  | 4, t => 64 / 3 - t + 4 / 3 * t ^ 2 - 4 / 7 * t ^ 3
  | 5, t => 3 / 5 - 3 / 5 * t + 1 / 7 * t ^ 2
  | 6, t => 48 / 5 - 5 * t + 148 / 5 * t ^ 2 - 256 / 3 * t ^ 3 + 128 * t ^ 4 - 96 * t ^ 5 + 256 / 9 * t ^ 6
  | 7, t => 25 - 53 * t + 176 * t ^ 2 - 1968 / 7 * t ^ 3 + 216 * t ^ 4 - 64 * t ^ 5
  | 8, t => 540 / 7 - t + 13 / 7 * t ^ 2 - 3 / 2 * t ^ 3 + 4 / 9 * t ^ 4
  | 9, t => 6 / 7 - 3 / 7 * t + 3 / 8 * t ^ 2 - 1 / 9 * t ^ 3

theorem inT_pos (o : Fin 10) {t : ℝ} (ht0 : 0 < t) (ht1 : t ≤ 1) : 0 < inT o t := by
  have t2 : t ^ 2 ≤ 1 := pow_le_one₀ ht0.le ht1
  have t3 : t ^ 3 ≤ 1 := pow_le_one₀ ht0.le ht1
  have s2 := sq_nonneg t
  have q4 : 0 ≤ t ^ 4 := by positivity
  match o with
  | 0 => norm_num [inT]
  | 1 => simp only [inT]; nlinarith [sq_nonneg (t - 5 / 8)]
  | 2 => simp only [inT]; linarith
  | 3 => exact quartic30 t
  | 4 => simp only [inT]; linarith
  | 5 => simp only [inT]; nlinarith
  | 6 =>
    simp only [inT]
    have h := mul_nonneg s2 (quartic40 t)
    linarith
  | 7 =>
    simp only [inT]
    have h := quartic41 t
    have h5 : t ^ 5 ≤ t ^ 4 := pow_le_pow_of_le_one ht0.le ht1 (by norm_num)
    linarith
  | 8 => simp only [inT]; linarith
  | 9 => simp only [inT]; linarith

theorem phiS_inT (o : Fin 10) {y : ℝ} (hy : 0 < y) : ∃ m : ℕ, phiS o y = y⁻¹ ^ m * inT o y⁻¹ := by
  match o with
  | 0 => exact ⟨3, by change phi10 y = _; simp only [phi10, inT]; field_simp⟩
  | 1 => exact ⟨3, by change phi20 y = _; simp only [phi20, inT]; field_simp⟩
  | 2 => exact ⟨4, by change phi21 y = _; simp only [phi21, inT]; field_simp⟩
  | 3 => exact ⟨3, by change phi30 y = _; simp only [phi30, inT]; field_simp⟩
  | 4 => exact ⟨4, by change phi31 y = _; simp only [phi31, inT]; field_simp; ring⟩
  | 5 => exact ⟨5, by change phi32 y = _; simp only [phi32, inT]; field_simp⟩
  | 6 => exact ⟨3, by change phi40 y = _; simp only [phi40, inT]; field_simp; ring⟩
  | 7 => exact ⟨4, by change phi41 y = _; simp only [phi41, inT]; field_simp⟩
  | 8 => exact ⟨5, by change phi42 y = _; simp only [phi42, inT]; field_simp; ring⟩
  | 9 => exact ⟨6, by change phi43 y = _; simp only [phi43, inT]; field_simp⟩

/-- C24: without the asymmetric correction all profiles are positive. -/
theorem phiS_pos (o : Fin 10) {y : ℝ} (hy : 1 ≤ y) : 0 < phiS o y := by
  have hy0 : 0 < y := by linarith
  obtain ⟨m, hm⟩ := phiS_inT o hy0
  rw [hm]
  have := inT_pos o (by positivity : 0 < y⁻¹) (inv_le_one_of_one_le₀ hy)
  positivity

theorem prefSchum_pos (o : Fin 10) {Z : ℝ} (hZ : 0 < Z) : 0 < prefSchum u (orbN o) (orbL o) Z := by
  have ha := alphaFS_pos u
  have hpi := pi_pos
  unfold prefSchum
  generalize alphaFS u = al at ha
  fin_cases o <;> simp [orbN, orbL, Nat.factorial] <;> positivity

theorem jSchum_pos (o : Fin 10) (omega k : ℝ) {Z : ℝ} (hZ : 0 < Z) : 0 < jSchum u o omega k Z := by
  unfold jSchum
  exact mul_pos (prefSchum_pos u o hZ) (phiS_pos o (by nlinarith [sq_nonneg (xi u (orbN o) Z omega k)]))

/-- C24 without the asymmetric correction: the impulse approximation is positive. -/
theorem impulse_pos (o : Fin 10) (omega : ℝ) {k pop Z : ℝ} (hk : 0 < k) (hp : 0 < pop) (hZ : 0 < Z)
    (ho : 2 < o) : 0 < impulseApprox u o omega k pop Z := by
  have hc := u.c_pos
  have h := jSchum_pos u o omega k hZ
  have e : hrShape o (xi u (orbN o) Z omega k) = 0 := by
    fin_cases o <;> first | exact absurd ho (by decide) | rfl
  unfold impulseApprox jHR
  rw [e, mul_zero, add_zero]
  positivity

/-- The frequency which belongs to a scaled momentum. -/
theorem xi_surj (n : ℕ) (hn : 1 ≤ n) {k Z : ℝ} (hk : 0 < k) (hZ : 0 < Z) (x : ℝ) :
    ∃ omega, xi u n Z omega k = x := by
  have ha := alphaFS_pos u
  have hc := u.c_pos
  have hn' : (0 : ℝ) < n := by exact_mod_cast hn
  refine ⟨u.hbar * k ^ 2 / (2 * u.me) + x * (u.c * k * Z * alphaFS u) / n, ?_⟩
  unfold xi
  simp only
  rw [add_sub_cancel_left]
  field_simp

/-- C24 is false with the asymmetric correction: the intensity of the 1s electrons is negative at
some frequency, whatever the wave number and the effective charge. -/
theorem impulse_negative {k pop Z : ℝ} (hk : 0 < k) (hp : 0 < pop) (hZ : 0 < Z) :
    ∃ omega, impulseApprox u 0 omega k pop Z < 0 := by
  have ha := alphaFS_pos u
  have hc := u.c_pos
  have hb := bohr_pos u
  obtain ⟨omega, hx⟩ := xi_surj u 1 le_rfl hk hZ (-(2 / 3) * (4 + k * bohr u / (Z * alphaFS u)) - 1)
  refine ⟨omega, ?_⟩
  have hj := jSchum_pos u 0 omega k hZ
  have hx' : xi u (orbN 0) Z omega k = -(2 / 3) * (4 + k * bohr u / (Z * alphaFS u)) - 1 := hx
  unfold impulseApprox jHR
  rw [hx']
  have hs : hrShape 0 (-(2 / 3) * (4 + k * bohr u / (Z * alphaFS u)) - 1) <
      -(k * bohr u / (Z * alphaFS u)) := by
    change 3 / 2 * _ - 2 * arctan _ < _
    have h2 := neg_pi_div_two_lt_arctan (-(2 / 3) * (4 + k * bohr u / (Z * alphaFS u)) - 1)
    have h3 := pi_le_four
    linarith
  have hf : 0 < Z * alphaFS u / (k * bohr u) := by positivity
  have hone : Z * alphaFS u / (k * bohr u) * (k * bohr u / (Z * alphaFS u)) = 1 := by field_simp
  have : Z * alphaFS u / (k * bohr u) *
      hrShape 0 (-(2 / 3) * (4 + k * bohr u / (Z * alphaFS u)) - 1) < -1 := by nlinarith
  apply div_neg_of_neg_of_pos _ (by positivity)
  apply mul_neg_of_pos_of_neg hp
  nlinarith

/-- The older implementation agrees with the newer one for the first three orbitals and drops the
electrons of the other ones. -/
theorem jBM_eq (o : Fin 10) (omega k : ℝ) {Z : ℝ} (hZ : 0 < Z) :
    jBM u o omega k Z = if o ≤ 2 then jSchum u o omega k Z else 0 := by
  have ha := alphaFS_pos u
  have hpi := pi_pos
  match o with
  | 0 =>
    change j10BM u omega k Z = prefSchum u 1 0 Z * phi10 (1 + xi u 1 Z omega k ^ 2)
    unfold j10BM prefSchum phi10
    generalize xi u 1 Z omega k = x
    generalize alphaFS u = al at ha
    have : (0 : ℝ) < 1 + x ^ 2 := by positivity
    norm_num [Nat.factorial]
    field_simp
  | 1 =>
    change j20BM u omega k Z = prefSchum u 2 0 Z * phi20 (1 + xi u 2 Z omega k ^ 2)
    unfold j20BM prefSchum phi20
    generalize xi u 2 Z omega k = x
    generalize alphaFS u = al at ha
    have : (0 : ℝ) < 1 + x ^ 2 := by positivity
    norm_num [Nat.factorial]
    field_simp
    try ring
  | 2 =>
    change j21BM u omega k Z = prefSchum u 2 1 Z * phi21 (1 + xi u 2 Z omega k ^ 2)
    unfold j21BM prefSchum phi21
    generalize xi u 2 Z omega k = x
    generalize alphaFS u = al at ha
    have : (0 : ℝ) < 1 + x ^ 2 := by positivity
    norm_num [Nat.factorial]
    field_simp
    ring
  | 3 => rfl
  | 4 => rfl
  | 5 => rfl
  | 6 => rfl
  | 7 => rfl
  | 8 => rfl
  | 9 => rfl

/-- The two 2p electrons of a carbon atom are counted, at any wave number. -/
example {k : ℝ} (hk : 0 < k) :
    ∫ omega : ℝ, impulseApprox unitConsts 2 omega k 2 (3 : ℝ) = 2 :=
  impulse_norm_partial unitConsts (by decide) 2 hk (by norm_num)

example : (1 : ℝ) * 9 < ∫ omega : ℝ, impulseApprox unitConsts 5 omega 1 1 (3 : ℝ) := by
  have := impulse_norm_wrong unitConsts (o := 5) (by decide) (pop := 1) (k := 1) (Z := 3) (by norm_num)
    (by norm_num) (by norm_num)
  linarith

/-! ### C25: mixtures of charge states -/

/-- Specification: the two neighbouring integer charge states, with the weights which reproduce the
mean charge. -/
structure IsMixture (w₀ w₁ q₀ q₁ charge : ℝ) : Prop where
  nonneg₀ : 0 ≤ w₀
  nonneg₁ : 0 ≤ w₁
  total : w₀ + w₁ = 1
  mean : w₀ * q₀ + w₁ * q₁ = charge
  int₀ : ∃ m : ℤ, q₀ = m
  next : q₁ = q₀ + 1

theorem isMixture_unique {w₀ w₁ q₀ q₁ v₀ v₁ p₀ p₁ charge : ℝ} (h : IsMixture w₀ w₁ q₀ q₁ charge)
    (h' : IsMixture v₀ v₁ p₀ p₁ charge) (f : ℝ → ℝ) :
    w₀ * f q₀ + w₁ * f q₁ = v₀ * f p₀ + v₁ * f p₁ := by
  obtain ⟨m, hm⟩ := h.int₀
  obtain ⟨n, hn⟩ := h'.int₀
  have a : charge = q₀ + w₁ := by rw [← h.mean, h.next]; linear_combination q₀ * h.total
  have b : charge = p₀ + v₁ := by rw [← h'.mean, h'.next]; linear_combination p₀ * h'.total
  have w1 : w₁ ≤ 1 := by linarith [h.total, h.nonneg₀]
  have v1 : v₁ ≤ 1 := by linarith [h'.total, h'.nonneg₀]
  have ew : w₀ = 1 - w₁ := by linarith [h.total]
  have ev : v₀ = 1 - v₁ := by linarith [h'.total]
  have c : (m : ℝ) + w₁ = n + v₁ := by rw [← hm, ← hn, ← a, ← b]
  have h0 := h.nonneg₁
  have h0' := h'.nonneg₁
  have lo : m ≤ n + 1 := by
    have : (m : ℝ) ≤ n + 1 := by linarith
    exact_mod_cast this
  have hi : n ≤ m + 1 := by
    have : (n : ℝ) ≤ m + 1 := by linarith
    exact_mod_cast this
  rw [h.next, h'.next, ew, ev, hm, hn]
  rcases (by omega : m = n ∨ m = n + 1 ∨ n = m + 1) with e | e | e
  · subst e
    have : w₁ = v₁ := by linarith
    rw [this]
  · subst e
    push_cast at c ⊢
    have h1 : w₁ = 0 := by linarith
    have h2 : v₁ = 1 := by linarith
    rw [h1, h2]
    ring
  · subst e
    push_cast at c ⊢
    have h1 : w₁ = 1 := by linarith
    have h2 : v₁ = 0 := by linarith
    rw [h1, h2]
    ring

/-- C25: an ion with mean charge `charge` scatters like a mixture of the two neighbouring integer
charge states.  `state ZA = 0`: a bare ion does not contribute. -/
theorem bfMix_mixture (state : ℝ → ℝ) (ZA : ℕ) {charge : ℝ} (h1 : charge ≤ ZA) (hb : state ZA = 0)
    {w₀ w₁ q₀ q₁ : ℝ} (hm : IsMixture w₀ w₁ q₀ q₁ charge) :
    bfMix state ZA charge = w₀ * state q₀ + w₁ * state q₁ := by
  have hf : IsMixture (1 - Int.fract charge) (Int.fract charge) ⌊charge⌋ (⌊charge⌋ + 1) charge :=
    ⟨by linarith [Int.fract_lt_one charge], Int.fract_nonneg charge, by ring,
      by linear_combination Int.floor_add_fract charge, ⟨_, rfl⟩, rfl⟩
  rw [isMixture_unique hm hf state]
  have hfr : Int.fract charge = charge - ⌊charge⌋ := rfl
  unfold bfMix
  by_cases hi : charge = (⌊charge⌋ : ℝ)
  · rw [if_pos hi]
    have : Int.fract charge = 0 := by linarith
    rw [this, ← hi]
    ring
  · rw [if_neg hi]
    have hlt : (⌊charge⌋ : ℝ) < charge := lt_of_le_of_ne (Int.floor_le charge) (Ne.symm hi)
    have hceil : ⌈charge⌉ = ⌊charge⌋ + 1 := by
      rw [Int.ceil_eq_iff]
      push_cast
      exact ⟨by linarith, (Int.lt_floor_add_one charge).le⟩
    have hc' : (⌈charge⌉ : ℝ) = ⌊charge⌋ + 1 := by rw [hceil]; push_cast; ring
    simp only
    rw [hc', hfr]
    by_cases hz : (ZA : ℝ) ≤ ⌊charge⌋ + 1
    · rw [if_pos hz]
      have hle : ⌈charge⌉ ≤ (ZA : ℤ) := Int.ceil_le.mpr (by exact_mod_cast h1)
      have hle' : (⌈charge⌉ : ℝ) ≤ ZA := by exact_mod_cast hle
      have heq : (ZA : ℝ) = ⌊charge⌋ + 1 := le_antisymm hz (by rw [← hc']; exact hle')
      rw [← heq, hb, heq]
      ring
    · rw [if_neg hz]

/-- C25: a quantity that is proportional to the number of bound electrons is interpolated exactly. -/
theorem bfMix_linear (a : ℝ) (ZA : ℕ) {charge : ℝ} (h1 : charge ≤ ZA) :
    bfMix (fun q => a * (ZA - q)) ZA charge = a * (ZA - charge) := by
  have hf : IsMixture (1 - Int.fract charge) (Int.fract charge) ⌊charge⌋ (⌊charge⌋ + 1) charge :=
    ⟨by linarith [Int.fract_lt_one charge], Int.fract_nonneg charge, by ring,
      by linear_combination Int.floor_add_fract charge, ⟨_, rfl⟩, rfl⟩
  rw [bfMix_mixture _ ZA h1 (by ring) hf]
  linear_combination (-a) * Int.floor_add_fract charge

/-- A bare ion does not contribute. -/
theorem bfState_bare (omega k rk : ℝ) (pop Zeff ff edge : Fin 10 → ℝ) :
    bfState u omega k rk pop Zeff ff edge 0 = 0 := if_pos rfl

/-- C25 for the implementation: the intensity of the charge state `q` comes from the populations and
effective charges that belong to `q`. -/
theorem bfMix_states (omega k rk : ℝ) (pop Zeff ff edge : ℝ → Fin 10 → ℝ) (ZA : ℕ) {charge : ℝ}
    (h1 : charge ≤ ZA) {w₀ w₁ q₀ q₁ : ℝ} (hm : IsMixture w₀ w₁ q₀ q₁ charge) :
    bfMix (fun q => bfState u omega k rk (pop q) (Zeff q) (ff q) (edge q) (ZA - q)) ZA charge =
      w₀ * bfState u omega k rk (pop q₀) (Zeff q₀) (ff q₀) (edge q₀) (ZA - q₀) +
      w₁ * bfState u omega k rk (pop q₁) (Zeff q₁) (ff q₁) (edge q₁) (ZA - q₁) :=
  bfMix_mixture _ ZA h1 (by simp only [sub_self, bfState_bare]) hm

example : IsMixture (3 / 4) (1 / 4) 3 4 (13 / 4) :=
  ⟨by norm_num, by norm_num, by norm_num, by norm_num, ⟨3, by norm_num⟩, by norm_num⟩

example : bfMix (fun q => (6 - q) ^ 2) (6 : ℕ) (13 / 4) = 31 / 4 := by
  rw [bfMix_mixture (fun q => (6 - q) ^ 2) 6 (by norm_num) (by norm_num)
    (⟨by norm_num, by norm_num, by norm_num, by norm_num, ⟨3, by norm_num⟩, by norm_num⟩ :
      IsMixture (3 / 4) (1 / 4) 3 4 (13 / 4))]
  norm_num

/-- The elastic part that is taken away from the inelastic scattering is between nothing and
everything. -/
theorem rkAuto_mem (x : ℝ) (h0 : 0 ≤ x) (h1 : x ≤ 36) (ff : Fin 10 → ℝ) (hff : ∀ o, |ff o| ≤ 1) :
    0 ≤ rkAuto (fun o => (Interp.electronDistribution x).getD o 0) ff x ∧
      rkAuto (fun o => (Interp.electronDistribution x).getD o 0) ff x ≤ 1 := by
  unfold rkAuto
  by_cases hx : x = 0
  · rw [if_pos hx]
    norm_num
  rw [if_neg hx]
  have hx0 : 0 < x := lt_of_le_of_ne h0 (Ne.symm hx)
  have hp : ∀ o : Fin 10, 0 ≤ (Interp.electronDistribution x).getD o 0 := fun o =>
    (Interp.electrons_within_capacity x x le_rfl o o.isLt).1
  have hsum : ∑ o : Fin 10, (Interp.electronDistribution x).getD o 0 = x := by
    have h := Interp.electrons_complete x h0 h1
    rw [Interp.distribution_eq] at h ⊢
    simp only [List.sum_cons, List.sum_nil] at h
    simp only [Fin.sum_univ_succ, Fin.sum_univ_zero, Fin.val_zero, Fin.val_succ, List.getD_cons_zero,
      List.getD_cons_succ]
    linarith
  have hsq : ∀ o, ff o ^ 2 ≤ 1 := fun o => by
    have := sq_le_one_iff_abs_le_one (ff o)
    exact this.mpr (hff o)
  have hle : ∑ o : Fin 10, (Interp.electronDistribution x).getD o 0 * ff o ^ 2 ≤ x := by
    calc _ ≤ ∑ o : Fin 10, (Interp.electronDistribution x).getD o 0 :=
          Finset.sum_le_sum fun o _ => mul_le_of_le_one_right (hp o) (hsq o)
      _ = x := hsum
  have hge : 0 ≤ ∑ o : Fin 10, (Interp.electronDistribution x).getD o 0 * ff o ^ 2 :=
    Finset.sum_nonneg fun o _ => mul_nonneg (hp o) (sq_nonneg _)
  constructor
  · have := (div_le_one hx0).mpr hle
    linarith
  · have := div_nonneg hge h0
    linarith

/-! ### C41: absorption edges -/

/-- The specification of an edge: a factor between zero and one, larger for larger energy loss,
smaller for more strongly bound electrons, which does not touch photons that lose much energy and
removes those that gain much. -/
structure IsEdge (f : ℝ → ℝ → ℝ) : Prop where
  nonneg : ∀ loss E, 0 ≤ f loss E
  le_one : ∀ loss E, f loss E ≤ 1
  mono : ∀ E, Monotone fun loss => f loss E
  anti : ∀ loss, Antitone fun E => f loss E
  top : ∀ E, Tendsto (fun loss => f loss E) atTop (𝓝 1)
  bot : ∀ E, Tendsto (fun loss => f loss E) atBot (𝓝 0)

theorem heav_nonneg (x : ℝ) : 0 ≤ heav x := by
  unfold heav
  split_ifs <;> norm_num

theorem heav_le_one (x : ℝ) : heav x ≤ 1 := by
  unfold heav
  split_ifs <;> norm_num

theorem heav_mono : Monotone heav := by
  intro x y h
  rcases lt_trichotomy x 0 with hx | hx | hx
  · exact (if_pos hx : heav x = 0).le.trans (heav_nonneg y)
  · have e : heav x = 1 / 2 := by rw [heav, if_neg (by linarith), if_pos hx]
    rw [e, heav, if_neg (by linarith)]
    split_ifs <;> norm_num
  · have hy : 0 < y := by linarith
    have e : heav y = 1 := by rw [heav, if_neg (by linarith), if_neg hy.ne']
    rw [e]
    exact heav_le_one x

theorem heav_top : Tendsto heav atTop (𝓝 1) := by
  refine tendsto_const_nhds.congr' ?_
  filter_upwards [eventually_gt_atTop 0] with x hx
  rw [heav, if_neg (not_lt.mpr hx.le), if_neg hx.ne']

theorem heav_bot : Tendsto heav atBot (𝓝 0) := by
  refine tendsto_const_nhds.congr' ?_
  filter_upwards [eventually_lt_atBot 0] with x hx
  rw [heav, if_pos hx]

theorem edgeHeaviside_isEdge (T : ℝ) : IsEdge (edgeHeaviside T) where
  nonneg _ _ := heav_nonneg _
  le_one _ _ := heav_le_one _
  mono E := fun _ _ h => heav_mono (by linarith)
  anti loss := fun _ _ h => heav_mono (by linarith)
  top E := heav_top.comp (tendsto_atTop_add_const_right _ (-E) tendsto_id)
  bot E := heav_bot.comp (tendsto_atBot_add_const_right _ (-E) tendsto_id)

theorem edgeNonNegative_isEdge (T : ℝ) : IsEdge (edgeNonNegative T) where
  nonneg _ _ := heav_nonneg _
  le_one _ _ := heav_le_one _
  mono _ := heav_mono
  anti _ := fun _ _ _ => le_rfl
  top _ := heav_top
  bot _ := heav_bot

theorem edgeFermi_eq (T loss E : ℝ) :
    edgeFermi u T loss E = 1 / (1 + exp (-((loss - E) / (u.kB * T)))) := by
  unfold edgeFermi
  have h := exp_pos ((loss - E) / (u.kB * T))
  have e : 1 / (T * u.kB) * (loss - E) = (loss - E) / (u.kB * T) := by ring
  rw [e, exp_neg]
  field_simp
  ring

theorem edgeFermi_isEdge {T : ℝ} (hT : 0 < T) : IsEdge (edgeFermi u T) where
  nonneg loss E := by rw [edgeFermi_eq]; positivity
  le_one loss E := by
    rw [edgeFermi_eq, div_le_one (by positivity)]
    linarith [exp_pos (-((loss - E) / (u.kB * T)))]
  mono E := fun a b h => by
    have := u.kB_pos
    simp only [edgeFermi_eq]
    gcongr
  anti loss := fun a b h => by
    have := u.kB_pos
    simp only [edgeFermi_eq]
    gcongr
  top E := by
    have hk := u.kB_pos
    simp only [edgeFermi_eq]
    have h1 : Tendsto (fun loss : ℝ => (loss - E) / (u.kB * T)) atTop atTop :=
      (tendsto_atTop_add_const_right _ (-E) tendsto_id).atTop_div_const (by positivity)
    have h2 := tendsto_exp_neg_atTop_nhds_zero.comp h1
    have h3 := (h2.const_add 1)
    have h4 := h3.inv₀ (by norm_num)
    simpa [Function.comp_def] using h4
  bot E := by
    have hk := u.kB_pos
    simp only [edgeFermi_eq]
    have h1 : Tendsto (fun loss : ℝ => (loss - E) / (u.kB * T)) atBot atBot :=
      (tendsto_atBot_add_const_right _ (-E) tendsto_id).atBot_div_const (by positivity)
    have h2 := tendsto_exp_atTop.comp (tendsto_neg_atBot_atTop.comp h1)
    have h3 := tendsto_inv_atTop_zero.comp (tendsto_atTop_add_const_left _ 1 h2)
    simpa [Function.comp_def] using h3

/-- C41: the thermal edge becomes the sharp one in the limit of zero temperature, at every energy,
with one half at the edge itself. -/
theorem edgeFermi_cold (loss E : ℝ) :
    Tendsto (fun T => edgeFermi u T loss E) (𝓝[>] 0) (𝓝 (edgeHeaviside 0 loss E)) := by
  have hk := u.kB_pos
  have hinv : Tendsto (fun T : ℝ => (u.kB * T)⁻¹) (𝓝[>] 0) atTop := by
    simp_rw [mul_inv]
    exact tendsto_inv_nhdsGT_zero.const_mul_atTop (by positivity)
  simp only [edgeFermi_eq, div_eq_mul_inv]
  unfold edgeHeaviside heav
  rcases lt_trichotomy (loss - E) 0 with h | h | h
  · rw [if_pos h]
    have h1 := tendsto_exp_atTop.comp (tendsto_neg_atBot_atTop.comp (hinv.const_mul_atTop_of_neg h))
    have h3 := tendsto_inv_atTop_zero.comp (tendsto_atTop_add_const_left _ 1 h1)
    simpa [Function.comp_def] using h3
  · rw [if_neg (by linarith), if_pos h]
    simp only [h, zero_mul, neg_zero, exp_zero]
    norm_num
  · rw [if_neg (by linarith), if_neg h.ne']
    have h1 := tendsto_exp_neg_atTop_nhds_zero.comp (hinv.const_mul_atTop h)
    have h4 := (h1.const_add 1).inv₀ (by norm_num)
    simpa [Function.comp_def] using h4

/-- The sharp edge: nothing below the binding energy, everything above it. -/
theorem edgeHeaviside_spec (T loss E : ℝ) :
    (loss < E → edgeHeaviside T loss E = 0) ∧ (E < loss → edgeHeaviside T loss E = 1) := by
  unfold edgeHeaviside heav
  constructor
  · intro h
    rw [if_pos (by linarith)]
  · intro h
    rw [if_neg (by linarith), if_neg (by linarith)]

/-- Detailed balance of the thermal edge: the factors at equal distance on both sides of the edge add
up to one and their ratio is the Boltzmann factor. -/
theorem edgeFermi_balance (T d E : ℝ) :
    edgeFermi u T (E - d) E + edgeFermi u T (E + d) E = 1 ∧
    edgeFermi u T (E - d) E = exp (-(d / (u.kB * T))) * edgeFermi u T (E + d) E := by
  have hk := u.kB_pos
  simp only [edgeFermi_eq]
  have e1 : -((E - d - E) / (u.kB * T)) = d / (u.kB * T) := by ring
  have e2 : -((E + d - E) / (u.kB * T)) = -(d / (u.kB * T)) := by ring
  rw [e1, e2, exp_neg]
  have h := exp_pos (d / (u.kB * T))
  generalize exp (d / (u.kB * T)) = x at h
  constructor <;> field_simp <;> ring

example : IsEdge (edgeFermi unitConsts 1) := edgeFermi_isEdge unitConsts one_pos

/-- No edge is an edge only in the weak sense: it does not remove anything. -/
theorem edgeNone_not_isEdge (T : ℝ) : ¬ IsEdge (edgeNone T) := fun h => by
  have := tendsto_nhds_unique (h.bot 0) (tendsto_const_nhds (x := (1 : ℝ)))
  norm_num at this

end Verif.Bound
