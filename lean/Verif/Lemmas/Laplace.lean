/-
Laplace transforms of powers, sine transforms of powers times exponentials, and integrals of powers of
the Lorentzian.
-/
import Mathlib.MeasureTheory.Integral.IntegralEqImproper
import Mathlib.Analysis.SpecialFunctions.Gamma.Basic
import Mathlib.Analysis.SpecialFunctions.Gaussian.GaussianIntegral
import Mathlib.Analysis.SpecialFunctions.ImproperIntegrals
import Mathlib.Analysis.Complex.RealDeriv
import Mathlib.Analysis.SpecialFunctions.Complex.LogBounds

set_option autoImplicit false

namespace Verif.Laplace

open MeasureTheory Set Filter Topology Real

/-- Powers times a decaying exponential are integrable. -/
theorem integrableOn_pow_exp (m : ℕ) {b : ℝ} (hb : 0 < b) :
    IntegrableOn (fun t : ℝ => t ^ m * exp (-(b * t))) (Ioi 0) := by
  have h := integrableOn_rpow_mul_exp_neg_mul_rpow (s := m) (p := 1) (b := b)
    (by have : (0 : ℝ) ≤ m := Nat.cast_nonneg m; linarith) one_pos hb
  refine h.congr_fun (fun t _ => ?_) measurableSet_Ioi
  simp only [rpow_natCast, rpow_one, neg_mul]

theorem norm_pow_cexp (m : ℕ) (z : ℂ) {t : ℝ} (ht : 0 ≤ t) :
    ‖(t : ℂ) ^ m * Complex.exp (-(z * t))‖ = t ^ m * exp (-(z.re * t)) := by
  rw [norm_mul, norm_pow, Complex.norm_real, norm_of_nonneg ht, Complex.norm_exp]
  simp

theorem integrableOn_pow_cexp (m : ℕ) {z : ℂ} (hz : 0 < z.re) :
    IntegrableOn (fun t : ℝ => (t : ℂ) ^ m * Complex.exp (-(z * t))) (Ioi 0) := by
  refine Integrable.mono' (integrableOn_pow_exp m hz) ?_ ?_
  · exact Continuous.aestronglyMeasurable (by fun_prop)
  · refine (ae_restrict_iff' measurableSet_Ioi).2 (Eventually.of_forall fun t ht => ?_)
    exact (norm_pow_cexp m z (le_of_lt ht)).le

theorem tendsto_pow_cexp (m : ℕ) {z : ℂ} (hz : 0 < z.re) :
    Tendsto (fun t : ℝ => (t : ℂ) ^ m * Complex.exp (-(z * t))) atTop (𝓝 0) := by
  rw [tendsto_zero_iff_norm_tendsto_zero]
  have h := tendsto_rpow_mul_exp_neg_mul_atTop_nhds_zero m z.re hz
  refine h.congr' ?_
  filter_upwards [eventually_ge_atTop 0] with t ht
  rw [norm_pow_cexp m z ht, rpow_natCast, neg_mul]

theorem hasDerivAt_cexp (z : ℂ) (t : ℝ) :
    HasDerivAt (fun t : ℝ => Complex.exp (-(z * t))) (-z * Complex.exp (-(z * t))) t := by
  have h : HasDerivAt (fun w : ℂ => Complex.exp (-(z * w))) (-z * Complex.exp (-(z * t))) (t : ℂ) := by
    have h1 : HasDerivAt (fun w : ℂ => -(z * w)) (-z) (t : ℂ) := by
      have h0 := ((hasDerivAt_id (t : ℂ)).const_mul (-z))
      rw [mul_one] at h0
      refine h0.congr_of_eventuallyEq (Eventually.of_forall fun w => ?_)
      simp
    exact (h1.cexp).congr_deriv (by ring)
  exact h.comp_ofReal

theorem hasDerivAt_pow_cexp (m : ℕ) (z : ℂ) (t : ℝ) :
    HasDerivAt (fun t : ℝ => (t : ℂ) ^ (m + 1) * Complex.exp (-(z * t)))
      ((m + 1 : ℂ) * ((t : ℂ) ^ m * Complex.exp (-(z * t))) -
        z * ((t : ℂ) ^ (m + 1) * Complex.exp (-(z * t)))) t := by
  have h1 : HasDerivAt (fun t : ℝ => (t : ℂ) ^ (m + 1)) ((m + 1 : ℂ) * (t : ℂ) ^ m) t := by
    have h := (hasDerivAt_pow (m + 1) (t : ℂ)).comp_ofReal
    refine h.congr_deriv ?_
    push_cast
    simp
  exact (h1.mul (hasDerivAt_cexp z t)).congr_deriv (by ring)

/-- The Laplace transform of a power. -/
theorem laplace_pow (m : ℕ) {z : ℂ} (hz : 0 < z.re) :
    ∫ t in Ioi (0 : ℝ), (t : ℂ) ^ m * Complex.exp (-(z * t)) = (Nat.factorial m : ℂ) / z ^ (m + 1) := by
  have hz0 : z ≠ 0 := by
    intro h
    rw [h] at hz
    simp at hz
  induction m with
  | zero =>
    have h := integral_Ioi_of_hasDerivAt_of_tendsto' (a := 0)
      (f := fun t : ℝ => Complex.exp (-(z * t))) (f' := fun t : ℝ => -z * Complex.exp (-(z * t)))
      (m := 0) (fun t _ => hasDerivAt_cexp z t)
      (by
        have := (integrableOn_pow_cexp 0 hz).const_mul (-z)
        refine this.congr (Eventually.of_forall fun t => ?_)
        simp)
      (by simpa using tendsto_pow_cexp 0 hz)
    rw [integral_const_mul] at h
    simp only [Complex.ofReal_zero, mul_zero, neg_zero, Complex.exp_zero, zero_sub, neg_mul, neg_inj] at h
    simp only [pow_zero, one_mul, Nat.factorial_zero, Nat.cast_one, zero_add, pow_one]
    rw [eq_div_iff hz0, mul_comm]
    exact h
  | succ m ih =>
    have h := integral_Ioi_of_hasDerivAt_of_tendsto' (a := 0) (m := 0)
      (fun t _ => hasDerivAt_pow_cexp m z t)
      (((integrableOn_pow_cexp m hz).const_mul _).sub ((integrableOn_pow_cexp (m + 1) hz).const_mul _))
      (tendsto_pow_cexp (m + 1) hz)
    rw [integral_sub ((integrableOn_pow_cexp m hz).const_mul _)
      ((integrableOn_pow_cexp (m + 1) hz).const_mul _), integral_const_mul, integral_const_mul, ih] at h
    simp only [Complex.ofReal_zero, ne_eq, Nat.add_eq_zero_iff, one_ne_zero, and_false, not_false_eq_true,
      zero_pow, zero_mul, sub_zero] at h
    have h2 : z * ∫ t in Ioi (0 : ℝ), (t : ℂ) ^ (m + 1) * Complex.exp (-(z * t)) =
        (m + 1 : ℂ) * ((Nat.factorial m : ℂ) / z ^ (m + 1)) := by
      linear_combination -h
    have h3 : ∫ t in Ioi (0 : ℝ), (t : ℂ) ^ (m + 1) * Complex.exp (-(z * t)) =
        (m + 1 : ℂ) * ((Nat.factorial m : ℂ) / z ^ (m + 1)) / z := by
      rw [eq_div_iff hz0, mul_comm, h2]
    rw [h3, Nat.factorial_succ]
    push_cast
    field_simp
    ring

/-- The Laplace transform of a power, real case. -/
theorem laplace_real (m : ℕ) {b : ℝ} (hb : 0 < b) :
    ∫ t in Ioi (0 : ℝ), t ^ m * exp (-(b * t)) = (Nat.factorial m : ℝ) / b ^ (m + 1) := by
  have h := laplace_pow m (z := (b : ℂ)) (by simpa using hb)
  have e : ∀ t : ℝ, (t : ℂ) ^ m * Complex.exp (-((b : ℂ) * t)) = ((t ^ m * exp (-(b * t)) : ℝ) : ℂ) := by
    intro t
    push_cast
    rfl
  simp_rw [e] at h
  rw [integral_complex_ofReal] at h
  exact_mod_cast h

/-- Sine transform of a power times an exponential. -/
theorem integrableOn_pow_exp_sin (m : ℕ) {b : ℝ} (hb : 0 < b) (k : ℝ) :
    IntegrableOn (fun t : ℝ => t ^ m * exp (-(b * t)) * sin (k * t)) (Ioi 0) := by
  refine Integrable.mono' (integrableOn_pow_exp m hb) ?_ ?_
  · exact Continuous.aestronglyMeasurable (by fun_prop)
  · refine (ae_restrict_iff' measurableSet_Ioi).2 (Eventually.of_forall fun t ht => ?_)
    have ht' : 0 < t := ht
    rw [norm_mul, norm_of_nonneg (by positivity)]
    exact mul_le_of_le_one_right (by positivity) (abs_sin_le_one _)

theorem sine_pow (m : ℕ) {b : ℝ} (hb : 0 < b) (k : ℝ) :
    ∫ t in Ioi (0 : ℝ), t ^ m * exp (-(b * t)) * sin (k * t) =
      (Nat.factorial m : ℝ) * (((b : ℂ) + k * Complex.I) ^ (m + 1)).im / (b ^ 2 + k ^ 2) ^ (m + 1) := by
  have hz : 0 < ((b : ℂ) - k * Complex.I).re := by simpa using hb
  have h := laplace_pow m hz
  have h1 := congrArg Complex.im h
  have h2 := integral_im (integrableOn_pow_cexp m hz)
  have e : ∀ t : ℝ, RCLike.im ((t : ℂ) ^ m * Complex.exp (-(((b : ℂ) - k * Complex.I) * t))) =
      t ^ m * exp (-(b * t)) * sin (k * t) := by
    intro t
    have e1 : -(((b : ℂ) - k * Complex.I) * t) = ((-(b * t) : ℝ) : ℂ) + ((k * t : ℝ) : ℂ) * Complex.I := by
      push_cast
      ring
    have e2 : (t : ℂ) ^ m = ((t ^ m : ℝ) : ℂ) := by push_cast; rfl
    change Complex.im _ = _
    rw [e1, e2, Complex.im_ofReal_mul, Complex.exp_im]
    simp only [Complex.add_re, Complex.ofReal_re, Complex.mul_re, Complex.I_re, mul_zero, Complex.ofReal_im,
      Complex.I_im, mul_one, sub_self, add_zero, Complex.add_im, Complex.mul_im, zero_add]
    ring
  simp_rw [e] at h2
  rw [h2]
  change Complex.im _ = _
  rw [h1]
  -- the reciprocal power
  have hn : ((b : ℂ) - k * Complex.I) * ((b : ℂ) + k * Complex.I) = ((b ^ 2 + k ^ 2 : ℝ) : ℂ) := by
    push_cast
    linear_combination -(k : ℂ) ^ 2 * Complex.I_sq
  have hD : 0 < b ^ 2 + k ^ 2 := by positivity
  have hz0 : ((b : ℂ) - k * Complex.I) ≠ 0 := by
    intro h0
    rw [h0] at hz
    simp at hz
  have e3 : (Nat.factorial m : ℂ) / ((b : ℂ) - k * Complex.I) ^ (m + 1) =
      ((Nat.factorial m / (b ^ 2 + k ^ 2) ^ (m + 1) : ℝ) : ℂ) * ((b : ℂ) + k * Complex.I) ^ (m + 1) := by
    rw [div_eq_iff (pow_ne_zero _ hz0), mul_assoc, ← mul_pow, mul_comm ((b : ℂ) + k * Complex.I), hn]
    push_cast
    have : ((b : ℂ) ^ 2 + (k : ℂ) ^ 2) ≠ 0 := by
      have : ((b ^ 2 + k ^ 2 : ℝ) : ℂ) ≠ 0 := by exact_mod_cast hD.ne'
      push_cast at this
      exact this
    field_simp
  rw [e3, Complex.im_ofReal_mul]
  ring

/-- The Yukawa sine transform. -/
theorem sine_exp {b : ℝ} (hb : 0 < b) (k : ℝ) :
    ∫ t in Ioi (0 : ℝ), exp (-(b * t)) * sin (k * t) = k / (b ^ 2 + k ^ 2) := by
  have h := sine_pow 0 hb k
  simpa using h

/-! ### Powers of the Lorentzian -/

theorem lorentz_integrable {m : ℕ} (hm : 1 ≤ m) : Integrable fun x : ℝ => ((1 + x ^ 2) ^ m)⁻¹ := by
  refine Integrable.mono' integrable_inv_one_add_sq ?_ (Eventually.of_forall fun x => ?_)
  · refine Continuous.aestronglyMeasurable ?_
    exact Continuous.inv₀ (by fun_prop) (fun x => by positivity)
  · rw [norm_inv, norm_of_nonneg (by positivity)]
    apply inv_anti₀ (by positivity)
    exact le_self_pow₀ (by nlinarith [sq_nonneg x]) (by omega)

theorem lorentz_tendsto {m : ℕ} (hm : 1 ≤ m) {l : Filter ℝ} (hl : Tendsto (fun x : ℝ => |x|) l atTop) :
    Tendsto (fun x : ℝ => x * ((1 + x ^ 2) ^ m)⁻¹) l (𝓝 0) := by
  rw [tendsto_zero_iff_norm_tendsto_zero]
  have h := tendsto_inv_atTop_zero.comp hl
  refine squeeze_zero' (Eventually.of_forall fun _ => norm_nonneg _) ?_ h
  filter_upwards [hl.eventually_gt_atTop 0] with x hx
  have hx2 : x ^ 2 = |x| ^ 2 := (sq_abs x).symm
  rw [norm_mul, norm_inv, norm_eq_abs, norm_of_nonneg (by positivity), Function.comp, hx2]
  have h1 : |x| ^ 2 ≤ (1 + |x| ^ 2) ^ m :=
    (by linarith : |x| ^ 2 ≤ 1 + |x| ^ 2).trans (le_self_pow₀ (by nlinarith [sq_nonneg |x|]) (by omega))
  rw [← div_eq_mul_inv, div_le_iff₀ (by positivity)]
  calc |x| = |x|⁻¹ * |x| ^ 2 := by field_simp
    _ ≤ _ := mul_le_mul_of_nonneg_left h1 (by positivity)

/-- The recursion of the integrals. -/
theorem lorentz_succ {m : ℕ} (hm : 1 ≤ m) :
    ∫ x : ℝ, ((1 + x ^ 2) ^ (m + 1))⁻¹ = (2 * (m : ℝ) - 1) / (2 * m) * ∫ x : ℝ, ((1 + x ^ 2) ^ m)⁻¹ := by
  have hd : ∀ x : ℝ, HasDerivAt (fun x : ℝ => x * ((1 + x ^ 2) ^ m)⁻¹)
      (2 * m * ((1 + x ^ 2) ^ (m + 1))⁻¹ - (2 * m - 1) * ((1 + x ^ 2) ^ m)⁻¹) x := by
    intro x
    have hp : (0 : ℝ) < 1 + x ^ 2 := by positivity
    have h1 : HasDerivAt (fun x : ℝ => 1 + x ^ 2) (2 * x) x := by
      simpa using (hasDerivAt_pow 2 x).const_add 1
    have h2 := ((h1.pow m).inv (pow_pos hp m).ne')
    have h3 := (hasDerivAt_id x).mul h2
    refine h3.congr_deriv ?_
    obtain ⟨j, rfl⟩ : ∃ j, m = j + 1 := ⟨m - 1, by omega⟩
    simp only [Pi.pow_apply, Pi.inv_apply, id, Nat.add_sub_cancel]
    push_cast
    field_simp
    ring
  have hi1 := (lorentz_integrable (m := m + 1) (by omega)).const_mul (2 * m : ℝ)
  have hi2 := (lorentz_integrable hm).const_mul (2 * m - 1 : ℝ)
  have h := integral_of_hasDerivAt_of_tendsto hd (hi1.sub hi2)
    (lorentz_tendsto hm tendsto_abs_atBot_atTop) (lorentz_tendsto hm tendsto_abs_atTop_atTop)
  rw [integral_sub hi1 hi2, integral_const_mul, integral_const_mul, sub_zero] at h
  have hm0 : (0 : ℝ) < 2 * m := by
    have : (1 : ℝ) ≤ m := by exact_mod_cast hm
    linarith
  rw [div_mul_eq_mul_div, eq_div_iff hm0.ne']
  linarith

theorem lorentz_one : ∫ x : ℝ, ((1 + x ^ 2) ^ 1)⁻¹ = π := by
  simp only [pow_one]
  exact integral_univ_inv_one_add_sq

/-- The values used by the Compton profiles. -/
theorem lorentz_values :
    (∫ x : ℝ, ((1 + x ^ 2) ^ 3)⁻¹ = 3 / 8 * π) ∧ (∫ x : ℝ, ((1 + x ^ 2) ^ 4)⁻¹ = 5 / 16 * π) ∧
    (∫ x : ℝ, ((1 + x ^ 2) ^ 5)⁻¹ = 35 / 128 * π) ∧ (∫ x : ℝ, ((1 + x ^ 2) ^ 6)⁻¹ = 63 / 256 * π) ∧
    (∫ x : ℝ, ((1 + x ^ 2) ^ 7)⁻¹ = 231 / 1024 * π) ∧ (∫ x : ℝ, ((1 + x ^ 2) ^ 8)⁻¹ = 429 / 2048 * π) ∧
    (∫ x : ℝ, ((1 + x ^ 2) ^ 9)⁻¹ = 6435 / 32768 * π) := by
  have h1 := lorentz_one
  have h2 := lorentz_succ (m := 1) (by norm_num)
  have h3 := lorentz_succ (m := 2) (by norm_num)
  have h4 := lorentz_succ (m := 3) (by norm_num)
  have h5 := lorentz_succ (m := 4) (by norm_num)
  have h6 := lorentz_succ (m := 5) (by norm_num)
  have h7 := lorentz_succ (m := 6) (by norm_num)
  have h8 := lorentz_succ (m := 7) (by norm_num)
  have h9 := lorentz_succ (m := 8) (by norm_num)
  norm_num only at h2 h3 h4 h5 h6 h7 h8 h9
  rw [h1] at h2
  rw [h2] at h3
  rw [h3] at h4
  rw [h4] at h5
  rw [h5] at h6
  rw [h6] at h7
  rw [h7] at h8
  rw [h8] at h9
  refine ⟨?_, ?_, ?_, ?_, ?_, ?_, ?_⟩
  · rw [h3]; ring
  · rw [h4]; ring
  · rw [h5]; ring
  · rw [h6]; ring
  · rw [h7]; ring
  · rw [h8]; ring
  · rw [h9]; ring

end Verif.Laplace
