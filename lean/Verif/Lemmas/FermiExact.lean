/-
The exact Fermi integrals: the derivative lowers the order, and a lower order is smaller.
-/
import Verif.Lemmas.FermiSeries
import Mathlib.Analysis.Calculus.ParametricIntegral
import Mathlib.MeasureTheory.Integral.IntegralEqImproper

set_option autoImplicit false

namespace Verif.FermiInt

open Real MeasureTheory Filter Topology Set

/-- The derivative of the occupation with respect to the chemical potential. -/
noncomputable def occDeriv (t x : ℝ) : ℝ := exp (t - x) / (exp (t - x) + 1) ^ 2

theorem occDeriv_pos (t x : ℝ) : 0 < occDeriv t x := by
  unfold occDeriv; positivity

theorem occDeriv_le (t x : ℝ) : occDeriv t x ≤ exp x * exp (-t) := by
  unfold occDeriv
  rw [div_le_iff₀ (by positivity), ← exp_add]
  have h : exp (x + -t) * exp (t - x) = 1 := by rw [← exp_add, ← exp_zero]; congr 1; ring
  have h1 := exp_pos (t - x)
  have h2 := exp_pos (x + -t)
  nlinarith

theorem occDeriv_lt (t x : ℝ) : occDeriv t x < 1 / (exp (t - x) + 1) := by
  unfold occDeriv
  have h1 := exp_pos (t - x)
  rw [div_lt_div_iff₀ (by positivity) (by positivity)]
  nlinarith

theorem hasDerivAt_occ_right (t x : ℝ) : HasDerivAt (fun x => 1 / (exp (t - x) + 1)) (occDeriv t x) x := by
  have h : HasDerivAt (fun x => exp (t - x) + 1) (-exp (t - x)) x := by
    have := (((hasDerivAt_id x).const_sub t).exp).add_const 1
    simpa using this
  refine (((hasDerivAt_const x 1).div h (by positivity)).congr_deriv ?_)
  unfold occDeriv
  ring

theorem hasDerivAt_occ_left (t x : ℝ) : HasDerivAt (fun t => 1 / (exp (t - x) + 1)) (-occDeriv t x) t := by
  have h : HasDerivAt (fun t => exp (t - x) + 1) (exp (t - x)) t := by
    have := (((hasDerivAt_id t).sub_const x).exp).add_const 1
    simpa using this
  refine (((hasDerivAt_const t 1).div h (by positivity)).congr_deriv ?_)
  unfold occDeriv
  ring

theorem occDeriv_integrable (n : ℝ) (hn : -1 < n) (x : ℝ) :
    IntegrableOn (fun t : ℝ => t ^ n * occDeriv t x) (Ioi 0) := by
  have h := term_integrable n hn (exp x) 0
  refine Integrable.mono' h ?_ ?_
  · apply Measurable.aestronglyMeasurable
    unfold occDeriv
    fun_prop
  · refine (ae_restrict_mem measurableSet_Ioi).mono fun t ht => ?_
    have ht' : (0 : ℝ) < t := ht
    have hp := rpow_pos_of_pos ht' n
    rw [norm_eq_abs, abs_of_pos (mul_pos hp (occDeriv_pos t x))]
    simpa using mul_le_mul_of_nonneg_left (occDeriv_le t x) hp.le

theorem unnormalised_deriv (n : ℝ) (hn : -1 < n) (x : ℝ) :
    HasDerivAt (fun x => ∫ t in Ioi (0 : ℝ), t ^ n / (exp (t - x) + 1))
      (∫ t in Ioi (0 : ℝ), t ^ n * occDeriv t x) x := by
  have hb := term_integrable n hn (exp (x + 1)) 0
  refine (hasDerivAt_integral_of_dominated_loc_of_deriv_le (s := Metric.ball x 1)
    (bound := fun t : ℝ => t ^ n * (exp (x + 1) * exp (-t)) ^ (0 + 1))
    (F := fun x t => t ^ n / (exp (t - x) + 1)) (F' := fun x t => t ^ n * occDeriv t x) (Metric.ball_mem_nhds x one_pos) ?_
    (integrand_integrable n hn x) (occDeriv_integrable n hn x).aestronglyMeasurable ?_ hb ?_).2
  · refine Eventually.of_forall fun y => ?_
    exact (integrand_integrable n hn y).aestronglyMeasurable
  · refine (ae_restrict_mem measurableSet_Ioi).mono fun t ht y hy => ?_
    have ht' : (0 : ℝ) < t := ht
    have hp := rpow_pos_of_pos ht' n
    rw [norm_eq_abs, abs_of_pos (mul_pos hp (occDeriv_pos t y)), zero_add, pow_one]
    apply mul_le_mul_of_nonneg_left _ hp.le
    refine (occDeriv_le t y).trans (mul_le_mul_of_nonneg_right (exp_le_exp.2 ?_) (exp_pos _).le)
    rw [Metric.mem_ball, dist_eq] at hy
    linarith [(abs_lt.1 hy).2]
  · refine Eventually.of_forall fun t y _ => ?_
    have := (hasDerivAt_occ_right t y).const_mul (t ^ n)
    simpa [div_eq_mul_inv] using this

theorem by_parts (n : ℝ) (hn : 0 < n) (x : ℝ) :
    ∫ t in Ioi (0 : ℝ), t ^ n * occDeriv t x =
      n * ∫ t in Ioi (0 : ℝ), t ^ (n - 1) / (exp (t - x) + 1) := by
  have i1 := integrand_integrable (n - 1) (by linarith) x
  have i2 := occDeriv_integrable n (by linarith) x
  have hF : ∀ t ∈ Ioi (0 : ℝ), HasDerivAt (fun t => t ^ n * (1 / (exp (t - x) + 1)))
      (n * (t ^ (n - 1) / (exp (t - x) + 1)) - t ^ n * occDeriv t x) t := by
    intro t ht
    have ht' : (0 : ℝ) < t := ht
    refine (((hasDerivAt_rpow_const (Or.inl ht'.ne')).mul (hasDerivAt_occ_left t x)).congr_deriv ?_)
    ring
  have hc : ContinuousWithinAt (fun t : ℝ => t ^ n * (1 / (exp (t - x) + 1))) (Ici 0) 0 := by
    apply ContinuousAt.continuousWithinAt
    apply ContinuousAt.mul
    · exact continuousAt_rpow_const _ _ (Or.inr hn.le)
    · exact (hasDerivAt_occ_left 0 x).continuousAt
  have hinf : Tendsto (fun t : ℝ => t ^ n * (1 / (exp (t - x) + 1))) atTop (𝓝 0) := by
    have h := (tendsto_rpow_mul_exp_neg_mul_atTop_nhds_zero n 1 one_pos).const_mul (exp x)
    rw [mul_zero] at h
    refine squeeze_zero' ?_ ?_ h
    · filter_upwards [eventually_gt_atTop 0] with t ht
      have := rpow_pos_of_pos ht n
      positivity
    · filter_upwards [eventually_gt_atTop 0] with t ht
      have := rpow_pos_of_pos ht n
      rw [mul_left_comm]
      apply mul_le_mul_of_nonneg_left _ this.le
      rw [div_le_iff₀ (by positivity), ← exp_add]
      have e : exp (x + -1 * t) * exp (t - x) = 1 := by rw [← exp_add, show x + -1 * t + (t - x) = 0 by ring, exp_zero]
      have := exp_pos (x + -1 * t)
      nlinarith
  have h := integral_Ioi_of_hasDerivAt_of_tendsto hc hF ((i1.const_mul n).sub i2) hinf
  rw [integral_sub (i1.const_mul n) i2, integral_const_mul, zero_rpow hn.ne', zero_mul, sub_zero] at h
  linarith

/-- The derivative of a Fermi integral is the one of the order below. -/
theorem fermiIntegral_deriv (n : ℝ) (hn : 0 < n) (x : ℝ) :
    HasDerivAt (fun x => fermiIntegral x n) (fermiIntegral x (n - 1)) x := by
  unfold fermiIntegral
  refine ((unnormalised_deriv n (by linarith) x).div_const (Gamma (n + 1))).congr_deriv ?_
  rw [by_parts n hn x, Gamma_add_one hn.ne', sub_add_cancel, mul_div_mul_left _ _ hn.ne']

/-- The order below is smaller. -/
theorem fermiIntegral_lt (n : ℝ) (hn : 0 < n) (x : ℝ) :
    fermiIntegral x (n - 1) < fermiIntegral x n := by
  have hG : 0 < Gamma (n + 1) := Gamma_pos_of_pos (by linarith)
  have e : fermiIntegral x (n - 1) = (∫ t in Ioi (0 : ℝ), t ^ n * occDeriv t x) / Gamma (n + 1) := by
    rw [by_parts n hn x]
    unfold fermiIntegral
    rw [Gamma_add_one hn.ne', sub_add_cancel, mul_div_mul_left _ _ hn.ne']
  rw [e]
  unfold fermiIntegral
  apply div_lt_div_of_pos_right _ hG
  have i1 := occDeriv_integrable n (by linarith) x
  have i2 := integrand_integrable n (by linarith) x
  have hlt : ∀ t ∈ Ioi (0 : ℝ), t ^ n * occDeriv t x < t ^ n / (exp (t - x) + 1) := by
    intro t ht
    rw [div_eq_mul_one_div]
    exact mul_lt_mul_of_pos_left (occDeriv_lt t x) (rpow_pos_of_pos ht n)
  refine lt_of_le_of_ne (setIntegral_mono_on i1 i2 measurableSet_Ioi fun t ht => (hlt t ht).le) fun he => ?_
  have h0 : ∫ t in Ioi (0 : ℝ), (t ^ n / (exp (t - x) + 1) - t ^ n * occDeriv t x) = 0 := by
    rw [integral_sub i2 i1, he, sub_self]
  have hpos : 0 < ∫ t in Ioi (0 : ℝ), (t ^ n / (exp (t - x) + 1) - t ^ n * occDeriv t x) := by
    rw [setIntegral_pos_iff_support_of_nonneg_ae]
    · have : Function.support (fun t : ℝ => t ^ n / (exp (t - x) + 1) - t ^ n * occDeriv t x) ∩ Ioi 0 = Ioi 0 := by
        ext t
        simp only [mem_inter_iff, Function.mem_support, and_iff_right_iff_imp]
        exact fun ht => (sub_pos.2 (hlt t ht)).ne'
      rw [this]
      simp
    · exact (ae_restrict_mem measurableSet_Ioi).mono fun t ht => (sub_pos.2 (hlt t ht)).le
    · exact i2.sub i1
  linarith

end Verif.FermiInt
