/-
The polarisability in the closed upper half plane: continuity up to the real axis, decay, and
integrals along the real axis by Cauchy's theorem.
-/
import Mathlib.Analysis.Complex.CauchyIntegral
import Mathlib.Analysis.Calculus.ParametricIntegral
import Verif.Lemmas.DampLimit

set_option autoImplicit false

namespace Verif.Lindhard

open Real MeasureTheory Set Filter Topology

/-- The polarisability with its values on the real axis. -/
noncomputable def polarB (eta kap : ℝ) (z : ℂ) : ℂ :=
  ⟨1 / 2 * (logInt eta (z.re - kap) z.im + logInt eta (-(z.re + kap)) z.im -
      logInt eta (-(z.re - kap)) z.im - logInt eta (z.re + kap) z.im),
    ∫ s : ℝ, wgt eta kap (z.re + z.im * s) * (1 + s ^ 2)⁻¹⟩

theorem polarB_im_continuous (eta kap : ℝ) :
    Continuous fun z : ℂ => ∫ s : ℝ, wgt eta kap (z.re + z.im * s) * (1 + s ^ 2)⁻¹ := by
  refine continuous_of_dominated (bound := fun s => exp eta * (1 + s ^ 2)⁻¹)
    (fun z => (wgt_cauchy_integrable eta kap z.re z.im).1)
    (fun z => Eventually.of_forall fun s => ?_)
    (integrable_inv_one_add_sq.const_mul (exp eta)) (Eventually.of_forall fun s => ?_)
  · have : (0 : ℝ) < (1 + s ^ 2)⁻¹ := by positivity
    rw [norm_mul, norm_eq_abs, norm_eq_abs, abs_of_pos this]
    exact mul_le_mul_of_nonneg_right (wgt_abs_le eta kap _) this.le
  · have h : Continuous fun z : ℂ => wgt eta kap (z.re + z.im * s) :=
      (wgt_continuous eta kap).comp (by fun_prop)
    exact h.mul continuous_const

theorem polarB_continuous (eta kap : ℝ) : Continuous (polarB eta kap) := by
  have hL := logInt_continuous eta
  have h : ∀ f : ℂ → ℝ, Continuous f → Continuous fun z : ℂ => logInt eta (f z) z.im :=
    fun f hf => hL.comp (hf.prodMk Complex.continuous_im)
  have h1 := h (fun z => z.re - kap) (by fun_prop)
  have h2 := h (fun z => -(z.re + kap)) (by fun_prop)
  have h3 := h (fun z => -(z.re - kap)) (by fun_prop)
  have h4 := h (fun z => z.re + kap) (by fun_prop)
  have hre := (continuous_const (y := (1 / 2 : ℝ))).mul (((h1.add h2).sub h3).sub h4)
  have him := polarB_im_continuous eta kap
  have := (Complex.continuous_ofReal.comp hre).add ((Complex.continuous_ofReal.comp him).mul (continuous_const (y := Complex.I)))
  refine this.congr fun z => ?_
  apply Complex.ext <;> simp [polarB]

theorem polar_re_logInt (eta : ℝ) {kap : ℝ} (hk : 0 < kap) {z : ℂ} (hz : z.im ≠ 0) :
    (polar eta kap z).re = 1 / 2 * (logInt eta (z.re - kap) z.im + logInt eta (-(z.re + kap)) z.im -
      logInt eta (-(z.re - kap)) z.im - logInt eta (z.re + kap) z.im) := by
  rw [polar_re eta hk.le hz, wgt_swap eta hk (reK_continuous z.re hz).measurable
    (wgt_reK_integrable eta hk.le hz)]
  set a := z.re
  set b := z.im
  have i1 := logInt_integrable eta (a - kap) b
  have i2 := logInt_integrable eta (-(a + kap)) b
  have i3 := logInt_integrable eta (-(a - kap)) b
  have i4 := logInt_integrable eta (a + kap) b
  have s1 := integral_sub ((i1.add i2).sub i3) i4
  have s2 := integral_sub (i1.add i2) i3
  have s3 := integral_add i1 i2
  simp only [Pi.add_apply, Pi.sub_apply] at s1 s2 s3
  unfold logInt
  rw [← s3, ← s2, ← s1, ← integral_const_mul]
  refine integral_congr_ae (Eventually.of_forall fun y => ?_)
  simp only
  rw [integral_reK_abs a hz, log_div (by positivity) (by positivity), log_mul (by positivity)
    (by positivity), log_mul (by positivity) (by positivity)]
  have e1 : (a - kap - y) ^ 2 = (y - (a - kap)) ^ 2 := by ring
  have e2 : (a + kap + y) ^ 2 = (y - -(a + kap)) ^ 2 := by ring
  have e3 : (a - kap + y) ^ 2 = (y - -(a - kap)) ^ 2 := by ring
  have e4 : (a + kap - y) ^ 2 = (y - (a + kap)) ^ 2 := by ring
  rw [e1, e2, e3, e4]
  ring

theorem polarB_eq (eta : ℝ) {kap : ℝ} (hk : 0 < kap) {z : ℂ} (hz : 0 < z.im) :
    polarB eta kap z = polar eta kap z := by
  apply Complex.ext
  · rw [polar_re_logInt eta hk hz.ne']
    rfl
  · rw [polar_im eta hk.le hz.ne', wgt_imK_whole eta kap z.re hz]
    rfl

theorem polarB_real_im (eta kap a : ℝ) : (polarB eta kap (a : ℂ)).im = π * wgt eta kap a := by
  simp only [polarB, Complex.ofReal_re, Complex.ofReal_im, zero_mul, add_zero]
  rw [integral_const_mul, integral_univ_inv_one_add_sq, mul_comm]

theorem polarB_neg (eta kap a : ℝ) :
    polarB eta kap (-(a : ℂ)) = (starRingEnd ℂ) (polarB eta kap (a : ℂ)) := by
  apply Complex.ext
  · simp only [polarB, Complex.neg_re, Complex.ofReal_re, Complex.neg_im, Complex.ofReal_im, neg_zero,
      Complex.conj_re]
    have e1 : -a - kap = -(a + kap) := by ring
    have e2 : -(-a + kap) = a - kap := by ring
    have e3 : -(-a - kap) = a + kap := by ring
    have e4 : -a + kap = -(a - kap) := by ring
    rw [e2, e3, e1, e4]
    ring
  · rw [Complex.conj_im, polarB_real_im, ← Complex.ofReal_neg, polarB_real_im, wgt_neg]
    ring

/-! ### Differentiability -/

theorem resolvent_differentiableAt (eta : ℝ) {kap : ℝ} (hk : 0 ≤ kap) {z : ℂ} (hz : 0 < z.im) :
    DifferentiableAt ℂ (resolvent eta kap) z := by
  have hne : ∀ w ∈ Metric.ball z (z.im / 2), z.im / 2 ≤ w.im := by
    intro w hw
    have h1 := Complex.abs_im_le_norm (w - z)
    rw [Metric.mem_ball, dist_eq_norm] at hw
    rw [Complex.sub_im] at h1
    have := (abs_le.1 (h1.trans hw.le)).1
    linarith
  have hz' : ∀ w ∈ Metric.ball z (z.im / 2), w.im ≠ 0 := fun w hw => by
    have := hne w hw
    linarith
  have hm : ∀ w : ℂ, w.im ≠ 0 → AEStronglyMeasurable
      (fun x : ℝ => (dens eta kap x : ℂ) * ((x : ℂ) ^ 2 - w ^ 2)⁻¹) (volume.restrict (Ioi 0)) :=
    fun w hw => (dens_mul_integrableC eta hk (den_continuous hw) _ (inv_den_le hw)).1
  have hball : Metric.ball z (z.im / 2) ∈ 𝓝 z := Metric.ball_mem_nhds z (by linarith)
  have hd : Integrable (dens eta kap) (volume.restrict (Ioi 0)) := (wgt_div_integrable eta hk).integrable
  have hC := hd.norm.mul_const ((2 * (‖z‖ + z.im / 2)) * (((z.im / 2) ^ 2)⁻¹) ^ 2)
  have hcont : Continuous fun x : ℝ => 2 * z * (((x : ℂ) ^ 2 - z ^ 2)⁻¹) ^ 2 :=
    continuous_const.mul ((den_continuous hz.ne').pow 2)
  refine (hasDerivAt_integral_of_dominated_loc_of_deriv_le (μ := volume.restrict (Ioi (0 : ℝ)))
    (F' := fun w x => (dens eta kap x : ℂ) * (2 * w * (((x : ℂ) ^ 2 - w ^ 2)⁻¹) ^ 2)) hball ?_ ?_ ?_ ?_ hC ?_).2.differentiableAt
  · filter_upwards [hball] with w hw
    exact hm w (hz' w hw)
  · exact dens_mul_integrableC eta hk (den_continuous hz.ne') _ (inv_den_le hz.ne')
  · exact (hd.ofReal (𝕜 := ℂ)).1.mul hcont.aestronglyMeasurable
  · refine Eventually.of_forall fun x w hw => ?_
    have h1 := inv_den_le (hz' w hw) x
    have h2 : ‖w‖ ≤ ‖z‖ + z.im / 2 := by
      have := norm_sub_norm_le w z
      rw [Metric.mem_ball, dist_eq_norm] at hw
      linarith
    have h3 : (w.im ^ 2)⁻¹ ≤ ((z.im / 2) ^ 2)⁻¹ := by
      apply inv_anti₀ (by positivity)
      exact pow_le_pow_left₀ (by linarith) (hne w hw) 2
    rw [norm_mul, norm_mul, norm_mul, norm_pow, Complex.norm_real, Complex.norm_two]
    refine mul_le_mul_of_nonneg_left ?_ (norm_nonneg _)
    refine mul_le_mul (by linarith) (pow_le_pow_left₀ (norm_nonneg _) (h1.trans h3) 2) (by positivity) ?_
    have := norm_nonneg z
    positivity
  · refine Eventually.of_forall fun x w hw => ?_
    have hx := den_ne (hz' w hw) x
    have h1 : HasDerivAt (fun w : ℂ => (x : ℂ) ^ 2 - w ^ 2) (-(2 * w)) w := by
      have := (hasDerivAt_pow 2 w).const_sub ((x : ℂ) ^ 2)
      simpa using this
    have h2 := (h1.inv hx).const_mul (dens eta kap x : ℂ)
    have e : (dens eta kap x : ℂ) * (2 * w * (((x : ℂ) ^ 2 - w ^ 2)⁻¹) ^ 2) =
        (dens eta kap x : ℂ) * (- -(2 * w) / ((x : ℂ) ^ 2 - w ^ 2) ^ 2) := by
      rw [neg_neg, inv_pow, div_eq_mul_inv]
    rw [e]
    exact h2

theorem polar_differentiableAt (eta : ℝ) {kap : ℝ} (hk : 0 ≤ kap) {z : ℂ} (hz : 0 < z.im) :
    DifferentiableAt ℂ (polar eta kap) z := by
  have hr := resolvent_differentiableAt eta hk hz
  have h : DifferentiableAt ℂ (fun z : ℂ => 2 * ((mass eta kap : ℂ) + z ^ 2 * resolvent eta kap z)) z :=
    (((differentiableAt_id.pow 2).mul hr).const_add _).const_mul 2
  refine h.congr_of_eventuallyEq ?_
  have : ∀ᶠ w : ℂ in 𝓝 z, 0 < w.im := Complex.continuous_im.continuousAt.eventually (lt_mem_nhds hz)
  filter_upwards [this] with w hw
  exact polar_eq eta hk hw.ne'

theorem polarB_differentiableAt (eta : ℝ) {kap : ℝ} (hk : 0 < kap) {z : ℂ} (hz : 0 < z.im) :
    DifferentiableAt ℂ (polarB eta kap) z := by
  refine (polar_differentiableAt eta hk.le hz).congr_of_eventuallyEq ?_
  have : ∀ᶠ w : ℂ in 𝓝 z, 0 < w.im := Complex.continuous_im.continuousAt.eventually (lt_mem_nhds hz)
  filter_upwards [this] with w hw
  exact polarB_eq eta hk hw

/-! ### Bounds -/

theorem integral_pole (b : ℝ) (hb : 0 < b) :
    ‖∫ s in (-1 : ℝ)..1, ((s : ℂ) - b * Complex.I)⁻¹‖ ≤ π := by
  have hne : ∀ s : ℝ, (s : ℂ) - b * Complex.I ≠ 0 := by
    intro s h
    have := congrArg Complex.im h
    simp at this
    exact hb.ne' this
  have hc : Continuous fun s : ℝ => ((s : ℂ) - b * Complex.I)⁻¹ :=
    Continuous.inv₀ (by fun_prop) hne
  have e1 : ∫ s in (-1 : ℝ)..1, ((s : ℂ) - b * Complex.I)⁻¹ =
      ∫ s in (-1 : ℝ)..1, (((-s : ℝ) : ℂ) - b * Complex.I)⁻¹ := by
    have := intervalIntegral.integral_comp_neg (a := (-1 : ℝ)) (b := 1)
      (fun s : ℝ => ((s : ℂ) - b * Complex.I)⁻¹)
    rw [this, neg_neg]
  have hc2 : Continuous fun s : ℝ => (((-s : ℝ) : ℂ) - b * Complex.I)⁻¹ := hc.comp continuous_neg
  have e2 : 2 * ∫ s in (-1 : ℝ)..1, ((s : ℂ) - b * Complex.I)⁻¹ =
      ∫ s in (-1 : ℝ)..1, ((2 * (b / (s ^ 2 + b ^ 2)) : ℝ) : ℂ) * Complex.I := by
    rw [two_mul]
    nth_rewrite 2 [e1]
    rw [← intervalIntegral.integral_add (hc.intervalIntegrable _ _) (hc2.intervalIntegrable _ _)]
    refine intervalIntegral.integral_congr fun s _ => ?_
    have h1 := hne s
    have h2 := hne (-s)
    have h3 : ((s : ℂ) - b * Complex.I) * ((s : ℂ) + b * Complex.I) = s ^ 2 + b ^ 2 := by
      linear_combination (-(b : ℂ) ^ 2) * Complex.I_sq
    have h4 : (s : ℂ) ^ 2 + (b : ℂ) ^ 2 ≠ 0 := by
      have : (0 : ℝ) < s ^ 2 + b ^ 2 := by positivity
      exact_mod_cast this.ne'
    have h5 : (s : ℂ) + b * Complex.I ≠ 0 := right_ne_zero_of_mul (h3 ▸ h4)
    push_cast
    rw [show -(s : ℂ) - b * Complex.I = -((s : ℂ) + b * Complex.I) by ring, ← h3]
    field_simp
    ring
  have hd : ∀ s : ℝ, HasDerivAt (fun s => 2 * arctan (s / b)) (2 * (b / (s ^ 2 + b ^ 2))) s := by
    intro s
    have h := ((hasDerivAt_id s).div_const b).arctan.const_mul 2
    have e : 2 * (b / (s ^ 2 + b ^ 2)) = 2 * (1 / (1 + (id s / b) ^ 2) * (1 / b)) := by
      rw [id]
      field_simp
      ring
    rw [e]
    exact h
  have e3 : ∫ s in (-1 : ℝ)..1, 2 * (b / (s ^ 2 + b ^ 2)) = 4 * arctan (1 / b) := by
    rw [intervalIntegral.integral_eq_sub_of_hasDerivAt (fun s _ => hd s)]
    · rw [neg_div, arctan_neg]
      ring
    · apply Continuous.intervalIntegrable
      exact continuous_const.mul (Continuous.div (by fun_prop) (by fun_prop) fun s => by positivity)
  rw [intervalIntegral.integral_mul_const, intervalIntegral.integral_ofReal, e3] at e2
  have h := congrArg norm e2
  rw [norm_mul, norm_mul, Complex.norm_two, Complex.norm_I, Complex.norm_real, mul_one, norm_mul,
    norm_eq_abs, norm_eq_abs] at h
  have h1 := arctan_lt_pi_div_two (1 / b)
  have h2 : 0 ≤ arctan (1 / b) := arctan_nonneg.2 (by positivity)
  rw [abs_of_nonneg h2, abs_of_pos (by norm_num : (0 : ℝ) < 4)] at h
  linarith

theorem pole_norm_ge {b : ℝ} (s : ℝ) : |s| ≤ ‖(s : ℂ) - b * Complex.I‖ := by
  have := Complex.abs_re_le_norm ((s : ℂ) - b * Complex.I)
  simpa using this

theorem pole_norm_ge' {b : ℝ} (hb : 0 < b) (s : ℝ) : b ≤ ‖(s : ℂ) - b * Complex.I‖ := by
  have := Complex.abs_im_le_norm ((s : ℂ) - b * Complex.I)
  simp at this
  rwa [abs_of_pos hb] at this

/-- The Cauchy transform of a bounded Lipschitz function is bounded, up to the real axis. -/
theorem cauchy_bound {V : ℝ → ℝ} (hV : Integrable V) (hc : Continuous V) {M L : ℝ}
    (hM : ∀ x, |V x| ≤ M) (hL : ∀ x y, |V x - V y| ≤ L * |x - y|) {z : ℂ} (hz : 0 < z.im) :
    ‖∫ x : ℝ, (V x : ℂ) * ((x : ℂ) - z)⁻¹‖ ≤ (∫ x, |V x|) + 2 * L + M * π := by
  set a := z.re
  set b := z.im
  have hzab : z = a + b * Complex.I := (Complex.re_add_im z).symm
  have hL0 : 0 ≤ L := by
    have := (abs_nonneg _).trans (hL 1 0)
    simpa using this
  have hne : ∀ s : ℝ, (s : ℂ) - b * Complex.I ≠ 0 := by
    intro s h
    have := pole_norm_ge' hz s
    rw [h, norm_zero] at this
    linarith
  have hpc : Continuous fun s : ℝ => ((s : ℂ) - b * Complex.I)⁻¹ := Continuous.inv₀ (by fun_prop) hne
  have hVa : Integrable fun s => V (s + a) := hV.comp_add_right a
  have e1 : ∫ x : ℝ, (V x : ℂ) * ((x : ℂ) - z)⁻¹ =
      ∫ s : ℝ, (V (s + a) : ℂ) * ((s : ℂ) - b * Complex.I)⁻¹ := by
    rw [← integral_add_right_eq_self (fun x : ℝ => (V x : ℂ) * ((x : ℂ) - z)⁻¹) a]
    refine integral_congr_ae (Eventually.of_forall fun s => ?_)
    simp only
    congr 2
    rw [hzab]
    push_cast
    ring
  have hgi : Integrable fun s : ℝ => (V (s + a) : ℂ) * ((s : ℂ) - b * Complex.I)⁻¹ := by
    have := (hVa.ofReal (𝕜 := ℂ)).bdd_mul (c := b⁻¹) (f := fun s : ℝ => ((s : ℂ) - b * Complex.I)⁻¹)
      hpc.aestronglyMeasurable (Eventually.of_forall fun s => by
        rw [norm_inv]
        exact inv_anti₀ hz (pole_norm_ge' hz s))
    refine this.congr (Eventually.of_forall fun s => mul_comm _ _)
  rw [e1, ← integral_add_compl (measurableSet_Ioc (a := (-1 : ℝ)) (b := 1)) hgi]
  have hfar : ‖∫ s in (Ioc (-1 : ℝ) 1)ᶜ, (V (s + a) : ℂ) * ((s : ℂ) - b * Complex.I)⁻¹‖ ≤ ∫ x, |V x| := by
    have h1 : ∫ x, |V x| = ∫ s, |V (s + a)| :=
      (integral_add_right_eq_self (fun x => |V x|) a).symm
    rw [h1]
    refine (norm_integral_le_of_norm_le hVa.abs.integrableOn ?_).trans
      (setIntegral_le_integral hVa.abs (Eventually.of_forall fun s => abs_nonneg _))
    rw [ae_restrict_iff' measurableSet_Ioc.compl]
    refine Eventually.of_forall fun s hs => ?_
    rw [norm_mul, Complex.norm_real, norm_eq_abs, norm_inv]
    have h2 : 1 ≤ |s| := by
      by_contra h
      push Not at h
      exact hs ⟨(abs_lt.1 h).1, (abs_lt.1 h).2.le⟩
    have h3 : ‖(s : ℂ) - b * Complex.I‖⁻¹ ≤ 1 := inv_le_one_of_one_le₀ (h2.trans (pole_norm_ge s))
    exact mul_le_of_le_one_right (abs_nonneg _) h3
  have hnear : ‖∫ s in Ioc (-1 : ℝ) 1, (V (s + a) : ℂ) * ((s : ℂ) - b * Complex.I)⁻¹‖ ≤ 2 * L + M * π := by
    rw [← intervalIntegral.integral_of_le (by norm_num)]
    have hc1 : Continuous fun s : ℝ => ((V (s + a) - V a : ℝ) : ℂ) * ((s : ℂ) - b * Complex.I)⁻¹ := by
      have : Continuous fun s : ℝ => V (s + a) - V a := (hc.comp (by fun_prop)).sub continuous_const
      exact (Complex.continuous_ofReal.comp this).mul hpc
    have e2 : ∫ s in (-1 : ℝ)..1, (V (s + a) : ℂ) * ((s : ℂ) - b * Complex.I)⁻¹ =
        (∫ s in (-1 : ℝ)..1, ((V (s + a) - V a : ℝ) : ℂ) * ((s : ℂ) - b * Complex.I)⁻¹) +
          V a * ∫ s in (-1 : ℝ)..1, ((s : ℂ) - b * Complex.I)⁻¹ := by
      have hc2 : Continuous fun s : ℝ => (V a : ℂ) * ((s : ℂ) - b * Complex.I)⁻¹ :=
        continuous_const.mul hpc
      rw [← intervalIntegral.integral_const_mul, ← intervalIntegral.integral_add
        (hc1.intervalIntegrable _ _) (hc2.intervalIntegrable _ _)]
      refine intervalIntegral.integral_congr fun s _ => ?_
      push_cast
      ring
    rw [e2]
    refine (norm_add_le _ _).trans (add_le_add ?_ ?_)
    · have := intervalIntegral.norm_integral_le_of_norm_le_const (a := (-1 : ℝ)) (b := 1) (C := L)
        (f := fun s : ℝ => ((V (s + a) - V a : ℝ) : ℂ) * ((s : ℂ) - b * Complex.I)⁻¹) (fun s _ => by
          rw [norm_mul, Complex.norm_real, norm_eq_abs, norm_inv]
          have h1 := hL (s + a) a
          rw [add_sub_cancel_right] at h1
          have h2 := pole_norm_ge (b := b) s
          have h3 : 0 < ‖(s : ℂ) - b * Complex.I‖ := norm_pos_iff.2 (hne s)
          rw [← div_eq_mul_inv, div_le_iff₀ h3]
          exact h1.trans (mul_le_mul_of_nonneg_left h2 hL0))
      refine this.trans (le_of_eq ?_)
      norm_num
      ring
    · rw [norm_mul, Complex.norm_real, norm_eq_abs]
      exact mul_le_mul (hM a) (integral_pole b hz) (norm_nonneg _) ((abs_nonneg _).trans (hM a))
  calc _ ≤ _ := norm_add_le _ _
    _ ≤ (2 * L + M * π) + ∫ x, |V x| := add_le_add hnear hfar
    _ = _ := by ring

theorem sq_gauss (c x : ℝ) : x ^ 2 * exp (-((x - c) ^ 2 / 2)) ≤ 4 + 2 * c ^ 2 := by
  set f := exp (-((x - c) ^ 2 / 2)) with hf
  have hf0 : 0 < f := exp_pos _
  have hf1 : f ≤ 1 := by
    rw [hf, exp_le_one_iff]
    nlinarith [sq_nonneg (x - c)]
  have h1 : (x - c) ^ 2 * f ≤ 2 := by
    have h2 := add_one_le_exp ((x - c) ^ 2 / 2)
    have h3 : exp ((x - c) ^ 2 / 2) * f = 1 := by
      rw [hf, ← exp_add]
      simp
    nlinarith [sq_nonneg (x - c)]
  have h2 : x ^ 2 ≤ 2 * (x - c) ^ 2 + 2 * c ^ 2 := by nlinarith [sq_nonneg (x - 2 * c)]
  nlinarith [sq_nonneg c]

theorem psi_gauss (eta t : ℝ) : psi eta t ≤ exp eta * (exp (-(t ^ 2 / 2)) * exp (-(t ^ 2 / 2))) := by
  unfold psi
  have h1 := log_le_sub_one_of_pos (by positivity : (0 : ℝ) < 1 + exp (eta - t ^ 2))
  have h2 : exp (eta - t ^ 2) = exp eta * (exp (-(t ^ 2 / 2)) * exp (-(t ^ 2 / 2))) := by
    rw [← exp_add, ← exp_add]
    congr 1
    ring
  linarith

theorem phi_abs_le (eta t : ℝ) : |phi eta t| ≤ 2 * exp eta * exp (-(t ^ 2 / 2)) := by
  have h : |phi eta t| = phi eta |t| := by
    unfold phi
    rw [abs_div, abs_mul, sq_abs, abs_of_pos (by positivity : (0 : ℝ) < exp (t ^ 2 - eta) + 1)]
    norm_num
  rw [h]
  have h1 := phiP_le eta |t|
  unfold phiP at h1
  rwa [max_eq_left (abs_nonneg t), sq_abs] at h1

/-- The second moment of the weight. -/
noncomputable def wgt2 (eta kap x : ℝ) : ℝ := x ^ 2 * wgt eta kap x

theorem wgt2_le (eta kap x : ℝ) : |wgt2 eta kap x| ≤ exp eta * (4 + 2 * kap ^ 2) *
    (exp (-((x - kap) ^ 2 / 2)) + exp (-((x + kap) ^ 2 / 2))) := by
  unfold wgt2
  rw [abs_mul, abs_of_nonneg (sq_nonneg x)]
  have h1 := sq_gauss kap x
  have h2 := sq_gauss (-kap) x
  rw [sub_neg_eq_add, neg_sq] at h2
  have h3 := psi_gauss eta (x - kap)
  have h4 := psi_gauss eta (x + kap)
  set f := exp (-((x - kap) ^ 2 / 2))
  set g := exp (-((x + kap) ^ 2 / 2))
  have hf : 0 < f := exp_pos _
  have hg : 0 < g := exp_pos _
  have hw : |wgt eta kap x| ≤ exp eta * (f * f + g * g) := by
    unfold wgt
    have := psi_nonneg eta (x - kap)
    have := psi_nonneg eta (x + kap)
    have : 0 < exp eta * (f * f) := by positivity
    have : 0 < exp eta * (g * g) := by positivity
    rw [abs_le]
    constructor <;> nlinarith
  calc x ^ 2 * |wgt eta kap x| ≤ x ^ 2 * (exp eta * (f * f + g * g)) :=
        mul_le_mul_of_nonneg_left hw (sq_nonneg x)
    _ = exp eta * (x ^ 2 * f * f + x ^ 2 * g * g) := by ring
    _ ≤ exp eta * ((4 + 2 * kap ^ 2) * f + (4 + 2 * kap ^ 2) * g) := by
        refine mul_le_mul_of_nonneg_left (add_le_add ?_ ?_) (exp_pos _).le
        · exact mul_le_mul_of_nonneg_right h1 hf.le
        · exact mul_le_mul_of_nonneg_right h2 hg.le
    _ = _ := by ring

theorem exp_sq_le_one (t : ℝ) : exp (-(t ^ 2 / 2)) ≤ 1 := by
  rw [exp_le_one_iff]
  nlinarith [sq_nonneg t]

theorem wgt2_bdd (eta kap x : ℝ) : |wgt2 eta kap x| ≤ exp eta * (4 + 2 * kap ^ 2) * 2 := by
  refine (wgt2_le eta kap x).trans (mul_le_mul_of_nonneg_left ?_ (by positivity))
  have := exp_sq_le_one (x - kap)
  have := exp_sq_le_one (x + kap)
  linarith

theorem wgt2_continuous (eta kap : ℝ) : Continuous (wgt2 eta kap) :=
  (continuous_pow 2).mul (wgt_continuous eta kap)

theorem gauss_shift (c : ℝ) : Integrable fun x : ℝ => exp (-((x - c) ^ 2 / 2)) := by
  refine ((integrable_exp_neg_mul_sq (by norm_num : (0 : ℝ) < 1 / 2)).comp_sub_right c).congr
    (Eventually.of_forall fun x => ?_)
  simp only
  congr 1
  ring

theorem wgt2_integrable (eta kap : ℝ) : Integrable (wgt2 eta kap) := by
  have h := gauss_shift (-kap)
  simp only [sub_neg_eq_add] at h
  refine (((gauss_shift kap).add h).const_mul (exp eta * (4 + 2 * kap ^ 2))).mono'
    (wgt2_continuous eta kap).aestronglyMeasurable (Eventually.of_forall fun x => ?_)
  exact wgt2_le eta kap x

theorem wgt2_hasDerivAt (eta kap x : ℝ) : HasDerivAt (wgt2 eta kap)
    (2 * x * wgt eta kap x + x ^ 2 * (phi eta (x + kap) - phi eta (x - kap))) x := by
  have h1 : HasDerivAt (fun x => psi eta (x - kap)) (-phi eta (x - kap)) x := by
    have := (psi_hasDerivAt eta (x - kap)).comp x ((hasDerivAt_id x).sub_const kap)
    simpa [Function.comp_def] using this
  have h2 : HasDerivAt (fun x => psi eta (x + kap)) (-phi eta (x + kap)) x := by
    have := (psi_hasDerivAt eta (x + kap)).comp x ((hasDerivAt_id x).add_const kap)
    simpa [Function.comp_def] using this
  have h3 := (hasDerivAt_pow 2 x).mul (h1.sub h2)
  have e : 2 * x * wgt eta kap x + x ^ 2 * (phi eta (x + kap) - phi eta (x - kap)) =
      (2 : ℕ) * x ^ (2 - 1) * (psi eta (x - kap) - psi eta (x + kap)) +
        x ^ 2 * (-phi eta (x - kap) - -phi eta (x + kap)) := by
    unfold wgt
    rw [show 2 - 1 = 1 from rfl, pow_one]
    push_cast
    ring
  rw [e]
  exact h3

theorem wgt2_deriv_le (eta kap x : ℝ) :
    |2 * x * wgt eta kap x + x ^ 2 * (phi eta (x + kap) - phi eta (x - kap))| ≤
      exp eta + 6 * (exp eta * (4 + 2 * kap ^ 2)) := by
  have hE := exp_pos eta
  have h1 : |2 * x * wgt eta kap x| ≤ exp eta + exp eta * (4 + 2 * kap ^ 2) * 2 := by
    have a1 : |2 * x| ≤ 1 + x ^ 2 := by
      rw [abs_le]
      constructor <;> nlinarith [sq_nonneg (x - 1), sq_nonneg (x + 1)]
    have a2 := wgt2_bdd eta kap x
    unfold wgt2 at a2
    rw [abs_mul, abs_of_nonneg (sq_nonneg x)] at a2
    rw [abs_mul]
    have a3 := wgt_abs_le eta kap x
    have := mul_le_mul_of_nonneg_right a1 (abs_nonneg (wgt eta kap x))
    linarith
  have h2 : ∀ c : ℝ, |x ^ 2 * phi eta (x - c)| ≤ 2 * (exp eta * (4 + 2 * c ^ 2)) := by
    intro c
    rw [abs_mul, abs_of_nonneg (sq_nonneg x)]
    have a1 := phi_abs_le eta (x - c)
    have a2 := sq_gauss c x
    calc x ^ 2 * |phi eta (x - c)| ≤ x ^ 2 * (2 * exp eta * exp (-((x - c) ^ 2 / 2))) :=
          mul_le_mul_of_nonneg_left a1 (sq_nonneg x)
      _ = 2 * exp eta * (x ^ 2 * exp (-((x - c) ^ 2 / 2))) := by ring
      _ ≤ 2 * exp eta * (4 + 2 * c ^ 2) := mul_le_mul_of_nonneg_left a2 (by positivity)
      _ = _ := by ring
  have h3 := h2 kap
  have h4 := h2 (-kap)
  rw [sub_neg_eq_add, neg_sq] at h4
  have e : 2 * x * wgt eta kap x + x ^ 2 * (phi eta (x + kap) - phi eta (x - kap)) =
      2 * x * wgt eta kap x + x ^ 2 * phi eta (x + kap) - x ^ 2 * phi eta (x - kap) := by ring
  rw [e]
  have h5 := abs_sub (2 * x * wgt eta kap x + x ^ 2 * phi eta (x + kap)) (x ^ 2 * phi eta (x - kap))
  have h6 := abs_add_le (2 * x * wgt eta kap x) (x ^ 2 * phi eta (x + kap))
  linarith

theorem wgt2_lipschitz (eta kap x y : ℝ) : |wgt2 eta kap x - wgt2 eta kap y| ≤
    (exp eta + 6 * (exp eta * (4 + 2 * kap ^ 2))) * |x - y| := by
  have := Convex.norm_image_sub_le_of_norm_hasDerivWithin_le (s := univ) (x := y) (y := x)
    (fun t _ => (wgt2_hasDerivAt eta kap t).hasDerivWithinAt)
    (fun t _ => wgt2_deriv_le eta kap t) convex_univ (mem_univ _) (mem_univ _)
  exact this

theorem wgt2_neg (eta kap x : ℝ) : wgt2 eta kap (-x) = -wgt2 eta kap x := by
  unfold wgt2
  rw [wgt_neg]
  ring

theorem sub_norm_ge {z : ℂ} (hz : 0 < z.im) (x : ℝ) : z.im ≤ ‖(x : ℂ) - z‖ := by
  have := Complex.abs_im_le_norm ((x : ℂ) - z)
  simp only [Complex.sub_im, Complex.ofReal_im, zero_sub, abs_neg] at this
  rwa [abs_of_pos hz] at this

theorem sub_inv_continuous {z : ℂ} (hz : 0 < z.im) : Continuous fun x : ℝ => ((x : ℂ) - z)⁻¹ :=
  Continuous.inv₀ (by fun_prop) fun x h => by
    have := sub_norm_ge hz x
    rw [h, norm_zero] at this
    linarith

theorem wgt2_pole_integrable (eta kap : ℝ) {z : ℂ} (hz : 0 < z.im) :
    Integrable fun x : ℝ => (wgt2 eta kap x : ℂ) * ((x : ℂ) - z)⁻¹ := by
  have := ((wgt2_integrable eta kap).ofReal (𝕜 := ℂ)).bdd_mul (c := z.im⁻¹)
    (f := fun x : ℝ => ((x : ℂ) - z)⁻¹) (sub_inv_continuous hz).aestronglyMeasurable
    (Eventually.of_forall fun x => by
      rw [norm_inv]
      exact inv_anti₀ hz (sub_norm_ge hz x))
  exact this.congr (Eventually.of_forall fun x => mul_comm _ _)

theorem wgt2_whole (eta kap : ℝ) {z : ℂ} (hz : 0 < z.im) :
    IntegrableOn (fun x : ℝ => (wgt2 eta kap x : ℂ) * (2 * (x : ℂ) * ((x : ℂ) ^ 2 - z ^ 2)⁻¹)) (Ioi 0) ∧
    ∫ x in Ioi (0 : ℝ), (wgt2 eta kap x : ℂ) * (2 * (x : ℂ) * ((x : ℂ) ^ 2 - z ^ 2)⁻¹) =
      ∫ x : ℝ, (wgt2 eta kap x : ℂ) * ((x : ℂ) - z)⁻¹ := by
  have hi := wgt2_pole_integrable eta kap hz
  set F : ℝ → ℂ := fun x => (wgt2 eta kap x : ℂ) * ((x : ℂ) - z)⁻¹ with hF
  have e : ∀ x : ℝ, F (-x) + F x = (wgt2 eta kap x : ℂ) * (2 * (x : ℂ) * ((x : ℂ) ^ 2 - z ^ 2)⁻¹) := by
    intro x
    simp only [hF]
    rw [partial_fractions hz.ne', wgt2_neg]
    push_cast
    rw [show -(x : ℂ) - z = -((x : ℂ) + z) by ring, inv_neg]
    ring
  have i1 : IntegrableOn (fun x => F (-x)) (Ioi 0) := hi.comp_neg.integrableOn
  have i2 : IntegrableOn F (Ioi 0) := hi.integrableOn
  refine ⟨(i1.add i2).congr (Eventually.of_forall fun x => e x), ?_⟩
  have e3 : ∫ x in Iic (0 : ℝ), F x = ∫ x in Ioi (0 : ℝ), F (-x) := by
    have := integral_comp_neg_Ioi (c := (0 : ℝ)) F
    rw [this, neg_zero]
  rw [← intervalIntegral.integral_Iic_add_Ioi (b := 0) hi.integrableOn hi.integrableOn, e3,
    ← integral_add i1 i2]
  exact (integral_congr_ae (Eventually.of_forall fun x => e x)).symm

theorem polar_sq (eta : ℝ) {kap : ℝ} (hk : 0 < kap) {z : ℂ} (hz : 0 < z.im) :
    z ^ 2 * polar eta kap z = (∫ x : ℝ, (wgt2 eta kap x : ℂ) * ((x : ℂ) - z)⁻¹) -
      ∫ x in Ioi (0 : ℝ), ((2 * (wgt eta kap x * x) : ℝ) : ℂ) := by
  obtain ⟨h1, h2⟩ := wgt2_whole eta kap hz
  have h3 := (polar_integrable eta hk.le hz.ne').const_mul (z ^ 2)
  have e : ∀ x ∈ Ioi (0 : ℝ), (wgt2 eta kap x : ℂ) * (2 * (x : ℂ) * ((x : ℂ) ^ 2 - z ^ 2)⁻¹) -
      z ^ 2 * ((dens eta kap x : ℂ) * (2 * (x : ℂ) ^ 2 * ((x : ℂ) ^ 2 - z ^ 2)⁻¹)) =
      ((2 * (wgt eta kap x * x) : ℝ) : ℂ) := by
    intro x hx
    rw [dens_mul_sq (mem_Ioi.1 hx)]
    have := den_ne hz.ne' x
    unfold wgt2
    push_cast
    field_simp
  rw [← setIntegral_congr_fun measurableSet_Ioi e, integral_sub h1 h3, h2, integral_const_mul]
  unfold polar
  ring

/-- The polarisability decays with the square of the frequency, in all directions of the closed upper
half plane. -/
theorem polarB_decay (eta : ℝ) {kap : ℝ} (hk : 0 < kap) :
    ∃ C, 0 ≤ C ∧ ∀ z : ℂ, 0 ≤ z.im → ‖z ^ 2 * polarB eta kap z‖ ≤ C := by
  set C := (∫ x, |wgt2 eta kap x|) + 2 * (exp eta + 6 * (exp eta * (4 + 2 * kap ^ 2))) +
    exp eta * (4 + 2 * kap ^ 2) * 2 * π + ‖∫ x in Ioi (0 : ℝ), ((2 * (wgt eta kap x * x) : ℝ) : ℂ)‖ with hC
  have h1 : ∀ z : ℂ, 0 < z.im → ‖z ^ 2 * polarB eta kap z‖ ≤ C := by
    intro z hz
    rw [polarB_eq eta hk hz, polar_sq eta hk hz]
    refine (norm_sub_le _ _).trans (add_le_add ?_ le_rfl)
    exact cauchy_bound (wgt2_integrable eta kap) (wgt2_continuous eta kap) (wgt2_bdd eta kap)
      (wgt2_lipschitz eta kap) hz
  refine ⟨C, ?_, fun z hz => ?_⟩
  · have : 0 ≤ ∫ x, |wgt2 eta kap x| := integral_nonneg fun x => abs_nonneg _
    have := pi_pos
    positivity
  · have hcl : IsClosed {w : ℂ | ‖w ^ 2 * polarB eta kap w‖ ≤ C} :=
      isClosed_le (((continuous_pow 2).mul (polarB_continuous eta kap)).norm) continuous_const
    have hsub := hcl.closure_subset_iff.2 (show {w : ℂ | 0 < w.im} ⊆ _ from fun w hw => h1 w hw)
    rw [Complex.closure_setOfPred_lt_im] at hsub
    exact hsub hz

/-! ### No zeros -/

theorem resolvent_mul_im_nonneg (eta : ℝ) {kap : ℝ} (hk : 0 < kap) {z : ℂ} (hz : 0 < z.im) :
    0 ≤ (z * resolvent eta kap z).im := by
  have hi := (dens_mul_integrableC eta hk.le (den_continuous hz.ne') _ (inv_den_le hz.ne')).const_mul z
  unfold resolvent
  rw [← integral_const_mul, integral_cim hi]
  refine setIntegral_nonneg measurableSet_Ioi fun x hx => ?_
  have e : z * ((dens eta kap x : ℂ) * ((x : ℂ) ^ 2 - z ^ 2)⁻¹) =
      (dens eta kap x : ℂ) * (z * ((x : ℂ) ^ 2 - z ^ 2)⁻¹) := by ring
  rw [e, Complex.im_ofReal_mul, im_mul_inv]
  have := dens_nonneg (eta := eta) hk.le (mem_Ioi.1 hx).le
  have := Complex.normSq_nonneg z
  positivity

theorem polarB_zero_nonneg (eta : ℝ) {kap : ℝ} (hk : 0 < kap) : 0 ≤ (polarB eta kap 0).re := by
  have hc : Continuous fun y : ℝ => (polarB eta kap (y * Complex.I)).re :=
    Complex.continuous_re.comp ((polarB_continuous eta kap).comp (by fun_prop))
  have ht := (hc.tendsto 0).mono_left (nhdsWithin_le_nhds (s := Ioi (0 : ℝ)))
  have e : (((0 : ℝ) : ℂ) * Complex.I) = 0 := by simp
  rw [e] at ht
  refine ge_of_tendsto ht ?_
  filter_upwards [self_mem_nhdsWithin] with y hy
  have hy' : 0 < (((y : ℝ) : ℂ) * Complex.I).im := by simpa using hy
  rw [polarB_eq eta hk hy', polar_re eta hk.le hy'.ne']
  refine setIntegral_nonneg measurableSet_Ioi fun x hx => ?_
  have hx' : 0 < x := hx
  have h1 := wgt_nonneg (eta := eta) hk.le hx'.le
  have h2 : 0 ≤ reK (((y : ℝ) : ℂ) * Complex.I).re (((y : ℝ) : ℂ) * Complex.I).im x := by
    have : (((y : ℝ) : ℂ) * Complex.I).re = 0 := by simp
    rw [this]
    unfold reK
    rw [sub_zero, add_zero]
    positivity
  exact mul_nonneg h1 h2

theorem denB_ne (eta : ℝ) {kap : ℝ} (hk : 0 < kap) {c : ℝ} (hc : 0 ≤ c) {z : ℂ} (hz : 0 ≤ z.im) :
    1 + (c : ℂ) * polarB eta kap z ≠ 0 := by
  intro h
  have hre := congrArg Complex.re h
  have him := congrArg Complex.im h
  simp only [Complex.add_re, Complex.one_re, Complex.re_ofReal_mul, Complex.zero_re, Complex.add_im,
    Complex.one_im, Complex.im_ofReal_mul, Complex.zero_im, zero_add] at hre him
  have hc0 : c ≠ 0 := by
    rintro rfl
    simp at hre
  have hi : (polarB eta kap z).im = 0 := by
    rcases mul_eq_zero.1 him with h1 | h1
    · exact absurd h1 hc0
    · exact h1
  have hneg : (polarB eta kap z).re < 0 := by
    by_contra hcon
    push Not at hcon
    have := mul_nonneg hc hcon
    linarith
  rcases hz.lt_or_eq with hz' | hz'
  · rw [polarB_eq eta hk hz'] at hi hneg
    have h1 := resolvent_im_pos eta hk hz'
    have h2 := resolvent_mul_im_nonneg eta hk hz'
    rw [Complex.mul_im, Complex.conj_re, Complex.conj_im, hi, neg_zero, mul_zero, zero_add] at h1
    nlinarith
  · have hzr : z = (z.re : ℂ) := by
      apply Complex.ext
      · simp
      · simp [← hz']
    by_cases h0 : z.re = 0
    · have := polarB_zero_nonneg eta hk
      rw [h0, Complex.ofReal_zero] at hzr
      rw [hzr] at hneg
      linarith
    · rw [hzr, polarB_real_im] at hi
      have hw : wgt eta kap z.re = 0 := by
        rcases mul_eq_zero.1 hi with h1 | h1
        · exact absurd h1 pi_pos.ne'
        · exact h1
      rcases lt_or_gt_of_ne h0 with h1 | h1
      · have := wgt_pos (eta := eta) hk (neg_pos.2 h1)
        rw [wgt_neg, hw] at this
        simp at this
      · have := wgt_pos (eta := eta) hk h1
        linarith

/-! ### Integrals along the real axis -/

theorem rect_zero {F : ℂ → ℂ} (hc : ContinuousOn F {z | 0 ≤ z.im})
    (hd : ∀ z : ℂ, 0 < z.im → DifferentiableAt ℂ F z) {R : ℝ} (hR : 0 < R) :
    (∫ x in (-R)..R, F (x : ℂ)) = (∫ x in (-R)..R, F (x + R * Complex.I)) -
      Complex.I * (∫ y in (0 : ℝ)..R, F (R + y * Complex.I)) +
      Complex.I * ∫ y in (0 : ℝ)..R, F (-R + y * Complex.I) := by
  have h := Complex.integral_boundary_rect_eq_zero_of_continuousOn_of_differentiableOn F
    ((-R : ℝ) : ℂ) ((R : ℂ) + R * Complex.I) (hc.mono ?_) (fun z hz => ?_)
  · simp only [Complex.ofReal_re, Complex.ofReal_im, Complex.add_re, Complex.add_im, Complex.mul_re,
      Complex.mul_im, Complex.I_re, Complex.I_im, mul_zero, mul_one, zero_mul, sub_zero, add_zero, zero_add,
      Complex.ofReal_zero, smul_eq_mul] at h
    simp only [Complex.ofReal_neg] at h
    linear_combination h
  · intro z hz
    rw [Complex.mem_reProdIm] at hz
    have := hz.2
    simp only [Complex.ofReal_im, Complex.add_im, Complex.mul_im, Complex.I_re, Complex.I_im, mul_zero,
      mul_one, Complex.ofReal_re, zero_add, add_zero] at this
    rw [uIcc_of_le hR.le] at this
    exact this.1
  · rw [Complex.mem_reProdIm] at hz
    have := hz.2
    simp only [Complex.ofReal_im, Complex.add_im, Complex.mul_im, Complex.I_re, Complex.I_im, mul_zero,
      mul_one, Complex.ofReal_re, zero_add, add_zero] at this
    rw [min_eq_left hR.le] at this
    exact (hd z this.1).differentiableWithinAt

/-- A function that is continuous in the closed upper half plane, differentiable inside, and decays with
the square of the distance, has no integral along the real axis. -/
theorem line_zero {F : ℂ → ℂ} (hc : ContinuousOn F {z | 0 ≤ z.im})
    (hd : ∀ z : ℂ, 0 < z.im → DifferentiableAt ℂ F z) {R0 K : ℝ} (hR0 : 0 < R0) (hK0 : 0 ≤ K)
    (hK : ∀ z : ℂ, 0 ≤ z.im → R0 ≤ ‖z‖ → ‖F z‖ ≤ K / ‖z‖ ^ 2) :
    Integrable (fun x : ℝ => F (x : ℂ)) ∧ ∫ x : ℝ, F (x : ℂ) = 0 := by
  have hcr : Continuous fun x : ℝ => F (x : ℂ) := by
    refine hc.comp_continuous Complex.continuous_ofReal fun x => ?_
    simp
  have hint : Integrable fun x : ℝ => F (x : ℂ) := by
    obtain ⟨B, hB⟩ := (isCompact_Icc (a := -R0) (b := R0)).exists_bound_of_continuousOn hcr.continuousOn
    have hB0 : 0 ≤ B := (norm_nonneg _).trans (hB 0 ⟨by linarith, hR0.le⟩)
    refine (integrable_inv_one_add_sq.const_mul (B * (1 + R0 ^ 2) + K * (1 + (R0 ^ 2)⁻¹))).mono'
      hcr.aestronglyMeasurable (Eventually.of_forall fun x => ?_)
    rw [← div_eq_mul_inv, le_div_iff₀ (by positivity)]
    rcases le_or_gt R0 |x| with h | h
    · have h1 := hK (x : ℂ) (by simp) (by rwa [Complex.norm_real, norm_eq_abs])
      rw [Complex.norm_real, norm_eq_abs, sq_abs] at h1
      have hx2 : R0 ^ 2 ≤ x ^ 2 := by
        rw [← sq_abs x]
        exact pow_le_pow_left₀ hR0.le h 2
      have hx0 : 0 < x ^ 2 := lt_of_lt_of_le (by positivity) hx2
      have h2 : K / x ^ 2 * (1 + x ^ 2) = K * (1 + (x ^ 2)⁻¹) := by
        generalize x ^ 2 = y at hx0 ⊢
        field_simp
        ring
      have h3 : (x ^ 2)⁻¹ ≤ (R0 ^ 2)⁻¹ := inv_anti₀ (by positivity) hx2
      calc ‖F (x : ℂ)‖ * (1 + x ^ 2) ≤ K / x ^ 2 * (1 + x ^ 2) :=
            mul_le_mul_of_nonneg_right h1 (by positivity)
        _ = K * (1 + (x ^ 2)⁻¹) := h2
        _ ≤ K * (1 + (R0 ^ 2)⁻¹) := mul_le_mul_of_nonneg_left (by linarith) hK0
        _ ≤ _ := by
          have : 0 ≤ B * (1 + R0 ^ 2) := by positivity
          linarith
    · have h1 := hB x ⟨(abs_lt.1 h).1.le, (abs_lt.1 h).2.le⟩
      have hx2 : x ^ 2 ≤ R0 ^ 2 := by
        rw [← sq_abs x]
        exact pow_le_pow_left₀ (abs_nonneg x) h.le 2
      calc ‖F (x : ℂ)‖ * (1 + x ^ 2) ≤ B * (1 + R0 ^ 2) :=
            mul_le_mul h1 (by linarith) (by positivity) hB0
        _ ≤ _ := by
          have : 0 ≤ K * (1 + (R0 ^ 2)⁻¹) := by positivity
          linarith
  refine ⟨hint, ?_⟩
  have ht : Tendsto (fun R : ℝ => ∫ x in (-R)..R, F (x : ℂ)) atTop (𝓝 (∫ x : ℝ, F (x : ℂ))) :=
    intervalIntegral_tendsto_integral hint tendsto_neg_atTop_atBot tendsto_id
  refine tendsto_nhds_unique ht ?_
  have hz : Tendsto (fun R : ℝ => 4 * K * R⁻¹) atTop (𝓝 0) := by
    have := (tendsto_inv_atTop_zero (𝕜 := ℝ)).const_mul (4 * K)
    simpa using this
  refine squeeze_zero_norm' ?_ hz
  filter_upwards [eventually_ge_atTop R0, eventually_gt_atTop 0] with R hR hRp
  rw [rect_zero hc hd hRp]
  have key : ∀ z : ℂ, 0 ≤ z.im → R ≤ ‖z‖ → ‖F z‖ ≤ K / R ^ 2 := by
    intro z h1 h2
    refine (hK z h1 (hR.trans h2)).trans ?_
    exact div_le_div_of_nonneg_left hK0 (by positivity) (pow_le_pow_left₀ hRp.le h2 2)
  have b1 : ‖∫ x in (-R)..R, F (x + R * Complex.I)‖ ≤ K / R ^ 2 * |R - -R| := by
    refine intervalIntegral.norm_integral_le_of_norm_le_const fun x _ => key _ ?_ ?_
    · simpa using hRp.le
    · have := Complex.abs_im_le_norm ((x : ℂ) + R * Complex.I)
      simp only [Complex.add_im, Complex.ofReal_im, Complex.mul_im, Complex.ofReal_re, Complex.I_im,
        Complex.I_re, mul_one, mul_zero, add_zero, zero_add] at this
      rwa [abs_of_pos hRp] at this
  have b2 : ‖∫ y in (0 : ℝ)..R, F (R + y * Complex.I)‖ ≤ K / R ^ 2 * |R - 0| := by
    refine intervalIntegral.norm_integral_le_of_norm_le_const fun y hy => key _ ?_ ?_
    · rw [uIoc_of_le hRp.le] at hy
      simpa using hy.1.le
    · have := Complex.abs_re_le_norm ((R : ℂ) + y * Complex.I)
      simp only [Complex.add_re, Complex.ofReal_re, Complex.mul_re, Complex.ofReal_im, Complex.I_im,
        Complex.I_re, mul_zero, zero_mul, sub_zero, add_zero] at this
      rwa [abs_of_pos hRp] at this
  have b3 : ‖∫ y in (0 : ℝ)..R, F (-R + y * Complex.I)‖ ≤ K / R ^ 2 * |R - 0| := by
    refine intervalIntegral.norm_integral_le_of_norm_le_const fun y hy => key _ ?_ ?_
    · rw [uIoc_of_le hRp.le] at hy
      simpa using hy.1.le
    · have := Complex.abs_re_le_norm (-(R : ℂ) + y * Complex.I)
      simp only [Complex.add_re, Complex.neg_re, Complex.ofReal_re, Complex.mul_re, Complex.ofReal_im,
        Complex.I_im, Complex.I_re, mul_zero, zero_mul, sub_zero, add_zero, abs_neg] at this
      rwa [abs_of_pos hRp] at this
  have e1 : |R - -R| = 2 * R := by
    rw [sub_neg_eq_add, abs_of_pos (by linarith)]
    ring
  have e2 : |R - 0| = R := by rw [sub_zero, abs_of_pos hRp]
  rw [e1] at b1
  rw [e2] at b2 b3
  have e3 : 4 * K * R⁻¹ = K / R ^ 2 * (2 * R) + K / R ^ 2 * R + K / R ^ 2 * R := by
    field_simp
    ring
  rw [e3]
  refine (norm_add_le _ _).trans (add_le_add ((norm_sub_le _ _).trans (add_le_add b1 ?_)) ?_)
  · rwa [norm_mul, Complex.norm_I, one_mul]
  · rwa [norm_mul, Complex.norm_I, one_mul]

/-- The correction to the first moment that is due to the interaction vanishes. -/
theorem polarB_line (eta : ℝ) {kap : ℝ} (hk : 0 < kap) {c : ℝ} (hc : 0 ≤ c) :
    Integrable (fun x : ℝ => (x : ℂ) * polarB eta kap x ^ 2 / (1 + c * polarB eta kap x)) ∧
    ∫ x : ℝ, (x : ℂ) * polarB eta kap x ^ 2 / (1 + c * polarB eta kap x) = 0 := by
  obtain ⟨C, hC0, hC⟩ := polarB_decay eta hk
  have hcont := polarB_continuous eta kap
  set R0 := 1 + 2 * c * C with hR0
  have hcC : 0 ≤ c * C := mul_nonneg hc hC0
  have hR1 : 1 ≤ R0 := by nlinarith
  refine line_zero (F := fun z : ℂ => z * polarB eta kap z ^ 2 / (1 + c * polarB eta kap z))
    (R0 := R0) (K := 2 * C ^ 2) ?_ ?_ (by linarith) (by positivity) ?_
  · refine ContinuousOn.div (by fun_prop) (by fun_prop) fun z hz => denB_ne eta hk hc hz
  · intro z hz
    have h := polarB_differentiableAt eta hk hz
    exact (differentiableAt_id.mul (h.pow 2)).div ((h.const_mul _).const_add _)
      (denB_ne eta hk hc hz.le)
  · intro z hz hzR
    have hz1 : 1 ≤ ‖z‖ := hR1.trans hzR
    have hz0 : 0 < ‖z‖ := by linarith
    have hp := hC z hz
    rw [norm_mul, norm_pow] at hp
    set p := ‖polarB eta kap z‖ with hpd
    have hp0 : 0 ≤ p := norm_nonneg _
    have h1 : p ≤ C / ‖z‖ ^ 2 := by
      rw [le_div_iff₀ (by positivity)]
      linarith
    have h2 : c * p ≤ 1 / 2 := by
      have : R0 ≤ ‖z‖ ^ 2 := by nlinarith
      have h3 : c * p * ‖z‖ ^ 2 ≤ c * C := by nlinarith
      by_contra hcon
      push Not at hcon
      nlinarith
    have h3 : 1 / 2 ≤ ‖1 + (c : ℂ) * polarB eta kap z‖ := by
      have := norm_sub_norm_le (1 : ℂ) (-((c : ℂ) * polarB eta kap z))
      rw [sub_neg_eq_add, norm_neg, norm_one, norm_mul, Complex.norm_real, norm_eq_abs, abs_of_nonneg hc,
        ← hpd] at this
      linarith
    rw [norm_div, norm_mul, norm_pow, ← hpd, div_le_iff₀ (by linarith)]
    have h4 : p ^ 2 ≤ (C / ‖z‖ ^ 2) ^ 2 := pow_le_pow_left₀ hp0 h1 2
    have h5 : ‖z‖ * (C / ‖z‖ ^ 2) ^ 2 = C ^ 2 / ‖z‖ ^ 3 := by field_simp
    have h6 : C ^ 2 / ‖z‖ ^ 3 ≤ C ^ 2 / ‖z‖ ^ 2 :=
      div_le_div_of_nonneg_left (by positivity) (by positivity) (pow_le_pow_right₀ hz1 (by norm_num))
    have h7 : 0 ≤ C ^ 2 / ‖z‖ ^ 2 := by positivity
    calc ‖z‖ * p ^ 2 ≤ ‖z‖ * (C / ‖z‖ ^ 2) ^ 2 := mul_le_mul_of_nonneg_left h4 hz0.le
      _ ≤ C ^ 2 / ‖z‖ ^ 2 := by rw [h5]; exact h6
      _ = 2 * C ^ 2 / ‖z‖ ^ 2 * (1 / 2) := by ring
      _ ≤ _ := mul_le_mul_of_nonneg_left h3 (by positivity)

/-- The interaction leaves the first moment as it is. -/
theorem polarB_first (eta : ℝ) {kap : ℝ} (hk : 0 < kap) {c : ℝ} (hc : 0 ≤ c)
    (hw : IntegrableOn (fun x => wgt eta kap x * x) (Ioi 0)) :
    ∫ x in Ioi (0 : ℝ), x * (polarB eta kap x / (1 + c * polarB eta kap x)).im =
      ∫ x in Ioi (0 : ℝ), π * (wgt eta kap x * x) := by
  obtain ⟨hi, h0⟩ := polarB_line eta hk hc
  set H : ℝ → ℂ := fun x => (x : ℂ) * polarB eta kap x ^ 2 / (1 + c * polarB eta kap x) with hH
  have hGi : Integrable fun x => (H x).im := Complex.imCLM.integrable_comp hi
  have hG0 : ∫ x, (H x).im = 0 := by
    have := Complex.imCLM.integral_comp_comm hi
    simp only [Complex.imCLM_apply] at this
    rw [this, h0]
    simp
  have heven : ∀ x : ℝ, (H (-x)).im = (H x).im := by
    intro x
    have e : H (-x) = -(starRingEnd ℂ) (H x) := by
      simp only [hH]
      rw [Complex.ofReal_neg, polarB_neg]
      simp only [map_div₀, map_mul, map_pow, map_add, map_one, Complex.conj_ofReal]
      ring
    rw [e, Complex.neg_im, Complex.conj_im, neg_neg]
  have hhalf : ∫ x in Ioi (0 : ℝ), (H x).im = 0 := by
    have e3 : ∫ x in Iic (0 : ℝ), (H x).im = ∫ x in Ioi (0 : ℝ), (H x).im := by
      have := integral_comp_neg_Ioi (c := (0 : ℝ)) fun x => (H x).im
      simp only [heven, neg_zero] at this
      exact this.symm
    have := intervalIntegral.integral_Iic_add_Ioi (b := (0 : ℝ)) hGi.integrableOn hGi.integrableOn
    rw [hG0, e3] at this
    linarith
  have e : ∀ x ∈ Ioi (0 : ℝ), x * (polarB eta kap x / (1 + c * polarB eta kap x)).im =
      π * (wgt eta kap x * x) - c * (H x).im := by
    intro x _
    have hne := denB_ne eta hk hc (z := (x : ℂ)) (by simp)
    have e1 : (x : ℂ) * (polarB eta kap x / (1 + c * polarB eta kap x)) =
        (x : ℂ) * polarB eta kap x - (c : ℂ) * H x := by
      simp only [hH]
      generalize polarB eta kap x = p at *
      have e0 : p / (1 + c * p) = p - c * p ^ 2 / (1 + c * p) := by
        rw [eq_sub_iff_add_eq, ← add_div, div_eq_iff hne]
        ring
      rw [e0]
      ring
    have e2 := congrArg Complex.im e1
    rw [Complex.im_ofReal_mul, Complex.sub_im, Complex.im_ofReal_mul, Complex.im_ofReal_mul,
      polarB_real_im] at e2
    rw [e2]
    ring
  rw [setIntegral_congr_fun measurableSet_Ioi e, integral_sub (hw.const_mul π)
    (hGi.integrableOn.const_mul c), integral_const_mul c, hhalf, mul_zero, sub_zero]

/-! ### Relations of Kramers and Kronig -/

theorem poisson_integrable {g : ℝ → ℝ} (hg : Continuous g) {B : ℝ} (hB : ∀ x, |g x| ≤ B) (a : ℝ)
    {d : ℝ} (hd : 0 < d) :
    Integrable fun x : ℝ => g x * (d / ((x - a) ^ 2 + d ^ 2)) := by
  have hB0 : 0 ≤ B := (abs_nonneg _).trans (hB 0)
  have h1 : Integrable fun x : ℝ => B * (1 / d * (1 + ((x - a) / d) ^ 2)⁻¹) := by
    have h2 := (integrable_inv_one_add_sq.comp_div hd.ne').comp_sub_right a
    exact (h2.const_mul (1 / d)).const_mul B
  refine h1.mono' ?_ (Eventually.of_forall fun x => ?_)
  · refine (hg.mul (Continuous.div (by fun_prop) (by fun_prop) fun x => ?_)).aestronglyMeasurable
    positivity
  · have hp : 0 < d / ((x - a) ^ 2 + d ^ 2) := by positivity
    rw [norm_mul, norm_eq_abs, norm_eq_abs, abs_of_pos hp]
    have e : d / ((x - a) ^ 2 + d ^ 2) = 1 / d * (1 + ((x - a) / d) ^ 2)⁻¹ := by
      field_simp
      ring
    rw [← e]
    exact mul_le_mul_of_nonneg_right (hB x) hp.le

/-- Poisson's kernel picks the value. -/
theorem poisson_tendsto {g : ℝ → ℝ} (hg : Continuous g) {B : ℝ} (hB : ∀ x, |g x| ≤ B) (a : ℝ) :
    Tendsto (fun d : ℝ => ∫ x : ℝ, g x * (d / ((x - a) ^ 2 + d ^ 2))) (𝓝[>] 0) (𝓝 (π * g a)) := by
  have key : Tendsto (fun d : ℝ => ∫ s : ℝ, g (a + d * s) * (1 + s ^ 2)⁻¹) (𝓝[>] 0)
      (𝓝 (∫ s : ℝ, g a * (1 + s ^ 2)⁻¹)) := by
    refine tendsto_integral_filter_of_dominated_convergence (fun s => B * (1 + s ^ 2)⁻¹)
      (Eventually.of_forall fun d => ?_)
      (Eventually.of_forall fun d => Eventually.of_forall fun s => ?_)
      (integrable_inv_one_add_sq.const_mul B) (Eventually.of_forall fun s => ?_)
    · have h1 : Continuous fun s : ℝ => g (a + d * s) := hg.comp (by fun_prop)
      have h2 : Continuous fun s : ℝ => (1 + s ^ 2)⁻¹ :=
        Continuous.inv₀ (by fun_prop) fun s => by positivity
      exact (h1.mul h2).aestronglyMeasurable
    · have : (0 : ℝ) < (1 + s ^ 2)⁻¹ := by positivity
      rw [norm_mul, norm_eq_abs, norm_eq_abs, abs_of_pos this]
      exact mul_le_mul_of_nonneg_right (hB _) this.le
    · have h1 : Continuous fun d : ℝ => g (a + d * s) := hg.comp (by fun_prop)
      have h2 := (h1.tendsto 0).mono_left (nhdsWithin_le_nhds (s := Ioi (0 : ℝ)))
      rw [zero_mul, add_zero] at h2
      exact h2.mul_const _
  rw [integral_const_mul, integral_univ_inv_one_add_sq, mul_comm] at key
  refine key.congr' ?_
  filter_upwards [self_mem_nhdsWithin] with d hd
  have hd' : 0 < d := hd
  have h1 := Measure.integral_comp_mul_left (fun s => g (a + s) * (d / (s ^ 2 + d ^ 2))) d
  rw [abs_of_pos (inv_pos.2 hd'), smul_eq_mul] at h1
  have h2 := integral_add_left_eq_self (μ := volume) (fun x => g x * (d / ((x - a) ^ 2 + d ^ 2))) a
  simp only [add_sub_cancel_left] at h2
  rw [h2] at h1
  have h3 : ∀ s : ℝ, g (a + d * s) * (d / ((d * s) ^ 2 + d ^ 2)) = d⁻¹ * (g (a + d * s) * (1 + s ^ 2)⁻¹) := by
    intro s
    have : (d * s) ^ 2 + d ^ 2 = d ^ 2 * (1 + s ^ 2) := by ring
    rw [this]
    field_simp
  simp only [h3, integral_const_mul] at h1
  exact mul_left_cancel₀ (inv_ne_zero hd'.ne') h1

/-- Real and imaginary part of a function that is differentiable in the upper half plane and decays
determine each other. -/
theorem kk {F : ℂ → ℂ} (hc : ContinuousOn F {z | 0 ≤ z.im})
    (hd : ∀ z : ℂ, 0 < z.im → DifferentiableAt ℂ F z) {R0 K : ℝ} (hR0 : 0 < R0) (hK0 : 0 ≤ K)
    (hK : ∀ z : ℂ, 0 ≤ z.im → R0 ≤ ‖z‖ → ‖F z‖ ≤ K / ‖z‖) (a : ℝ) :
    Tendsto (fun d : ℝ => 1 / π * ∫ x : ℝ, (F x).im * ((x - a) / ((x - a) ^ 2 + d ^ 2))) (𝓝[>] 0)
      (𝓝 (F a).re) ∧
    Tendsto (fun d : ℝ => -(1 / π * ∫ x : ℝ, (F x).re * ((x - a) / ((x - a) ^ 2 + d ^ 2)))) (𝓝[>] 0)
      (𝓝 (F a).im) := by
  have hcr : Continuous fun x : ℝ => F (x : ℂ) := by
    refine hc.comp_continuous Complex.continuous_ofReal fun x => ?_
    simp
  obtain ⟨B, hB⟩ : ∃ B, ∀ x : ℝ, ‖F (x : ℂ)‖ ≤ B := by
    obtain ⟨B, hB⟩ := (isCompact_Icc (a := -R0) (b := R0)).exists_bound_of_continuousOn hcr.continuousOn
    refine ⟨max B (K / R0), fun x => ?_⟩
    rcases le_or_gt R0 |x| with h | h
    · have h1 := hK (x : ℂ) (by simp) (by rwa [Complex.norm_real, norm_eq_abs])
      rw [Complex.norm_real, norm_eq_abs] at h1
      exact (h1.trans (div_le_div_of_nonneg_left hK0 hR0 h)).trans (le_max_right _ _)
    · exact (hB x ⟨(abs_lt.1 h).1.le, (abs_lt.1 h).2.le⟩).trans (le_max_left _ _)
  have hre : Continuous fun x : ℝ => (F (x : ℂ)).re := Complex.continuous_re.comp hcr
  have him : Continuous fun x : ℝ => (F (x : ℂ)).im := Complex.continuous_im.comp hcr
  have hBre : ∀ x : ℝ, |(F (x : ℂ)).re| ≤ B := fun x => (Complex.abs_re_le_norm _).trans (hB x)
  have hBim : ∀ x : ℝ, |(F (x : ℂ)).im| ≤ B := fun x => (Complex.abs_im_le_norm _).trans (hB x)
  have key : ∀ d : ℝ, 0 < d →
      (∫ x : ℝ, (F x).im * ((x - a) / ((x - a) ^ 2 + d ^ 2))) =
        (∫ x : ℝ, (F x).re * (d / ((x - a) ^ 2 + d ^ 2))) ∧
      (∫ x : ℝ, (F x).re * ((x - a) / ((x - a) ^ 2 + d ^ 2))) =
        -∫ x : ℝ, (F x).im * (d / ((x - a) ^ 2 + d ^ 2)) := by
    intro d hd0
    have hne : ∀ z : ℂ, 0 ≤ z.im → z - a + d * Complex.I ≠ 0 := by
      intro z hz h
      have := congrArg Complex.im h
      simp at this
      linarith
    have hlow : ∀ z : ℂ, 0 ≤ z.im → 2 * |a| ≤ ‖z‖ → ‖z‖ / 2 ≤ ‖z - a + d * Complex.I‖ := by
      intro z hz h
      have h1 : ‖z - a‖ ≤ ‖z - a + d * Complex.I‖ := by
        rw [Complex.norm_def, Complex.norm_def]
        apply sqrt_le_sqrt
        simp only [Complex.normSq_apply, Complex.sub_re, Complex.sub_im, Complex.add_re, Complex.add_im,
          Complex.mul_re, Complex.mul_im, Complex.ofReal_re, Complex.ofReal_im, Complex.I_re, Complex.I_im]
        nlinarith
      have h2 := norm_sub_norm_le z (a : ℂ)
      rw [Complex.norm_real, norm_eq_abs] at h2
      linarith
    obtain ⟨hi, h0⟩ := line_zero (F := fun z : ℂ => F z / (z - a + d * Complex.I)) (R0 := R0 + 2 * |a|)
      (K := 2 * K) (hc.div (by fun_prop) fun z hz => hne z hz)
      (fun z hz => (hd z hz).div (by fun_prop) (hne z hz.le)) (by positivity) (by positivity)
      (fun z hz hzR => by
        have ha := abs_nonneg a
        have h1 := hK z hz (by linarith)
        have h2 := hlow z hz (by linarith)
        have hz0 : 0 < ‖z‖ := by linarith
        rw [norm_div, div_le_iff₀ (by linarith)]
        calc ‖F z‖ ≤ K / ‖z‖ := h1
          _ = 2 * K / ‖z‖ ^ 2 * (‖z‖ / 2) := by field_simp
          _ ≤ _ := mul_le_mul_of_nonneg_left h2 (by positivity))
    have e : ∀ x : ℝ, F x / ((x : ℂ) - a + d * Complex.I) =
        ⟨(F x).re * ((x - a) / ((x - a) ^ 2 + d ^ 2)) + (F x).im * (d / ((x - a) ^ 2 + d ^ 2)),
          (F x).im * ((x - a) / ((x - a) ^ 2 + d ^ 2)) - (F x).re * (d / ((x - a) ^ 2 + d ^ 2))⟩ := by
      intro x
      have hD : (0 : ℝ) < (x - a) ^ 2 + d ^ 2 := by positivity
      rw [div_eq_iff (hne x (by simp))]
      apply Complex.ext
      · simp only [Complex.mul_re, Complex.add_re, Complex.sub_re, Complex.ofReal_re, Complex.I_re,
          Complex.ofReal_im, Complex.I_im, Complex.add_im, Complex.sub_im, Complex.mul_im]
        field_simp
        ring
      · simp only [Complex.mul_re, Complex.add_re, Complex.sub_re, Complex.ofReal_re, Complex.I_re,
          Complex.ofReal_im, Complex.I_im, Complex.add_im, Complex.sub_im, Complex.mul_im]
        field_simp
        ring
    have p1 := poisson_integrable hre hBre a hd0
    have p2 := poisson_integrable him hBim a hd0
    have r1 := Complex.reCLM.integrable_comp hi
    have r2 := Complex.imCLM.integrable_comp hi
    have q1 := Complex.reCLM.integral_comp_comm hi
    have q2 := Complex.imCLM.integral_comp_comm hi
    simp only [Complex.reCLM_apply, Complex.imCLM_apply, e] at r1 r2 q1 q2
    simp only [e] at h0
    rw [h0] at q1 q2
    rw [Complex.zero_re] at q1
    rw [Complex.zero_im] at q2
    have i1 := (r1.sub p2).congr (g := fun x : ℝ => (F x).re * ((x - a) / ((x - a) ^ 2 + d ^ 2)))
      (Eventually.of_forall fun x => by simp)
    have i2 := (r2.add p1).congr (g := fun x : ℝ => (F x).im * ((x - a) / ((x - a) ^ 2 + d ^ 2)))
      (Eventually.of_forall fun x => by simp)
    rw [integral_add i1 p2] at q1
    rw [integral_sub i2 p1] at q2
    exact ⟨by linarith, by linarith⟩
  constructor
  · have h := (poisson_tendsto hre hBre a).const_mul (1 / π)
    rw [← mul_assoc, one_div_mul_cancel pi_pos.ne', one_mul] at h
    refine h.congr' ?_
    filter_upwards [self_mem_nhdsWithin] with d hd0
    rw [(key d hd0).1]
  · have h := (poisson_tendsto him hBim a).const_mul (1 / π)
    rw [← mul_assoc, one_div_mul_cancel pi_pos.ne', one_mul] at h
    refine h.congr' ?_
    filter_upwards [self_mem_nhdsWithin] with d hd0
    rw [(key d hd0).2]
    ring

/-! ### The response of interacting electrons -/

/-- The polarisability over the dielectric function with coupling `c`. -/
noncomputable def respB (eta kap c : ℝ) (z : ℂ) : ℂ := polarB eta kap z / (1 + (c : ℂ) * polarB eta kap z)

theorem respB_continuousOn (eta : ℝ) {kap : ℝ} (hk : 0 < kap) {c : ℝ} (hc : 0 ≤ c) :
    ContinuousOn (respB eta kap c) {z | 0 ≤ z.im} := by
  have hcont := polarB_continuous eta kap
  exact ContinuousOn.div (by fun_prop) (by fun_prop) fun z hz => denB_ne eta hk hc hz

theorem respB_differentiableAt (eta : ℝ) {kap : ℝ} (hk : 0 < kap) {c : ℝ} (hc : 0 ≤ c) {z : ℂ}
    (hz : 0 < z.im) : DifferentiableAt ℂ (respB eta kap c) z := by
  have h := polarB_differentiableAt eta hk hz
  exact h.div ((h.const_mul _).const_add _) (denB_ne eta hk hc hz.le)

theorem respB_far (eta : ℝ) {kap : ℝ} (hk : 0 < kap) {c : ℝ} (hc : 0 ≤ c) :
    ∃ R0 K : ℝ, 0 < R0 ∧ 0 ≤ K ∧ ∀ z : ℂ, 0 ≤ z.im → R0 ≤ ‖z‖ →
      1 / 2 ≤ ‖1 + (c : ℂ) * polarB eta kap z‖ ∧ ‖respB eta kap c z‖ ≤ K / ‖z‖ := by
  obtain ⟨C, hC0, hC⟩ := polarB_decay eta hk
  have hcC : 0 ≤ c * C := mul_nonneg hc hC0
  refine ⟨1 + 2 * c * C, 2 * C, by nlinarith, by positivity, fun z hz hzR => ?_⟩
  have hz1 : 1 ≤ ‖z‖ := le_trans (by nlinarith) hzR
  have hz0 : 0 < ‖z‖ := by linarith
  have hp := hC z hz
  rw [norm_mul, norm_pow] at hp
  have hp0 : 0 ≤ ‖polarB eta kap z‖ := norm_nonneg _
  have h1 : ‖polarB eta kap z‖ ≤ C / ‖z‖ := by
    rw [le_div_iff₀ hz0]
    nlinarith [mul_nonneg hp0 (mul_nonneg hz0.le (sub_nonneg.2 hz1))]
  have h2 : c * ‖polarB eta kap z‖ ≤ 1 / 2 := by
    have h3 : c * ‖polarB eta kap z‖ * ‖z‖ ^ 2 ≤ c * C := by nlinarith
    by_contra hcon
    push Not at hcon
    nlinarith
  have h3 : 1 / 2 ≤ ‖1 + (c : ℂ) * polarB eta kap z‖ := by
    have := norm_sub_norm_le (1 : ℂ) (-((c : ℂ) * polarB eta kap z))
    rw [sub_neg_eq_add, norm_neg, norm_one, norm_mul, Complex.norm_real, norm_eq_abs, abs_of_nonneg hc] at this
    linarith
  refine ⟨h3, ?_⟩
  unfold respB
  rw [norm_div, div_le_iff₀ (by linarith)]
  calc _ ≤ C / ‖z‖ := h1
    _ = 2 * C / ‖z‖ * (1 / 2) := by ring
    _ ≤ _ := mul_le_mul_of_nonneg_left h3 (by positivity)

theorem denB_inv_bdd (eta : ℝ) {kap : ℝ} (hk : 0 < kap) {c : ℝ} (hc : 0 ≤ c) :
    ∃ B : ℝ, ∀ x : ℝ, ‖(1 + (c : ℂ) * polarB eta kap x)⁻¹‖ ≤ B := by
  obtain ⟨R0, K, hR0, _, hK⟩ := respB_far eta hk hc
  have hcont := polarB_continuous eta kap
  have hcr : Continuous fun x : ℝ => (1 + (c : ℂ) * polarB eta kap x)⁻¹ :=
    Continuous.inv₀ (by fun_prop) fun x => denB_ne eta hk hc (by simp)
  obtain ⟨B, hB⟩ := (isCompact_Icc (a := -R0) (b := R0)).exists_bound_of_continuousOn hcr.continuousOn
  refine ⟨max B 2, fun x => ?_⟩
  rcases le_or_gt R0 |x| with h | h
  · have h1 := (hK (x : ℂ) (by simp) (by rwa [Complex.norm_real, norm_eq_abs])).1
    rw [norm_inv]
    refine le_trans ?_ (le_max_right _ _)
    rw [inv_le_comm₀ (by linarith) two_pos]
    linarith
  · exact (hB x ⟨(abs_lt.1 h).1.le, (abs_lt.1 h).2.le⟩).trans (le_max_left _ _)

theorem respB_real_im (eta : ℝ) {kap : ℝ} (hk : 0 < kap) {c : ℝ} (hc : 0 ≤ c) (x : ℝ) :
    (respB eta kap c x).im = π * wgt eta kap x * ‖(1 + (c : ℂ) * polarB eta kap x)⁻¹‖ ^ 2 := by
  have hne := denB_ne eta hk hc (z := (x : ℂ)) (by simp)
  have h2 := polarB_real_im eta kap x
  unfold respB
  generalize polarB eta kap x = p at *
  have hD : Complex.normSq (1 + (c : ℂ) * p) ≠ 0 := by simpa using hne
  rw [norm_inv, inv_pow, ← Complex.normSq_eq_norm_sq, Complex.div_im, ← h2]
  field_simp
  simp
  ring

theorem respB_im_le (eta : ℝ) {kap : ℝ} (hk : 0 < kap) {c : ℝ} (hc : 0 ≤ c) :
    ∃ B : ℝ, 0 ≤ B ∧ ∀ x : ℝ, |(respB eta kap c x).im| ≤ B * |wgt eta kap x| := by
  obtain ⟨B, hB⟩ := denB_inv_bdd eta hk hc
  refine ⟨π * B ^ 2, by have := pi_pos; positivity, fun x => ?_⟩
  rw [respB_real_im eta hk hc, abs_mul, abs_mul, abs_of_pos pi_pos,
    abs_of_nonneg (sq_nonneg ‖(1 + (c : ℂ) * polarB eta kap x)⁻¹‖)]
  have h1 : ‖(1 + (c : ℂ) * polarB eta kap x)⁻¹‖ ^ 2 ≤ B ^ 2 :=
    pow_le_pow_left₀ (norm_nonneg _) (hB x) 2
  have h2 : 0 ≤ π * |wgt eta kap x| := mul_nonneg pi_pos.le (abs_nonneg _)
  nlinarith

theorem respB_neg (eta kap c a : ℝ) :
    respB eta kap c ((-a : ℝ) : ℂ) = (starRingEnd ℂ) (respB eta kap c a) := by
  unfold respB
  rw [Complex.ofReal_neg, polarB_neg]
  simp

theorem respB_real_continuous (eta : ℝ) {kap : ℝ} (hk : 0 < kap) {c : ℝ} (hc : 0 ≤ c) :
    Continuous fun x : ℝ => respB eta kap c x :=
  (respB_continuousOn eta hk hc).comp_continuous Complex.continuous_ofReal fun x => by simp

/-- What is even is integrable on the line if it is on the half line. -/
theorem integrable_of_even {g : ℝ → ℝ} (h : IntegrableOn g (Ioi 0)) (he : ∀ x, g (-x) = g x) :
    Integrable g := by
  have h2 : IntegrableOn g (Iio 0) := by
    have := h.comp_neg
    simp only [he] at this
    simpa using this
  have h3 : IntegrableOn g (Iic 0) := (integrableOn_Iic_iff_integrableOn_Iio (by finiteness)).2 h2
  have := h3.union h
  rwa [Iic_union_Ioi, integrableOn_univ] at this

theorem integral_of_even {g : ℝ → ℝ} (h : Integrable g) (he : ∀ x, g (-x) = g x) :
    ∫ x, g x = 2 * ∫ x in Ioi (0 : ℝ), g x := by
  have e3 : ∫ x in Iic (0 : ℝ), g x = ∫ x in Ioi (0 : ℝ), g x := by
    have := integral_comp_neg_Ioi (c := (0 : ℝ)) g
    simp only [he, neg_zero] at this
    exact this.symm
  have := intervalIntegral.integral_Iic_add_Ioi (b := (0 : ℝ)) h.integrableOn h.integrableOn
  rw [e3] at this
  linarith

theorem respB_div_integrable (eta : ℝ) {kap : ℝ} (hk : 0 < kap) {c : ℝ} (hc : 0 ≤ c) :
    Integrable fun x : ℝ => (respB eta kap c x).im / x := by
  obtain ⟨B, hB0, hB⟩ := respB_im_le eta hk hc
  have hcr := Complex.continuous_im.comp (respB_real_continuous eta hk hc)
  refine integrable_of_even ?_ fun x => ?_
  · refine ((wgt_div_integrable eta hk.le).const_mul B).mono' ?_ ?_
    · exact (hcr.measurable.div measurable_id).aestronglyMeasurable
    · refine (ae_restrict_mem measurableSet_Ioi).mono fun x hx => ?_
      have hx' : 0 < x := hx
      have := hB x
      rw [abs_of_nonneg (wgt_nonneg hk.le hx'.le)] at this
      rw [norm_div, norm_eq_abs, norm_eq_abs, abs_of_pos hx', ← mul_div_assoc]
      exact div_le_div_of_nonneg_right this hx'.le
  · rw [respB_neg, Complex.conj_im, neg_div_neg_eq]

/-- The static value from the imaginary part. -/
theorem respB_static (eta : ℝ) {kap : ℝ} (hk : 0 < kap) {c : ℝ} (hc : 0 ≤ c) :
    ∫ x in Ioi (0 : ℝ), (respB eta kap c x).im / x = π / 2 * (respB eta kap c 0).re := by
  obtain ⟨R0, K, hR0, hK0, hK⟩ := respB_far eta hk hc
  have h1 := (kk (respB_continuousOn eta hk hc) (fun z hz => respB_differentiableAt eta hk hc hz) hR0 hK0
    (fun z hz hzR => (hK z hz hzR).2) 0).1
  have hint := respB_div_integrable eta hk hc
  have hcr := Complex.continuous_im.comp (respB_real_continuous eta hk hc)
  have h2 : Tendsto (fun d : ℝ => ∫ x : ℝ, (respB eta kap c x).im * ((x - 0) / ((x - 0) ^ 2 + d ^ 2)))
      (𝓝[>] 0) (𝓝 (∫ x : ℝ, (respB eta kap c x).im / x)) := by
    refine tendsto_integral_filter_of_dominated_convergence _ ?_ ?_ hint.norm ?_
    · refine Eventually.of_forall fun d => ?_
      have : Measurable fun x : ℝ => (x - 0) / ((x - 0) ^ 2 + d ^ 2) := by fun_prop
      exact (hcr.measurable.mul this).aestronglyMeasurable
    · refine Eventually.of_forall fun d => Eventually.of_forall fun x => ?_
      rw [sub_zero, norm_mul, norm_div, norm_div, ← mul_div_assoc, norm_eq_abs x,
        norm_eq_abs (x ^ 2 + d ^ 2), abs_of_nonneg (by positivity : 0 ≤ x ^ 2 + d ^ 2)]
      rcases eq_or_ne x 0 with h | h
      · simp [h]
      · have hx : 0 < |x| := abs_pos.2 h
        rw [div_le_div_iff₀ (by positivity) hx, mul_assoc]
        refine mul_le_mul_of_nonneg_left ?_ (norm_nonneg _)
        rw [← sq, sq_abs]
        nlinarith
    · refine Eventually.of_forall fun x => ?_
      rcases eq_or_ne x 0 with h | h
      · simp [h]
      · have hcont : Continuous fun d : ℝ => (respB eta kap c x).im * ((x - 0) / ((x - 0) ^ 2 + d ^ 2)) := by
          refine Continuous.mul continuous_const (Continuous.div (by fun_prop) (by fun_prop) fun d => ?_)
          rw [sub_zero]
          positivity
        have := (hcont.tendsto 0).mono_left (nhdsWithin_le_nhds (s := Ioi (0 : ℝ)))
        convert this using 2
        field_simp
        simp only [sub_zero]
        ring
  have h3 := tendsto_nhds_unique h1 (h2.const_mul (1 / π))
  rw [integral_of_even hint fun x => by rw [respB_neg, Complex.conj_im, neg_div_neg_eq],
    Complex.ofReal_zero] at h3
  rw [h3]
  field_simp

theorem wgt_integrable (eta kap : ℝ) : Integrable (wgt eta kap) := by
  have h1 := wgt_cauchy_integrable eta kap 0 1
  simp only [zero_add, one_mul] at h1
  refine (h1.norm.add (wgt2_integrable eta kap).norm).mono' (wgt_continuous eta kap).aestronglyMeasurable
    (Eventually.of_forall fun x => ?_)
  have hp : 0 < (1 + x ^ 2)⁻¹ := by positivity
  have hw := abs_nonneg (wgt eta kap x)
  simp only [Pi.add_apply, norm_mul, norm_eq_abs, wgt2, abs_of_pos hp, abs_of_nonneg (sq_nonneg x)]
  have e : |wgt eta kap x| * (1 + x ^ 2)⁻¹ + x ^ 2 * |wgt eta kap x| - |wgt eta kap x| =
      |wgt eta kap x| * (x ^ 4 * (1 + x ^ 2)⁻¹) := by
    field_simp
    ring
  have : 0 ≤ |wgt eta kap x| * (x ^ 4 * (1 + x ^ 2)⁻¹) := by positivity
  linarith

theorem wgt_id_integrable' (eta kap : ℝ) : Integrable fun x => |x| * |wgt eta kap x| := by
  refine ((wgt_integrable eta kap).norm.add (wgt2_integrable eta kap).norm).mono' ?_
    (Eventually.of_forall fun x => ?_)
  · exact (continuous_abs.mul (wgt_continuous eta kap).abs).aestronglyMeasurable
  · have hw := abs_nonneg (wgt eta kap x)
    simp only [Pi.add_apply, norm_mul, norm_eq_abs, wgt2, abs_abs, abs_of_nonneg (sq_nonneg x)]
    have : 0 ≤ |wgt eta kap x| * (1 - |x| + x ^ 2) := by
      refine mul_nonneg hw ?_
      rw [← sq_abs x]
      nlinarith [sq_nonneg (|x| - 1)]
    linarith

end Verif.Lindhard
