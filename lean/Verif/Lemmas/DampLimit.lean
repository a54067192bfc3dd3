/-
Limits of the spectral representation at real frequencies: the imaginary part of a Cauchy transform
tends to its density, and integrals over logarithms are continuous in the position of the
singularity.
-/
import Mathlib.Analysis.SpecialFunctions.ImproperIntegrals
import Verif.Lemmas.Spectral

set_option autoImplicit false

namespace Verif.Lindhard

open Real MeasureTheory Set Filter Topology

/-! ### The imaginary part -/

theorem psi_nonneg (eta t : ℝ) : 0 ≤ psi eta t := by
  unfold psi
  exact log_nonneg (by have := exp_pos (eta - t ^ 2); linarith)

theorem psi_le (eta t : ℝ) : psi eta t ≤ exp eta := by
  unfold psi
  have h1 := log_le_sub_one_of_pos (by positivity : (0 : ℝ) < 1 + exp (eta - t ^ 2))
  have h2 : exp (eta - t ^ 2) ≤ exp eta := exp_le_exp.2 (by nlinarith [sq_nonneg t])
  linarith

theorem wgt_abs_le (eta kap x : ℝ) : |wgt eta kap x| ≤ exp eta := by
  unfold wgt
  rw [abs_le]
  constructor <;>
    linarith [psi_nonneg eta (x - kap), psi_nonneg eta (x + kap), psi_le eta (x - kap),
      psi_le eta (x + kap)]

theorem wgt_neg (eta kap x : ℝ) : wgt eta kap (-x) = -wgt eta kap x := by
  unfold wgt
  rw [← psi_neg eta (x - kap), ← psi_neg eta (x + kap)]
  ring_nf

theorem wgt_cauchy_integrable (eta kap a b : ℝ) :
    Integrable fun s : ℝ => wgt eta kap (a + b * s) * (1 + s ^ 2)⁻¹ := by
  refine (integrable_inv_one_add_sq.const_mul (exp eta)).mono' ?_ ?_
  · have h1 : Continuous fun s : ℝ => wgt eta kap (a + b * s) :=
      (wgt_continuous eta kap).comp (by fun_prop)
    have h2 : Continuous fun s : ℝ => (1 + s ^ 2)⁻¹ :=
      Continuous.inv₀ (by fun_prop) fun s => by positivity
    exact (h1.mul h2).aestronglyMeasurable
  · refine Eventually.of_forall fun s => ?_
    have : (0 : ℝ) < (1 + s ^ 2)⁻¹ := by positivity
    rw [norm_mul, norm_eq_abs, norm_eq_abs, abs_of_pos this]
    exact mul_le_mul_of_nonneg_right (wgt_abs_le eta kap _) this.le

/-- The integral over half the axis with both poles is one over the whole axis with one pole. -/
theorem wgt_imK_whole (eta kap a : ℝ) {b : ℝ} (hb : 0 < b) :
    ∫ x in Ioi (0 : ℝ), wgt eta kap x * imK a b x =
      ∫ s : ℝ, wgt eta kap (a + b * s) * (1 + s ^ 2)⁻¹ := by
  set F : ℝ → ℝ := fun x => wgt eta kap x * (b * (1 / ((x - a) ^ 2 + b ^ 2))) with hF
  have hscale : ∀ s : ℝ, F (a + b * s) = wgt eta kap (a + b * s) * (1 + s ^ 2)⁻¹ * b⁻¹ := by
    intro s
    have h1 : (a + b * s - a) ^ 2 + b ^ 2 = b ^ 2 * (1 + s ^ 2) := by ring
    simp only [hF]
    rw [h1]
    have : (0 : ℝ) < 1 + s ^ 2 := by positivity
    field_simp
  have hi1 : Integrable fun s : ℝ => F (a + b * s) := by
    simp only [hscale]
    exact (wgt_cauchy_integrable eta kap a b).mul_const _
  have hi : Integrable F := by
    have h2 : Integrable fun s : ℝ => F (a + s) := by
      rw [← integrable_comp_mul_left_iff _ hb.ne']
      exact hi1
    have h3 := h2.comp_add_right (-a)
    refine h3.congr (Eventually.of_forall fun x => ?_)
    simp
  have e1 : ∫ s : ℝ, F (a + b * s) = b⁻¹ * ∫ x, F x := by
    have := Measure.integral_comp_mul_left (fun s => F (a + s)) b
    rw [this, abs_of_pos (inv_pos.2 hb), smul_eq_mul, integral_add_left_eq_self F a]
  have e2 : ∫ x, F x = ∫ s : ℝ, wgt eta kap (a + b * s) * (1 + s ^ 2)⁻¹ := by
    simp only [hscale, integral_mul_const] at e1
    have hb' : b⁻¹ ≠ 0 := (inv_pos.2 hb).ne'
    apply mul_left_cancel₀ hb'
    rw [← e1]
    ring
  rw [← e2, ← intervalIntegral.integral_Iic_add_Ioi (b := 0) hi.integrableOn hi.integrableOn]
  have e3 : ∫ x in Iic (0 : ℝ), F x = ∫ x in Ioi (0 : ℝ), F (-x) := by
    have := integral_comp_neg_Ioi (c := (0 : ℝ)) F
    rw [this, neg_zero]
  rw [e3, ← integral_add hi.comp_neg.integrableOn hi.integrableOn]
  refine setIntegral_congr_fun measurableSet_Ioi fun x _ => ?_
  simp only [hF, wgt_neg]
  have h4 : (-x - a) ^ 2 + b ^ 2 = (x + a) ^ 2 + b ^ 2 := by ring
  rw [h4]
  unfold imK
  ring

/-- From above, the imaginary part tends to `π` times the density. -/
theorem polar_im_tendsto (eta : ℝ) {kap : ℝ} (hk : 0 ≤ kap) (a : ℝ) :
    Tendsto (fun z : ℂ => (polar eta kap z).im) (𝓝[{z : ℂ | 0 < z.im}] (a : ℂ))
      (𝓝 (π * wgt eta kap a)) := by
  have hmem : ∀ᶠ z : ℂ in 𝓝[{z : ℂ | 0 < z.im}] (a : ℂ), 0 < z.im := self_mem_nhdsWithin
  have hre : Tendsto (fun z : ℂ => z.re) (𝓝[{z : ℂ | 0 < z.im}] (a : ℂ)) (𝓝 a) := by
    have := (Complex.continuous_re.tendsto (a : ℂ)).mono_left
      (nhdsWithin_le_nhds (s := {z : ℂ | 0 < z.im}))
    simpa using this
  have him : Tendsto (fun z : ℂ => z.im) (𝓝[{z : ℂ | 0 < z.im}] (a : ℂ)) (𝓝 0) := by
    have := (Complex.continuous_im.tendsto (a : ℂ)).mono_left
      (nhdsWithin_le_nhds (s := {z : ℂ | 0 < z.im}))
    simpa using this
  have key : Tendsto (fun z : ℂ => ∫ s : ℝ, wgt eta kap (z.re + z.im * s) * (1 + s ^ 2)⁻¹)
      (𝓝[{z : ℂ | 0 < z.im}] (a : ℂ)) (𝓝 (∫ s : ℝ, wgt eta kap a * (1 + s ^ 2)⁻¹)) := by
    refine tendsto_integral_filter_of_dominated_convergence (fun s => exp eta * (1 + s ^ 2)⁻¹)
      (Eventually.of_forall fun z => (wgt_cauchy_integrable eta kap z.re z.im).1)
      (Eventually.of_forall fun z => Eventually.of_forall fun s => ?_)
      (integrable_inv_one_add_sq.const_mul (exp eta)) (Eventually.of_forall fun s => ?_)
    · have : (0 : ℝ) < (1 + s ^ 2)⁻¹ := by positivity
      rw [norm_mul, norm_eq_abs, norm_eq_abs, abs_of_pos this]
      exact mul_le_mul_of_nonneg_right (wgt_abs_le eta kap _) this.le
    · have h1 : Tendsto (fun z : ℂ => z.re + z.im * s) (𝓝[{z : ℂ | 0 < z.im}] (a : ℂ)) (𝓝 a) := by
        have := hre.add (him.mul_const s)
        simpa using this
      exact (((wgt_continuous eta kap).tendsto a).comp h1).mul_const _
  rw [integral_const_mul, integral_univ_inv_one_add_sq, mul_comm] at key
  refine key.congr' ?_
  filter_upwards [hmem] with z hz
  rw [polar_im eta hk hz.ne', wgt_imK_whole eta kap z.re hz]

/-! ### Integrals over logarithms -/

/-- The function `phi` on the positive axis, continued by zero. -/
noncomputable def phiP (eta y : ℝ) : ℝ := phi eta (max y 0)

theorem phiP_continuous (eta : ℝ) : Continuous (phiP eta) :=
  (phi_continuous eta).comp (by fun_prop)

theorem phiP_of_pos {eta y : ℝ} (hy : 0 < y) : phiP eta y = phi eta y := by
  unfold phiP
  rw [max_eq_left hy.le]

theorem phiP_of_nonpos {eta y : ℝ} (hy : y ≤ 0) : phiP eta y = 0 := by
  unfold phiP
  rw [max_eq_right hy]
  simp [phi]

theorem phiP_nonneg (eta y : ℝ) : 0 ≤ phiP eta y := phi_nonneg (le_max_right _ _)

theorem phiP_le (eta y : ℝ) : phiP eta y ≤ 2 * exp eta * exp (-(y ^ 2 / 2)) := by
  rcases le_or_gt y 0 with h | h
  · rw [phiP_of_nonpos h]
    positivity
  · rw [phiP_of_pos h]
    unfold phi
    have h1 : y ≤ exp (y ^ 2 / 2) := by
      have := add_one_le_exp (y ^ 2 / 2)
      nlinarith [sq_nonneg (y - 1)]
    rw [div_le_iff₀ (by positivity)]
    have h2 : exp eta * exp (-(y ^ 2 / 2)) * exp (y ^ 2 - eta) = exp (y ^ 2 / 2) := by
      rw [← exp_add, ← exp_add]
      congr 1
      ring
    have h3 : 0 < exp eta * exp (-(y ^ 2 / 2)) := by positivity
    nlinarith

/-- With a shift not larger than `M`. -/
theorem phiP_shift_le (eta : ℝ) {M c : ℝ} (hc : |c| ≤ M) (x : ℝ) :
    phiP eta (x + c) ≤ 2 * exp eta * exp (M ^ 2 / 2) * exp (-(x ^ 2 / 4)) := by
  refine (phiP_le eta (x + c)).trans ?_
  have h1 : exp (-((x + c) ^ 2 / 2)) ≤ exp (M ^ 2 / 2) * exp (-(x ^ 2 / 4)) := by
    rw [← exp_add, exp_le_exp]
    have : c ^ 2 ≤ M ^ 2 := by
      rw [← sq_abs c]
      exact pow_le_pow_left₀ (abs_nonneg c) hc 2
    nlinarith [sq_nonneg (x + 2 * c)]
  have : 0 < 2 * exp eta := by positivity
  nlinarith

/-- An integrable bound. -/
noncomputable def logBound (B x : ℝ) : ℝ :=
  (B ^ 2 + 24) * exp (-(1 / 8) * x ^ 2) + 2 * (Icc (-1 : ℝ) 1).indicator (fun x => |log x|) x

theorem logBound_integrable (B : ℝ) : Integrable (logBound B) := by
  refine ((integrable_exp_neg_mul_sq (by norm_num : (0 : ℝ) < 1 / 8)).const_mul _).add ?_
  refine Integrable.const_mul ?_ 2
  rw [integrable_indicator_iff measurableSet_Icc]
  have h : IntervalIntegrable log volume (-1) 1 := intervalIntegral.intervalIntegrable_log'
  rw [intervalIntegrable_iff_integrableOn_Icc_of_le (by norm_num)] at h
  exact h.abs

theorem exp_log_le {B b x : ℝ} (hb : |b| ≤ B) (hx : x ≠ 0) :
    exp (-(x ^ 2 / 4)) * |log (b ^ 2 + x ^ 2)| ≤ logBound B x := by
  have hx2 : 0 < x ^ 2 := by positivity
  have hB : b ^ 2 ≤ B ^ 2 := by
    rw [← sq_abs b]
    exact pow_le_pow_left₀ (abs_nonneg b) hb 2
  have hB0 : 0 ≤ B := (abs_nonneg b).trans hb
  set e := exp (-(x ^ 2 / 4)) with he
  have he0 : 0 < e := exp_pos _
  have he1 : e ≤ 1 := by
    rw [he, exp_le_one_iff]
    linarith
  set f := exp (-(1 / 8) * x ^ 2) with hf
  have hf0 : 0 < f := exp_pos _
  have hef : e = f * f := by
    rw [he, hf, ← exp_add]
    congr 1
    ring
  have hf1 : f ≤ 1 := by
    rw [hf, exp_le_one_iff]
    linarith
  have hxf : x ^ 2 * f ≤ 8 := by
    have h1 := add_one_le_exp (1 / 8 * x ^ 2)
    have h2 : exp (1 / 8 * x ^ 2) * f = 1 := by
      rw [hf, ← exp_add]
      norm_num
    nlinarith
  have hlog : |log (b ^ 2 + x ^ 2)| ≤ b ^ 2 + x ^ 2 + 2 * |log x| := by
    have h1 : log (b ^ 2 + x ^ 2) ≤ b ^ 2 + x ^ 2 := by
      have := log_le_sub_one_of_pos (by positivity : 0 < b ^ 2 + x ^ 2)
      linarith
    have h2 : log (x ^ 2) ≤ log (b ^ 2 + x ^ 2) := log_le_log hx2 (by nlinarith [sq_nonneg b])
    have h3 : log (x ^ 2) = 2 * log x := by
      rw [log_pow]
      norm_num
    rw [abs_le]
    constructor
    · have := neg_abs_le (log x)
      nlinarith [sq_nonneg b]
    · have := abs_nonneg (log x)
      linarith
  have hind : e * |log x| ≤ (Icc (-1 : ℝ) 1).indicator (fun x => |log x|) x + 8 * f := by
    by_cases hm : x ∈ Icc (-1 : ℝ) 1
    · rw [indicator_of_mem hm]
      have := abs_nonneg (log x)
      nlinarith
    · rw [indicator_of_notMem hm]
      have h1 : 1 ≤ |x| := by
        by_contra h
        push Not at h
        exact hm ⟨by linarith [(abs_lt.1 h).1], (abs_lt.1 h).2.le⟩
      have h2 : |log x| ≤ x ^ 2 := by
        rw [← log_abs, abs_of_nonneg (log_nonneg h1)]
        have := log_le_sub_one_of_pos (by linarith : 0 < |x|)
        rw [← sq_abs x]
        nlinarith
      have h3 : e * |log x| ≤ f * (x ^ 2 * f) := by
        rw [hef]
        nlinarith [mul_pos hf0 hf0]
      nlinarith
  unfold logBound
  rw [← hf]
  have h5 : e * |log (b ^ 2 + x ^ 2)| ≤ e * (b ^ 2 + x ^ 2 + 2 * |log x|) :=
    mul_le_mul_of_nonneg_left hlog he0.le
  have h6 : e * b ^ 2 ≤ B ^ 2 * f := by
    rw [hef]
    have : f * f ≤ f := by nlinarith
    nlinarith [sq_nonneg b]
  have h7 : e * x ^ 2 ≤ 8 * f := by
    rw [hef]
    nlinarith
  nlinarith

/-- The integral over one logarithm. -/
noncomputable def logInt (eta c b : ℝ) : ℝ :=
  ∫ t in Ioi (0 : ℝ), phi eta t * log (b ^ 2 + (t - c) ^ 2)

/-- The same with the singularity at the origin. -/
noncomputable def logArg (eta c b x : ℝ) : ℝ := phiP eta (x + c) * log (b ^ 2 + x ^ 2)

theorem logArg_bound (eta : ℝ) {M B c b : ℝ} (hc : |c| ≤ M) (hb : |b| ≤ B) {x : ℝ} (hx : x ≠ 0) :
    ‖logArg eta c b x‖ ≤ 2 * exp eta * exp (M ^ 2 / 2) * logBound B x := by
  unfold logArg
  rw [norm_mul, norm_eq_abs, norm_eq_abs, abs_of_nonneg (phiP_nonneg _ _)]
  have h1 := phiP_shift_le eta hc x
  have h2 := exp_log_le hb hx
  have h3 : 0 < 2 * exp eta * exp (M ^ 2 / 2) := by positivity
  calc phiP eta (x + c) * |log (b ^ 2 + x ^ 2)|
      ≤ 2 * exp eta * exp (M ^ 2 / 2) * exp (-(x ^ 2 / 4)) * |log (b ^ 2 + x ^ 2)| :=
        mul_le_mul_of_nonneg_right h1 (abs_nonneg _)
    _ = 2 * exp eta * exp (M ^ 2 / 2) * (exp (-(x ^ 2 / 4)) * |log (b ^ 2 + x ^ 2)|) := by ring
    _ ≤ _ := mul_le_mul_of_nonneg_left h2 h3.le

theorem ae_ne (c : ℝ) : ∀ᵐ x : ℝ, x ≠ c := by simp [ae_iff]

theorem logArg_measurable (eta c b : ℝ) : AEStronglyMeasurable (logArg eta c b) volume := by
  have h1 : Measurable fun x : ℝ => phiP eta (x + c) :=
    ((phiP_continuous eta).comp (by fun_prop)).measurable
  have h2 : Measurable fun x : ℝ => log (b ^ 2 + x ^ 2) := measurable_log.comp (by fun_prop)
  exact (h1.mul h2).aestronglyMeasurable

theorem logArg_integrable (eta c b : ℝ) : Integrable (logArg eta c b) := by
  refine ((logBound_integrable |b|).const_mul (2 * exp eta * exp (|c| ^ 2 / 2))).mono'
    (logArg_measurable eta c b) ?_
  filter_upwards [ae_ne 0] with x hx
  exact logArg_bound eta le_rfl le_rfl hx

theorem logInt_indicator (eta c b t : ℝ) :
    (Ioi (0 : ℝ)).indicator (fun t => phi eta t * log (b ^ 2 + (t - c) ^ 2)) t =
      logArg eta c b (t - c) := by
  unfold logArg
  rw [sub_add_cancel]
  by_cases h : t ∈ Ioi (0 : ℝ)
  · rw [indicator_of_mem h, phiP_of_pos h]
  · rw [indicator_of_notMem h, phiP_of_nonpos (not_lt.1 h), zero_mul]

theorem logInt_integrable (eta c b : ℝ) :
    IntegrableOn (fun t => phi eta t * log (b ^ 2 + (t - c) ^ 2)) (Ioi 0) := by
  rw [← integrable_indicator_iff measurableSet_Ioi]
  refine ((logArg_integrable eta c b).comp_sub_right c).congr (Eventually.of_forall fun t => ?_)
  exact (logInt_indicator eta c b t).symm

theorem logInt_eq (eta c b : ℝ) : logInt eta c b = ∫ x, logArg eta c b x := by
  unfold logInt
  rw [← integral_indicator measurableSet_Ioi]
  simp only [logInt_indicator]
  exact integral_sub_right_eq_self (logArg eta c b) c

/-- The integral is continuous in the place of the logarithm and in the damping, also where the
damping vanishes. -/
theorem logInt_continuous (eta : ℝ) : Continuous fun p : ℝ × ℝ => logInt eta p.1 p.2 := by
  simp only [logInt_eq]
  rw [continuous_iff_continuousAt]
  rintro ⟨c, b⟩
  have hc : ∀ᶠ p : ℝ × ℝ in 𝓝 (c, b), |p.1| ≤ |c| + 1 := by
    have h : ContinuousAt (fun p : ℝ × ℝ => |p.1|) (c, b) := by fun_prop
    filter_upwards [h.eventually (gt_mem_nhds (by simp : |(c, b).1| < |c| + 1))] with p hp
    exact hp.le
  have hb : ∀ᶠ p : ℝ × ℝ in 𝓝 (c, b), |p.2| ≤ |b| + 1 := by
    have h : ContinuousAt (fun p : ℝ × ℝ => |p.2|) (c, b) := by fun_prop
    filter_upwards [h.eventually (gt_mem_nhds (by simp : |(c, b).2| < |b| + 1))] with p hp
    exact hp.le
  refine tendsto_integral_filter_of_dominated_convergence
    (fun x => 2 * exp eta * exp ((|c| + 1) ^ 2 / 2) * logBound (|b| + 1) x)
    (Eventually.of_forall fun p => logArg_measurable eta p.1 p.2) ?_
    ((logBound_integrable _).const_mul _) ?_
  · filter_upwards [hc, hb] with p h1 h2
    filter_upwards [ae_ne 0] with x hx
    exact logArg_bound eta h1 h2 hx
  · filter_upwards [ae_ne 0] with x hx
    unfold logArg
    have h1 : Tendsto (fun p : ℝ × ℝ => phiP eta (x + p.1)) (𝓝 (c, b)) (𝓝 (phiP eta (x + c))) := by
      have : Continuous fun p : ℝ × ℝ => phiP eta (x + p.1) := (phiP_continuous eta).comp (by fun_prop)
      exact this.tendsto (c, b)
    have hne : b ^ 2 + x ^ 2 ≠ 0 := by positivity
    have h2 : Tendsto (fun p : ℝ × ℝ => log (p.2 ^ 2 + x ^ 2)) (𝓝 (c, b)) (𝓝 (log (b ^ 2 + x ^ 2))) := by
      have : ContinuousAt (fun p : ℝ × ℝ => p.2 ^ 2 + x ^ 2) (c, b) := by fun_prop
      exact this.log hne
    exact h1.mul h2

end Verif.Lindhard
