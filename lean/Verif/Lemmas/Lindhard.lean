/-
Analysis behind the random phase approximation at finite temperature, in reduced units: the weight
function of the spectral representation, its integrability, and the exchange of the order of
integration that turns it into an integral over the Fermi function.
-/
import Mathlib.Analysis.SpecialFunctions.Gaussian.GaussianIntegral
import Mathlib.MeasureTheory.Integral.Prod
import Mathlib.Analysis.SpecialFunctions.Log.Deriv
import Mathlib.MeasureTheory.Integral.IntervalIntegral.FundThmCalculus
import Mathlib.Analysis.SpecialFunctions.Integrals.Basic

set_option autoImplicit false

namespace Verif.Lindhard

open Real MeasureTheory Set

/-- `log (1 + exp (η - t²))`. -/
noncomputable def psi (eta t : ℝ) : ℝ := log (1 + exp (eta - t ^ 2))

/-- The weight of the spectral representation. -/
noncomputable def wgt (eta kap x : ℝ) : ℝ := psi eta (x - kap) - psi eta (x + kap)

/-- `2 y` times the Fermi function. -/
noncomputable def phi (eta y : ℝ) : ℝ := 2 * y / (exp (y ^ 2 - eta) + 1)

theorem psi_neg (eta t : ℝ) : psi eta (-t) = psi eta t := by
  simp [psi]

theorem psi_abs (eta t : ℝ) : psi eta |t| = psi eta t := by
  simp [psi]

theorem psi_continuous (eta : ℝ) : Continuous (psi eta) := by
  unfold psi
  apply Continuous.log
  · fun_prop
  · intro x
    positivity

theorem wgt_continuous (eta kap : ℝ) : Continuous (wgt eta kap) := by
  unfold wgt
  have := psi_continuous eta
  fun_prop

theorem phi_continuous (eta : ℝ) : Continuous (phi eta) := by
  unfold phi
  apply Continuous.div (by fun_prop) (by fun_prop)
  intro x
  positivity

theorem phi_nonneg {eta y : ℝ} (hy : 0 ≤ y) : 0 ≤ phi eta y := by
  unfold phi
  positivity

theorem psi_hasDerivAt (eta t : ℝ) : HasDerivAt (psi eta) (-phi eta t) t := by
  have h1 : HasDerivAt (fun t : ℝ => 1 + exp (eta - t ^ 2)) (exp (eta - t ^ 2) * (-(2 * t))) t := by
    have h2 : HasDerivAt (fun t : ℝ => eta - t ^ 2) (-(2 * t)) t := by
      have := ((hasDerivAt_id t).pow 2).const_sub eta
      simpa using this
    exact (h2.exp).const_add 1
  have h := h1.log (by positivity)
  have e : exp (eta - t ^ 2) * (-(2 * t)) / (1 + exp (eta - t ^ 2)) = -phi eta t := by
    unfold phi
    have e1 : exp (t ^ 2 - eta) = (exp (eta - t ^ 2))⁻¹ := by rw [← exp_neg]; congr 1; ring
    rw [e1]
    have := exp_pos (eta - t ^ 2)
    field_simp
  rw [e] at h
  exact h

theorem wgt_nonneg {eta kap x : ℝ} (hk : 0 ≤ kap) (hx : 0 ≤ x) : 0 ≤ wgt eta kap x := by
  unfold wgt psi
  have : exp (eta - (x + kap) ^ 2) ≤ exp (eta - (x - kap) ^ 2) := by
    rw [exp_le_exp]
    nlinarith [mul_nonneg hk hx]
  have h := log_le_log (by positivity : (0 : ℝ) < 1 + exp (eta - (x + kap) ^ 2))
    (by linarith : 1 + exp (eta - (x + kap) ^ 2) ≤ 1 + exp (eta - (x - kap) ^ 2))
  linarith

theorem wgt_pos {eta kap x : ℝ} (hk : 0 < kap) (hx : 0 < x) : 0 < wgt eta kap x := by
  unfold wgt psi
  have : exp (eta - (x + kap) ^ 2) < exp (eta - (x - kap) ^ 2) := by
    rw [exp_lt_exp]
    nlinarith [mul_pos hk hx]
  have h := log_lt_log (by positivity : (0 : ℝ) < 1 + exp (eta - (x + kap) ^ 2))
    (by linarith : 1 + exp (eta - (x + kap) ^ 2) < 1 + exp (eta - (x - kap) ^ 2))
  linarith

/-- A Gaussian bound that also controls the weight near zero. -/
theorem wgt_le {eta kap x : ℝ} (hk : 0 ≤ kap) (hx : 0 ≤ x) :
    wgt eta kap x ≤ 4 * kap * x * exp (eta - (x - kap) ^ 2) := by
  set A := exp (eta - (x - kap) ^ 2) with hA
  set B := exp (eta - (x + kap) ^ 2) with hB
  have hA0 : 0 < A := exp_pos _
  have hB0 : 0 < B := exp_pos _
  have hBA : B = A * exp (-(4 * kap * x)) := by
    rw [hA, hB, ← exp_add]
    congr 1
    ring
  have h1 : wgt eta kap x ≤ A - B := by
    unfold wgt psi
    rw [← log_div (by positivity) (by positivity)]
    have := log_le_sub_one_of_pos (x := (1 + A) / (1 + B)) (by positivity)
    refine this.trans ?_
    have e : (1 + A) / (1 + B) - 1 = (A - B) / (1 + B) := by field_simp; ring
    rw [e]
    have hAB : 0 ≤ A - B := by
      have : exp (-(4 * kap * x)) ≤ 1 := by
        rw [exp_le_one_iff]
        have := mul_nonneg hk hx
        linarith
      rw [hBA]
      nlinarith
    exact div_le_self hAB (by linarith)
  refine h1.trans ?_
  have h2 : 1 - 4 * kap * x ≤ exp (-(4 * kap * x)) := by
    have := add_one_le_exp (-(4 * kap * x))
    linarith
  rw [hBA]
  nlinarith

theorem wgt_eq_integral (eta : ℝ) {kap x : ℝ} :
    wgt eta kap x = ∫ y in |x - kap|..(x + kap), phi eta y := by
  have h := intervalIntegral.integral_eq_sub_of_hasDerivAt (a := |x - kap|) (b := x + kap)
    (f := fun t => -psi eta t) (f' := phi eta)
    (fun t _ => by
      have := (psi_hasDerivAt eta t).neg
      rw [neg_neg] at this
      exact this)
    ((phi_continuous eta).intervalIntegrable _ _)
  rw [h, psi_abs]
  unfold wgt
  ring

theorem gauss_integrable (eta kap : ℝ) : Integrable fun x : ℝ => exp (eta - (x - kap) ^ 2) := by
  have h := (integrable_exp_neg_mul_sq (b := 1) one_pos).comp_sub_right kap
  have h2 := h.const_mul (exp eta)
  refine h2.congr (Filter.Eventually.of_forall fun x => ?_)
  simp only
  rw [← exp_add]
  congr 1
  ring

/-- The weight divided by the frequency is integrable. -/
theorem wgt_div_integrable (eta : ℝ) {kap : ℝ} (hk : 0 ≤ kap) :
    IntegrableOn (fun x => wgt eta kap x / x) (Ioi 0) := by
  have hg : IntegrableOn (fun x : ℝ => 4 * kap * exp (eta - (x - kap) ^ 2)) (Ioi 0) :=
    ((gauss_integrable eta kap).const_mul (4 * kap)).integrableOn
  refine Integrable.mono' hg ?_ ?_
  · apply ContinuousOn.aestronglyMeasurable _ measurableSet_Ioi
    apply ContinuousOn.div (wgt_continuous eta kap).continuousOn continuousOn_id
    intro x hx
    exact (mem_Ioi.1 hx).ne'
  · rw [ae_restrict_iff' measurableSet_Ioi]
    refine Filter.Eventually.of_forall fun x hx => ?_
    have hx' : 0 < x := hx
    rw [norm_eq_abs, abs_of_nonneg (div_nonneg (wgt_nonneg hk hx'.le) hx'.le), div_le_iff₀ hx']
    have := wgt_le (eta := eta) hk hx'.le
    linarith

/-- The region of integration is symmetric in both variables. -/
theorem triangle_symm {kap x y : ℝ} :
    (|x - kap| < y ∧ y < x + kap) ↔ (|y - kap| < x ∧ x < y + kap) := by
  constructor
  · rintro ⟨h1, h2⟩
    rw [abs_lt] at h1
    refine ⟨abs_lt.2 ⟨?_, ?_⟩, ?_⟩ <;> linarith [h1.1, h1.2]
  · rintro ⟨h1, h2⟩
    rw [abs_lt] at h1
    refine ⟨abs_lt.2 ⟨?_, ?_⟩, ?_⟩ <;> linarith [h1.1, h1.2]

/-- The integrand of the double integral. -/
noncomputable def kernel (eta kap : ℝ) (K : ℝ → ℝ) (x y : ℝ) : ℝ :=
  if |x - kap| < y ∧ y < x + kap then phi eta y * K x else 0

theorem kernel_measurable (eta kap : ℝ) {K : ℝ → ℝ} (hK : Measurable K) :
    Measurable (Function.uncurry (kernel eta kap K)) := by
  have : Function.uncurry (kernel eta kap K) = fun p : ℝ × ℝ =>
      if |p.1 - kap| < p.2 ∧ p.2 < p.1 + kap then phi eta p.2 * K p.1 else 0 := rfl
  rw [this]
  apply Measurable.ite
  · apply MeasurableSet.inter
    · exact measurableSet_lt (f := fun p : ℝ × ℝ => |p.1 - kap|) (g := fun p => p.2)
        (by fun_prop) (by fun_prop)
    · exact measurableSet_lt (f := fun p : ℝ × ℝ => p.2) (g := fun p => p.1 + kap)
        (by fun_prop) (by fun_prop)
  · exact ((phi_continuous eta).measurable.comp measurable_snd).mul (hK.comp measurable_fst)
  · exact measurable_const

theorem kernel_eq_indicator (eta kap : ℝ) (K : ℝ → ℝ) (x y : ℝ) : kernel eta kap K x y =
    (Ioo |x - kap| (x + kap)).indicator (fun y => phi eta y * K x) y := by
  unfold kernel
  by_cases h : |x - kap| < y ∧ y < x + kap
  · rw [if_pos h, indicator_of_mem (show y ∈ Ioo _ _ from h)]
  · rw [if_neg h, indicator_of_notMem (show y ∉ Ioo _ _ from h)]

theorem kernel_integral_right (eta : ℝ) {kap x : ℝ} (K : ℝ → ℝ) (hk : 0 < kap) (hx : 0 < x) :
    ∫ y in Ioi (0 : ℝ), kernel eta kap K x y = wgt eta kap x * K x := by
  have hle : |x - kap| ≤ x + kap := by
    rw [abs_le]
    constructor <;> linarith
  have h : ∀ y, kernel eta kap K x y =
      (Ioo |x - kap| (x + kap)).indicator (fun y => phi eta y * K x) y := by
    intro y
    exact kernel_eq_indicator eta kap K x y
  simp only [h]
  rw [setIntegral_indicator measurableSet_Ioo]
  have hs : Ioi (0 : ℝ) ∩ Ioo |x - kap| (x + kap) = Ioo |x - kap| (x + kap) := by
    apply inter_eq_right.2
    intro y hy
    exact lt_of_le_of_lt (abs_nonneg _) hy.1
  rw [hs, ← integral_Ioc_eq_integral_Ioo, ← intervalIntegral.integral_of_le hle,
    intervalIntegral.integral_mul_const, wgt_eq_integral]

theorem kernel_integral_left (eta : ℝ) {kap y : ℝ} (K : ℝ → ℝ) (hk : 0 < kap) (hy : 0 < y) :
    ∫ x in Ioi (0 : ℝ), kernel eta kap K x y =
      phi eta y * ∫ x in |y - kap|..(y + kap), K x := by
  have hle : |y - kap| ≤ y + kap := by
    rw [abs_le]
    constructor <;> linarith
  have h : ∀ x ∈ Ioi (0 : ℝ), kernel eta kap K x y =
      (Ioo |y - kap| (y + kap)).indicator (fun x => phi eta y * K x) x := by
    intro x hx
    unfold kernel
    have ht := @triangle_symm kap x y
    by_cases h : |x - kap| < y ∧ y < x + kap
    · rw [if_pos h, indicator_of_mem (show x ∈ Ioo _ _ from ht.1 h)]
    · rw [if_neg h, indicator_of_notMem (show x ∉ Ioo _ _ from fun h' => h (ht.2 h'))]
  rw [setIntegral_congr_fun measurableSet_Ioi h, setIntegral_indicator measurableSet_Ioo]
  have hs : Ioi (0 : ℝ) ∩ Ioo |y - kap| (y + kap) = Ioo |y - kap| (y + kap) := by
    apply inter_eq_right.2
    intro x hx
    exact lt_of_le_of_lt (abs_nonneg _) hx.1
  rw [hs, ← integral_Ioc_eq_integral_Ioo, ← intervalIntegral.integral_of_le hle,
    intervalIntegral.integral_const_mul]

theorem kernel_integrable (eta : ℝ) {kap : ℝ} {K : ℝ → ℝ} (hk : 0 < kap) (hK : Measurable K)
    (hint : IntegrableOn (fun x => wgt eta kap x * K x) (Ioi 0)) :
    Integrable (Function.uncurry (kernel eta kap K))
      ((volume.restrict (Ioi (0 : ℝ))).prod (volume.restrict (Ioi (0 : ℝ)))) := by
  rw [integrable_prod_iff (kernel_measurable eta kap hK).aestronglyMeasurable]
  constructor
  · rw [ae_restrict_iff' measurableSet_Ioi]
    refine Filter.Eventually.of_forall fun x hx => ?_
    have h : (fun y => Function.uncurry (kernel eta kap K) (x, y)) =
        (Ioo |x - kap| (x + kap)).indicator (fun y => phi eta y * K x) :=
      funext fun y => kernel_eq_indicator eta kap K x y
    rw [h]
    refine Integrable.integrableOn (s := Ioi 0) ?_
    rw [integrable_indicator_iff measurableSet_Ioo]
    exact (((phi_continuous eta).mul continuous_const).integrableOn_Icc).mono_set Ioo_subset_Icc_self
  · refine (hint.norm).congr ?_
    rw [Filter.EventuallyEq, ae_restrict_iff' measurableSet_Ioi]
    refine Filter.Eventually.of_forall fun x hx => ?_
    have hx' : 0 < x := hx
    have e : ∀ y, ‖Function.uncurry (kernel eta kap K) (x, y)‖ =
        kernel eta kap (fun x => |K x|) x y := by
      intro y
      unfold kernel
      simp only [Function.uncurry_apply_pair]
      split
      · rename_i h
        rw [norm_eq_abs, abs_mul, abs_of_nonneg (phi_nonneg ((abs_nonneg _).trans h.1.le))]
      · simp
    simp only [e]
    rw [kernel_integral_right eta _ hk hx', norm_eq_abs, abs_mul,
      abs_of_nonneg (wgt_nonneg hk.le hx'.le)]

/-- Exchange of the two integrations. -/
theorem wgt_swap (eta : ℝ) {kap : ℝ} {K : ℝ → ℝ} (hk : 0 < kap) (hK : Measurable K)
    (hint : IntegrableOn (fun x => wgt eta kap x * K x) (Ioi 0)) :
    ∫ x in Ioi (0 : ℝ), wgt eta kap x * K x =
      ∫ y in Ioi (0 : ℝ), phi eta y * ∫ x in |y - kap|..(y + kap), K x := by
  have h := integral_integral_swap (kernel_integrable eta hk hK hint)
  rw [setIntegral_congr_fun measurableSet_Ioi
    (fun x hx => kernel_integral_right eta K hk (mem_Ioi.1 hx))] at h
  rw [h]
  exact setIntegral_congr_fun measurableSet_Ioi
    (fun y hy => kernel_integral_left eta K hk (mem_Ioi.1 hy))

/-- The integrand over the Fermi function is integrable. -/
theorem phi_integrable (eta : ℝ) {kap : ℝ} {K : ℝ → ℝ} (hk : 0 < kap) (hK : Measurable K)
    (hint : IntegrableOn (fun x => wgt eta kap x * K x) (Ioi 0)) :
    IntegrableOn (fun y => phi eta y * ∫ x in |y - kap|..(y + kap), K x) (Ioi 0) := by
  have h := (kernel_integrable eta hk hK hint).integral_prod_right
  refine Integrable.congr h ?_
  rw [Filter.EventuallyEq, ae_restrict_iff' measurableSet_Ioi]
  exact Filter.Eventually.of_forall fun y hy => kernel_integral_left eta K hk (mem_Ioi.1 hy)

end Verif.Lindhard
