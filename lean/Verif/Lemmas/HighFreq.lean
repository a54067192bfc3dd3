/-
The behaviour of the integrals over logarithms for large frequencies.
-/
import Verif.Lemmas.DampLimit

set_option autoImplicit false

namespace Verif.Lindhard

open Real MeasureTheory Set Filter Topology

/-! ### The tail -/

/-- The bound of one logarithm. -/
noncomputable def tailBound (M c t : ℝ) : ℝ :=
  2 * (Icc (-1 : ℝ) 1).indicator (fun x => |log x|) (t - c) + (32 + 2 * M) * exp (-(1 / 8) * t ^ 2)

theorem logInd_integrable : Integrable ((Icc (-1 : ℝ) 1).indicator fun x => |log x|) := by
  rw [integrable_indicator_iff measurableSet_Icc]
  have h : IntervalIntegrable log volume (-1) 1 := intervalIntegral.intervalIntegrable_log'
  rw [intervalIntegrable_iff_integrableOn_Icc_of_le (by norm_num)] at h
  exact h.abs

theorem tailBound_integrable (M c : ℝ) : Integrable (tailBound M c) :=
  ((logInd_integrable.comp_sub_right c).const_mul 2).add
    ((integrable_exp_neg_mul_sq (by norm_num : (0 : ℝ) < 1 / 8)).const_mul _)

theorem tailBound_integral (M c : ℝ) : ∫ t, tailBound M c t =
    2 * (∫ x, (Icc (-1 : ℝ) 1).indicator (fun x => |log x|) x) +
      (32 + 2 * M) * ∫ t : ℝ, exp (-(1 / 8) * t ^ 2) := by
  unfold tailBound
  have h1 := (logInd_integrable.comp_sub_right c).const_mul 2
  have h2 := (integrable_exp_neg_mul_sq (by norm_num : (0 : ℝ) < 1 / 8)).const_mul (32 + 2 * M)
  rw [integral_add h1 h2, integral_const_mul, integral_const_mul,
    integral_sub_right_eq_self (fun x => (Icc (-1 : ℝ) 1).indicator (fun x => |log x|) x) c]

theorem tail_le {M c t : ℝ} (hc : |c| ≤ M) :
    exp (-(t ^ 2 / 4)) * |log (0 ^ 2 + (t - c) ^ 2)| ≤ tailBound M c t := by
  have hM : 0 ≤ M := (abs_nonneg c).trans hc
  have e1 : log (0 ^ 2 + (t - c) ^ 2) = 2 * log (t - c) := by
    rw [zero_pow two_ne_zero, zero_add, log_pow]
    norm_num
  rw [e1, abs_mul, abs_two]
  set f := exp (-(1 / 8) * t ^ 2) with hf
  have hf0 : 0 < f := exp_pos _
  have hf1 : f ≤ 1 := by
    rw [hf, exp_le_one_iff]
    nlinarith [sq_nonneg t]
  have hef : exp (-(t ^ 2 / 4)) = f * f := by
    rw [hf, ← exp_add]
    congr 1
    ring
  have htf : |t| * f ≤ 16 := by
    have h1 := add_one_le_exp (1 / 8 * t ^ 2)
    have h2 : exp (1 / 8 * t ^ 2) * f = 1 := by
      rw [hf, ← exp_add]
      norm_num
    have h3 : |t| ≤ 16 * exp (1 / 8 * t ^ 2) := by
      nlinarith [sq_abs t, sq_nonneg (|t| - 1)]
    nlinarith
  have hlog : |log (t - c)| ≤ (Icc (-1 : ℝ) 1).indicator (fun x => |log x|) (t - c) + (|t| + M) := by
    by_cases hm : t - c ∈ Icc (-1 : ℝ) 1
    · rw [indicator_of_mem hm]
      have := abs_nonneg t
      linarith
    · rw [indicator_of_notMem hm]
      have h1 : 1 ≤ |t - c| := by
        by_contra h
        push Not at h
        exact hm ⟨by linarith [(abs_lt.1 h).1], (abs_lt.1 h).2.le⟩
      rw [← log_abs, abs_of_nonneg (log_nonneg h1)]
      have h2 := log_le_sub_one_of_pos (by linarith : 0 < |t - c|)
      have h3 := abs_sub t c
      linarith
  have hi : 0 ≤ (Icc (-1 : ℝ) 1).indicator (fun x => |log x|) (t - c) :=
    indicator_nonneg (fun _ _ => abs_nonneg _) _
  unfold tailBound
  rw [hef, ← hf]
  generalize (Icc (-1 : ℝ) 1).indicator (fun x => |log x|) (t - c) = i at *
  have hff : f * f ≤ f := by nlinarith
  have hff0 : 0 < f * f := by positivity
  have h4 : f * f * |log (t - c)| ≤ f * f * (i + (|t| + M)) :=
    mul_le_mul_of_nonneg_left hlog hff0.le
  have h5 : f * f * i ≤ i := by nlinarith
  have h6 : f * f * |t| ≤ 16 * f := by nlinarith
  have h7 : f * f * M ≤ M * f := by nlinarith
  nlinarith

/-- The contribution of large momenta is exponentially small. -/
theorem tail_bound (eta : ℝ) : ∃ K, 0 ≤ K ∧ ∀ A M c : ℝ, 0 ≤ A → |c| ≤ M →
    |∫ t in Ioi A, phi eta t * log (0 ^ 2 + (t - c) ^ 2)| ≤ K * (1 + M) * exp (-(A ^ 2 / 4)) := by
  set K1 := ∫ x, (Icc (-1 : ℝ) 1).indicator (fun x => |log x|) x with hK1
  set K2 := ∫ t : ℝ, exp (-(1 / 8) * t ^ 2) with hK2
  have h1 : 0 ≤ K1 := integral_nonneg fun x => indicator_nonneg (fun _ _ => abs_nonneg _) _
  have h2 : 0 ≤ K2 := integral_nonneg fun x => (exp_pos _).le
  refine ⟨2 * exp eta * (2 * K1 + 32 * K2), by positivity, fun A M c hA hc => ?_⟩
  have hM : 0 ≤ M := (abs_nonneg c).trans hc
  have hb : ∀ t ∈ Ioi A, ‖phi eta t * log (0 ^ 2 + (t - c) ^ 2)‖ ≤
      2 * exp eta * exp (-(A ^ 2 / 4)) * tailBound M c t := by
    intro t ht
    have ht' : A < t := ht
    have h3 := phiP_le eta t
    rw [phiP_of_pos (by linarith)] at h3
    have h4 := phi_nonneg (eta := eta) (by linarith : 0 ≤ t)
    have h5 := tail_le (t := t) hc
    have h6 : exp (-(t ^ 2 / 2)) ≤ exp (-(A ^ 2 / 4)) * exp (-(t ^ 2 / 4)) := by
      rw [← exp_add, exp_le_exp]
      nlinarith
    rw [norm_mul, norm_eq_abs, norm_eq_abs, abs_of_nonneg h4]
    calc phi eta t * |log (0 ^ 2 + (t - c) ^ 2)|
        ≤ 2 * exp eta * (exp (-(A ^ 2 / 4)) * exp (-(t ^ 2 / 4))) * |log (0 ^ 2 + (t - c) ^ 2)| :=
          mul_le_mul_of_nonneg_right (h3.trans (mul_le_mul_of_nonneg_left h6 (by positivity)))
            (abs_nonneg _)
      _ = 2 * exp eta * exp (-(A ^ 2 / 4)) * (exp (-(t ^ 2 / 4)) * |log (0 ^ 2 + (t - c) ^ 2)|) := by
          ring
      _ ≤ _ := mul_le_mul_of_nonneg_left h5 (by positivity)
  have hint := (tailBound_integrable M c).const_mul (2 * exp eta * exp (-(A ^ 2 / 4)))
  have hnn : ∀ t, 0 ≤ tailBound M c t := fun t => by
    have hi : 0 ≤ (Icc (-1 : ℝ) 1).indicator (fun x => |log x|) (t - c) :=
      indicator_nonneg (fun _ _ => abs_nonneg _) _
    unfold tailBound
    positivity
  have h7 : ‖∫ t in Ioi A, phi eta t * log (0 ^ 2 + (t - c) ^ 2)‖ ≤
      ∫ t in Ioi A, 2 * exp eta * exp (-(A ^ 2 / 4)) * tailBound M c t := by
    refine norm_integral_le_of_norm_le hint.integrableOn ?_
    rw [ae_restrict_iff' measurableSet_Ioi]
    exact Eventually.of_forall hb
  have h8 : ∫ t in Ioi A, 2 * exp eta * exp (-(A ^ 2 / 4)) * tailBound M c t ≤
      ∫ t, 2 * exp eta * exp (-(A ^ 2 / 4)) * tailBound M c t :=
    setIntegral_le_integral hint (Eventually.of_forall fun t => by
      have := hnn t
      simp only [Pi.zero_apply]
      positivity)
  rw [integral_const_mul (μ := volume), tailBound_integral, ← hK1, ← hK2] at h8
  rw [norm_eq_abs] at h7
  refine (h7.trans h8).trans ?_
  have h9 : 2 * K1 + (32 + 2 * M) * K2 ≤ (2 * K1 + 32 * K2) * (1 + M) := by
    nlinarith [mul_nonneg h1 hM, mul_nonneg h2 hM]
  calc _ ≤ 2 * exp eta * exp (-(A ^ 2 / 4)) * ((2 * K1 + 32 * K2) * (1 + M)) :=
        mul_le_mul_of_nonneg_left h9 (by positivity)
    _ = _ := by ring

/-! ### The main part -/

/-- The four logarithms. -/
noncomputable def fourLog (kap a t : ℝ) : ℝ :=
  log (0 ^ 2 + (t - (a - kap)) ^ 2) + log (0 ^ 2 + (t - -(a + kap)) ^ 2) -
    log (0 ^ 2 + (t - -(a - kap)) ^ 2) - log (0 ^ 2 + (t - (a + kap)) ^ 2)

/-- For frequencies far above the momenta they are one logarithm close to one. -/
theorem fourLog_eq {kap a t : ℝ} (hk : 0 < kap) (ht : 0 < t) (ha : t + kap < a) :
    fourLog kap a t = 2 * log (1 + -(4 * kap * t) / (a ^ 2 - (kap - t) ^ 2)) := by
  have p1 : 0 < a - kap - t := by linarith
  have p2 : 0 < a + kap + t := by linarith
  have p3 : 0 < a - kap + t := by linarith
  have p4 : 0 < a + kap - t := by linarith
  have e1 : t - (a - kap) = -(a - kap - t) := by ring
  have e2 : t - -(a + kap) = a + kap + t := by ring
  have e3 : t - -(a - kap) = a - kap + t := by ring
  have e4 : t - (a + kap) = -(a + kap - t) := by ring
  have e5 : a ^ 2 - (kap - t) ^ 2 = (a - kap + t) * (a + kap - t) := by ring
  have e6 : 1 + -(4 * kap * t) / (a ^ 2 - (kap - t) ^ 2) =
      (a - kap - t) * (a + kap + t) / ((a - kap + t) * (a + kap - t)) := by
    rw [e5]
    field_simp
    ring
  unfold fourLog
  rw [e1, e2, e3, e4, e6, neg_sq, neg_sq, zero_pow two_ne_zero, zero_add, zero_add, zero_add, zero_add,
    log_pow, log_pow, log_pow, log_pow, log_div (by positivity) (by positivity),
    log_mul p1.ne' p2.ne', log_mul p3.ne' p4.ne']
  push_cast
  ring

theorem log_bounds {x : ℝ} (hx : -1 < x) : x / (1 + x) ≤ log (1 + x) ∧ log (1 + x) ≤ x := by
  have hp : 0 < 1 + x := by linarith
  constructor
  · have h := one_sub_inv_le_log_of_pos hp
    have e : x / (1 + x) = 1 - (1 + x)⁻¹ := by
      field_simp
      ring
    rw [e]
    exact h
  · have := log_le_sub_one_of_pos hp
    linarith

/-- Upper and lower bounds of the four logarithms. -/
theorem fourLog_bounds {kap a t : ℝ} (hk : 0 < kap) (ht : 0 < t) (ha : t + kap < a) :
    2 * (-(4 * kap * t) / (a ^ 2 - (kap + t) ^ 2)) ≤ fourLog kap a t ∧
      fourLog kap a t ≤ 2 * (-(4 * kap * t) / (a ^ 2 - (kap - t) ^ 2)) := by
  have d1 : 0 < a ^ 2 - (kap + t) ^ 2 := by nlinarith
  have d2 : 0 < a ^ 2 - (kap - t) ^ 2 := by nlinarith [mul_pos hk ht]
  have hx : -1 < -(4 * kap * t) / (a ^ 2 - (kap - t) ^ 2) := by
    rw [lt_div_iff₀ d2]
    nlinarith
  have h := log_bounds hx
  rw [fourLog_eq hk ht ha]
  refine ⟨?_, by linarith [h.2]⟩
  have e : -(4 * kap * t) / (a ^ 2 - (kap - t) ^ 2) /
      (1 + -(4 * kap * t) / (a ^ 2 - (kap - t) ^ 2)) = -(4 * kap * t) / (a ^ 2 - (kap + t) ^ 2) := by
    have e1 : 1 + -(4 * kap * t) / (a ^ 2 - (kap - t) ^ 2) =
        (a ^ 2 - (kap + t) ^ 2) / (a ^ 2 - (kap - t) ^ 2) := by
      field_simp
      ring
    rw [e1]
    field_simp
  rw [← e]
  linarith [h.1]

theorem sq_div_tendsto (d : ℝ) : Tendsto (fun a : ℝ => a ^ 2 / (a ^ 2 - d)) atTop (𝓝 1) := by
  have h1 : Tendsto (fun a : ℝ => (a ^ 2)⁻¹) atTop (𝓝 0) :=
    tendsto_inv_atTop_zero.comp (tendsto_pow_atTop two_ne_zero)
  have h2 : Tendsto (fun a : ℝ => (1 - d * (a ^ 2)⁻¹)⁻¹) atTop (𝓝 (1 - d * 0)⁻¹) :=
    (tendsto_const_nhds.sub (tendsto_const_nhds.mul h1)).inv₀ (by simp)
  rw [mul_zero, sub_zero, inv_one] at h2
  refine h2.congr' ?_
  filter_upwards [eventually_gt_atTop 0,
    (tendsto_pow_atTop (α := ℝ) two_ne_zero).eventually_gt_atTop d] with a ha hd
  have h3 : a ^ 2 ≠ 0 := by positivity
  have h4 : a ^ 2 - d ≠ 0 := by linarith
  have e : 1 - d * (a ^ 2)⁻¹ = (a ^ 2 - d) / a ^ 2 := by field_simp
  rw [e, inv_div]

/-- Four times the first moment of the Fermi function. -/
theorem phi_id_integrable (eta : ℝ) : IntegrableOn (fun t => phi eta t * t) (Ioi 0) := by
  have hg : Integrable fun x : ℝ => 2 * exp eta * 4 * exp (-(1 / 4) * x ^ 2) :=
    (integrable_exp_neg_mul_sq (by norm_num : (0 : ℝ) < 1 / 4)).const_mul _
  refine Integrable.mono' hg.integrableOn
    ((phi_continuous eta).mul continuous_id).aestronglyMeasurable ?_
  rw [ae_restrict_iff' measurableSet_Ioi]
  refine Eventually.of_forall fun t ht => ?_
  have ht' : 0 < t := ht
  have h1 := phiP_le eta t
  rw [phiP_of_pos ht'] at h1
  rw [norm_eq_abs, abs_of_nonneg (mul_nonneg (phi_nonneg ht'.le) ht'.le)]
  set f := exp (-(1 / 4) * t ^ 2) with hf
  have hf0 : 0 < f := exp_pos _
  have e1 : exp (-(t ^ 2 / 2)) = f * f := by
    rw [hf, ← exp_add]
    congr 1
    ring
  have e2 : t * f ≤ 4 := by
    have h2 := add_one_le_exp (1 / 4 * t ^ 2)
    have h3 : exp (1 / 4 * t ^ 2) * f = 1 := by
      rw [hf, ← exp_add]
      norm_num
    have h4 : t ≤ 4 * exp (1 / 4 * t ^ 2) := by nlinarith [sq_nonneg (t - 1)]
    nlinarith
  rw [e1] at h1
  have hE := exp_pos eta
  calc phi eta t * t ≤ 2 * exp eta * (f * f) * t := mul_le_mul_of_nonneg_right h1 ht'.le
    _ = 2 * exp eta * (t * f) * f := by ring
    _ ≤ 2 * exp eta * 4 * f :=
        mul_le_mul_of_nonneg_right (mul_le_mul_of_nonneg_left e2 (by positivity)) hf0.le

/-- The main part, up to a quarter of the frequency. -/
theorem main_tendsto (eta : ℝ) {kap : ℝ} (hk : 0 < kap) :
    Tendsto (fun a : ℝ => ∫ t in Ioi (0 : ℝ),
        (Iic (a / 4)).indicator (fun t => a ^ 2 * (phi eta t * fourLog kap a t)) t) atTop
      (𝓝 (∫ t in Ioi (0 : ℝ), phi eta t * (-(8 * kap * t)))) := by
  refine tendsto_integral_filter_of_dominated_convergence (fun t => 32 * kap * (phi eta t * t))
    (Eventually.of_forall fun a => ?_) ?_ ((phi_id_integrable eta).const_mul _) ?_
  · have hm : Measurable fun t : ℝ => a ^ 2 * (phi eta t * fourLog kap a t) := by
      have := (phi_continuous eta).measurable
      unfold fourLog
      fun_prop
    exact (hm.indicator measurableSet_Iic).aestronglyMeasurable
  · filter_upwards [eventually_ge_atTop (4 * kap)] with a ha
    rw [ae_restrict_iff' measurableSet_Ioi]
    refine Eventually.of_forall fun t ht => ?_
    have ht' : 0 < t := ht
    have hp := phi_nonneg (eta := eta) ht'.le
    by_cases hm : t ∈ Iic (a / 4)
    · rw [indicator_of_mem hm]
      have hm' : t ≤ a / 4 := hm
      have ha0 : 0 < a := by linarith
      have h := fourLog_bounds hk ht' (by linarith : t + kap < a)
      have d1 : 3 / 4 * a ^ 2 ≤ a ^ 2 - (kap + t) ^ 2 := by nlinarith
      have d2 : 0 < a ^ 2 - (kap - t) ^ 2 := by nlinarith [mul_pos hk ht']
      have d0 : 0 < a ^ 2 - (kap + t) ^ 2 := by nlinarith
      have h1 : fourLog kap a t ≤ 0 := by
        refine h.2.trans ?_
        have : 0 ≤ 4 * kap * t / (a ^ 2 - (kap - t) ^ 2) := by positivity
        rw [neg_div]
        linarith
      have h2 : -(32 * kap * t) ≤ a ^ 2 * fourLog kap a t := by
        have h3 : a ^ 2 * (2 * (-(4 * kap * t) / (a ^ 2 - (kap + t) ^ 2))) ≤ a ^ 2 * fourLog kap a t :=
          mul_le_mul_of_nonneg_left h.1 (by positivity)
        refine le_trans ?_ h3
        have e : a ^ 2 * (2 * (-(4 * kap * t) / (a ^ 2 - (kap + t) ^ 2))) =
            -(8 * kap * t * (a ^ 2 / (a ^ 2 - (kap + t) ^ 2))) := by ring
        rw [e]
        have h4 : a ^ 2 / (a ^ 2 - (kap + t) ^ 2) ≤ 4 := by
          rw [div_le_iff₀ d0]
          nlinarith
        nlinarith [mul_pos hk ht']
      rw [norm_eq_abs, abs_le]
      constructor
      · nlinarith
      · have : a ^ 2 * (phi eta t * fourLog kap a t) ≤ 0 :=
          mul_nonpos_of_nonneg_of_nonpos (by positivity) (mul_nonpos_of_nonneg_of_nonpos hp h1)
        have : 0 ≤ 32 * kap * (phi eta t * t) := by positivity
        linarith
    · rw [indicator_of_notMem hm, norm_zero]
      positivity
  · rw [ae_restrict_iff' measurableSet_Ioi]
    refine Eventually.of_forall fun t ht => ?_
    have ht' : 0 < t := ht
    have h1 : Tendsto (fun a : ℝ => a ^ 2 * fourLog kap a t) atTop (𝓝 (-(8 * kap * t))) := by
      have l1 := (sq_div_tendsto ((kap + t) ^ 2)).const_mul (-(8 * kap * t))
      have l2 := (sq_div_tendsto ((kap - t) ^ 2)).const_mul (-(8 * kap * t))
      rw [mul_one] at l1 l2
      refine tendsto_of_tendsto_of_tendsto_of_le_of_le' l1 l2 ?_ ?_
      · filter_upwards [eventually_gt_atTop (t + kap)] with a ha
        have h := mul_le_mul_of_nonneg_left (fourLog_bounds hk ht' ha).1 (sq_nonneg a)
        refine le_trans (le_of_eq ?_) h
        ring
      · filter_upwards [eventually_gt_atTop (t + kap)] with a ha
        have h := mul_le_mul_of_nonneg_left (fourLog_bounds hk ht' ha).2 (sq_nonneg a)
        refine le_trans h (le_of_eq ?_)
        ring
    refine (h1.const_mul (phi eta t)).congr' ?_
    filter_upwards [eventually_ge_atTop (4 * t)] with a ha
    rw [indicator_of_mem (mem_Iic.2 (by linarith))]
    ring

/-- The rest. -/
theorem rest_tendsto (eta : ℝ) {kap : ℝ} (hk : 0 < kap) :
    Tendsto (fun a : ℝ => a ^ 2 * ∫ t in Ioi (a / 4), phi eta t * fourLog kap a t) atTop (𝓝 0) := by
  obtain ⟨K, hK, hb⟩ := tail_bound eta
  have hlim : Tendsto (fun a : ℝ => 4 * K * ((1 + kap) * (a ^ 2 * exp (-a)) + a ^ 3 * exp (-a))) atTop
      (𝓝 (4 * K * ((1 + kap) * 0 + 0))) :=
    ((((tendsto_pow_mul_exp_neg_atTop_nhds_zero 2).const_mul (1 + kap)).add
      (tendsto_pow_mul_exp_neg_atTop_nhds_zero 3))).const_mul _
  rw [mul_zero, add_zero, mul_zero] at hlim
  refine squeeze_zero_norm' ?_ hlim
  filter_upwards [eventually_ge_atTop 64, eventually_ge_atTop kap] with a ha hak
  have hA : 0 ≤ a / 4 := by linarith
  have i : ∀ c, IntegrableOn (fun t => phi eta t * log (0 ^ 2 + (t - c) ^ 2)) (Ioi (a / 4)) :=
    fun c => (logInt_integrable eta c 0).mono_set (Ioi_subset_Ioi hA)
  have s1 := integral_sub (((i (a - kap)).add (i (-(a + kap)))).sub (i (-(a - kap)))) (i (a + kap))
  have s2 := integral_sub ((i (a - kap)).add (i (-(a + kap)))) (i (-(a - kap)))
  have s3 := integral_add (i (a - kap)) (i (-(a + kap)))
  simp only [Pi.add_apply, Pi.sub_apply] at s1 s2 s3
  have e : ∫ t in Ioi (a / 4), phi eta t * fourLog kap a t =
      ∫ t in Ioi (a / 4), (phi eta t * log (0 ^ 2 + (t - (a - kap)) ^ 2) +
        phi eta t * log (0 ^ 2 + (t - -(a + kap)) ^ 2) -
        phi eta t * log (0 ^ 2 + (t - -(a - kap)) ^ 2) - phi eta t * log (0 ^ 2 + (t - (a + kap)) ^ 2)) := by
    congr 1
    funext t
    unfold fourLog
    ring
  rw [e, s1, s2, s3]
  have b1 := hb (a / 4) (a + kap) (a - kap) hA (abs_le.2 ⟨by linarith, by linarith⟩)
  have b2 := hb (a / 4) (a + kap) (-(a + kap)) hA (abs_le.2 ⟨by linarith, by linarith⟩)
  have b3 := hb (a / 4) (a + kap) (-(a - kap)) hA (abs_le.2 ⟨by linarith, by linarith⟩)
  have b4 := hb (a / 4) (a + kap) (a + kap) hA (abs_le.2 ⟨by linarith, by linarith⟩)
  generalize (∫ t in Ioi (a / 4), phi eta t * log (0 ^ 2 + (t - (a - kap)) ^ 2)) = I1 at *
  generalize (∫ t in Ioi (a / 4), phi eta t * log (0 ^ 2 + (t - -(a + kap)) ^ 2)) = I2 at *
  generalize (∫ t in Ioi (a / 4), phi eta t * log (0 ^ 2 + (t - -(a - kap)) ^ 2)) = I3 at *
  generalize (∫ t in Ioi (a / 4), phi eta t * log (0 ^ 2 + (t - (a + kap)) ^ 2)) = I4 at *
  have hexp : exp (-((a / 4) ^ 2 / 4)) ≤ exp (-a) := by
    rw [exp_le_exp]
    nlinarith
  have hB : K * (1 + (a + kap)) * exp (-((a / 4) ^ 2 / 4)) ≤ K * (1 + (a + kap)) * exp (-a) :=
    mul_le_mul_of_nonneg_left hexp (by positivity)
  rw [abs_le] at b1 b2 b3 b4
  have hsum : |I1 + I2 - I3 - I4| ≤ 4 * (K * (1 + (a + kap)) * exp (-a)) := by
    rw [abs_le]
    constructor <;> linarith [b1.1, b1.2, b2.1, b2.2, b3.1, b3.2, b4.1, b4.2]
  rw [norm_mul, norm_eq_abs, norm_eq_abs, abs_of_nonneg (sq_nonneg a)]
  calc a ^ 2 * |I1 + I2 - I3 - I4| ≤ a ^ 2 * (4 * (K * (1 + (a + kap)) * exp (-a))) :=
        mul_le_mul_of_nonneg_left hsum (sq_nonneg a)
    _ = _ := by ring

/-- For large frequencies the real part of the response falls off with the square. -/
theorem fourLog_tendsto (eta : ℝ) {kap : ℝ} (hk : 0 < kap) :
    Tendsto (fun a : ℝ => a ^ 2 * (logInt eta (a - kap) 0 + logInt eta (-(a + kap)) 0 -
        logInt eta (-(a - kap)) 0 - logInt eta (a + kap) 0)) atTop
      (𝓝 (-(16 * kap) * ∫ t in Ioi (0 : ℝ), t ^ 2 / (exp (t ^ 2 - eta) + 1))) := by
  have h := (main_tendsto eta hk).add (rest_tendsto eta hk)
  rw [add_zero] at h
  have e0 : ∫ t in Ioi (0 : ℝ), phi eta t * (-(8 * kap * t)) =
      -(16 * kap) * ∫ t in Ioi (0 : ℝ), t ^ 2 / (exp (t ^ 2 - eta) + 1) := by
    rw [← integral_const_mul]
    congr 1
    funext t
    unfold phi
    ring
  rw [e0] at h
  refine h.congr' ?_
  filter_upwards [eventually_gt_atTop 0] with a ha
  have i : ∀ c, IntegrableOn (fun t => phi eta t * log (0 ^ 2 + (t - c) ^ 2)) (Ioi 0) :=
    fun c => logInt_integrable eta c 0
  have hall : IntegrableOn (fun t => phi eta t * fourLog kap a t) (Ioi 0) := by
    refine ((((i (a - kap)).add (i (-(a + kap)))).sub (i (-(a - kap)))).sub (i (a + kap))).congr
      (Eventually.of_forall fun t => ?_)
    simp only [Pi.add_apply, Pi.sub_apply]
    unfold fourLog
    ring
  have s1 := integral_sub (((i (a - kap)).add (i (-(a + kap)))).sub (i (-(a - kap)))) (i (a + kap))
  have s2 := integral_sub ((i (a - kap)).add (i (-(a + kap)))) (i (-(a - kap)))
  have s3 := integral_add (i (a - kap)) (i (-(a + kap)))
  simp only [Pi.add_apply, Pi.sub_apply] at s1 s2 s3
  have e1 : logInt eta (a - kap) 0 + logInt eta (-(a + kap)) 0 - logInt eta (-(a - kap)) 0 -
      logInt eta (a + kap) 0 = ∫ t in Ioi (0 : ℝ), phi eta t * fourLog kap a t := by
    unfold logInt
    rw [← s3, ← s2, ← s1]
    congr 1
    funext t
    unfold fourLog
    ring
  have e2 : ∫ t in Ioi (0 : ℝ), (Iic (a / 4)).indicator
      (fun t => a ^ 2 * (phi eta t * fourLog kap a t)) t =
      a ^ 2 * ∫ t in Ioc 0 (a / 4), phi eta t * fourLog kap a t := by
    rw [setIntegral_indicator measurableSet_Iic, Ioi_inter_Iic, integral_const_mul]
  have hu : Ioc (0 : ℝ) (a / 4) ∪ Ioi (a / 4) = Ioi 0 := Ioc_union_Ioi_eq_Ioi (by positivity)
  rw [e1, e2, ← mul_add, ← setIntegral_union (Ioc_disjoint_Ioi le_rfl) measurableSet_Ioi
    (hall.mono_set (hu ▸ subset_union_left)) (hall.mono_set (hu ▸ subset_union_right)), hu]

end Verif.Lindhard
