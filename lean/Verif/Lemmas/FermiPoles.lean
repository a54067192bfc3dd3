/-
The Fermi integral of order -1/2 from the poles of the occupation: integrals of the poles.
-/
import Mathlib.Analysis.SpecialFunctions.Complex.LogBounds
import Mathlib.Analysis.SpecialFunctions.Complex.LogDeriv
import Mathlib.Analysis.SpecialFunctions.Trigonometric.ArctanDeriv
import Mathlib.Analysis.SpecialFunctions.Sqrt
import Mathlib.MeasureTheory.Integral.IntegralEqImproper
import Mathlib.MeasureTheory.Measure.Lebesgue.Basic
import Mathlib.Analysis.Calculus.Deriv.Inv

set_option autoImplicit false

namespace Verif.FermiInt

open MeasureTheory Filter Topology Set Complex

/-! ### Integrability -/

theorem integrable_weight : IntegrableOn (fun t : ℝ => (√t)⁻¹ / (1 + t)) (Ioi 0) := by
  refine integrableOn_Ioi_deriv_of_nonneg (g := fun t => 2 * Real.arctan √t) (l := 2 * (Real.pi / 2)) ?_ ?_ ?_ ?_
  · exact Continuous.continuousWithinAt (by fun_prop)
  · intro t ht
    have ht' : (0 : ℝ) < t := ht
    have := ((Real.hasDerivAt_sqrt ht'.ne').arctan).const_mul 2
    refine this.congr_deriv ?_
    rw [Real.sq_sqrt ht'.le]
    have := Real.sqrt_pos.2 ht'
    field_simp
  · intro t ht
    have ht' : (0 : ℝ) < t := ht
    positivity
  · exact ((tendsto_nhds_of_tendsto_nhdsWithin Real.tendsto_arctan_atTop).comp
      Real.tendsto_sqrt_atTop).const_mul 2

theorem pole_ne {z : ℂ} (hz : z.im ≠ 0) (t : ℝ) : (t : ℂ) - z ≠ 0 := by
  intro h
  apply hz
  have := congrArg Complex.im h
  simpa using this

theorem im_le_pole (z : ℂ) (t : ℝ) : |z.im| ≤ ‖(t : ℂ) - z‖ := by
  have := Complex.abs_im_le_norm ((t : ℂ) - z)
  simpa using this

theorem pole_lower (z : ℂ) (t : ℝ) (ht : 0 < t) :
    (1 + t) * |z.im| ≤ (1 + ‖z‖ + |z.im|) * ‖(t : ℂ) - z‖ := by
  have h1 := im_le_pole z t
  have h2 : t ≤ ‖(t : ℂ) - z‖ + ‖z‖ := by
    have := norm_add_le ((t : ℂ) - z) z
    simpa [abs_of_pos ht] using this
  have h3 := norm_nonneg z
  have h4 := abs_nonneg z.im
  nlinarith

/-- A function which decreases as the inverse of the argument can be integrated with the weight. -/
theorem integrable_of_bound {f : ℝ → ℂ} (hf : AEStronglyMeasurable f (volume.restrict (Ioi 0))) (C : ℝ)
    (h : ∀ t, 0 < t → ‖f t‖ ≤ C / (1 + t)) :
    IntegrableOn (fun t : ℝ => (((√t)⁻¹ : ℝ) : ℂ) * f t) (Ioi 0) := by
  refine Integrable.mono' (integrable_weight.const_mul C) ?_ ?_
  · refine AEStronglyMeasurable.mul ?_ hf
    exact (Measurable.aestronglyMeasurable (by fun_prop))
  · refine (ae_restrict_mem measurableSet_Ioi).mono fun t ht => ?_
    have ht' : (0 : ℝ) < t := ht
    rw [norm_mul, Complex.norm_real, Real.norm_of_nonneg (by positivity)]
    calc (√t)⁻¹ * ‖f t‖ ≤ (√t)⁻¹ * (C / (1 + t)) := mul_le_mul_of_nonneg_left (h t ht') (by positivity)
      _ = _ := by ring

theorem continuous_pole {z : ℂ} (hz : z.im ≠ 0) (j : ℕ) : Continuous fun t : ℝ => 1 / ((t : ℂ) - z) ^ j := by
  refine Continuous.div (by fun_prop) (by fun_prop) fun t => pow_ne_zero _ (pole_ne hz t)

theorem pole_integrable {z : ℂ} (hz : z.im ≠ 0) (j : ℕ) (hj : 1 ≤ j) :
    IntegrableOn (fun t : ℝ => (((√t)⁻¹ : ℝ) : ℂ) * (1 / ((t : ℂ) - z) ^ j)) (Ioi 0) := by
  refine integrable_of_bound (continuous_pole hz j).aestronglyMeasurable
    ((1 + ‖z‖ + |z.im|) / |z.im| ^ j) fun t ht => ?_
  obtain ⟨i, rfl⟩ := Nat.exists_eq_add_of_le' hj
  have h0 := abs_pos.2 hz
  have h1 := im_le_pole z t
  have h2 := pole_lower z t ht
  have h3 : 0 < ‖(t : ℂ) - z‖ := lt_of_lt_of_le h0 h1
  rw [norm_div, norm_one, norm_pow, div_div, div_le_div_iff₀ (by positivity) (by positivity), one_mul, pow_succ, pow_succ]
  have h4 := pow_le_pow_left₀ h0.le h1 i
  have h5 : 0 < |z.im| ^ i := by positivity
  calc |z.im| ^ i * |z.im| * (1 + t) = |z.im| ^ i * ((1 + t) * |z.im|) := by ring
    _ ≤ ‖(t : ℂ) - z‖ ^ i * ((1 + ‖z‖ + |z.im|) * ‖(t : ℂ) - z‖) := by gcongr
    _ = _ := by ring

/-! ### The integrals of the powers of a pole -/

/-- The integral of a power of a pole with the density of states of order -1/2. -/
noncomputable def poleInt (z : ℂ) (j : ℕ) : ℂ :=
  ∫ t in Ioi (0 : ℝ), (((√t)⁻¹ : ℝ) : ℂ) * (1 / ((t : ℂ) - z) ^ j)

theorem tendsto_log_shift (q : ℂ) : Tendsto (fun s : ℝ => log ((s : ℂ) - q) - log (s : ℂ)) atTop (𝓝 0) := by
  have h : Tendsto (fun s : ℝ => log (1 - q / (s : ℂ))) atTop (𝓝 0) := by
    have h1 : Tendsto (fun s : ℝ => 1 - q / (s : ℂ)) atTop (𝓝 1) := by
      have h2 : Tendsto (fun s : ℝ => ((s⁻¹ : ℝ) : ℂ)) atTop (𝓝 ((0 : ℝ) : ℂ)) :=
        (continuous_ofReal.tendsto _).comp tendsto_inv_atTop_zero
      have h3 := (h2.const_mul q).const_sub 1
      simpa [div_eq_mul_inv] using h3
    have h4 := (continuousAt_clog (x := 1) (by simp)).tendsto.comp h1
    rw [Complex.log_one] at h4
    exact h4
  refine h.congr' ?_
  filter_upwards [eventually_gt_atTop ‖q‖, eventually_gt_atTop 0] with s hs h0
  have hs' : (s : ℂ) ≠ 0 := by exact_mod_cast h0.ne'
  have e : (s : ℂ) - q = (s : ℂ) * (1 - q / s) := by field_simp
  have hne : 1 - q / (s : ℂ) ≠ 0 := by
    intro h
    have h1 : q / (s : ℂ) = 1 := (sub_eq_zero.1 h).symm
    have h2 : q = s := by rwa [div_eq_one_iff_eq hs'] at h1
    rw [h2, Complex.norm_real, Real.norm_of_nonneg h0.le] at hs
    exact lt_irrefl _ hs
  rw [e, Complex.log_ofReal_mul h0 hne, Complex.ofReal_log h0.le]
  ring

theorem log_neg_of_im_pos {q : ℂ} (hq : 0 < q.im) : log (-q) = log q - Real.pi * I := by
  apply Complex.ext
  · simp [Complex.log_re]
  · simp [Complex.log_im, Complex.arg_neg_eq_arg_sub_pi_of_im_pos hq]

theorem poleInt_one {q : ℂ} (hq : 0 < q.im) (hq2 : (q ^ 2).im ≠ 0) : poleInt (q ^ 2) 1 = I * Real.pi / q := by
  have hq0 : q ≠ 0 := by rintro rfl; simp at hq
  have hm : ∀ s : ℝ, (s : ℂ) - q ∈ slitPlane := fun s => Or.inr (by simp; exact hq.ne')
  have hp : ∀ s : ℝ, (s : ℂ) + q ∈ slitPlane := fun s => Or.inr (by simp; exact hq.ne')
  have hF : ∀ t ∈ Ioi (0 : ℝ), HasDerivAt (fun t : ℝ => 1 / q * (log (((√t : ℝ) : ℂ) - q) - log (((√t : ℝ) : ℂ) + q)))
      ((((√t)⁻¹ : ℝ) : ℂ) * (1 / ((t : ℂ) - q ^ 2) ^ 1)) t := by
    intro t ht
    have ht' : (0 : ℝ) < t := ht
    have hs := (Real.hasDerivAt_sqrt ht'.ne').ofReal_comp
    have h1 := ((hs.sub_const q).clog_real (hm √t))
    have h2 := ((hs.add_const q).clog_real (hp √t))
    refine ((h1.sub h2).const_mul (1 / q)).congr_deriv ?_
    have n1 := slitPlane_ne_zero (hm √t)
    have n2 := slitPlane_ne_zero (hp √t)
    have hst : ((√t : ℝ) : ℂ) ≠ 0 := by exact_mod_cast (Real.sqrt_pos.2 ht').ne'
    have e : (t : ℂ) = ((√t : ℝ) : ℂ) ^ 2 := by rw [← Complex.ofReal_pow, Real.sq_sqrt ht'.le]
    rw [e, pow_one]
    push_cast
    have n3 : ((√t : ℝ) : ℂ) ^ 2 - q ^ 2 ≠ 0 := by
      rw [sq_sub_sq]; exact mul_ne_zero n2 n1
    generalize ((√t : ℝ) : ℂ) = s at *
    field_simp
    ring
  have hc : ContinuousWithinAt (fun t : ℝ => 1 / q * (log (((√t : ℝ) : ℂ) - q) - log (((√t : ℝ) : ℂ) + q))) (Ici 0) 0 := by
    apply ContinuousAt.continuousWithinAt
    have cs : ContinuousAt (fun t : ℝ => ((√t : ℝ) : ℂ)) 0 := (by fun_prop : Continuous _).continuousAt
    exact continuousAt_const.mul (((cs.sub continuousAt_const).clog (hm √0)).sub ((cs.add continuousAt_const).clog (hp √0)))
  have hl : Tendsto (fun t : ℝ => 1 / q * (log (((√t : ℝ) : ℂ) - q) - log (((√t : ℝ) : ℂ) + q))) atTop (𝓝 0) := by
    have h1 := (tendsto_log_shift q).sub (tendsto_log_shift (-q))
    have h2 := (h1.comp Real.tendsto_sqrt_atTop).const_mul (1 / q)
    simpa using h2
  have h := integral_Ioi_of_hasDerivAt_of_tendsto hc hF (pole_integrable hq2 1 le_rfl) hl
  rw [poleInt, h]
  simp only [Real.sqrt_zero, Complex.ofReal_zero, zero_sub, zero_add]
  rw [log_neg_of_im_pos hq]
  field_simp
  ring

/-- Integration by parts relates the powers. -/
theorem poleInt_succ {z : ℂ} (hz : z.im ≠ 0) (j : ℕ) (hj : 1 ≤ j) :
    j * z * poleInt z (j + 1) = (1 / 2 - j) * poleInt z j := by
  have i1 := pole_integrable hz j hj
  have i2 := pole_integrable hz (j + 1) (by omega)
  have hF : ∀ t ∈ Ioi (0 : ℝ), HasDerivAt (fun t : ℝ => ((√t : ℝ) : ℂ) * (1 / ((t : ℂ) - z) ^ j))
      ((1 / 2 - j) * ((((√t)⁻¹ : ℝ) : ℂ) * (1 / ((t : ℂ) - z) ^ j)) -
        j * z * ((((√t)⁻¹ : ℝ) : ℂ) * (1 / ((t : ℂ) - z) ^ (j + 1)))) t := by
    intro t ht
    have ht' : (0 : ℝ) < t := ht
    have hs := (Real.hasDerivAt_sqrt ht'.ne').ofReal_comp
    have hp : HasDerivAt (fun t : ℝ => ((t : ℂ) - z) ^ j) (j * ((t : ℂ) - z) ^ (j - 1) * 1) t := by
      have h1 : HasDerivAt (fun t : ℝ => (t : ℂ) - z) 1 t := (hasDerivAt_id t).ofReal_comp.sub_const z
      exact h1.pow j
    have n1 := pole_ne hz t
    have hd := hs.fun_mul ((hasDerivAt_const t (1 : ℂ)).fun_div hp (pow_ne_zero _ n1))
    refine hd.congr_deriv ?_
    have hst : ((√t : ℝ) : ℂ) ≠ 0 := by exact_mod_cast (Real.sqrt_pos.2 ht').ne'
    have e : (t : ℂ) = ((√t : ℝ) : ℂ) ^ 2 := by rw [← Complex.ofReal_pow, Real.sq_sqrt ht'.le]
    obtain ⟨i, rfl⟩ := Nat.exists_eq_add_of_le' hj
    rw [Nat.add_sub_cancel]
    have ez : z = ((√t : ℝ) : ℂ) ^ 2 - ((t : ℂ) - z) := by rw [← e]; ring
    push_cast
    generalize hw : (t : ℂ) - z = w at *
    rw [ez]
    generalize ((√t : ℝ) : ℂ) = s at *
    field_simp
    ring
  have hc : ContinuousWithinAt (fun t : ℝ => ((√t : ℝ) : ℂ) * (1 / ((t : ℂ) - z) ^ j)) (Ici 0) 0 := by
    apply ContinuousAt.continuousWithinAt
    have cs : ContinuousAt (fun t : ℝ => ((√t : ℝ) : ℂ)) 0 := (by fun_prop : Continuous _).continuousAt
    exact cs.mul (continuous_pole hz j).continuousAt
  have hl : Tendsto (fun t : ℝ => ((√t : ℝ) : ℂ) * (1 / ((t : ℂ) - z) ^ j)) atTop (𝓝 0) := by
    rw [tendsto_zero_iff_norm_tendsto_zero]
    have h0 := abs_pos.2 hz
    have h1 : Tendsto (fun t : ℝ => ((1 + ‖z‖ + |z.im|) / |z.im| ^ j) * (√t)⁻¹) atTop (𝓝 0) := by
      have := (tendsto_inv_atTop_zero.comp Real.tendsto_sqrt_atTop).const_mul ((1 + ‖z‖ + |z.im|) / |z.im| ^ j)
      simpa using this
    refine squeeze_zero' (Eventually.of_forall fun t => norm_nonneg _) ?_ h1
    filter_upwards [eventually_gt_atTop 0] with t ht
    obtain ⟨i, rfl⟩ := Nat.exists_eq_add_of_le' hj
    have h1 := im_le_pole z t
    have h2 := pole_lower z t ht
    have h3 : 0 < ‖(t : ℂ) - z‖ := lt_of_lt_of_le h0 h1
    have hst := Real.sqrt_pos.2 ht
    have e : √t * √t = t := Real.mul_self_sqrt ht.le
    rw [norm_mul, norm_div, norm_one, norm_pow, Complex.norm_real, Real.norm_of_nonneg hst.le, mul_one_div,
      ← div_eq_mul_inv, div_div, div_le_div_iff₀ (by positivity) (by positivity), pow_succ, pow_succ]
    have h4 := pow_le_pow_left₀ h0.le h1 i
    calc √t * (|z.im| ^ i * |z.im| * √t) = |z.im| ^ i * (|z.im| * (√t * √t)) := by ring
      _ ≤ ‖(t : ℂ) - z‖ ^ i * ((1 + ‖z‖ + |z.im|) * ‖(t : ℂ) - z‖) := by
        rw [e]
        refine mul_le_mul h4 (by nlinarith) (by positivity) (by positivity)
      _ = _ := by ring
  have h := integral_Ioi_of_hasDerivAt_of_tendsto hc hF ((i1.const_mul _).sub (i2.const_mul _)) hl
  rw [integral_sub (i1.const_mul _) (i2.const_mul _), integral_const_mul, integral_const_mul] at h
  simp only [Real.sqrt_zero, Complex.ofReal_zero, zero_mul, sub_zero] at h
  unfold poleInt
  exact (sub_eq_zero.1 h).symm

/-! ### The integral of the argument -/

theorem arg_bound (z : ℂ) (t : ℝ) (ht : 0 < t) :
    |((t : ℂ) - z).arg| ≤ (Real.pi * (2 + 2 * ‖z‖) + 3 * ‖z‖) / (1 + t) := by
  have hz := norm_nonneg z
  have hpi := Real.pi_pos
  rw [le_div_iff₀ (by linarith)]
  rcases le_total t (2 * ‖z‖ + 1) with h | h
  · have h1 := Complex.abs_arg_le_pi ((t : ℂ) - z)
    have h2 := abs_nonneg ((t : ℂ) - z).arg
    nlinarith
  · have ht' : (t : ℂ) ≠ 0 := by exact_mod_cast ht.ne'
    have e : (t : ℂ) - z = (t : ℂ) * (1 + -(z / t)) := by field_simp; ring
    have hn : ‖-(z / (t : ℂ))‖ = ‖z‖ / t := by rw [norm_neg, norm_div, Complex.norm_real, Real.norm_of_nonneg ht.le]
    have h1 : ‖-(z / (t : ℂ))‖ ≤ 1 / 2 := by rw [hn, div_le_div_iff₀ ht (by norm_num)]; linarith
    have h2 := Complex.norm_log_one_add_half_le_self h1
    have h3 := Complex.abs_im_le_norm (log (1 + -(z / (t : ℂ))))
    rw [Complex.log_im] at h3
    rw [e, Complex.arg_real_mul _ ht]
    rw [hn] at h2
    have h4 : |(1 + -(z / (t : ℂ))).arg| ≤ 3 / 2 * (‖z‖ / t) := h3.trans h2
    have h5 : (1 + t) / t ≤ 2 := by rw [div_le_iff₀ ht]; linarith
    have h6 : 3 / 2 * (‖z‖ / t) * (1 + t) = 3 / 2 * ‖z‖ * ((1 + t) / t) := by ring
    have h7 : 3 / 2 * ‖z‖ * ((1 + t) / t) ≤ 3 / 2 * ‖z‖ * 2 := by gcongr
    have h8 : |(1 + -(z / (t : ℂ))).arg| * (1 + t) ≤ 3 / 2 * (‖z‖ / t) * (1 + t) := by gcongr
    nlinarith

theorem arg_eq_log (w : ℂ) : w.arg = (log w).im := (Complex.log_im w).symm

theorem arg_integrable {z : ℂ} (hz : z.im ≠ 0) :
    IntegrableOn (fun t : ℝ => (√t)⁻¹ * ((t : ℂ) - z).arg) (Ioi 0) := by
  have hc : Continuous fun t : ℝ => log ((t : ℂ) - z) := by
    refine Continuous.clog (by fun_prop) fun t => Or.inr ?_
    simpa using hz
  have hc' : Continuous fun t : ℝ => ((t : ℂ) - z).arg := by
    simp only [arg_eq_log]; exact Complex.continuous_im.comp hc
  refine Integrable.mono' (integrable_weight.const_mul (Real.pi * (2 + 2 * ‖z‖) + 3 * ‖z‖)) ?_ ?_
  · exact (Measurable.aestronglyMeasurable (by fun_prop)).mul hc'.aestronglyMeasurable
  · refine (ae_restrict_mem measurableSet_Ioi).mono fun t ht => ?_
    have ht' : (0 : ℝ) < t := ht
    have := mul_le_mul_of_nonneg_left (arg_bound z t ht') (by positivity : 0 ≤ (√t)⁻¹)
    rw [Real.norm_eq_abs, abs_mul, abs_of_nonneg (by positivity)]
    refine this.trans (le_of_eq ?_)
    ring

theorem argInt {z : ℂ} (hz : z.im ≠ 0) :
    ∫ t in Ioi (0 : ℝ), (√t)⁻¹ * ((t : ℂ) - z).arg = -2 * (z * poleInt z 1).im := by
  have i1 := arg_integrable hz
  have i2' := (pole_integrable hz 1 le_rfl).const_mul z
  have i2 : IntegrableOn (fun t : ℝ => (z * ((((√t)⁻¹ : ℝ) : ℂ) * (1 / ((t : ℂ) - z) ^ 1))).im) (Ioi 0) := i2'.im
  have e2 : ∫ t in Ioi (0 : ℝ), (z * ((((√t)⁻¹ : ℝ) : ℂ) * (1 / ((t : ℂ) - z) ^ 1))).im = (z * poleInt z 1).im := by
    rw [poleInt, ← integral_const_mul]
    exact integral_im i2'
  have hF : ∀ t ∈ Ioi (0 : ℝ), HasDerivAt (fun t : ℝ => 2 * √t * ((t : ℂ) - z).arg)
      ((√t)⁻¹ * ((t : ℂ) - z).arg + 2 * (z * ((((√t)⁻¹ : ℝ) : ℂ) * (1 / ((t : ℂ) - z) ^ 1))).im) t := by
    intro t ht
    have ht' : (0 : ℝ) < t := ht
    have hs := (Real.hasDerivAt_sqrt ht'.ne').const_mul 2
    have h1 : HasDerivAt (fun t : ℝ => (t : ℂ) - z) 1 t := (hasDerivAt_id t).ofReal_comp.sub_const z
    have h2 := h1.clog_real (Or.inr (by simpa using hz))
    have h3 : HasDerivAt (fun t : ℝ => (log ((t : ℂ) - z)).im) (1 / ((t : ℂ) - z)).im t := by
      exact (Complex.imCLM.hasFDerivAt.comp_hasDerivAt t h2)
    simp only [arg_eq_log]
    refine (hs.mul h3).congr_deriv ?_
    have hst := Real.sqrt_pos.2 ht'
    have n1 := pole_ne hz t
    have e : z * ((((√t)⁻¹ : ℝ) : ℂ) * (1 / ((t : ℂ) - z) ^ 1)) =
        ((√t : ℝ) : ℂ) * (1 / ((t : ℂ) - z)) - (((√t)⁻¹ : ℝ) : ℂ) := by
      have hst' : ((√t : ℝ) : ℂ) ≠ 0 := by exact_mod_cast hst.ne'
      have et : (t : ℂ) = ((√t : ℝ) : ℂ) ^ 2 := by rw [← Complex.ofReal_pow, Real.sq_sqrt ht'.le]
      have ez : z = ((√t : ℝ) : ℂ) ^ 2 - ((t : ℂ) - z) := by rw [← et]; ring
      push_cast
      generalize hw : (t : ℂ) - z = w at *
      rw [ez]
      generalize ((√t : ℝ) : ℂ) = s at *
      field_simp
    rw [e, Complex.sub_im, Complex.im_ofReal_mul, Complex.ofReal_im]
    field_simp
    ring
  have hc : ContinuousWithinAt (fun t : ℝ => 2 * √t * ((t : ℂ) - z).arg) (Ici 0) 0 := by
    apply ContinuousAt.continuousWithinAt
    have hcl : Continuous fun t : ℝ => log ((t : ℂ) - z) := by
      refine Continuous.clog (by fun_prop) fun t => Or.inr ?_
      simpa using hz
    simp only [arg_eq_log]
    have : Continuous fun t : ℝ => 2 * √t * (log ((t : ℂ) - z)).im := by
      have := Complex.continuous_im.comp hcl
      exact (by fun_prop : Continuous fun t : ℝ => 2 * √t).mul this
    exact this.continuousAt
  have hl : Tendsto (fun t : ℝ => 2 * √t * ((t : ℂ) - z).arg) atTop (𝓝 0) := by
    rw [tendsto_zero_iff_norm_tendsto_zero]
    have h1 : Tendsto (fun t : ℝ => (2 * (Real.pi * (2 + 2 * ‖z‖) + 3 * ‖z‖)) * (√t)⁻¹) atTop (𝓝 0) := by
      have := (tendsto_inv_atTop_zero.comp Real.tendsto_sqrt_atTop).const_mul (2 * (Real.pi * (2 + 2 * ‖z‖) + 3 * ‖z‖))
      simpa using this
    refine squeeze_zero' (Eventually.of_forall fun t => norm_nonneg _) ?_ h1
    filter_upwards [eventually_gt_atTop 0] with t ht
    have hst := Real.sqrt_pos.2 ht
    have hz := norm_nonneg z
    have hpi := Real.pi_pos
    have e : √t * √t = t := Real.mul_self_sqrt ht.le
    have h2 := arg_bound z t ht
    rw [Real.norm_eq_abs, abs_mul, abs_of_pos (by positivity)]
    have h3 : (Real.pi * (2 + 2 * ‖z‖) + 3 * ‖z‖) / (1 + t) ≤ (Real.pi * (2 + 2 * ‖z‖) + 3 * ‖z‖) / t := by
      gcongr; linarith
    calc 2 * √t * |((t : ℂ) - z).arg| ≤ 2 * √t * ((Real.pi * (2 + 2 * ‖z‖) + 3 * ‖z‖) / t) := by
          gcongr; exact h2.trans h3
      _ = _ := by
        rw [← Real.sqrt_div_self]; ring
  have h := integral_Ioi_of_hasDerivAt_of_tendsto hc hF (i1.add (i2.const_mul 2)) hl
  rw [integral_add i1 (i2.const_mul 2), integral_const_mul, e2] at h
  simp only [Real.sqrt_zero, mul_zero, zero_mul, sub_zero] at h
  linarith

end Verif.FermiInt
