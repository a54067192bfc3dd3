/-
Properties C17 (instrument functions are normalised) and C18 (full width at half maximum).
-/
import Verif.Model.Instrument
import Verif.Props.Interp
import Mathlib.Analysis.SpecialFunctions.Gaussian.GaussianIntegral
import Mathlib.Analysis.SpecialFunctions.ImproperIntegrals
import Mathlib.Analysis.SpecialFunctions.Integrals.Basic

set_option autoImplicit false

namespace Verif.Instrument

open Real MeasureTheory

/-! ### C17 -/

theorem exponent_eq (x s : ℝ) : -0.5 * x ^ 2 / s ^ 2 = -(1 / (2 * s ^ 2)) * x ^ 2 := by
  have : (0.5 : ℝ) = 1 / 2 := by norm_num
  rw [this]
  rcases eq_or_ne s 0 with rfl | h
  · simp
  · field_simp

theorem sqrt_eq (s : ℝ) (hs : 0 < s) : sqrt (π / (1 / (2 * s ^ 2))) = s * sqrt (2 * π) := by
  rw [show π / (1 / (2 * s ^ 2)) = s ^ 2 * (2 * π) by field_simp, sqrt_mul (by positivity),
    sqrt_sq hs.le]

/-- C17.  The Gaussian instrument function is positive and has area one, for every width. -/
theorem gaussian_normalised (s : ℝ) (hs : 0 < s) :
    (∀ x, 0 < gaussian x s) ∧ Integrable (fun x => gaussian x s) ∧ ∫ x, gaussian x s = 1 := by
  have hp := pi_pos
  refine ⟨fun x => by unfold gaussian; positivity, ?_, ?_⟩
  · unfold gaussian
    simp only [exponent_eq]
    exact (integrable_exp_neg_mul_sq (by positivity)).const_mul _
  · unfold gaussian
    simp only [exponent_eq]
    rw [integral_const_mul, integral_gaussian, sqrt_eq s hs]
    have : s * sqrt (2 * π) ≠ 0 := by positivity
    field_simp

/-- C17.  The Lorentzian instrument function is positive and has area one, for every width. -/
theorem lorentzian_normalised (g : ℝ) (hg : 0 < g) :
    (∀ x, 0 < lorentzian x g) ∧ Integrable (fun x => lorentzian x g) ∧ ∫ x, lorentzian x g = 1 := by
  have hp := pi_pos
  have e : (fun x => lorentzian x g) = fun x => (1 / (π * g)) * (1 + (x / g) ^ 2)⁻¹ := by
    funext x; unfold lorentzian; rw [one_div, mul_inv, one_div]
  refine ⟨fun x => by unfold lorentzian; positivity, ?_, ?_⟩
  · rw [e]
    exact (integrable_inv_one_add_sq.comp_div hg.ne').const_mul _
  · rw [e, integral_const_mul, Measure.integral_comp_div (fun y : ℝ => (1 + y ^ 2)⁻¹) g,
      integral_univ_inv_one_add_sq, abs_of_pos hg, smul_eq_mul]
    field_simp

/-- C17.  The instrument function of two half Gaussians is positive and has area one, for every pair
of widths. -/
theorem twinGaussian_normalised (s t : ℝ) (hs : 0 < s) (ht : 0 < t) :
    (∀ x, 0 < twinGaussian s t x) ∧ Integrable (twinGaussian s t) ∧
      ∫ x, twinGaussian s t x = 1 := by
  have hp := pi_pos
  have hns : sqrt (2 * π * s ^ 2) = s * sqrt (2 * π) := by
    rw [mul_comm, sqrt_mul (by positivity), sqrt_sq hs.le]
  have hnt : sqrt (2 * π * t ^ 2) = t * sqrt (2 * π) := by
    rw [mul_comm, sqrt_mul (by positivity), sqrt_sq ht.le]
  set N : ℝ := 0.5 * (s * sqrt (2 * π)) + 0.5 * (t * sqrt (2 * π)) with hN
  have hNpos : 0 < N := by positivity
  have e : ∀ x, twinGaussian s t x =
      if x < 0 then N⁻¹ * exp (-(1 / (2 * s ^ 2)) * x ^ 2)
      else N⁻¹ * exp (-(1 / (2 * t ^ 2)) * x ^ 2) := by
    intro x
    unfold twinGaussian gaussian
    simp only [hns, hnt, exponent_eq]
    rw [← hN]
    split
    · have : s * sqrt (2 * π) ≠ 0 := by positivity
      field_simp
    · have : t * sqrt (2 * π) ≠ 0 := by positivity
      field_simp
  have i1 : Integrable fun x : ℝ => N⁻¹ * exp (-(1 / (2 * s ^ 2)) * x ^ 2) :=
    (integrable_exp_neg_mul_sq (by positivity)).const_mul _
  have i2 : Integrable fun x : ℝ => N⁻¹ * exp (-(1 / (2 * t ^ 2)) * x ^ 2) :=
    (integrable_exp_neg_mul_sq (by positivity)).const_mul _
  have on1 : IntegrableOn (twinGaussian s t) (Set.Iio 0) :=
    i1.integrableOn.congr_fun (fun x hx => by rw [e, if_pos (Set.mem_Iio.1 hx)]) measurableSet_Iio
  have on2 : IntegrableOn (twinGaussian s t) (Set.Iio 0)ᶜ :=
    i2.integrableOn.congr_fun (fun x hx => by rw [e, if_neg (fun h => hx (Set.mem_Iio.2 h))]) measurableSet_Iio.compl
  have hint : Integrable (twinGaussian s t) := by
    rw [← integrableOn_univ, ← Set.union_compl_self (Set.Iio (0 : ℝ))]
    exact on1.union on2
  refine ⟨fun x => ?_, hint, ?_⟩
  · rw [e]; split <;> positivity
  · rw [← integral_add_compl measurableSet_Iio hint,
      setIntegral_congr_fun measurableSet_Iio (g := fun x => N⁻¹ * exp (-(1 / (2 * s ^ 2)) * x ^ 2))
        (fun x hx => by rw [e, if_pos (Set.mem_Iio.1 hx)]),
      setIntegral_congr_fun measurableSet_Iio.compl
        (g := fun x => N⁻¹ * exp (-(1 / (2 * t ^ 2)) * x ^ 2))
        (fun x hx => by rw [e, if_neg (fun h => hx (Set.mem_Iio.2 h))])]
    rw [Set.compl_Iio, integral_Ici_eq_integral_Ioi, integral_const_mul, integral_const_mul,
      integral_gaussian_Ioi]
    have h1 : ∫ x in Set.Iio (0 : ℝ), exp (-(1 / (2 * s ^ 2)) * x ^ 2) =
        sqrt (π / (1 / (2 * s ^ 2))) / 2 := by
      rw [← integral_gaussian_Ioi, ← integral_Iic_eq_integral_Iio]
      have := integral_comp_neg_Ioi 0 (fun x : ℝ => exp (-(1 / (2 * s ^ 2)) * x ^ 2))
      rw [neg_zero] at this
      rw [← this]
      simp
    rw [h1, sqrt_eq s hs, sqrt_eq t ht, ← mul_add]
    have : s * sqrt (2 * π) / 2 + t * sqrt (2 * π) / 2 = N := by rw [hN]; norm_num; ring
    rw [this, inv_mul_cancel₀ hNpos.ne']

/-- C17.  The area of the super-Gaussian does not depend on its width: the numerical norm only depends
on the exponent. -/
theorem superGaussian_area (s p : ℝ) (hs : 0 < s) :
    ∫ x, superGaussian x s p = ∫ x, superGaussian x 1 p := by
  have hgrid : superGrid s = superGrid 1 := by
    funext i; unfold superGrid; field_simp
  have hnorm : superNorm s p = superNorm 1 p := by unfold superNorm; rw [hgrid]
  have e : (fun x => superGaussian x s p) = fun x => s⁻¹ * superGaussian (x / s) 1 p := by
    funext x
    unfold superGaussian
    rw [hnorm, div_pow, one_pow, div_one, mul_div_assoc, mul_one, div_mul_eq_div_div]
    ring
  rw [e, integral_const_mul, Measure.integral_comp_div (fun y => superGaussian y 1 p) s,
    abs_of_pos hs, smul_eq_mul, ← mul_assoc, inv_mul_cancel₀ hs.ne', one_mul]

theorem superNorm_pos_aux (s p : ℝ) (hs : 0 < s) : 0 < superNorm s p := by
  unfold superNorm trapezoid
  apply Finset.sum_pos
  · intro i _
    have : superGrid s (i + 1) - superGrid s i = 20 / 599 := by
      unfold superGrid; push_cast; field_simp; ring
    rw [this]; positivity
  · simp

/-- C17.  By the trapezoid rule on 600 points from `-10 sigma` to `10 sigma`, the super-Gaussian has
area one. -/
theorem superGaussian_trapezoid (s p : ℝ) (hs : 0 < s) :
    trapezoid 600 (fun i => superGaussian (-10 * s + i * (20 * s / 599)) s p)
      (fun i => -10 * s + i * (20 * s / 599)) = 1 := by
  have hN := superNorm_pos_aux s p hs
  have e : superNorm s p * s = trapezoid 600
      (fun i => exp (-((0.5 * (-10 * s + i * (20 * s / 599)) ^ 2 / s ^ 2) ^ p)))
      (fun i => -10 * s + i * (20 * s / 599)) := by
    unfold superNorm trapezoid
    rw [Finset.sum_mul]
    apply Finset.sum_congr rfl
    intro i _
    simp only [superGrid, div_pow, mul_div_assoc]
    field_simp
  have : trapezoid 600 (fun i => superGaussian (-10 * s + i * (20 * s / 599)) s p)
      (fun i => -10 * s + i * (20 * s / 599)) = trapezoid 600
      (fun i => exp (-((0.5 * (-10 * s + i * (20 * s / 599)) ^ 2 / s ^ 2) ^ p)))
      (fun i => -10 * s + i * (20 * s / 599)) / (superNorm s p * s) := by
    unfold trapezoid superGaussian
    rw [Finset.sum_div]
    apply Finset.sum_congr rfl
    intro i _
    ring
  rw [this, ← e]
  exact div_self (mul_pos hN hs).ne'

/-- C17.  The stored intensities of an instrument function from an array have area one by the trapezoid
rule, and the instrument function takes these values at the nodes. -/
theorem fromArray_trapezoid (n : ℕ) (x ints : ℕ → ℝ) (h : trapezoid n ints x ≠ 0) :
    trapezoid n (normalisedInts n x ints) x = 1 := by
  have : ∀ c : ℝ, trapezoid n (fun i => ints i / c) x = trapezoid n ints x / c := by
    intro c
    unfold trapezoid
    rw [Finset.sum_div]
    apply Finset.sum_congr rfl
    intro i _
    ring
  have h2 := this (trapezoid n ints x)
  rw [div_self h] at h2
  exact h2

theorem integral_segment (a b p q : ℝ) (hab : a < b) :
    ∫ x in a..b, (p + (x - a) / (b - a) * (q - p)) = (b - a) * (q + p) / 2 := by
  have hne : b - a ≠ 0 := by linarith
  have e : (fun x => p + (x - a) / (b - a) * (q - p)) =
      fun x => (p - a * ((q - p) / (b - a))) + (q - p) / (b - a) * x := by
    funext x; field_simp; ring
  have hc : Continuous fun x : ℝ => (q - p) / (b - a) * x := by fun_prop
  rw [e, intervalIntegral.integral_add intervalIntegrable_const (hc.intervalIntegrable a b),
    intervalIntegral.integral_const,
    intervalIntegral.integral_const_mul, integral_id]
  simp only [smul_eq_mul]
  field_simp
  ring

/-- C17.  The area below an instrument function from an array with increasing frequencies is one: the
integral over the real line of the function that interpolates the stored intensities and is zero
outside the table. -/
theorem fromArray_normalised_partial (n : ℕ) (x ints : ℕ → ℝ) (hx : Interp.Increasing n x)
    (hn : 2 ≤ n) (h : trapezoid n ints x ≠ 0) : ∫ w, fromArray n x ints w = 1 := by
  have hle : x 0 ≤ x (n - 1) := hx.le (Nat.zero_le _) (by omega)
  set f := fromArray n x ints with hf
  have hout : ∀ w, w ∉ Set.Icc (x 0) (x (n - 1)) → f w = 0 := by
    intro w hw
    rw [hf]; unfold fromArray Interp.interpLR
    by_cases h1 : x (n - 1) < w
    · rw [if_pos h1]
    · rw [if_neg h1, if_pos]
      by_contra h2
      exact hw ⟨not_lt.1 h2, not_lt.1 h1⟩
  have hseg : ∀ i, i + 1 < n → ∀ w ∈ Set.uIcc (x i) (x (i + 1)),
      f w = normalisedInts n x ints i + (w - x i) / (x (i + 1) - x i) *
        (normalisedInts n x ints (i + 1) - normalisedInts n x ints i) := by
    intro i hi w hw
    rw [Set.uIcc_of_le (hx i hi).le] at hw
    exact Interp.interpLR_on_interval n x _ 0 0 w hx i hi hw.1 hw.2
  have hint : ∀ i, i < n - 1 → IntervalIntegrable f volume (x i) (x (i + 1)) := by
    intro i hi
    have hc : Continuous fun w => normalisedInts n x ints i + (w - x i) / (x (i + 1) - x i) *
        (normalisedInts n x ints (i + 1) - normalisedInts n x ints i) := by fun_prop
    apply (hc.intervalIntegrable (x i) (x (i + 1))).congr
    intro w hw
    exact (hseg i (by omega) w (Set.uIoc_subset_uIcc hw)).symm
  have e1 : ∫ w, f w = ∫ w in (x 0)..(x (n - 1)), f w := by
    rw [intervalIntegral.integral_of_le hle, ← integral_Icc_eq_integral_Ioc,
      setIntegral_eq_integral_of_forall_compl_eq_zero]
    exact hout
  rw [e1, ← intervalIntegral.sum_integral_adjacent_intervals hint,
    ← fromArray_trapezoid n x ints h]
  unfold trapezoid
  apply Finset.sum_congr rfl
  intro i hi
  have hi' : i + 1 < n := by have := Finset.mem_range.1 hi; omega
  rw [intervalIntegral.integral_congr (g := fun w => normalisedInts n x ints i +
      (w - x i) / (x (i + 1) - x i) *
        (normalisedInts n x ints (i + 1) - normalisedInts n x ints i)) (hseg i hi'),
    integral_segment _ _ _ _ (hx i hi')]

/-- C17.  It is zero everywhere if the frequencies of the table are descending, whatever the
intensities: such a table has non-zero area, but the instrument function does not. -/
theorem fromArray_descending (n : ℕ) (x ints : ℕ → ℝ) (h : x (n - 1) < x 0) (w : ℝ) :
    fromArray n x ints w = 0 := by
  unfold fromArray Interp.interpLR
  by_cases h1 : x (n - 1) < w
  · rw [if_pos h1]
  · rw [if_neg h1, if_pos (lt_of_le_of_lt (not_lt.1 h1) h)]

/-- C17.  The intensities given need not be positive for this, but if they are, so are the values. -/
theorem fromArray_nonneg (n : ℕ) (x ints : ℕ → ℝ) (hx : Interp.Increasing n x) (hn : 0 < n)
    (hpos : ∀ i, i < n → 0 ≤ ints i) (w : ℝ) : 0 ≤ fromArray n x ints w := by
  have htr : 0 ≤ trapezoid n ints x := by
    unfold trapezoid
    apply Finset.sum_nonneg
    intro i hi
    have hi' : i + 1 < n := by have := Finset.mem_range.1 hi; omega
    have := hx i hi'
    have := hpos i (by omega); have := hpos (i + 1) hi'
    apply div_nonneg (mul_nonneg (by linarith) (by linarith)) (by norm_num)
  unfold fromArray
  by_cases h1 : x (n - 1) < w
  · unfold Interp.interpLR; rw [if_pos h1]
  by_cases h2 : w < x 0
  · unfold Interp.interpLR; rw [if_neg h1, if_pos h2]
  rcases Nat.lt_or_ge n 2 with h3 | h3
  · have : n = 1 := by omega
    subst this
    unfold Interp.interpLR
    rw [if_neg h1, if_neg h2]
    simp [Interp.segment, normalisedInts]
    exact div_nonneg (hpos 0 (by omega)) htr
  obtain ⟨i, hi, h4, h5⟩ := Interp.exists_interval n x w h3 (not_lt.1 h2) (not_lt.1 h1)
  rw [Interp.interpLR_on_interval n x _ 0 0 w hx i hi h4 h5]
  have hd := hx i hi
  have a1 : 0 ≤ normalisedInts n x ints i := div_nonneg (hpos i (by omega)) htr
  have a2 : 0 ≤ normalisedInts n x ints (i + 1) := div_nonneg (hpos (i + 1) hi) htr
  have ht0 : 0 ≤ (w - x i) / (x (i + 1) - x i) := div_nonneg (by linarith) (by linarith)
  have ht1 : (w - x i) / (x (i + 1) - x i) ≤ 1 := (div_le_one (by linarith)).2 (by linarith)
  nlinarith

/-- The hypotheses are met by a triangle. -/
example : ∫ w, fromArray 3 (fun i => (i : ℝ) - 1) (fun i => if i = 1 then 2 else 0) w = 1 := by
  apply fromArray_normalised_partial
  · intro i _; push_cast; linarith
  · norm_num
  · simp [trapezoid, Finset.sum_range_succ]

/-! ### C18 -/

theorem fwhmFactor_pos : 0 < fwhmFactor := by
  have := log_pos (by norm_num : (1 : ℝ) < 2)
  unfold fwhmFactor; positivity

theorem fwhmFactor_sq : fwhmFactor ^ 2 = 8 * log 2 := by
  have := log_pos (by norm_num : (1 : ℝ) < 2)
  unfold fwhmFactor
  rw [mul_pow, sq_sqrt (by positivity)]; ring

/-- Separate specification: `w` is the full width at half maximum of `f`, which has its maximum at
zero. -/
def IsFwhm (f : ℝ → ℝ) (w : ℝ) : Prop :=
  0 < w ∧ (∀ x, f x ≤ f 0) ∧ 0 < f 0 ∧ f (w / 2) = f 0 / 2 ∧ f (-(w / 2)) = f 0 / 2

theorem gaussian_half (s : ℝ) (hs : 0 < s) :
    exp (-0.5 * (gaussianFwhm s / 2) ^ 2 / s ^ 2) = 1 / 2 := by
  have e : -0.5 * (gaussianFwhm s / 2) ^ 2 / s ^ 2 = -log 2 := by
    unfold gaussianFwhm
    rw [div_pow, mul_pow, fwhmFactor_sq]
    field_simp; norm_num
  rw [e, exp_neg, exp_log (by norm_num)]; norm_num

/-- C18.  The reported width of a Gaussian is its full width at half maximum.
(Partial: the property is about all instrument functions; it fails for the super-Gaussian, see `superGaussian_fwhm_iff`.) -/
theorem gaussian_fwhm_partial (s : ℝ) (hs : 0 < s) : IsFwhm (fun x => gaussian x s) (gaussianFwhm s) := by
  have hp := pi_pos
  refine ⟨mul_pos hs fwhmFactor_pos, fun x => ?_, (gaussian_normalised s hs).1 0, ?_, ?_⟩
  · unfold gaussian
    apply mul_le_mul_of_nonneg_left _ (by positivity)
    apply exp_le_exp.2
    rw [exponent_eq, exponent_eq]
    have : 0 ≤ 1 / (2 * s ^ 2) * x ^ 2 := by positivity
    linarith
  · simp only [gaussian]
    rw [gaussian_half s hs]; simp; ring
  · simp only [gaussian]
    rw [neg_sq, gaussian_half s hs]; simp; ring

/-- C18.  The width an instrument function is constructed with is the one it reports. -/
theorem fwhm_round_trip (w p : ℝ) :
    gaussianFwhm (sigmaOfFwhm w) = w ∧ superGaussianFwhm (sigmaOfFwhm w) p = w := by
  have := fwhmFactor_pos.ne'
  unfold gaussianFwhm superGaussianFwhm sigmaOfFwhm
  constructor <;> field_simp

/-- C18.  A twin Gaussian constructed from two widths falls to half of its maximum at half of the first
width below, and at half of the second width above zero. -/
theorem twinGaussian_half (w1 w2 : ℝ) (h1 : 0 < w1) (h2 : 0 < w2) :
    let f := twinGaussian (sigmaOfFwhm w1) (sigmaOfFwhm w2)
    (∀ x, f x ≤ f 0) ∧ f (-(w1 / 2)) = f 0 / 2 ∧ f (w2 / 2) = f 0 / 2 := by
  intro f
  have hp := pi_pos
  have hF := fwhmFactor_pos
  have hs1 : 0 < sigmaOfFwhm w1 := div_pos h1 hF
  have hs2 : 0 < sigmaOfFwhm w2 := div_pos h2 hF
  have hns : ∀ s : ℝ, 0 < s → ∀ x, gaussian x s * sqrt (2 * π * s ^ 2) = exp (-0.5 * x ^ 2 / s ^ 2) := by
    intro s hs x
    have : sqrt (2 * π * s ^ 2) = s * sqrt (2 * π) := by
      rw [mul_comm, sqrt_mul (by positivity), sqrt_sq hs.le]
    rw [this]; unfold gaussian
    have : s * sqrt (2 * π) ≠ 0 := by positivity
    field_simp
  set N := 0.5 * sqrt (2 * π * sigmaOfFwhm w1 ^ 2) + 0.5 * sqrt (2 * π * sigmaOfFwhm w2 ^ 2) with hN
  have hNpos : 0 < N := by positivity
  have e : ∀ x, f x = (if x < 0 then exp (-0.5 * x ^ 2 / sigmaOfFwhm w1 ^ 2)
      else exp (-0.5 * x ^ 2 / sigmaOfFwhm w2 ^ 2)) / N := by
    intro x
    simp only [f, twinGaussian, hns _ hs1, hns _ hs2]
    rw [← hN]
  have f0 : f 0 = 1 / N := by rw [e]; simp
  refine ⟨fun x => ?_, ?_, ?_⟩
  · rw [f0, e]
    apply div_le_div_of_nonneg_right _ hNpos.le
    split <;>
    · apply exp_le_one_iff.2
      rw [exponent_eq]
      have : 0 ≤ 1 / (2 * sigmaOfFwhm w1 ^ 2) * x ^ 2 := by positivity
      have : 0 ≤ 1 / (2 * sigmaOfFwhm w2 ^ 2) * x ^ 2 := by positivity
      linarith
  · have := gaussian_half _ hs1
    rw [(fwhm_round_trip w1 1).1] at this
    rw [f0, e, if_pos (by linarith), neg_sq, this]; ring
  · have := gaussian_half _ hs2
    rw [(fwhm_round_trip w2 1).1] at this
    rw [f0, e, if_neg (by linarith), this]; ring

theorem superGaussian_ratio (s p : ℝ) (hs : 0 < s) (hp : 0 < p) :
    superGaussian (superGaussianFwhm s p / 2) s p =
      superGaussian 0 s p * exp (-(log 2 ^ p)) := by
  have e : 0.5 * (superGaussianFwhm s p / 2) ^ 2 / s ^ 2 = log 2 := by
    unfold superGaussianFwhm
    rw [div_pow, mul_pow, fwhmFactor_sq]
    field_simp; norm_num
  unfold superGaussian
  rw [e]
  have e0 : (0.5 * (0 : ℝ) ^ 2 / s ^ 2) ^ p = 0 := by simp [zero_rpow hp.ne']
  rw [e0]; simp; ring

theorem superNorm_pos (s p : ℝ) (hs : 0 < s) : 0 < superNorm s p := superNorm_pos_aux s p hs

/-- C18.  The width reported for a super-Gaussian is its full width at half maximum exactly for the
exponent one, that is for a Gaussian. -/
theorem superGaussian_fwhm_iff (s p : ℝ) (hs : 0 < s) (hp : 0 < p) :
    superGaussian (superGaussianFwhm s p / 2) s p = superGaussian 0 s p / 2 ↔ p = 1 := by
  have hl0 := log_pos (by norm_num : (1 : ℝ) < 2)
  have hl1 : log 2 < 1 := by
    have := log_lt_sub_one_of_pos (by norm_num : (0 : ℝ) < 2) (by norm_num); linarith
  have hpos : 0 < superGaussian 0 s p := by
    unfold superGaussian
    exact div_pos (exp_pos _) (mul_pos (superNorm_pos s p hs) hs)
  rw [superGaussian_ratio s p hs hp]
  have e2 : (1 : ℝ) / 2 = exp (-log 2) := by rw [exp_neg, exp_log (by norm_num)]; norm_num
  constructor
  · intro h
    have h1 : exp (-(log 2 ^ p)) = exp (-log 2) := by
      rw [← e2]
      exact mul_left_cancel₀ hpos.ne' (by linarith)
    have h2 : log 2 ^ p = log 2 ^ (1 : ℝ) := by
      rw [rpow_one]
      have := exp_injective h1
      linarith
    rcases lt_trichotomy p 1 with h3 | h3 | h3
    · exact absurd h2 ((rpow_lt_rpow_left_iff_of_base_lt_one hl0 hl1).2 h3).ne'
    · exact h3
    · exact absurd h2 ((rpow_lt_rpow_left_iff_of_base_lt_one hl0 hl1).2 h3).ne
  · rintro rfl
    rw [rpow_one, ← e2]; ring

end Verif.Instrument
