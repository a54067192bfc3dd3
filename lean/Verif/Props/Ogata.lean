/-
C87: the Fourier transform by Ogata's quadrature is a sum of samples of the transform's integrand after a double
exponential substitution.
-/
import Verif.Model.Ogata
import Verif.Props.Interp
import Mathlib.MeasureTheory.Integral.IntervalIntegral.FundThmCalculus
import Mathlib.MeasureTheory.Integral.IntervalIntegral.IntegrationByParts
import Mathlib.Analysis.SpecificLimits.Normed
import Mathlib.MeasureTheory.Function.JacobianOneDim
import Mathlib.Analysis.SpecialFunctions.Exp
import Mathlib.Analysis.Calculus.MeanValue
import Mathlib.Analysis.SpecialFunctions.Trigonometric.Bounds
import Mathlib.Analysis.SpecialFunctions.Trigonometric.DerivHyp
import Mathlib.Tactic.FieldSimp
import Mathlib.Tactic.Linarith

set_option autoImplicit false

open Real Filter Topology

namespace Verif.Ogata

/-! ### Specification -/

/-- The radius at the place `s` of the sum: a real variable in place of the index. -/
noncomputable def radius (h k s : ℝ) : ℝ := π * ((h * s) * tanh (π / 2 * sinh (h * s))) / (h * k)

/-- The integrand of the Fourier transform of a rotationally symmetric function, at the wave number `k`. -/
noncomputable def integrand (F : ℝ → ℝ) (k x : ℝ) : ℝ := 4 * π * x ^ 2 * F x * (sin (k * x) / (k * x))

/-! ### The substitution -/

theorem one_add_cosh (x : ℝ) : 1 + cosh (2 * x) = 2 * cosh x ^ 2 := by
  have := cosh_sq x
  rw [cosh_two_mul]
  linarith

/-- C87: `dpsi` is the derivative of `psi`, everywhere. -/
theorem psi_deriv (t : ℝ) : HasDerivAt psi (dpsi t) t := by
  have h1 : HasDerivAt (fun t => π * sinh t / 2) (π * cosh t / 2) t :=
    ((hasDerivAt_sinh t).const_mul π).div_const 2
  set x := π * sinh t / 2 with hx
  have hc : cosh x ≠ 0 := (cosh_pos x).ne'
  have h2 : HasDerivAt tanh (1 / cosh x ^ 2) x := by
    have := (hasDerivAt_sinh x).div (hasDerivAt_cosh x) hc
    have e : tanh = sinh / cosh := by
      ext z
      exact tanh_eq_sinh_div_cosh z
    rw [e]
    apply this.congr_deriv
    have := cosh_sq x
    congr 1
    linarith
  have h3 := (hasDerivAt_id t).mul (h2.comp t h1)
  have e : psi = id * (tanh ∘ fun t => π * sinh t / 2) := by
    ext z
    rfl
  rw [e]
  apply h3.congr_deriv
  have e2 : π * sinh t = 2 * x := by
    rw [hx]
    ring
  unfold dpsi
  rw [e2, one_add_cosh, sinh_two_mul]
  simp only [Function.comp, id, ← hx]
  rw [tanh_eq_sinh_div_cosh]
  field_simp
  ring

theorem tendsto_sinh_atTop : Tendsto sinh atTop atTop := by
  apply tendsto_atTop_mono' _ _ tendsto_id
  filter_upwards [eventually_ge_atTop 0] with x hx
  exact self_le_sinh_iff.2 hx

theorem tanh_bound {x : ℝ} : 1 - tanh x ≤ 2 * exp (-(2 * x)) := by
  rw [tanh_eq]
  have h1 := exp_pos x
  have h2 := exp_pos (-x)
  have e : 1 - (exp x - exp (-x)) / (exp x + exp (-x)) = 2 * exp (-x) / (exp x + exp (-x)) := by
    field_simp
    ring
  rw [e, div_le_iff₀ (by positivity), show -(2 * x) = -x + -x by ring, exp_add]
  have : exp (-x) * exp x = 1 := by rw [← exp_add]; simp
  nlinarith [mul_pos h2 h2, mul_pos (mul_pos h2 h2) h2]

theorem dpsi_eq (t : ℝ) : dpsi t = π * t * cosh t / (1 + cosh (π * sinh t)) + tanh (π * sinh t / 2) := by
  have e2 : π * sinh t = 2 * (π * sinh t / 2) := by ring
  have hc : cosh (π * sinh t / 2) ≠ 0 := (cosh_pos _).ne'
  unfold dpsi
  rw [add_div]
  congr 1
  rw [e2, one_add_cosh, sinh_two_mul, tanh_eq_sinh_div_cosh]
  have : 2 * (π * sinh t / 2) / 2 = π * sinh t / 2 := by ring
  rw [this]
  field_simp

theorem tanh_tendsto : Tendsto tanh atTop (𝓝 1) := by
  have h : Tendsto (fun x : ℝ => 1 - 2 * exp (-(2 * x))) atTop (𝓝 1) := by
    have : Tendsto (fun x : ℝ => exp (-(2 * x))) atTop (𝓝 0) :=
      tendsto_exp_neg_atTop_nhds_zero.comp (tendsto_id.const_mul_atTop (by norm_num))
    simpa using (this.const_mul 2).const_sub 1
  apply tendsto_of_tendsto_of_tendsto_of_le_of_le h tendsto_const_nhds
  · intro x
    have := @tanh_bound x
    simp only
    linarith
  · intro x
    exact (tanh_lt_one x).le

/-- C87: the value which replaces an overflow in `dpsi` is its limit. -/
theorem dpsi_limit : Tendsto dpsi atTop (𝓝 1) := by
  have hs : Tendsto (fun t => π * sinh t) atTop atTop := tendsto_sinh_atTop.const_mul_atTop pi_pos
  have h1 : Tendsto (fun t => tanh (π * sinh t / 2)) atTop (𝓝 1) :=
    tanh_tendsto.comp (hs.atTop_div_const (by norm_num))
  have h2 : Tendsto (fun t => π * t * cosh t / (1 + cosh (π * sinh t))) atTop (𝓝 0) := by
    have hb : Tendsto (fun u : ℝ => 2 * (u ^ 1 * exp (-u) + u ^ 2 * exp (-u))) atTop (𝓝 0) := by
      simpa using ((tendsto_pow_mul_exp_neg_atTop_nhds_zero 1).add
        (tendsto_pow_mul_exp_neg_atTop_nhds_zero 2)).const_mul 2
    apply squeeze_zero' _ _ (hb.comp hs)
    · filter_upwards [eventually_ge_atTop 0] with t ht
      have := cosh_pos t
      have := cosh_pos (π * sinh t)
      positivity
    · filter_upwards [eventually_ge_atTop 0] with t ht
      have hst : t ≤ sinh t := self_le_sinh_iff.2 ht
      have hc : cosh t ≤ 1 + sinh t := by
        have : cosh t - sinh t = exp (-t) := cosh_sub_sinh t
        have : exp (-t) ≤ 1 := exp_le_one_iff.2 (by linarith)
        linarith
      have hpi : (1 : ℝ) ≤ π := by linarith [two_le_pi]
      set u := π * sinh t with hu
      have hu0 : 0 ≤ u := by positivity
      have hsu : sinh t ≤ u := by
        rw [hu]
        nlinarith
      have hnum : π * t * cosh t ≤ u + u ^ 2 := by
        have a1 : π * t ≤ u := by
          rw [hu]
          exact mul_le_mul_of_nonneg_left hst pi_pos.le
        have a2 : π * t * cosh t ≤ u * (1 + u) :=
          mul_le_mul a1 (by linarith) (cosh_pos t).le hu0
        linarith
      have hden : exp u / 2 ≤ 1 + cosh u := by
        rw [cosh_eq]
        have := exp_pos (-u)
        linarith
      have he := exp_pos u
      simp only [Function.comp, ← hu]
      rw [div_le_iff₀ (by positivity)]
      have e1 : exp (-u) * exp u = 1 := by rw [← exp_add]; simp
      have : 2 * (u ^ 1 * exp (-u) + u ^ 2 * exp (-u)) * (exp u / 2) = u + u ^ 2 := by
        have : 2 * (u ^ 1 * exp (-u) + u ^ 2 * exp (-u)) * (exp u / 2) =
          (u + u ^ 2) * (exp (-u) * exp u) := by ring
        rw [this, e1, mul_one]
      have hq : 0 ≤ 2 * (u ^ 1 * exp (-u) + u ^ 2 * exp (-u)) := by
        have := exp_pos (-u)
        positivity
      nlinarith [mul_le_mul_of_nonneg_left hden hq]
  have h3 := h2.add h1
  rw [zero_add] at h3
  exact h3.congr fun t => (dpsi_eq t).symm

theorem dpsi_pos {t : ℝ} (ht : 0 < t) : 0 < dpsi t := by
  have h1 : 0 < sinh t := sinh_pos_iff.2 ht
  have h2 : 0 < sinh (π * sinh t) := sinh_pos_iff.2 (mul_pos pi_pos h1)
  have h3 := cosh_pos t
  have h4 := cosh_pos (π * sinh t)
  unfold dpsi
  positivity

theorem psi_pos {t : ℝ} (ht : 0 < t) : 0 < psi t := by
  have h1 : 0 < sinh t := sinh_pos_iff.2 ht
  unfold psi
  have : 0 < tanh (π * sinh t / 2) := by
    rw [tanh_eq_sinh_div_cosh]
    have h2 : 0 < sinh (π * sinh t / 2) := sinh_pos_iff.2 (by positivity)
    have h4 := cosh_pos (π * sinh t / 2)
    positivity
  positivity

theorem radius_psi (h k s : ℝ) : radius h k s = π * psi (h * s) / (h * k) := by
  unfold radius psi
  ring_nf

theorem radius_y (h k : ℝ) (i : ℕ) : radius h k i = y h i / k := by
  rw [radius_psi, y, div_div]

theorem radius_deriv {h : ℝ} (hh : h ≠ 0) (k s : ℝ) :
    HasDerivAt (radius h k) (π * dpsi (h * s) / k) s := by
  have h1 : HasDerivAt (fun s => h * s) h s := by simpa using (hasDerivAt_id s).const_mul h
  have h2 := (((psi_deriv (h * s)).comp s h1).const_mul π).div_const (h * k)
  have e : radius h k = fun s => π * (psi ∘ fun s => h * s) s / (h * k) := by
    ext z
    exact radius_psi h k z
  rw [e]
  apply h2.congr_deriv
  field_simp

theorem radius_pos {h k s : ℝ} (hh : 0 < h) (hk : 0 < k) (hs : 0 < s) : 0 < radius h k s := by
  have := psi_pos (mul_pos hh hs)
  rw [radius_psi]
  positivity

theorem radius_strictMono {h k : ℝ} (hh : 0 < h) (hk : 0 < k) : StrictMonoOn (radius h k) (Set.Ici 0) := by
  apply strictMonoOn_of_deriv_pos (convex_Ici 0)
  · exact fun s _ => (radius_deriv hh.ne' k s).continuousAt.continuousWithinAt
  · intro s hs
    rw [interior_Ici] at hs
    rw [(radius_deriv hh.ne' k s).deriv]
    have := dpsi_pos (mul_pos hh hs)
    positivity

theorem radius_le {h k : ℝ} (hh : 0 < h) (hk : 0 < k) {s : ℝ} (hs : 0 < s) : radius h k s < π * s / k := by
  rw [radius_psi, psi, div_lt_div_iff₀ (by positivity) hk]
  have h1 := tanh_lt_one (π * sinh (h * s) / 2)
  have h2 : 0 < π * (h * s) * k := by positivity
  nlinarith

theorem radius_tendsto {h k : ℝ} (hh : 0 < h) (hk : 0 < k) : Tendsto (radius h k) atTop atTop := by
  have h0 : Tendsto (fun s => h * s) atTop atTop := tendsto_id.const_mul_atTop hh
  have h1 : Tendsto (fun s => tanh (π * sinh (h * s) / 2)) atTop (𝓝 1) :=
    tanh_tendsto.comp (((tendsto_sinh_atTop.comp h0).const_mul_atTop pi_pos).atTop_div_const (by norm_num))
  have h2 := ((h0.atTop_mul_pos one_pos h1).const_mul_atTop pi_pos).atTop_div_const (mul_pos hh hk)
  exact h2.congr fun s => (radius_psi h k s).symm

theorem radius_image {h k : ℝ} (hh : 0 < h) (hk : 0 < k) : radius h k '' Set.Ioi 0 = Set.Ioi 0 := by
  ext x
  constructor
  · rintro ⟨s, hs, rfl⟩
    exact radius_pos hh hk hs
  · intro hx
    have hx' : 0 < x := hx
    obtain ⟨b, hb, hb0⟩ := ((radius_tendsto hh hk).eventually_ge_atTop x).and (eventually_gt_atTop 0) |>.exists
    have hc : ContinuousOn (radius h k) (Set.Icc 0 b) :=
      fun s _ => (radius_deriv hh.ne' k s).continuousAt.continuousWithinAt
    have h0 : radius h k 0 = 0 := by simp [radius]
    obtain ⟨s, hs, rfl⟩ := intermediate_value_Icc hb0.le hc ⟨by rw [h0]; exact hx'.le, hb⟩
    refine ⟨s, ?_, rfl⟩
    rcases hs.1.lt_or_eq with h1 | h1
    · exact h1
    · subst h1
      rw [h0] at hx'
      exact absurd hx' (lt_irrefl _)

/-- C87: with the radius as a function of the place in the sum, the integral over all places of the integrand
times the derivative of the radius is the Fourier transform. -/
theorem integral_radius {h k : ℝ} (hh : 0 < h) (hk : 0 < k) (F : ℝ → ℝ) :
    ∫ s in Set.Ioi 0, integrand F k (radius h k s) * deriv (radius h k) s = ∫ x in Set.Ioi 0, integrand F k x := by
  have hd : ∀ s ∈ Set.Ioi (0 : ℝ), HasDerivWithinAt (radius h k) (deriv (radius h k) s) (Set.Ioi 0) s := by
    intro s _
    rw [(radius_deriv hh.ne' k s).deriv]
    exact (radius_deriv hh.ne' k s).hasDerivWithinAt
  have hinj : Set.InjOn (radius h k) (Set.Ioi 0) :=
    (radius_strictMono hh hk).injOn.mono Set.Ioi_subset_Ici_self
  have := MeasureTheory.integral_image_eq_integral_abs_deriv_smul measurableSet_Ioi hd hinj (integrand F k)
  rw [radius_image hh hk] at this
  rw [this]
  apply MeasureTheory.setIntegral_congr_fun measurableSet_Ioi
  intro s hs
  have hs' : 0 < s := hs
  have h1 : 0 < deriv (radius h k) s := by
    rw [(radius_deriv hh.ne' k s).deriv]
    have := dpsi_pos (mul_pos hh hs')
    positivity
  simp only [smul_eq_mul]
  rw [abs_of_pos h1, mul_comm]

/-! ### The sum -/

theorem cos_nat_pi_ne (i : ℕ) : cos (π * i) ≠ 0 := by
  rw [mul_comm, cos_nat_mul_pi]
  exact pow_ne_zero _ (by norm_num)

/-- C87: the weights of the quadrature are one. -/
theorem w_one {i : ℕ} (hi : 0 < i) : w i = 1 := by
  have h0 : (0 : ℝ) < i := by exact_mod_cast hi
  have hs : sin (π * i) = 0 := by rw [mul_comm, sin_nat_mul_pi]
  have hq : sqrt (2 / (π * (π * i))) ≠ 0 := (sqrt_pos.2 (by positivity)).ne'
  have hc := cos_nat_pi_ne i
  have e : (0.5 : ℝ) * π = π / 2 := by ring
  unfold w besselSecond05 bessel32 besselNeg05 bessel05
  rw [e, cos_pi_div_two, sin_pi_div_two, hs]
  field_simp
  ring

/-- The function that is transformed: the table of `f r^(3/2)`, interpolated, over `r^(3/2)`. -/
noncomputable def table (n : ℕ) (r f : ℕ → ℝ) (x : ℝ) : ℝ :=
  Interp.interp n r (fun i => f i * r i ^ (3 / 2 : ℝ)) x / x ^ (3 / 2 : ℝ)

/-- C87: what is transformed agrees with the given function at all nodes. -/
theorem table_node {n : ℕ} {r : ℕ → ℝ} (f : ℕ → ℝ) (hr : Interp.Increasing n r) {i : ℕ} (hi : i < n)
    (h0 : 0 < r i) : table n r f (r i) = f i := by
  unfold table
  rw [Interp.interp_at_node n r _ hr i hi]
  have := rpow_pos_of_pos h0 (3 / 2 : ℝ)
  field_simp

/-- C87: beyond the last node the function is continued by a power of the radius, not by zero. -/
theorem table_outside {n : ℕ} {r : ℕ → ℝ} (f : ℕ → ℝ) (hr : Interp.Increasing n r) (hn : 0 < n) {x : ℝ}
    (h0 : 0 < r (n - 1)) (hx : r (n - 1) ≤ x) : table n r f x = f (n - 1) * (r (n - 1) / x) ^ (3 / 2 : ℝ) := by
  unfold table
  rw [(Interp.interp_outside n r _ hr hn x).2 hx, div_rpow h0.le (h0.le.trans hx), mul_div_assoc]

theorem factor (x : ℝ) (hx : 0 < x) : (2 * π) ^ (3 / 2 : ℝ) * sqrt (2 / (π * x)) = 4 * π / sqrt x := by
  have e : ∀ a : ℝ, 0 < a → a ^ (3 / 2 : ℝ) = a * sqrt a := by
    intro a ha
    rw [show (3 / 2 : ℝ) = 1 + 1 / 2 by norm_num, rpow_add ha, rpow_one, sqrt_eq_rpow]
  rw [e _ (by positivity), mul_assoc, ← sqrt_mul (by positivity)]
  rw [show 2 * π * (2 / (π * x)) = 2 ^ 2 / x by field_simp, sqrt_div (by norm_num), sqrt_sq (by norm_num)]
  ring

/-- C87: the result is the sum of the integrand of the Fourier transform times the derivative of the radius, at
the places 1, …, N: the trapezoidal rule for `integral_radius`. -/
theorem fourierOgata_sum (n : ℕ) (r f : ℕ → ℝ) (N : ℕ) {h k : ℝ} (hh : 0 < h) (hk : 0 < k) :
    fourierOgata n r f N h k = ∑ j ∈ Finset.range N,
      integrand (table n r f) k (radius h k (j + 1 : ℕ)) * deriv (radius h k) (j + 1 : ℕ) := by
  simp only [fourierOgata]
  rw [Finset.sum_div, Finset.sum_mul, Finset.sum_mul]
  apply Finset.sum_congr rfl
  intro j _
  have hj : (0 : ℝ) < (j + 1 : ℕ) := by positivity
  rw [(radius_deriv hh.ne' k _).deriv]
  have hx := radius_pos hh hk hj
  rw [radius_y] at hx ⊢
  unfold term integrand table
  rw [w_one (Nat.succ_pos j)]
  have hy : 0 < y h (j + 1) := by
    rcases div_pos_iff.1 hx with h1 | h1
    · exact h1.1
    · linarith [h1.2]
  have ei : fInt n r f (y h (j + 1) / k) =
      Interp.interp n r (fun i => f i * r i ^ (3 / 2 : ℝ)) (y h (j + 1) / k) := rfl
  rw [ei]
  generalize Interp.interp n r (fun i => f i * r i ^ (3 / 2 : ℝ)) (y h (j + 1) / k) = v
  generalize dpsi (h * (j + 1 : ℕ)) = d
  generalize y h (j + 1) = Y at *
  have e : ∀ a : ℝ, 0 < a → a ^ (3 / 2 : ℝ) = a * sqrt a := by
    intro a ha
    rw [show (3 / 2 : ℝ) = 1 + 1 / 2 by norm_num, rpow_add ha, rpow_one, sqrt_eq_rpow]
  have hf := factor Y hy
  unfold bessel05
  rw [e _ hx, e _ hk, sqrt_div hy.le]
  have e2 : π * 1 * v * (sqrt (2 / (π * Y)) * sin Y) * d / k ^ 3 * (k * sqrt k) * (2 * π) ^ (3 / 2 : ℝ) =
      π * v * sin Y * d / k ^ 3 * (k * sqrt k) * ((2 * π) ^ (3 / 2 : ℝ) * sqrt (2 / (π * Y))) := by ring
  rw [e2, hf, mul_div_cancel₀ Y hk.ne']
  have h1 : sqrt Y ≠ 0 := (sqrt_pos.2 hy).ne'
  have h2 : sqrt k ≠ 0 := (sqrt_pos.2 hk).ne'
  have h3 : sqrt k ^ 2 = k := sq_sqrt hk.le
  field_simp

theorem abs_sin_y {h : ℝ} (hh : 0 < h) (i : ℕ) : |sin (y h i)| ≤ 2 * π * i * exp (-(π * sinh (h * i))) := by
  have e : y h i = i * π - (i * π - y h i) := by ring
  have h1 : |sin (y h i)| = |sin (i * π - y h i)| := by
    rw [sin_nat_mul_pi_sub, abs_neg, abs_mul, abs_pow, abs_neg, abs_one, one_pow, one_mul]
  rw [h1]
  apply abs_sin_le_abs.trans
  have e2 : i * π - y h i = i * π * (1 - tanh (π * sinh (h * i) / 2)) := by
    unfold y psi
    field_simp
  have h3 := tanh_lt_one (π * sinh (h * i) / 2)
  rw [e2, abs_of_nonneg (mul_nonneg (by positivity) (by linarith))]
  have h4 := @tanh_bound (π * sinh (h * i) / 2)
  rw [show 2 * (π * sinh (h * i) / 2) = π * sinh (h * i) by ring] at h4
  have h5 : (0 : ℝ) ≤ i * π := by positivity
  have := mul_le_mul_of_nonneg_left h4 h5
  linarith

theorem dpsi_bounded : ∃ D, ∀ t, 0 ≤ t → |dpsi t| ≤ D := by
  have hc : Continuous dpsi := by
    unfold dpsi
    apply Continuous.div
    · fun_prop
    · fun_prop
    · intro x
      have := cosh_pos (π * sinh x)
      linarith
  obtain ⟨b, hb⟩ := eventually_atTop.1 (dpsi_limit.eventually (Metric.ball_mem_nhds 1 one_pos))
  obtain ⟨C, hC⟩ := (isCompact_Icc (a := (0 : ℝ)) (b := b)).exists_bound_of_continuousOn hc.continuousOn
  refine ⟨max C 2, fun t ht => ?_⟩
  rcases le_total t b with h | h
  · exact (hC t ⟨ht, h⟩).trans (le_max_left _ _)
  · have := hb t h
    rw [dist_eq] at this
    have := abs_lt.1 this
    apply le_trans _ (le_max_right _ _)
    rw [abs_le]
    constructor <;> linarith

/-- C87: for every table the terms fall off as fast as an exponential, whatever the function does at large radii:
the sum converges as its number of terms grows. -/
theorem fourierOgata_converges {n : ℕ} {r : ℕ → ℝ} (f : ℕ → ℝ) (hn : 0 < n) (hr : Interp.Increasing n r)
    {h : ℝ} (hh : 0 < h) (k : ℝ) :
    ∃ L, Tendsto (fun N => fourierOgata n r f N h k) atTop (𝓝 L) := by
  obtain ⟨D, hD⟩ := dpsi_bounded
  have hM : ∃ M, ∀ x, |fInt n r f x| ≤ M := by
    let fp : ℕ → ℝ := fun i => f i * r i ^ (3 / 2 : ℝ)
    refine ⟨∑ i ∈ Finset.range n, |fp i|, fun x => ?_⟩
    have hb : ∀ i, i < n → |fp i| ≤ ∑ i ∈ Finset.range n, |fp i| := fun i hi =>
      Finset.single_le_sum (f := fun i => |fp i|) (fun _ _ => abs_nonneg _) (Finset.mem_range.2 hi)
    have := Interp.interp_in_range n r fp hr hn (-∑ i ∈ Finset.range n, |fp i|) (∑ i ∈ Finset.range n, |fp i|)
      (fun i hi => abs_le.1 (hb i hi)) x
    exact abs_le.2 this
  obtain ⟨M, hM⟩ := hM
  have hM0 : 0 ≤ M := (abs_nonneg _).trans (hM 0)
  have hD0 : 0 ≤ D := (abs_nonneg _).trans (hD 0 le_rfl)
  have hy1 : 0 < y h 1 := by
    have := psi_pos (mul_pos hh one_pos)
    unfold y
    push_cast
    positivity
  have hyi : ∀ j : ℕ, y h 1 ≤ y h (j + 1) := by
    intro j
    have := (radius_strictMono hh one_pos).monotoneOn (a := ((1 : ℕ) : ℝ)) (b := ((j + 1 : ℕ) : ℝ))
      (by simp) (by simp; positivity) (by exact_mod_cast Nat.le_add_left 1 j)
    rwa [radius_y, radius_y, div_one, div_one] at this
  have hsum : Summable fun j : ℕ => term n r f h k (j + 1) := by
    have hs := (summable_nat_add_iff 1).2 ((summable_pow_mul_exp_neg_nat_mul 1 (mul_pos pi_pos hh)).mul_left
      (π * M * (sqrt (2 / (π * y h 1)) * (2 * π)) * D))
    apply Summable.of_norm_bounded hs
    intro j
    rw [norm_eq_abs]
    unfold term bessel05
    rw [w_one (Nat.succ_pos j), mul_one, abs_mul, abs_mul, abs_mul, abs_mul, abs_of_pos pi_pos]
    have h1 := hM (y h (j + 1) / k)
    have h2 := hD (h * (j + 1 : ℕ)) (by positivity)
    have h3 := abs_sin_y hh (j + 1)
    have h4 : |sqrt (2 / (π * y h (j + 1)))| ≤ sqrt (2 / (π * y h 1)) := by
      rw [abs_of_nonneg (sqrt_nonneg _)]
      apply sqrt_le_sqrt
      have := hyi j
      exact div_le_div_of_nonneg_left (by norm_num) (by positivity) (by nlinarith [pi_pos])
    have h5 : exp (-(π * sinh (h * (j + 1 : ℕ)))) ≤ exp (-((π * h) * (j + 1 : ℕ))) := by
      apply exp_le_exp.2
      have : h * (j + 1 : ℕ) ≤ sinh (h * (j + 1 : ℕ)) := self_le_sinh_iff.2 (by positivity)
      have := mul_le_mul_of_nonneg_left this pi_pos.le
      linarith
    have h6 : |sin (y h (j + 1))| ≤ 2 * π * (j + 1 : ℕ) * exp (-((π * h) * (j + 1 : ℕ))) :=
      h3.trans (mul_le_mul_of_nonneg_left h5 (by positivity))
    calc π * |fInt n r f (y h (j + 1) / k)| * (|sqrt (2 / (π * y h (j + 1)))| * |sin (y h (j + 1))|) *
          |dpsi (h * (j + 1 : ℕ))|
        ≤ π * M * (sqrt (2 / (π * y h 1)) * (2 * π * (j + 1 : ℕ) * exp (-((π * h) * (j + 1 : ℕ))))) * D := by
          gcongr
      _ = _ := by ring_nf
  refine ⟨(∑' j : ℕ, term n r f h k (j + 1)) / k ^ 3 * k ^ (3 / 2 : ℝ) * (2 * π) ^ (3 / 2 : ℝ), ?_⟩
  exact ((hsum.hasSum.tendsto_sum_nat.div_const _).mul_const _).mul_const _

/-- Two nodes are a table. -/
example : ∃ L, Tendsto (fun N => fourierOgata 2 (fun i => i + 1) (fun _ => 1) N 0.01 3) atTop (𝓝 L) := by
  apply fourierOgata_converges _ (by norm_num) _ (by norm_num)
  intro i _
  push_cast
  linarith

end Verif.Ogata
