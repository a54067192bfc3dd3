/-
The dielectric function at zero temperature is the limit of the random phase approximation.
-/
import Verif.Model.ZeroK
import Verif.Props.Spectral
import Mathlib.Analysis.SpecialFunctions.Log.NegMulLog
import Mathlib.MeasureTheory.Integral.DivergenceTheorem

set_option autoImplicit false

namespace Verif.Resp

open Real Verif.Expt MeasureTheory Set Filter Topology

variable (u : Consts)

/-! ### The integral over the Fermi sphere -/

/-- `∫₀ᵃ y log|(y + c)/(y - c)| dy`. -/
noncomputable def sphereInt (c a : ℝ) : ℝ :=
  a * c + (a ^ 2 - c ^ 2) / 2 * (log |a + c| - log |a - c|)

theorem continuous_sphereInt (c : ℝ) : Continuous (sphereInt c) := by
  have e : sphereInt c = fun a => a * c + (a - c) / 2 * ((a + c) * log (a + c)) -
      (a + c) / 2 * ((a - c) * log (a - c)) := by
    funext a
    simp only [sphereInt, log_abs]
    ring
  rw [e]
  have h1 : Continuous fun a : ℝ => (a + c) * log (a + c) :=
    Real.continuous_mul_log.comp (continuous_id.add continuous_const)
  have h2 : Continuous fun a : ℝ => (a - c) * log (a - c) :=
    Real.continuous_mul_log.comp (continuous_id.sub continuous_const)
  fun_prop

theorem hasDerivAt_sphereInt {c y : ℝ} (h1 : y + c ≠ 0) (h2 : y - c ≠ 0) :
    HasDerivAt (sphereInt c) (y * ell c y) y := by
  have e : sphereInt c = fun a => a * c + (a ^ 2 - c ^ 2) / 2 * (log (a + c) - log (a - c)) := by
    funext a
    simp only [sphereInt, log_abs]
  rw [e]
  have d1 : HasDerivAt (fun a : ℝ => log (a + c)) (1 / (y + c)) y := by
    simpa using ((hasDerivAt_id y).add_const c).log h1
  have d2 : HasDerivAt (fun a : ℝ => log (a - c)) (1 / (y - c)) y := by
    simpa using ((hasDerivAt_id y).sub_const c).log h2
  have d3 : HasDerivAt (fun a : ℝ => (a ^ 2 - c ^ 2) / 2) y y := by
    have := (((hasDerivAt_id y).pow 2).sub_const (c ^ 2)).div_const 2
    refine this.congr_deriv ?_
    simp
  have d4 : HasDerivAt (fun a : ℝ => a * c) c y := by
    simpa using (hasDerivAt_id y).mul_const c
  have d5 : HasDerivAt (fun a : ℝ => log (a + c) - log (a - c)) (1 / (y + c) - 1 / (y - c)) y :=
    d1.sub d2
  refine (d4.add (d3.mul d5)).congr_deriv ?_
  have hl : ell c y = log (y + c) - log (y - c) := by
    unfold ell
    rw [log_div (abs_ne_zero.2 h1) (abs_ne_zero.2 h2), log_abs, log_abs]
  rw [hl]
  field_simp
  ring

/-- The part of the integrand without the Fermi function. -/
noncomputable def sphereJ (k kap Q : ℝ) : ℝ := Q * log (lnArgRPA k kap Q)

theorem sphereJ_ae (k kap : ℝ) :
    ∀ᵐ Q : ℝ, sphereJ k kap Q = Q * ell (k / 2 - kap) Q + Q * ell (k / 2 + kap) Q := by
  have hne : ∀ c : ℝ, ∀ᵐ y : ℝ, y ≠ c := fun c => by simp [ae_iff]
  filter_upwards [hne (k / 2 - kap), hne (k / 2 + kap), hne (kap - k / 2), hne (-kap - k / 2)] with
    t h1 h2 h3 h4
  unfold sphereJ
  rw [log_lnArgRPA h1 h2 h3 h4]
  ring

theorem measurable_lnArgRPA (k kap : ℝ) : Measurable (lnArgRPA k kap) := by
  unfold lnArgRPA
  fun_prop

theorem sphereJ_measurable (k kap : ℝ) : Measurable (sphereJ k kap) := by
  unfold sphereJ
  exact measurable_id.mul (Real.measurable_log.comp (measurable_lnArgRPA k kap))

include u in
/-- Up to the wave number `a` the integrand is integrable. -/
theorem sphereJ_integrableOn (k kap a : ℝ) :
    IntegrableOn (sphereJ k kap) (Ioc 0 a) := by
  have h := ((rpaJ_integrable u k kap (kinEnergy u a) (T := 1) one_pos).mono_set
    (Ioc_subset_Ioi_self : Ioc 0 a ⊆ Ioi 0)).norm.const_mul 2
  refine h.mono' (sphereJ_measurable k kap).aestronglyMeasurable ?_
  rw [ae_restrict_iff' measurableSet_Ioc]
  refine Eventually.of_forall fun Q hQ => ?_
  have hm := u.me_pos
  have hk := u.kB_pos
  have hkin : kinEnergy u Q ≤ kinEnergy u a := by
    unfold kinEnergy
    have : Q ^ 2 ≤ a ^ 2 := pow_le_pow_left₀ hQ.1.le hQ.2 2
    gcongr
  have hf : 1 / 2 ≤ fermiDirac u Q (kinEnergy u a) 1 := by
    unfold fermiDirac
    have h1 : exp ((kinEnergy u Q - kinEnergy u a) / (u.kB * 1)) ≤ 1 := by
      rw [exp_le_one_iff]
      exact div_nonpos_of_nonpos_of_nonneg (by linarith) (by linarith)
    apply one_div_le_one_div_of_le
    · positivity
    · linarith
  have e : rpaJ u k kap (kinEnergy u a) 1 Q = fermiDirac u Q (kinEnergy u a) 1 * sphereJ k kap Q := by
    unfold rpaJ sphereJ
    ring
  rw [e, norm_mul, Real.norm_of_nonneg (by linarith : (0:ℝ) ≤ fermiDirac u Q (kinEnergy u a) 1)]
  nlinarith [norm_nonneg (sphereJ k kap Q)]

include u in
theorem sphereJ_integral (k kap : ℝ) {a : ℝ} (ha : 0 < a) :
    ∫ Q in Ioc 0 a, sphereJ k kap Q = sphereInt (k / 2 - kap) a + sphereInt (k / 2 + kap) a := by
  have hae := sphereJ_ae k kap
  have hi : IntegrableOn (fun Q => Q * ell (k / 2 - kap) Q + Q * ell (k / 2 + kap) Q) (Ioc 0 a) :=
    (sphereJ_integrableOn u k kap a).congr (ae_restrict_of_ae hae)
  rw [setIntegral_congr_ae measurableSet_Ioc (hae.mono fun Q h _ => h),
    ← intervalIntegral.integral_of_le ha.le]
  have h := integral_eq_of_hasDerivAt_off_countable_of_le
    (fun y => sphereInt (k / 2 - kap) y + sphereInt (k / 2 + kap) y)
    (fun Q => Q * ell (k / 2 - kap) Q + Q * ell (k / 2 + kap) Q) ha.le
    (s := {k / 2 - kap, -(k / 2 - kap), k / 2 + kap, -(k / 2 + kap)}) (Set.to_countable _)
    ((continuous_sphereInt _).add (continuous_sphereInt _)).continuousOn
    (by
      rintro x ⟨_, hx⟩
      simp only [mem_insert_iff, mem_singleton_iff, not_or] at hx
      obtain ⟨h1, h2, h3, h4⟩ := hx
      exact (hasDerivAt_sphereInt (fun h => h2 (by linarith)) (sub_ne_zero.2 h1)).add
        (hasDerivAt_sphereInt (fun h => h4 (by linarith)) (sub_ne_zero.2 h3)))
    ((intervalIntegrable_iff_integrableOn_Ioc_of_le ha.le).2 hi)
  rw [h]
  have h0 : ∀ c, sphereInt c 0 = 0 := by
    intro c
    simp [sphereInt]
  simp [h0]

/-! ### The limit of low temperatures -/

theorem tendsto_inv_temperature :
    Tendsto (fun T : ℝ => (u.kB * T)⁻¹) (𝓝[>] 0) atTop := by
  have h : Tendsto (fun T : ℝ => u.kB⁻¹ * T⁻¹) (𝓝[>] 0) atTop :=
    tendsto_inv_nhdsGT_zero.const_mul_atTop (inv_pos.2 u.kB_pos)
  exact h.congr fun T => by rw [mul_inv]

/-- The Fermi function becomes a step. -/
theorem fermiDirac_cold_below {mu : ℝ → ℝ} {EF Q : ℝ} (hmu : Tendsto mu (𝓝[>] 0) (𝓝 EF))
    (hQ : kinEnergy u Q < EF) :
    Tendsto (fun T => fermiDirac u Q (mu T) T) (𝓝[>] 0) (𝓝 1) := by
  have h1 : Tendsto (fun T => (kinEnergy u Q - mu T) * (u.kB * T)⁻¹) (𝓝[>] 0) atBot :=
    (hmu.const_sub _).neg_mul_atTop (by linarith) (tendsto_inv_temperature u)
  have h2 := ((tendsto_exp_atBot.comp h1).add_const 1).inv₀ (by norm_num)
  simp only [zero_add, inv_one] at h2
  refine h2.congr fun T => ?_
  simp [fermiDirac, div_eq_mul_inv]

theorem fermiDirac_cold_above {mu : ℝ → ℝ} {EF Q : ℝ} (hmu : Tendsto mu (𝓝[>] 0) (𝓝 EF))
    (hQ : EF < kinEnergy u Q) :
    Tendsto (fun T => fermiDirac u Q (mu T) T) (𝓝[>] 0) (𝓝 0) := by
  have h1 : Tendsto (fun T => (kinEnergy u Q - mu T) * (u.kB * T)⁻¹) (𝓝[>] 0) atTop :=
    (hmu.const_sub _).pos_mul_atTop (by linarith) (tendsto_inv_temperature u)
  have h2 := (tendsto_atTop_add_const_right _ 1 (tendsto_exp_atTop.comp h1)).inv_tendsto_atTop
  refine h2.congr fun T => ?_
  simp [fermiDirac, div_eq_mul_inv]

theorem fermiDirac_cold_bound {m EF T Q : ℝ} (hT : 0 < T) (hT1 : T ≤ 1) (hm : m ≤ 2 * EF) :
    fermiDirac u Q m T ≤ 2 * fermiDirac u Q (2 * EF) 1 := by
  have hk := u.kB_pos
  unfold fermiDirac
  rcases le_total (kinEnergy u Q) (2 * EF) with h | h
  · have h1 : exp ((kinEnergy u Q - 2 * EF) / (u.kB * 1)) ≤ 1 := by
      rw [exp_le_one_iff]
      exact div_nonpos_of_nonpos_of_nonneg (by linarith) (by linarith)
    have h2 : 1 / 2 ≤ 1 / (exp ((kinEnergy u Q - 2 * EF) / (u.kB * 1)) + 1) :=
      one_div_le_one_div_of_le (by positivity) (by linarith)
    have h3 : 1 / (exp ((kinEnergy u Q - m) / (u.kB * T)) + 1) ≤ 1 := by
      rw [div_le_one (by positivity)]
      linarith [exp_pos ((kinEnergy u Q - m) / (u.kB * T))]
    linarith
  · have h1 : (kinEnergy u Q - 2 * EF) / (u.kB * 1) ≤ (kinEnergy u Q - m) / (u.kB * T) := by
      apply div_le_div₀ <;> nlinarith
    have h2 : 1 / (exp ((kinEnergy u Q - m) / (u.kB * T)) + 1) ≤
        1 / (exp ((kinEnergy u Q - 2 * EF) / (u.kB * 1)) + 1) := by
      apply one_div_le_one_div_of_le (by positivity)
      have := exp_le_exp.2 h1
      linarith
    have h3 : 0 < 1 / (exp ((kinEnergy u Q - 2 * EF) / (u.kB * 1)) + 1) := by positivity
    linarith

theorem rpaJ_cold (k kap : ℝ) {mu : ℝ → ℝ} {kf : ℝ} (hkf : 0 < kf)
    (hmu : Tendsto mu (𝓝[>] 0) (𝓝 (kinEnergy u kf))) :
    Tendsto (fun T => ∫ Q in Ioi (0 : ℝ), rpaJ u k kap (mu T) T Q) (𝓝[>] 0)
      (𝓝 (sphereInt (k / 2 - kap) kf + sphereInt (k / 2 + kap) kf)) := by
  have hme := u.me_pos
  have hh := u.hbar_pos
  have hEF : 0 < kinEnergy u kf := by
    unfold kinEnergy
    positivity
  have e : ∀ m T Q, rpaJ u k kap m T Q = fermiDirac u Q m T * sphereJ k kap Q := by
    intro m T Q
    unfold rpaJ sphereJ
    ring
  have hpos : ∀ m T Q, 0 ≤ fermiDirac u Q m T := by
    intro m T Q
    unfold fermiDirac
    positivity
  have hmono : ∀ {a b : ℝ}, 0 < a → 0 < b → a < b → kinEnergy u a < kinEnergy u b := by
    intro a b h1 h2 h
    unfold kinEnergy
    have : a ^ 2 < b ^ 2 := pow_lt_pow_left₀ h h1.le two_ne_zero
    gcongr
  rw [← sphereJ_integral u k kap hkf]
  have hind : ∫ Q in Ioc 0 kf, sphereJ k kap Q =
      ∫ Q in Ioi (0 : ℝ), (Ioc 0 kf).indicator (sphereJ k kap) Q := by
    rw [setIntegral_indicator measurableSet_Ioc]
    congr 2
    exact (inter_eq_right.2 Ioc_subset_Ioi_self).symm
  rw [hind]
  refine tendsto_integral_filter_of_dominated_convergence
    (fun Q => 2 * ‖rpaJ u k kap (2 * kinEnergy u kf) 1 Q‖) ?_ ?_ ?_ ?_
  · filter_upwards [self_mem_nhdsWithin] with T hT
    exact (rpaJ_integrable u k kap (mu T) hT).aestronglyMeasurable
  · have h1 : ∀ᶠ T : ℝ in 𝓝[>] 0, T ≤ 1 := mem_nhdsWithin_of_mem_nhds (Iic_mem_nhds one_pos)
    have h2 : ∀ᶠ T : ℝ in 𝓝[>] 0, mu T ≤ 2 * kinEnergy u kf :=
      hmu.eventually (Iic_mem_nhds (by linarith))
    filter_upwards [self_mem_nhdsWithin, h1, h2] with T hT hT1 hm
    refine Eventually.of_forall fun Q => ?_
    rw [e, e, norm_mul, norm_mul, Real.norm_of_nonneg (hpos _ _ _), Real.norm_of_nonneg (hpos _ _ _),
      ← mul_assoc]
    exact mul_le_mul_of_nonneg_right (fermiDirac_cold_bound u hT hT1 hm) (norm_nonneg _)
  · exact (rpaJ_integrable u k kap _ one_pos).norm.const_mul 2
  · have hne : ∀ᵐ y : ℝ, y ≠ kf := by simp [ae_iff]
    rw [ae_restrict_iff' measurableSet_Ioi]
    filter_upwards [hne] with Q hQ hQ0
    simp only [e]
    rcases lt_or_gt_of_ne hQ with h | h
    · have := (fermiDirac_cold_below u hmu (hmono hQ0 hkf h)).mul_const (sphereJ k kap Q)
      rw [indicator_of_mem (show Q ∈ Ioc 0 kf from ⟨hQ0, h.le⟩)]
      simpa using this
    · have := (fermiDirac_cold_above u hmu (hmono hkf hQ0 h)).mul_const (sphereJ k kap Q)
      rw [indicator_of_notMem (show Q ∉ Ioc 0 kf from fun hc => absurd hc.2 (not_le.2 h))]
      simpa using this

theorem logaddexp0_bounds (x : ℝ) :
    max x 0 ≤ logaddexp0 x ∧ logaddexp0 x ≤ max x 0 + log 2 := by
  unfold logaddexp0
  rw [exp_zero]
  have hx := exp_pos x
  constructor
  · apply max_le
    · rw [le_log_iff_exp_le (by positivity)]
      linarith
    · exact log_nonneg (by linarith)
  · rw [log_le_iff_le_exp (by positivity), exp_add, exp_log two_pos]
    have h1 : exp x ≤ exp (max x 0) := exp_le_exp.2 (le_max_left _ _)
    have h2 : 1 ≤ exp (max x 0) := one_le_exp (le_max_right _ _)
    linarith

theorem logaddexp0_cold {mu : ℝ → ℝ} {EF c : ℝ} (hmu : Tendsto mu (𝓝[>] 0) (𝓝 EF)) :
    Tendsto (fun T => u.kB * T * logaddexp0 ((mu T - c) / (u.kB * T))) (𝓝[>] 0)
      (𝓝 (max (EF - c) 0)) := by
  have hk := u.kB_pos
  have hlow : Tendsto (fun T => max (mu T - c) 0) (𝓝[>] 0) (𝓝 (max (EF - c) 0)) :=
    (hmu.sub_const c).max tendsto_const_nhds
  have hT : Tendsto (fun T : ℝ => u.kB * T * log 2) (𝓝[>] 0) (𝓝 0) := by
    have : Tendsto (fun T : ℝ => u.kB * T * log 2) (𝓝 0) (𝓝 (u.kB * 0 * log 2)) :=
      (continuous_const.mul continuous_id |>.mul continuous_const).tendsto 0
    simpa using this.mono_left nhdsWithin_le_nhds
  have hup := hlow.add hT
  rw [add_zero] at hup
  have key : ∀ T : ℝ, 0 < T → max (mu T - c) 0 = u.kB * T * max ((mu T - c) / (u.kB * T)) 0 := by
    intro T hT
    rw [mul_max_of_nonneg _ _ (by positivity), mul_zero]
    congr 1
    field_simp
  refine tendsto_of_tendsto_of_tendsto_of_le_of_le' hlow hup ?_ ?_
  · filter_upwards [self_mem_nhdsWithin] with T hT
    have hT' : 0 < T := hT
    rw [key T hT]
    exact mul_le_mul_of_nonneg_left (logaddexp0_bounds _).1 (by positivity)
  · filter_upwards [self_mem_nhdsWithin] with T hT
    have hT' : 0 < T := hT
    rw [key T hT, ← mul_add]
    exact mul_le_mul_of_nonneg_left (logaddexp0_bounds _).2 (by positivity)

/-! ### The closed form -/

theorem gFortmann_re (s x : ℝ) :
    (gFortmann s x).re = x + 1 / 2 * (1 - x ^ 2) * log |(x + 1) / (x - 1)| := by
  have e : gFortmann s x = (x : ℂ) + ((1 / 2 * (1 - x ^ 2) : ℝ) : ℂ) * logFortmann s x := by
    unfold gFortmann
    push_cast
    ring
  rw [e, Complex.add_re, Complex.re_ofReal_mul, Complex.ofReal_re]
  rfl

theorem gFortmann_im (s x : ℝ) :
    (gFortmann s x).im = s * (π / 2 * max (1 - x ^ 2) 0) := by
  have e : gFortmann s x = (x : ℂ) + ((1 / 2 * (1 - x ^ 2) : ℝ) : ℂ) * logFortmann s x := by
    unfold gFortmann
    push_cast
    ring
  rw [e, Complex.add_im, Complex.im_ofReal_mul, Complex.ofReal_im, zero_add]
  have hi : (logFortmann s x).im = if (x + 1) / (x - 1) < 0 then s * π else 0 := rfl
  rw [hi]
  split_ifs with h
  · have h1 : (x + 1) * (x - 1) < 0 := by
      rcases div_neg_iff.1 h with h | h
      · exact mul_neg_of_pos_of_neg h.1 h.2
      · exact mul_neg_of_neg_of_pos h.1 h.2
    rw [max_eq_left (by nlinarith)]
    ring
  · have h1 : 0 ≤ (x + 1) * (x - 1) := by
      by_contra hc
      push Not at hc
      apply h
      rw [div_neg_iff]
      rcases mul_neg_iff.1 hc with h | h
      · exact Or.inl h
      · exact Or.inr h
    rw [max_eq_right (by nlinarith)]
    ring

theorem gFortmann_re_sphere {a c : ℝ} (ha : 0 < a) (h : |c| ≠ a) (s : ℝ) :
    a ^ 2 * (gFortmann s (c / a)).re = sphereInt c a := by
  have h1 : a + c ≠ 0 := fun hc => h (by rw [show c = -a by linarith, abs_neg, abs_of_pos ha])
  have h2 : a - c ≠ 0 := fun hc => h (by rw [show c = a by linarith, abs_of_pos ha])
  have e1 : (c / a + 1) / (c / a - 1) = (a + c) / -(a - c) := by
    rw [show c / a + 1 = (a + c) / a by field_simp; ring,
      show c / a - 1 = -(a - c) / a by field_simp; ring, div_div_div_cancel_right₀ ha.ne']
  rw [gFortmann_re, e1, abs_div, abs_neg, log_div (abs_ne_zero.2 h1) (abs_ne_zero.2 h2), sphereInt]
  generalize log |a + c| - log |a - c| = L
  field_simp

theorem gFortmann_re_neg (s x : ℝ) : (gFortmann s (-x)).re = -(gFortmann s x).re := by
  rw [gFortmann_re, gFortmann_re]
  have e : (-x + 1) / (-x - 1) = ((x + 1) / (x - 1))⁻¹ := by
    rw [inv_div, ← neg_div_neg_eq]
    congr 1 <;> ring
  rw [e, abs_inv, log_inv]
  ring

/-- `χ₀² / (4 z³)` of the code without intermediate quantities. -/
theorem eps0K_eq (s : ℝ) {k n : ℝ} (hk : 0 < k) (hn : 0 < n) (E : ℝ) :
    eps0K u s k E n = 1 +
      ((u.e ^ 2 * u.me / (2 * π ^ 2 * u.eps0 * u.hbar ^ 2 * k ^ 3) * fermiWavenumber n ^ 2 : ℝ) : ℂ) *
      (gFortmann s ((k / 2 + kappaRPA u k E) / fermiWavenumber n) -
        gFortmann s (-((k / 2 - kappaRPA u k E) / fermiWavenumber n))) := by
  have hf := fermiWavenumber_pos hn
  have h1 := u.hbar_pos
  have h2 := u.me_pos
  have h3 := u.e_pos
  have h4 := u.eps0_pos
  have hpi := pi_pos
  have e1 : u.me * (E / u.hbar) / (u.hbar * k * fermiWavenumber n) + k / (2 * fermiWavenumber n) =
      (k / 2 + kappaRPA u k E) / fermiWavenumber n := by
    unfold kappaRPA
    field_simp
    ring
  have e2 : u.me * (E / u.hbar) / (u.hbar * k * fermiWavenumber n) - k / (2 * fermiWavenumber n) =
      -((k / 2 - kappaRPA u k E) / fermiWavenumber n) := by
    unfold kappaRPA
    field_simp
    ring
  simp only [eps0K, xi0K]
  rw [e1, e2, ← mul_assoc, ← Complex.ofReal_mul]
  have e3 : vee u k * (-(1 / (π * bohr u * fermiWavenumber n)) /
      (4 * (k / (2 * fermiWavenumber n)) ^ 3 * vee u k)) =
      -(u.e ^ 2 * u.me / (2 * π ^ 2 * u.eps0 * u.hbar ^ 2 * k ^ 3) * fermiWavenumber n ^ 2) := by
    unfold vee coulombFourier bohr
    field_simp
    ring
  rw [e3]
  push_cast
  ring

theorem eps0K_re (s : ℝ) {k n : ℝ} (hk : 0 < k) (hn : 0 < n) (E : ℝ)
    (h1 : |k / 2 - kappaRPA u k E| ≠ fermiWavenumber n)
    (h2 : |k / 2 + kappaRPA u k E| ≠ fermiWavenumber n) :
    (eps0K u s k E n).re = 1 + u.e ^ 2 * u.me / (2 * π ^ 2 * u.eps0 * u.hbar ^ 2 * k ^ 3) *
      (sphereInt (k / 2 - kappaRPA u k E) (fermiWavenumber n) +
        sphereInt (k / 2 + kappaRPA u k E) (fermiWavenumber n)) := by
  have hf := fermiWavenumber_pos hn
  rw [eps0K_eq u s hk hn, Complex.add_re, Complex.re_ofReal_mul, Complex.sub_re, Complex.one_re,
    gFortmann_re_neg, ← gFortmann_re_sphere hf h1 s, ← gFortmann_re_sphere hf h2 s]
  ring

theorem eps0K_im (s : ℝ) {k n : ℝ} (hk : 0 < k) (hn : 0 < n) (E : ℝ) :
    (eps0K u s k E n).im = s * (u.me ^ 2 * u.e ^ 2 / (2 * π * u.eps0 * u.hbar ^ 4 * k ^ 3) *
      (max (fermiEnergy u n - kinEnergy u (-k / 2 - kappaRPA u k E)) 0 -
        max (fermiEnergy u n - kinEnergy u (k / 2 - kappaRPA u k E)) 0)) := by
  have hf := fermiWavenumber_pos hn
  have h1 := u.hbar_pos
  have h2 := u.me_pos
  have h3 := u.e_pos
  have h4 := u.eps0_pos
  have hpi := pi_pos
  have key : ∀ c d : ℝ, c ^ 2 = d ^ 2 → max (fermiEnergy u n - kinEnergy u d) 0 =
      u.hbar ^ 2 * fermiWavenumber n ^ 2 / (2 * u.me) *
        max (1 - (c / fermiWavenumber n) ^ 2) 0 := by
    intro c d hcd
    rw [mul_max_of_nonneg _ _ (by positivity), mul_zero, ← kinEnergy_fermiWavenumber u hn]
    congr 1
    unfold kinEnergy
    rw [div_pow, hcd]
    field_simp
  rw [key (k / 2 + kappaRPA u k E) (-k / 2 - kappaRPA u k E) (by ring),
    key (-(k / 2 - kappaRPA u k E)) (k / 2 - kappaRPA u k E) (by ring), neg_div,
    eps0K_eq u s hk hn, Complex.add_im, Complex.im_ofReal_mul, Complex.sub_im, Complex.one_im,
    gFortmann_im, gFortmann_im]
  generalize max (1 - ((k / 2 + kappaRPA u k E) / fermiWavenumber n) ^ 2) 0 = A
  generalize max (1 - (-((k / 2 - kappaRPA u k E) / fermiWavenumber n)) ^ 2) 0 = B
  field_simp
  ring

/-- C89: as the temperature goes to zero and the chemical potential to the Fermi energy, the
dielectric function in random phase approximation goes to the one at zero temperature: both parts if
the imaginary part of the quotient in the logarithm is a negative zero, and away from the edges of
the continuum of excitations, where the code takes the logarithm of zero or infinity. -/
theorem epsRPANoDamping_cold {k n : ℝ} (hk : 0 < k) (hn : 0 < n) (E : ℝ)
    (h1 : |k / 2 - kappaRPA u k E| ≠ fermiWavenumber n)
    (h2 : |k / 2 + kappaRPA u k E| ≠ fermiWavenumber n) {mu : ℝ → ℝ}
    (hmu : Tendsto mu (𝓝[>] 0) (𝓝 (fermiEnergy u n))) (unsave : Bool) :
    Tendsto (fun T => epsRPANoDamping u k E (mu T) T unsave) (𝓝[>] 0) (𝓝 (eps0K u (-1) k E n)) := by
  have hf := fermiWavenumber_pos hn
  have hkB := u.kB_pos
  have hflag : ∀ T : ℝ, 0 < T → epsRPANoDamping u k E (mu T) T unsave =
      epsRPANoDamping u k E (mu T) T true := by
    intro T hT
    cases unsave
    · exact (epsRPANoDamping_unsave u hk hT E (mu T)).symm
    · rfl
  have hre : Tendsto (fun T => realRPANoDampingUnsave u k E (mu T) T) (𝓝[>] 0)
      (𝓝 (eps0K u (-1) k E n).re) := by
    rw [eps0K_re u (-1) hk hn E h1 h2]
    have h := ((rpaJ_cold u k (kappaRPA u k E) hf (mu := mu)
      (by rwa [kinEnergy_fermiWavenumber u hn])).const_mul
      (u.e ^ 2 * u.me / (2 * π ^ 2 * u.eps0 * u.hbar ^ 2 * k ^ 3))).const_add 1
    refine h.congr' ?_
    filter_upwards [self_mem_nhdsWithin] with T hT
    simp only [realRPANoDampingUnsave]
    rw [rpa_unit_whole u _ _ _ _ (thermalUnit_pos u hT)]
  have him : Tendsto (fun T => imagRPANoDamping u k E (mu T) T) (𝓝[>] 0)
      (𝓝 (eps0K u (-1) k E n).im) := by
    rw [eps0K_im u (-1) hk hn E]
    have h := (((logaddexp0_cold u (c := kinEnergy u (-k / 2 - kappaRPA u k E)) hmu).sub
      (logaddexp0_cold u (c := kinEnergy u (k / 2 - kappaRPA u k E)) hmu)).const_mul
      (u.me ^ 2 * u.e ^ 2 / (2 * π * u.eps0 * u.hbar ^ 4 * k ^ 3))).const_mul (-1)
    refine h.congr fun T => ?_
    simp only [imagRPANoDamping]
    ring
  have h := (Complex.continuous_ofReal.tendsto _ |>.comp hre).add
    ((Complex.continuous_ofReal.tendsto _ |>.comp him).mul_const Complex.I)
  rw [Complex.re_add_im] at h
  refine h.congr' ?_
  filter_upwards [self_mem_nhdsWithin] with T hT
  rw [hflag T hT]
  apply Complex.ext <;> simp [epsRPANoDamping]

/-- The hypotheses are met, with the wave number of the Fermi sphere. -/
example {n : ℝ} (hn : 0 < n) :
    Tendsto (fun T => epsRPANoDamping u (fermiWavenumber n) 0 (fermiEnergy u n) T false) (𝓝[>] 0)
      (𝓝 (eps0K u (-1) (fermiWavenumber n) 0 n)) := by
  have hf := fermiWavenumber_pos hn
  have h0 : kappaRPA u (fermiWavenumber n) 0 = 0 := by simp [kappaRPA]
  have h : |fermiWavenumber n / 2| ≠ fermiWavenumber n := by
    rw [abs_of_pos (by positivity)]
    linarith
  exact epsRPANoDamping_cold u hf hn 0 (by simpa [h0] using h) (by simpa [h0] using h)
    tendsto_const_nhds false

/-- C89: the other sign of the zero gives the complex conjugate. -/
theorem eps0K_sign {k n : ℝ} (hk : 0 < k) (hn : 0 < n) (E : ℝ) :
    eps0K u 1 k E n = (starRingEnd ℂ) (eps0K u (-1) k E n) := by
  apply Complex.ext
  · rw [Complex.conj_re, eps0K_eq u 1 hk hn, eps0K_eq u (-1) hk hn]
    simp only [Complex.add_re, Complex.re_ofReal_mul, Complex.sub_re, gFortmann_re]
  · rw [Complex.conj_im, eps0K_im u 1 hk hn, eps0K_im u (-1) hk hn]
    ring

/-- C89: detailed balance; the static value is real. -/
theorem eps0K_hermitian (s : ℝ) {k n : ℝ} (hk : 0 < k) (hn : 0 < n) :
    Hermitian fun E => eps0K u s k E n := by
  intro E
  have hkap : kappaRPA u k (-E) = -kappaRPA u k E := by
    unfold kappaRPA
    ring
  change eps0K u s k (-E) n = (starRingEnd ℂ) (eps0K u s k E n)
  apply Complex.ext
  · rw [Complex.conj_re, eps0K_eq u s hk hn, eps0K_eq u s hk hn, hkap]
    simp only [Complex.add_re, Complex.re_ofReal_mul, Complex.sub_re, gFortmann_re_neg]
    rw [← sub_eq_add_neg, sub_neg_eq_add]
    ring_nf
  · rw [Complex.conj_im, eps0K_im u s hk hn, eps0K_im u s hk hn, hkap]
    have e1 : kinEnergy u (-k / 2 - -kappaRPA u k E) = kinEnergy u (k / 2 - kappaRPA u k E) := by
      unfold kinEnergy
      ring
    have e2 : kinEnergy u (k / 2 - -kappaRPA u k E) = kinEnergy u (-k / 2 - kappaRPA u k E) := by
      unfold kinEnergy
      ring
    rw [e1, e2]
    ring

theorem kinEnergy_gap (k E : ℝ) (hk : 0 < k) :
    kinEnergy u (-k / 2 - kappaRPA u k E) = kinEnergy u (k / 2 - kappaRPA u k E) + E := by
  have h1 := u.hbar_pos
  have h2 := u.me_pos
  unfold kinEnergy kappaRPA
  field_simp
  ring

/-- C89: for a positive energy, excitations exist exactly where an occupied state is lifted above
the Fermi energy, and there the imaginary part is positive: the kinetic energy of the initial state
with the smallest wave number has to lie below the Fermi energy. -/
theorem eps0K_im_pos_iff {k n E : ℝ} (hk : 0 < k) (hn : 0 < n) (hE : 0 < E) :
    0 < (eps0K u (-1) k E n).im ↔ kinEnergy u (k / 2 - kappaRPA u k E) < fermiEnergy u n := by
  have h1 := u.hbar_pos
  have h2 := u.me_pos
  have h3 := u.e_pos
  have h4 := u.eps0_pos
  have hpi := pi_pos
  have hp : 0 < u.me ^ 2 * u.e ^ 2 / (2 * π * u.eps0 * u.hbar ^ 4 * k ^ 3) := by positivity
  rw [eps0K_im u (-1) hk hn, kinEnergy_gap u k E hk]
  generalize u.me ^ 2 * u.e ^ 2 / (2 * π * u.eps0 * u.hbar ^ 4 * k ^ 3) = P at hp
  generalize kinEnergy u (k / 2 - kappaRPA u k E) = K
  constructor
  · intro h
    by_contra hc
    push Not at hc
    rw [max_eq_right (by linarith), max_eq_right (by linarith)] at h
    simp at h
  · intro h
    rw [max_eq_left (by linarith : (0 : ℝ) ≤ fermiEnergy u n - K)]
    have : max (fermiEnergy u n - (K + E)) 0 < fermiEnergy u n - K :=
      max_lt (by linarith) (by linarith)
    nlinarith

/-- Both sides of the equivalence occur: for the energy of the excitation of an electron at rest the
imaginary part is positive. -/
example {k n : ℝ} (hk : 0 < k) (hn : 0 < n) :
    0 < (eps0K u (-1) k (u.hbar ^ 2 * k ^ 2 / (2 * u.me)) n).im := by
  have h1 := u.hbar_pos
  have h2 := u.me_pos
  rw [eps0K_im_pos_iff u hk hn (by positivity)]
  have : kappaRPA u k (u.hbar ^ 2 * k ^ 2 / (2 * u.me)) = k / 2 := by
    unfold kappaRPA
    field_simp
  rw [this]
  simpa [kinEnergy] using fermiEnergy_pos u hn

/-- C89: the electrons take up energy, they do not give it away. -/
theorem eps0K_dissipative {k n : ℝ} (hk : 0 < k) (hn : 0 < n) (E : ℝ) :
    0 ≤ (eps0K u (-1) k E n).im * E := by
  have key : ∀ E : ℝ, 0 ≤ E → 0 ≤ (eps0K u (-1) k E n).im := by
    intro E hE
    have h1 := u.hbar_pos
    have h2 := u.me_pos
    have h3 := u.e_pos
    have h4 := u.eps0_pos
    have hpi := pi_pos
    have hp : 0 < u.me ^ 2 * u.e ^ 2 / (2 * π * u.eps0 * u.hbar ^ 4 * k ^ 3) := by positivity
    rw [eps0K_im u (-1) hk hn, kinEnergy_gap u k E hk]
    have : max (fermiEnergy u n - (kinEnergy u (k / 2 - kappaRPA u k E) + E)) 0 ≤
        max (fermiEnergy u n - kinEnergy u (k / 2 - kappaRPA u k E)) 0 :=
      max_le_max (by linarith) le_rfl
    nlinarith
  rcases le_total 0 E with h | h
  · exact mul_nonneg (key E h) h
  · have := key (-E) (by linarith)
    have he : eps0K u (-1) k (-E) n = (starRingEnd ℂ) (eps0K u (-1) k E n) :=
      eps0K_hermitian u (-1) hk hn E
    rw [he, Complex.conj_im] at this
    nlinarith

theorem eps0K_static_im (s : ℝ) {k n : ℝ} (hk : 0 < k) (hn : 0 < n) : (eps0K u s k 0 n).im = 0 := by
  have := congrArg Complex.im (eps0K_hermitian u s hk hn 0)
  simp only [neg_zero, Complex.conj_im] at this
  linarith

/-- The value at `k ≤ 0` does not enter the collision frequency. -/
theorem bornNu0K_eq (s n : ℝ) (V S : ℝ → ℝ) (Zf E : ℝ) :
    bornNu0K u s n V S Zf E =
      bornNu u (fun q E => if 0 < q then eps0K u s q E n else 1) V S Zf E := by
  unfold bornNu0K bornNu
  congr 2 <;>
  · refine setIntegral_congr_fun measurableSet_Ioi fun q hq => ?_
    have hq' : 0 < q := hq
    simp [bornIntegrand, hq']

/-- C89: the real part of the collision frequency is not negative. -/
theorem bornNu0K_re_nonneg {n Zf : ℝ} (hn : 0 < n) (hZ : 0 < Zf) (V : ℝ → ℝ) {S : ℝ → ℝ}
    (hS : ∀ q, 0 ≤ S q) (E : ℝ) : 0 ≤ (bornNu0K u (-1) n V S Zf E).re := by
  rw [bornNu0K_eq]
  apply bornNu_re_nonneg u hZ hS
  · intro q
    split_ifs with h
    · exact eps0K_static_im u (-1) h hn
    · rfl
  · intro q hq
    rw [if_pos hq]
    exact eps0K_dissipative u hq hn E

/-- C89: and it would be the negative of this with the other sign of the zero. -/
theorem bornNu0K_sign {n : ℝ} (hn : 0 < n) (V S : ℝ → ℝ) (Zf E : ℝ) :
    (bornNu0K u 1 n V S Zf E).re = -(bornNu0K u (-1) n V S Zf E).re := by
  simp only [bornNu0K, bornNu]
  rw [← neg_mul, ← integral_neg]
  congr 1
  refine setIntegral_congr_fun measurableSet_Ioi fun q hq => ?_
  simp only [bornIntegrand]
  rw [eps0K_sign u hq hn, eps0K_sign u hq hn, ← map_sub]
  generalize eps0K u (-1) q E n - eps0K u (-1) q 0 n = a
  simp only [Complex.mul_re, Complex.mul_im, Complex.conj_re, Complex.conj_im, Complex.ofReal_re,
    Complex.ofReal_im, Complex.neg_re, Complex.neg_im, Complex.I_re, Complex.I_im]
  ring

/-! ### Long wavelengths and high frequencies -/

theorem hasDerivAt_sphereInt_left {a c : ℝ} (h1 : a + c ≠ 0) (h2 : a - c ≠ 0) :
    HasDerivAt (fun c => sphereInt c a) (2 * a - c * (log |a + c| - log |a - c|)) c := by
  have e : (fun c => sphereInt c a) =
      fun c => a * c + (a ^ 2 - c ^ 2) / 2 * (log (a + c) - log (a - c)) := by
    funext c
    simp only [sphereInt, log_abs]
  rw [e]
  have d1 : HasDerivAt (fun c : ℝ => log (a + c)) (1 / (a + c)) c := by
    simpa using ((hasDerivAt_id c).const_add a).log h1
  have d2 : HasDerivAt (fun c : ℝ => log (a - c)) (-1 / (a - c)) c := by
    simpa using ((hasDerivAt_id c).const_sub a).log h2
  have d3 : HasDerivAt (fun c : ℝ => (a ^ 2 - c ^ 2) / 2) (-c) c := by
    have := (((hasDerivAt_id c).pow 2).const_sub (a ^ 2)).div_const 2
    refine this.congr_deriv ?_
    simp
    ring
  have d4 : HasDerivAt (fun c : ℝ => a * c) a c := by
    simpa using (hasDerivAt_id c).const_mul a
  have d5 : HasDerivAt (fun c : ℝ => log (a + c) - log (a - c)) (1 / (a + c) - -1 / (a - c)) c :=
    d1.sub d2
  refine (d4.add (d3.mul d5)).congr_deriv ?_
  rw [log_abs, log_abs]
  field_simp
  ring

/-- C89: for long wavelengths the static dielectric function screens with the Thomas-Fermi wave
number, `k² (ε(k, 0) - 1) → 3 n e² / (2 ε₀ E_F)`. -/
theorem eps0K_thomasFermi (s : ℝ) {n : ℝ} (hn : 0 < n) :
    Tendsto (fun k => ((k ^ 2 : ℝ) : ℂ) * (eps0K u s k 0 n - 1)) (𝓝[>] 0)
      (𝓝 ((3 * n * u.e ^ 2 / (2 * u.eps0 * fermiEnergy u n) : ℝ) : ℂ)) := by
  have hf := fermiWavenumber_pos hn
  have h1 := u.hbar_pos
  have h2 := u.me_pos
  have h3 := u.e_pos
  have h4 := u.eps0_pos
  have hpi := pi_pos
  have hkap : ∀ k, kappaRPA u k 0 = 0 := fun k => by simp [kappaRPA]
  have hcube : fermiWavenumber n ^ 3 = 3 * π ^ 2 * n := by
    unfold fermiWavenumber
    rw [← rpow_natCast, ← rpow_mul (by positivity)]
    norm_num
  have hlim : 3 * n * u.e ^ 2 / (2 * u.eps0 * fermiEnergy u n) =
      u.e ^ 2 * u.me / (π ^ 2 * u.eps0 * u.hbar ^ 2) * fermiWavenumber n := by
    rw [← kinEnergy_fermiWavenumber u hn, show n = fermiWavenumber n ^ 3 / (3 * π ^ 2) by
      rw [hcube]; field_simp]
    rw [show fermiWavenumber (fermiWavenumber n ^ 3 / (3 * π ^ 2)) = fermiWavenumber n by
      congr 1; rw [hcube]; field_simp]
    unfold kinEnergy
    field_simp
  rw [hlim]
  have hd : HasDerivAt (fun c => sphereInt c (fermiWavenumber n)) (2 * fermiWavenumber n) 0 := by
    have := hasDerivAt_sphereInt_left (a := fermiWavenumber n) (c := 0) (by simpa using hf.ne')
      (by simpa using hf.ne')
    simpa using this
  have hs := (hasDerivAt_iff_tendsto_slope.1 hd).mono_left
    (nhdsWithin_mono 0 (fun x hx => ne_of_gt hx : Ioi (0 : ℝ) ⊆ {0}ᶜ))
  have hhalf : Tendsto (fun k : ℝ => k / 2) (𝓝[>] 0) (𝓝[>] 0) := by
    refine tendsto_nhdsWithin_iff.2 ⟨?_, ?_⟩
    · have : Tendsto (fun k : ℝ => k / 2) (𝓝 0) (𝓝 (0 / 2)) := (continuous_id.div_const 2).tendsto 0
      simpa using this.mono_left nhdsWithin_le_nhds
    · filter_upwards [self_mem_nhdsWithin] with k hk
      exact half_pos (show (0 : ℝ) < k from hk)
  have h5 := (hs.comp hhalf).const_mul (u.e ^ 2 * u.me / (2 * π ^ 2 * u.eps0 * u.hbar ^ 2))
  have h6 := (Complex.continuous_ofReal.tendsto _).comp h5
  rw [show u.e ^ 2 * u.me / (2 * π ^ 2 * u.eps0 * u.hbar ^ 2) * (2 * fermiWavenumber n) =
    u.e ^ 2 * u.me / (π ^ 2 * u.eps0 * u.hbar ^ 2) * fermiWavenumber n by field_simp] at h6
  refine h6.congr' ?_
  have hsmall : ∀ᶠ k : ℝ in 𝓝[>] 0, k < fermiWavenumber n :=
    mem_nhdsWithin_of_mem_nhds (Iio_mem_nhds hf)
  filter_upwards [self_mem_nhdsWithin, hsmall] with k hk hk2
  have hk' : 0 < k := hk
  have hedge : |k / 2| ≠ fermiWavenumber n := by
    rw [abs_of_pos (by positivity)]
    linarith
  have h0 : sphereInt 0 (fermiWavenumber n) = 0 := by simp [sphereInt]
  apply Complex.ext
  · rw [Complex.re_ofReal_mul, Complex.sub_re, eps0K_re u s hk' hn 0 (by simpa [hkap] using hedge)
      (by simpa [hkap] using hedge), hkap, sub_zero, add_zero]
    simp only [Function.comp, Complex.ofReal_re, slope, h0, vsub_eq_sub, sub_zero, smul_eq_mul,
      Complex.one_re]
    field_simp
    ring
  · rw [Complex.im_ofReal_mul, Complex.sub_im, eps0K_static_im u s hk' hn]
    simp only [Function.comp, Complex.ofReal_im, Complex.one_im, sub_self, mul_zero]

/-- Expansion of the logarithm. -/
theorem log_ratio_bound {t : ℝ} (h0 : 0 < t) (h1 : t ≤ 1 / 2) :
    |log (1 + t) - log (1 - t) - (2 * t + 2 * t ^ 3 / 3)| ≤ 4 * t ^ 5 := by
  have ha : |t| = t := abs_of_pos h0
  have b1 := abs_log_sub_add_sum_range_le (x := t) (by rw [ha]; linarith) 4
  have b2 := abs_log_sub_add_sum_range_le (x := -t) (by rw [abs_neg, ha]; linarith) 4
  rw [abs_neg] at b2
  rw [ha] at b1 b2
  have hb : t ^ (4 + 1) / (1 - t) ≤ 2 * t ^ 5 := by
    rw [div_le_iff₀ (by linarith)]
    have : 0 ≤ t ^ 5 * (1 - 2 * t) := mul_nonneg (by positivity) (by linarith)
    norm_num
    linarith
  simp only [Finset.sum_range_succ, Finset.sum_range_zero, sub_neg_eq_add] at b1 b2
  norm_num at b1 b2
  have c1 := abs_le.1 (b1.trans hb)
  have c2 := abs_le.1 (b2.trans hb)
  rw [abs_le]
  constructor <;> nlinarith [c1.1, c1.2, c2.1, c2.2]

theorem sphereInt_deriv_limit {a : ℝ} (ha : 0 < a) :
    Tendsto (fun c => c ^ 2 * (2 * a - c * (log |a + c| - log |a - c|))) atTop
      (𝓝 (-(2 * a ^ 3 / 3))) := by
  have hb : ∀ᶠ c : ℝ in atTop, |c ^ 2 * (2 * a - c * (log |a + c| - log |a - c|)) -
      -(2 * a ^ 3 / 3)| ≤ 4 * a ^ 5 * (c ^ 2)⁻¹ := by
    filter_upwards [eventually_ge_atTop (2 * a)] with c hc
    have hc0 : 0 < c := by linarith
    have ht : a / c ≤ 1 / 2 := by
      rw [div_le_iff₀ hc0]
      linarith
    have h := log_ratio_bound (div_pos ha hc0) ht
    have e1 : log |a + c| - log |a - c| = log (1 + a / c) - log (1 - a / c) := by
      have p1 : 0 < 1 + a / c := by positivity
      have p2 : 0 < 1 - a / c := by linarith
      rw [show |a + c| = (1 + a / c) * c by rw [abs_of_pos (by linarith)]; field_simp; ring,
        show |a - c| = (1 - a / c) * c by rw [abs_of_neg (by linarith)]; field_simp; ring,
        log_mul p1.ne' hc0.ne', log_mul p2.ne' hc0.ne']
      ring
    rw [e1]
    generalize log (1 + a / c) - log (1 - a / c) = L at h
    have e2 : c ^ 2 * (2 * a - c * L) - -(2 * a ^ 3 / 3) =
        -(c ^ 3 * (L - (2 * (a / c) + 2 * (a / c) ^ 3 / 3))) := by
      field_simp
      ring
    rw [e2, abs_neg, abs_mul, abs_of_pos (by positivity : 0 < c ^ 3)]
    calc c ^ 3 * |L - (2 * (a / c) + 2 * (a / c) ^ 3 / 3)| ≤ c ^ 3 * (4 * (a / c) ^ 5) := by gcongr
      _ = 4 * a ^ 5 * (c ^ 2)⁻¹ := by field_simp
  rw [tendsto_iff_norm_sub_tendsto_zero]
  refine squeeze_zero' (Eventually.of_forall fun c => norm_nonneg _) hb ?_
  have : Tendsto (fun c : ℝ => (c ^ 2)⁻¹) atTop (𝓝 0) :=
    (tendsto_pow_atTop two_ne_zero).inv_tendsto_atTop
  simpa using this.const_mul (4 * a ^ 5)

theorem sphereInt_diff_limit {a k : ℝ} (ha : 0 < a) (hk : 0 < k) :
    Tendsto (fun x => x ^ 2 * (sphereInt (k / 2 - x) a + sphereInt (k / 2 + x) a)) atTop
      (𝓝 (-(2 * a ^ 3 / 3) * k)) := by
  have hodd : ∀ c, sphereInt (-c) a = -sphereInt c a := by
    intro c
    simp only [sphereInt]
    rw [sub_neg_eq_add, ← sub_eq_add_neg]
    ring
  have hex : ∀ x : ℝ, ∃ y, a + k / 2 < x → (x - k / 2 < y ∧ y < x + k / 2 ∧
      sphereInt (k / 2 - x) a + sphereInt (k / 2 + x) a =
        k * (2 * a - y * (log |a + y| - log |a - y|))) := by
    intro x
    by_cases hx : a + k / 2 < x
    · have hder : ∀ y, x - k / 2 ≤ y → HasDerivAt (fun c => sphereInt c a)
          (2 * a - y * (log |a + y| - log |a - y|)) y := fun y hy =>
        hasDerivAt_sphereInt_left (by linarith) (by linarith)
      obtain ⟨y, hy, he⟩ := exists_hasDerivAt_eq_slope (fun c => sphereInt c a)
        (fun y => 2 * a - y * (log |a + y| - log |a - y|)) (by linarith : x - k / 2 < x + k / 2)
        (fun y hy => (hder y hy.1).continuousAt.continuousWithinAt) (fun y hy => hder y hy.1.le)
      refine ⟨y, fun _ => ⟨hy.1, hy.2, ?_⟩⟩
      rw [he, show k / 2 - x = -(x - k / 2) by ring, hodd, add_comm (k / 2) x,
        show x + k / 2 - (x - k / 2) = k by ring]
      field_simp
      ring
    · exact ⟨0, fun h => absurd h hx⟩
  choose y hy using hex
  have hytop : Tendsto y atTop atTop := by
    refine tendsto_atTop_mono' atTop ?_ (tendsto_atTop_add_const_right atTop (-(k / 2)) tendsto_id)
    filter_upwards [eventually_gt_atTop (a + k / 2)] with x hx
    have := (hy x hx).1
    simp only [id]
    linarith
  have hratio : Tendsto (fun x => x / y x) atTop (𝓝 1) := by
    rw [tendsto_iff_norm_sub_tendsto_zero]
    refine squeeze_zero' (Eventually.of_forall fun c => norm_nonneg _) ?_
      (by simpa using hytop.inv_tendsto_atTop.const_mul (k / 2))
    filter_upwards [eventually_gt_atTop (a + k / 2)] with x hx
    obtain ⟨h1, h2, _⟩ := hy x hx
    have hy0 : 0 < y x := by linarith
    rw [Real.norm_eq_abs, show x / y x - 1 = (x - y x) * (y x)⁻¹ by field_simp, abs_mul,
      abs_of_pos (inv_pos.2 hy0)]
    have : |x - y x| ≤ k / 2 := abs_le.2 ⟨by linarith, by linarith⟩
    gcongr
  have h := ((hratio.pow 2).mul ((sphereInt_deriv_limit ha).comp hytop)).mul_const k
  rw [one_pow, one_mul] at h
  refine h.congr' ?_
  filter_upwards [eventually_gt_atTop (a + k / 2)] with x hx
  obtain ⟨h1, h2, h3⟩ := hy x hx
  have hy0 : y x ≠ 0 := by linarith
  rw [h3]
  simp only [Function.comp]
  generalize log |a + y x| - log |a - y x| = L
  field_simp

/-- C89: at high energies the electrons respond as free particles,
`E² (ε(k, E) - 1) → -(ħ ω_p)²`. -/
theorem eps0K_plasma (s : ℝ) {k n : ℝ} (hk : 0 < k) (hn : 0 < n) :
    Tendsto (fun E => ((E ^ 2 : ℝ) : ℂ) * (eps0K u s k E n - 1)) atTop
      (𝓝 ((-(u.hbar ^ 2 * plasmaFreqSq u n) : ℝ) : ℂ)) := by
  have hf := fermiWavenumber_pos hn
  have h1 := u.hbar_pos
  have h2 := u.me_pos
  have h3 := u.e_pos
  have h4 := u.eps0_pos
  have hpi := pi_pos
  have hcube : fermiWavenumber n ^ 3 = 3 * π ^ 2 * n := by
    unfold fermiWavenumber
    rw [← rpow_natCast, ← rpow_mul (by positivity)]
    norm_num
  have hktop : Tendsto (fun E => kappaRPA u k E) atTop atTop := by
    have h : Tendsto (fun E : ℝ => E * (u.me / (u.hbar ^ 2 * k))) atTop atTop :=
      tendsto_id.atTop_mul_const (by positivity)
    refine h.congr fun E => ?_
    unfold kappaRPA
    field_simp
  have h5 := ((sphereInt_diff_limit hf hk).comp hktop).const_mul
    (u.hbar ^ 2 * u.e ^ 2 / (2 * π ^ 2 * u.eps0 * u.me * k))
  have h6 := (Complex.continuous_ofReal.tendsto _).comp h5
  rw [show u.hbar ^ 2 * u.e ^ 2 / (2 * π ^ 2 * u.eps0 * u.me * k) *
      (-(2 * fermiWavenumber n ^ 3 / 3) * k) = -(u.hbar ^ 2 * plasmaFreqSq u n) by
    rw [hcube]
    unfold plasmaFreqSq
    field_simp] at h6
  refine h6.congr' ?_
  filter_upwards [eventually_gt_atTop (0 : ℝ),
    hktop.eventually_gt_atTop (fermiWavenumber n + k / 2)] with E hE hkap
  have n1 : |k / 2 - kappaRPA u k E| ≠ fermiWavenumber n := by
    rw [abs_of_neg (by linarith)]
    linarith
  have n2 : |k / 2 + kappaRPA u k E| ≠ fermiWavenumber n := by
    rw [abs_of_pos (by linarith)]
    linarith
  apply Complex.ext
  · rw [Complex.re_ofReal_mul, Complex.sub_re, eps0K_re u s hk hn E n1 n2]
    simp only [Function.comp, Complex.ofReal_re, Complex.one_re]
    generalize sphereInt (k / 2 - kappaRPA u k E) (fermiWavenumber n) +
      sphereInt (k / 2 + kappaRPA u k E) (fermiWavenumber n) = S
    unfold kappaRPA
    field_simp
    ring
  · have hz : ∀ c : ℝ, fermiWavenumber n ^ 2 ≤ c ^ 2 → max (fermiEnergy u n - kinEnergy u c) 0 = 0 := by
      intro c hc
      apply max_eq_right
      rw [← kinEnergy_fermiWavenumber u hn]
      unfold kinEnergy
      have : u.hbar ^ 2 * fermiWavenumber n ^ 2 / (2 * u.me) ≤ u.hbar ^ 2 * c ^ 2 / (2 * u.me) := by
        gcongr
      linarith
    rw [Complex.im_ofReal_mul, Complex.sub_im, eps0K_im u s hk hn, hz _ (by nlinarith),
      hz _ (by nlinarith)]
    simp only [Function.comp, Complex.ofReal_im, Complex.one_im, sub_self, mul_zero]

end Verif.Resp
