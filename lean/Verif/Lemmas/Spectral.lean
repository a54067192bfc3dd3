/-
The spectral representation of the polarisability in reduced units, at a complex frequency `z` off the
real axis, and the sign that Mermin's construction needs.
-/
import Verif.Lemmas.Lindhard
import Mathlib.MeasureTheory.Integral.Bochner.ContinuousLinearMap
import Mathlib.Analysis.SpecialFunctions.Integrals.Basic
import Mathlib.Analysis.SpecialFunctions.Trigonometric.ArctanDeriv

set_option autoImplicit false

namespace Verif.Lindhard

open Real MeasureTheory Set ComplexConjugate

/-- The weight divided by the frequency. -/
noncomputable def dens (eta kap x : ℝ) : ℝ := wgt eta kap x / x

theorem dens_nonneg {eta kap x : ℝ} (hk : 0 ≤ kap) (hx : 0 ≤ x) : 0 ≤ dens eta kap x :=
  div_nonneg (wgt_nonneg hk hx) hx

theorem dens_pos {eta kap x : ℝ} (hk : 0 < kap) (hx : 0 < x) : 0 < dens eta kap x :=
  div_pos (wgt_pos hk hx) hx

/-- The denominator stays away from zero. -/
theorem den_norm_ge (z : ℂ) (x : ℝ) : z.im ^ 2 ≤ ‖(x : ℂ) ^ 2 - z ^ 2‖ := by
  have h : (x : ℂ) ^ 2 - z ^ 2 = (x - z) * (x + z) := by ring
  rw [h, norm_mul]
  have h1 : |z.im| ≤ ‖(x : ℂ) - z‖ := by
    have := Complex.abs_im_le_norm ((x : ℂ) - z)
    simpa using this
  have h2 : |z.im| ≤ ‖(x : ℂ) + z‖ := by
    have := Complex.abs_im_le_norm ((x : ℂ) + z)
    simpa using this
  calc z.im ^ 2 = |z.im| * |z.im| := by rw [← sq, sq_abs]
    _ ≤ _ := mul_le_mul h1 h2 (abs_nonneg _) (norm_nonneg _)

theorem den_ne {z : ℂ} (hz : z.im ≠ 0) (x : ℝ) : (x : ℂ) ^ 2 - z ^ 2 ≠ 0 := by
  intro h
  have := den_norm_ge z x
  rw [h, norm_zero] at this
  have : 0 < z.im ^ 2 := by positivity
  linarith

theorem den_continuous {z : ℂ} (hz : z.im ≠ 0) :
    Continuous fun x : ℝ => ((x : ℂ) ^ 2 - z ^ 2)⁻¹ :=
  Continuous.inv₀ (by fun_prop) (den_ne hz)

theorem inv_den_le {z : ℂ} (hz : z.im ≠ 0) (x : ℝ) :
    ‖((x : ℂ) ^ 2 - z ^ 2)⁻¹‖ ≤ (z.im ^ 2)⁻¹ := by
  rw [norm_inv]
  exact inv_anti₀ (by positivity) (den_norm_ge z x)

/-- A continuous bounded factor keeps the density integrable. -/
theorem dens_mul_integrable (eta : ℝ) {kap : ℝ} (hk : 0 ≤ kap) {g : ℝ → ℝ} (hg : Continuous g) (C : ℝ)
    (hC : ∀ x, |g x| ≤ C) : IntegrableOn (fun x => dens eta kap x * g x) (Ioi 0) := by
  have h := (wgt_div_integrable eta hk).integrable.bdd_mul (c := C) (f := g)
    hg.aestronglyMeasurable (Filter.Eventually.of_forall fun x => by simpa using hC x)
  refine h.congr (Filter.Eventually.of_forall fun x => ?_)
  simp only [dens]
  ring

theorem dens_mul_integrableC (eta : ℝ) {kap : ℝ} (hk : 0 ≤ kap) {g : ℝ → ℂ} (hg : Continuous g)
    (C : ℝ) (hC : ∀ x, ‖g x‖ ≤ C) :
    IntegrableOn (fun x => (dens eta kap x : ℂ) * g x) (Ioi 0) := by
  have h := ((wgt_div_integrable eta hk).integrable.ofReal (𝕜 := ℂ)).bdd_mul (c := C) (f := g)
    hg.aestronglyMeasurable (Filter.Eventually.of_forall fun x => by simpa using hC x)
  refine h.congr (Filter.Eventually.of_forall fun x => ?_)
  simp only [dens]
  exact mul_comm _ _

/-- The total weight. -/
noncomputable def mass (eta kap : ℝ) : ℝ := ∫ x in Ioi (0 : ℝ), dens eta kap x

/-- The dynamic part. -/
noncomputable def resolvent (eta kap : ℝ) (z : ℂ) : ℂ :=
  ∫ x in Ioi (0 : ℝ), (dens eta kap x : ℂ) * ((x : ℂ) ^ 2 - z ^ 2)⁻¹

/-- The polarisability up to a factor. -/
noncomputable def polar (eta kap : ℝ) (z : ℂ) : ℂ :=
  ∫ x in Ioi (0 : ℝ), (dens eta kap x : ℂ) * (2 * (x : ℂ) ^ 2 * ((x : ℂ) ^ 2 - z ^ 2)⁻¹)

theorem mass_pos (eta : ℝ) {kap : ℝ} (hk : 0 < kap) : 0 < mass eta kap := by
  unfold mass
  rw [setIntegral_pos_iff_support_of_nonneg_ae]
  · have : Ioi (0 : ℝ) ⊆ Function.support (dens eta kap) ∩ Ioi 0 :=
      fun x hx => ⟨(dens_pos hk hx).ne', hx⟩
    refine lt_of_lt_of_le ?_ (measure_mono this)
    simp
  · rw [Filter.EventuallyLE, ae_restrict_iff' measurableSet_Ioi]
    exact Filter.Eventually.of_forall fun x hx => dens_nonneg hk.le (mem_Ioi.1 hx).le
  · exact wgt_div_integrable eta hk.le

theorem polar_eq (eta : ℝ) {kap : ℝ} (hk : 0 ≤ kap) {z : ℂ} (hz : z.im ≠ 0) :
    polar eta kap z = 2 * (mass eta kap + z ^ 2 * resolvent eta kap z) := by
  have h1 : IntegrableOn (fun x => (dens eta kap x : ℂ)) (Ioi 0) :=
    (wgt_div_integrable eta hk).integrable.ofReal
  have h2 := dens_mul_integrableC eta hk (den_continuous hz) _ (inv_den_le hz)
  have e : ∀ x : ℝ, (dens eta kap x : ℂ) * (2 * (x : ℂ) ^ 2 * ((x : ℂ) ^ 2 - z ^ 2)⁻¹) =
      2 * (dens eta kap x) + 2 * z ^ 2 * ((dens eta kap x : ℂ) * ((x : ℂ) ^ 2 - z ^ 2)⁻¹) := by
    intro x
    have := den_ne hz x
    field_simp
    ring
  unfold polar
  simp only [e]
  rw [integral_add (h1.const_mul 2) (h2.const_mul _), integral_const_mul, integral_const_mul]
  have hm : ∫ x in Ioi (0 : ℝ), (dens eta kap x : ℂ) = (mass eta kap : ℂ) := integral_ofReal
  rw [hm]
  unfold resolvent
  ring

/-- Cauchy-Schwarz with respect to the density. -/
theorem dens_cauchy (eta : ℝ) {kap : ℝ} (hk : 0 < kap) {g : ℝ → ℝ} (hg : Continuous g) (C : ℝ)
    (hC : ∀ x, |g x| ≤ C) :
    (∫ x in Ioi (0 : ℝ), dens eta kap x * g x) ^ 2 ≤
      mass eta kap * ∫ x in Ioi (0 : ℝ), dens eta kap x * g x ^ 2 := by
  have hM := mass_pos eta hk
  have hC0 : 0 ≤ C := (abs_nonneg _).trans (hC 0)
  have i0 : IntegrableOn (dens eta kap) (Ioi 0) := wgt_div_integrable eta hk.le
  have i1 := dens_mul_integrable eta hk.le hg C hC
  have i2 := dens_mul_integrable eta hk.le (g := fun x => g x ^ 2) (hg.pow 2) (C ^ 2) (fun x => by
    rw [abs_pow]
    exact pow_le_pow_left₀ (abs_nonneg _) (hC x) 2)
  set A := ∫ x in Ioi (0 : ℝ), dens eta kap x * g x with hA
  set B := ∫ x in Ioi (0 : ℝ), dens eta kap x * g x ^ 2 with hB
  have h0 : 0 ≤ ∫ x in Ioi (0 : ℝ), dens eta kap x * (mass eta kap * g x - A) ^ 2 :=
    setIntegral_nonneg measurableSet_Ioi fun x hx =>
      mul_nonneg (dens_nonneg hk.le (mem_Ioi.1 hx).le) (sq_nonneg _)
  have e : ∀ x, dens eta kap x * (mass eta kap * g x - A) ^ 2 =
      mass eta kap ^ 2 * (dens eta kap x * g x ^ 2) - 2 * mass eta kap * A * (dens eta kap x * g x) +
        A ^ 2 * dens eta kap x := by
    intro x
    ring
  simp only [e] at h0
  have j2 := i2.const_mul (mass eta kap ^ 2)
  have j1 := i1.const_mul (2 * mass eta kap * A)
  have j0 := i0.const_mul (A ^ 2)
  rw [integral_add (f := fun x => mass eta kap ^ 2 * (dens eta kap x * g x ^ 2) -
      2 * mass eta kap * A * (dens eta kap x * g x)) (j2.sub j1) j0,
    integral_sub j2 j1, integral_const_mul, integral_const_mul,
    integral_const_mul, ← hA, ← hB] at h0
  have hmass : ∫ x in Ioi (0 : ℝ), dens eta kap x = mass eta kap := rfl
  rw [hmass] at h0
  have : 0 ≤ mass eta kap * (mass eta kap * B - A ^ 2) := by nlinarith
  have := nonneg_of_mul_nonneg_right this hM
  linarith

theorem im_mul_inv (z : ℂ) (x : ℝ) :
    (z * ((x : ℂ) ^ 2 - z ^ 2)⁻¹).im =
      z.im * (x ^ 2 + Complex.normSq z) * ‖((x : ℂ) ^ 2 - z ^ 2)⁻¹‖ ^ 2 := by
  rw [norm_inv, inv_pow, ← Complex.normSq_eq_norm_sq, Complex.mul_im, Complex.inv_re, Complex.inv_im]
  simp only [Complex.normSq_apply, Complex.sub_re, Complex.sub_im, pow_two, Complex.mul_re,
    Complex.mul_im, Complex.ofReal_re, Complex.ofReal_im]
  ring

theorem integral_cre {f : ℝ → ℂ} {s : Set ℝ} (h : IntegrableOn f s) :
    (∫ x in s, f x).re = ∫ x in s, (f x).re :=
  (Complex.reCLM.integral_comp_comm h).symm

theorem integral_cim {f : ℝ → ℂ} {s : Set ℝ} (h : IntegrableOn f s) :
    (∫ x in s, f x).im = ∫ x in s, (f x).im :=
  (Complex.imCLM.integral_comp_comm h).symm

/-- The inequality behind the positivity of Mermin's dielectric function. -/
theorem resolvent_im_pos (eta : ℝ) {kap : ℝ} (hk : 0 < kap) {z : ℂ} (hz : 0 < z.im) :
    0 < (z * resolvent eta kap z * conj (polar eta kap z)).im := by
  have hM := mass_pos eta hk
  have hz' := hz.ne'
  have hcont := den_continuous hz'
  have hi := dens_mul_integrableC eta hk.le hcont _ (inv_den_le hz')
  set G := resolvent eta kap z with hG
  have hn2 : Continuous fun x : ℝ => ‖((x : ℂ) ^ 2 - z ^ 2)⁻¹‖ := hcont.norm
  have hn2b : ∀ x : ℝ, |‖((x : ℂ) ^ 2 - z ^ 2)⁻¹‖| ≤ (z.im ^ 2)⁻¹ := fun x => by
    rw [abs_norm]
    exact inv_den_le hz' x
  set S := ∫ x in Ioi (0 : ℝ), dens eta kap x * ‖((x : ℂ) ^ 2 - z ^ 2)⁻¹‖ ^ 2 with hS
  -- the modulus of the resolvent
  have hnorm : ‖G‖ ^ 2 ≤ mass eta kap * S := by
    have h1 : ‖G‖ ≤ ∫ x in Ioi (0 : ℝ), dens eta kap x * ‖((x : ℂ) ^ 2 - z ^ 2)⁻¹‖ := by
      rw [hG]
      unfold resolvent
      refine (norm_integral_le_integral_norm _).trans (le_of_eq ?_)
      refine setIntegral_congr_fun measurableSet_Ioi fun x hx => ?_
      simp only [norm_mul, Complex.norm_real, norm_eq_abs]
      rw [abs_of_nonneg (dens_nonneg hk.le (mem_Ioi.1 hx).le)]
    have h2 := dens_cauchy eta hk hn2 _ hn2b
    exact (pow_le_pow_left₀ (norm_nonneg _) h1 2).trans h2
  -- the imaginary part
  have him : (z * G).im = ∫ x in Ioi (0 : ℝ), dens eta kap x *
      (z.im * (x ^ 2 + Complex.normSq z) * ‖((x : ℂ) ^ 2 - z ^ 2)⁻¹‖ ^ 2) := by
    have h1 : z * G = ∫ x in Ioi (0 : ℝ), (dens eta kap x : ℂ) * (z * ((x : ℂ) ^ 2 - z ^ 2)⁻¹) := by
      rw [hG]
      unfold resolvent
      rw [← integral_const_mul]
      congr 1
      funext x
      ring
    have h2 : IntegrableOn (fun x : ℝ => (dens eta kap x : ℂ) * (z * ((x : ℂ) ^ 2 - z ^ 2)⁻¹))
        (Ioi 0) := by
      refine (hi.const_mul z).congr (Filter.Eventually.of_forall fun x => ?_)
      simp only
      ring
    rw [h1, integral_cim h2]
    congr 1
    funext x
    rw [Complex.im_ofReal_mul, im_mul_inv]
  have hiS := dens_mul_integrable eta hk.le (g := fun x => ‖((x : ℂ) ^ 2 - z ^ 2)⁻¹‖ ^ 2) (hn2.pow 2)
    ((z.im ^ 2)⁻¹ ^ 2) (fun x => by
      rw [abs_pow]
      exact pow_le_pow_left₀ (abs_nonneg _) (hn2b x) 2)
  have hiI : IntegrableOn (fun x : ℝ => dens eta kap x *
      (z.im * (x ^ 2 + Complex.normSq z) * ‖((x : ℂ) ^ 2 - z ^ 2)⁻¹‖ ^ 2)) (Ioi 0) := by
    have h := (Complex.imCLM.integrable_comp (hi.const_mul z))
    refine h.congr (Filter.Eventually.of_forall fun x => ?_)
    have e : z * ((dens eta kap x : ℂ) * ((x : ℂ) ^ 2 - z ^ 2)⁻¹) =
        (dens eta kap x : ℂ) * (z * ((x : ℂ) ^ 2 - z ^ 2)⁻¹) := by ring
    simp only [Complex.imCLM_apply]
    rw [e, Complex.im_ofReal_mul, im_mul_inv]
  have hgt : z.im * Complex.normSq z * S < (z * G).im := by
    rw [him, hS, ← integral_const_mul, ← sub_pos, ← integral_sub hiI (hiS.const_mul _)]
    rw [setIntegral_pos_iff_support_of_nonneg_ae]
    · have hsub : Ioi (0 : ℝ) ⊆ Function.support (fun x : ℝ => dens eta kap x *
          (z.im * (x ^ 2 + Complex.normSq z) * ‖((x : ℂ) ^ 2 - z ^ 2)⁻¹‖ ^ 2) -
          z.im * Complex.normSq z * (dens eta kap x * ‖((x : ℂ) ^ 2 - z ^ 2)⁻¹‖ ^ 2)) ∩ Ioi 0 := by
        intro x hx
        refine ⟨?_, hx⟩
        have hx' : 0 < x := hx
        have e : dens eta kap x *
          (z.im * (x ^ 2 + Complex.normSq z) * ‖((x : ℂ) ^ 2 - z ^ 2)⁻¹‖ ^ 2) -
          z.im * Complex.normSq z * (dens eta kap x * ‖((x : ℂ) ^ 2 - z ^ 2)⁻¹‖ ^ 2) =
          dens eta kap x * z.im * x ^ 2 * ‖((x : ℂ) ^ 2 - z ^ 2)⁻¹‖ ^ 2 := by ring
        rw [Function.mem_support, e]
        have h1 := dens_pos (eta := eta) hk hx'
        have h2 : 0 < ‖((x : ℂ) ^ 2 - z ^ 2)⁻¹‖ := norm_pos_iff.2 (inv_ne_zero (den_ne hz' x))
        positivity
      refine lt_of_lt_of_le ?_ (measure_mono hsub)
      simp
    · rw [Filter.EventuallyLE, ae_restrict_iff' measurableSet_Ioi]
      refine Filter.Eventually.of_forall fun x hx => ?_
      have h1 := dens_nonneg (eta := eta) hk.le (mem_Ioi.1 hx).le
      simp only [Pi.zero_apply]
      have e : dens eta kap x *
          (z.im * (x ^ 2 + Complex.normSq z) * ‖((x : ℂ) ^ 2 - z ^ 2)⁻¹‖ ^ 2) -
          z.im * Complex.normSq z * (dens eta kap x * ‖((x : ℂ) ^ 2 - z ^ 2)⁻¹‖ ^ 2) =
          dens eta kap x * z.im * x ^ 2 * ‖((x : ℂ) ^ 2 - z ^ 2)⁻¹‖ ^ 2 := by ring
      rw [e]
      positivity
    · exact hiI.sub (hiS.const_mul _)
  -- combination
  have hfin : (z * G * conj (polar eta kap z)).im =
      2 * (mass eta kap * (z * G).im - z.im * Complex.normSq z * ‖G‖ ^ 2) := by
    rw [polar_eq eta hk.le hz', ← hG, ← Complex.normSq_eq_norm_sq]
    generalize mass eta kap = M
    simp only [map_mul, map_add, Complex.conj_ofReal, Complex.mul_im, Complex.mul_re,
      Complex.add_re, Complex.add_im, pow_two, Complex.conj_re, Complex.conj_im, Complex.ofReal_re,
      Complex.ofReal_im, Complex.normSq_apply, Complex.re_ofNat, Complex.im_ofNat, map_ofNat]
    ring
  rw [hfin]
  have hb : 0 ≤ z.im * Complex.normSq z := mul_nonneg hz.le (Complex.normSq_nonneg _)
  have h1 := mul_le_mul_of_nonneg_left hnorm hb
  have h2 := mul_lt_mul_of_pos_left hgt hM
  nlinarith

theorem polar_ne (eta : ℝ) {kap : ℝ} (hk : 0 < kap) {z : ℂ} (hz : 0 < z.im) :
    polar eta kap z ≠ 0 := by
  intro h
  have := resolvent_im_pos eta hk hz
  rw [h] at this
  simp at this

/-! ### Real and imaginary part -/

/-- Real part of `2x / (x² - z²)` for `z = a + ib`. -/
noncomputable def reK (a b x : ℝ) : ℝ :=
  (x - a) / ((x - a) ^ 2 + b ^ 2) + (x + a) / ((x + a) ^ 2 + b ^ 2)

/-- Imaginary part of `2x / (x² - z²)`. -/
noncomputable def imK (a b x : ℝ) : ℝ := b * (1 / ((x - a) ^ 2 + b ^ 2) - 1 / ((x + a) ^ 2 + b ^ 2))

theorem reK_continuous (a : ℝ) {b : ℝ} (hb : b ≠ 0) : Continuous (reK a b) := by
  unfold reK
  refine Continuous.add (Continuous.div (by fun_prop) (by fun_prop) fun x => ?_)
    (Continuous.div (by fun_prop) (by fun_prop) fun x => ?_)
  all_goals positivity

theorem imK_continuous (a : ℝ) {b : ℝ} (hb : b ≠ 0) : Continuous (imK a b) := by
  unfold imK
  refine Continuous.mul continuous_const (Continuous.sub
    (Continuous.div (by fun_prop) (by fun_prop) fun x => ?_)
    (Continuous.div (by fun_prop) (by fun_prop) fun x => ?_))
  all_goals positivity

theorem partial_fractions {z : ℂ} (hz : z.im ≠ 0) (x : ℝ) :
    2 * (x : ℂ) * ((x : ℂ) ^ 2 - z ^ 2)⁻¹ = ((x : ℂ) - z)⁻¹ + ((x : ℂ) + z)⁻¹ := by
  have h1 : (x : ℂ) - z ≠ 0 := fun h => hz (by
    have := congrArg Complex.im h
    simpa using this)
  have h2 : (x : ℂ) + z ≠ 0 := fun h => hz (by
    have := congrArg Complex.im h
    simpa using this)
  have e : (x : ℂ) ^ 2 - z ^ 2 = (x - z) * (x + z) := by ring
  rw [e]
  field_simp
  ring

theorem kernel_re {z : ℂ} (hz : z.im ≠ 0) (x : ℝ) :
    (2 * (x : ℂ) * ((x : ℂ) ^ 2 - z ^ 2)⁻¹).re = reK z.re z.im x := by
  rw [partial_fractions hz]
  simp only [Complex.add_re, Complex.inv_re, Complex.sub_re, Complex.ofReal_re, Complex.normSq_apply,
    Complex.sub_im, Complex.ofReal_im, Complex.add_im, reK]
  congr 2 <;> ring

theorem kernel_im {z : ℂ} (hz : z.im ≠ 0) (x : ℝ) :
    (2 * (x : ℂ) * ((x : ℂ) ^ 2 - z ^ 2)⁻¹).im = imK z.re z.im x := by
  rw [partial_fractions hz]
  simp only [Complex.add_im, Complex.inv_im, Complex.sub_re, Complex.ofReal_re, Complex.normSq_apply,
    Complex.sub_im, Complex.ofReal_im, Complex.add_re, imK]
  have e1 : (x - z.re) * (x - z.re) + (0 - z.im) * (0 - z.im) = (x - z.re) ^ 2 + z.im ^ 2 := by ring
  have e2 : (x + z.re) * (x + z.re) + (0 + z.im) * (0 + z.im) = (x + z.re) ^ 2 + z.im ^ 2 := by ring
  rw [e1, e2]
  ring

theorem polar_integrable (eta : ℝ) {kap : ℝ} (hk : 0 ≤ kap) {z : ℂ} (hz : z.im ≠ 0) :
    IntegrableOn (fun x : ℝ => (dens eta kap x : ℂ) * (2 * (x : ℂ) ^ 2 * ((x : ℂ) ^ 2 - z ^ 2)⁻¹))
      (Ioi 0) := by
  refine dens_mul_integrableC eta hk ?_ (2 + 2 * ‖z‖ ^ 2 * (z.im ^ 2)⁻¹) fun x => ?_
  · have := den_continuous hz
    fun_prop
  · have e : 2 * (x : ℂ) ^ 2 * ((x : ℂ) ^ 2 - z ^ 2)⁻¹ =
        2 + 2 * z ^ 2 * ((x : ℂ) ^ 2 - z ^ 2)⁻¹ := by
      have := den_ne hz x
      field_simp
      ring
    rw [e]
    refine (norm_add_le _ _).trans ?_
    rw [norm_mul, norm_mul, norm_pow]
    have h2 : ‖(2 : ℂ)‖ = 2 := by simp
    rw [h2]
    have := mul_le_mul_of_nonneg_left (inv_den_le hz x)
      (by positivity : (0 : ℝ) ≤ 2 * ‖z‖ ^ 2)
    linarith

theorem dens_mul_sq {eta kap x : ℝ} (hx : 0 < x) (z : ℂ) :
    (dens eta kap x : ℂ) * (2 * (x : ℂ) ^ 2 * ((x : ℂ) ^ 2 - z ^ 2)⁻¹) =
      (wgt eta kap x : ℂ) * (2 * (x : ℂ) * ((x : ℂ) ^ 2 - z ^ 2)⁻¹) := by
  unfold dens
  have : (x : ℂ) ≠ 0 := Complex.ofReal_ne_zero.2 hx.ne'
  push_cast
  field_simp

theorem wgt_reK_integrable (eta : ℝ) {kap : ℝ} (hk : 0 ≤ kap) {z : ℂ} (hz : z.im ≠ 0) :
    IntegrableOn (fun x => wgt eta kap x * reK z.re z.im x) (Ioi 0) := by
  refine (Complex.reCLM.integrable_comp (polar_integrable eta hk hz)).congr ?_
  rw [Filter.EventuallyEq, ae_restrict_iff' measurableSet_Ioi]
  refine Filter.Eventually.of_forall fun x hx => ?_
  simp only [Complex.reCLM_apply]
  rw [dens_mul_sq (mem_Ioi.1 hx), Complex.re_ofReal_mul, kernel_re hz]

theorem wgt_imK_integrable (eta : ℝ) {kap : ℝ} (hk : 0 ≤ kap) {z : ℂ} (hz : z.im ≠ 0) :
    IntegrableOn (fun x => wgt eta kap x * imK z.re z.im x) (Ioi 0) := by
  refine (Complex.imCLM.integrable_comp (polar_integrable eta hk hz)).congr ?_
  rw [Filter.EventuallyEq, ae_restrict_iff' measurableSet_Ioi]
  refine Filter.Eventually.of_forall fun x hx => ?_
  simp only [Complex.imCLM_apply]
  rw [dens_mul_sq (mem_Ioi.1 hx), Complex.im_ofReal_mul, kernel_im hz]

theorem polar_re (eta : ℝ) {kap : ℝ} (hk : 0 ≤ kap) {z : ℂ} (hz : z.im ≠ 0) :
    (polar eta kap z).re = ∫ x in Ioi (0 : ℝ), wgt eta kap x * reK z.re z.im x := by
  unfold polar
  rw [integral_cre (polar_integrable eta hk hz)]
  refine setIntegral_congr_fun measurableSet_Ioi fun x hx => ?_
  rw [dens_mul_sq (mem_Ioi.1 hx), Complex.re_ofReal_mul, kernel_re hz]

theorem polar_im (eta : ℝ) {kap : ℝ} (hk : 0 ≤ kap) {z : ℂ} (hz : z.im ≠ 0) :
    (polar eta kap z).im = ∫ x in Ioi (0 : ℝ), wgt eta kap x * imK z.re z.im x := by
  unfold polar
  rw [integral_cim (polar_integrable eta hk hz)]
  refine setIntegral_congr_fun measurableSet_Ioi fun x hx => ?_
  rw [dens_mul_sq (mem_Ioi.1 hx), Complex.im_ofReal_mul, kernel_im hz]

/-! ### Integrals of the kernels -/

theorem integral_reK (a : ℝ) {b : ℝ} (hb : b ≠ 0) (p q : ℝ) :
    ∫ x in p..q, reK a b x =
      (log (((q - a) ^ 2 + b ^ 2) * ((q + a) ^ 2 + b ^ 2)) -
        log (((p - a) ^ 2 + b ^ 2) * ((p + a) ^ 2 + b ^ 2))) / 2 := by
  have hd : ∀ x, HasDerivAt
      (fun x => (log ((x - a) ^ 2 + b ^ 2) + log ((x + a) ^ 2 + b ^ 2)) / 2) (reK a b x) x := by
    intro x
    have h1 : HasDerivAt (fun x : ℝ => (x - a) ^ 2 + b ^ 2) (2 * (x - a)) x := by
      have := (((hasDerivAt_id x).sub_const a).pow 2).add_const (b ^ 2)
      simpa using this
    have h2 : HasDerivAt (fun x : ℝ => (x + a) ^ 2 + b ^ 2) (2 * (x + a)) x := by
      have := (((hasDerivAt_id x).add_const a).pow 2).add_const (b ^ 2)
      simpa using this
    have h := ((h1.log (by positivity)).add (h2.log (by positivity))).div_const 2
    refine h.congr_deriv ?_
    unfold reK
    ring
  rw [intervalIntegral.integral_eq_sub_of_hasDerivAt (fun x _ => hd x)
    ((reK_continuous a hb).intervalIntegrable _ _)]
  rw [log_mul (by positivity) (by positivity), log_mul (by positivity) (by positivity)]
  ring

theorem integral_imK (a : ℝ) {b : ℝ} (hb : b ≠ 0) (p q : ℝ) :
    ∫ x in p..q, imK a b x =
      (arctan ((q - a) / b) - arctan ((q + a) / b)) - (arctan ((p - a) / b) - arctan ((p + a) / b)) := by
  have hd : ∀ x, HasDerivAt
      (fun x => arctan ((x - a) / b) - arctan ((x + a) / b)) (imK a b x) x := by
    intro x
    have h1 : HasDerivAt (fun x : ℝ => (x - a) / b) (1 / b) x :=
      ((hasDerivAt_id x).sub_const a).div_const b
    have h2 : HasDerivAt (fun x : ℝ => (x + a) / b) (1 / b) x :=
      ((hasDerivAt_id x).add_const a).div_const b
    have h := h1.arctan.sub h2.arctan
    refine h.congr_deriv ?_
    unfold imK
    have g1 : (x - a) ^ 2 + b ^ 2 ≠ 0 := by positivity
    have g2 : (x + a) ^ 2 + b ^ 2 ≠ 0 := by positivity
    have e1 : 1 + ((x - a) / b) ^ 2 = ((x - a) ^ 2 + b ^ 2) / b ^ 2 := by field_simp; ring
    have e2 : 1 + ((x + a) / b) ^ 2 = ((x + a) ^ 2 + b ^ 2) / b ^ 2 := by field_simp; ring
    rw [e1, e2]
    generalize (x - a) ^ 2 + b ^ 2 = A at *
    generalize (x + a) ^ 2 + b ^ 2 = B at *
    field_simp
  rw [intervalIntegral.integral_eq_sub_of_hasDerivAt (fun x _ => hd x)
    ((imK_continuous a hb).intervalIntegrable _ _)]

theorem integral_reK_abs (a : ℝ) {b : ℝ} (hb : b ≠ 0) (kap y : ℝ) :
    ∫ x in |y - kap|..(y + kap), reK a b x =
      log ((b ^ 2 + (a - kap - y) ^ 2) * (b ^ 2 + (a + kap + y) ^ 2) /
        ((b ^ 2 + (a - kap + y) ^ 2) * (b ^ 2 + (a + kap - y) ^ 2))) / 2 := by
  rw [integral_reK a hb, log_div (by positivity) (by positivity)]
  congr 3
  · ring
  · rcases abs_cases (y - kap) with ⟨h, _⟩ | ⟨h, _⟩ <;> rw [h] <;> ring

theorem integral_imK_abs (a : ℝ) {b : ℝ} (hb : b ≠ 0) (kap y : ℝ) :
    ∫ x in |y - kap|..(y + kap), imK a b x =
      -(arctan ((a - kap - y) / b) + arctan ((a + kap + y) / b) - arctan ((a - kap + y) / b) -
        arctan ((a + kap - y) / b)) := by
  rw [integral_imK a hb]
  have e1 : (y + kap - a) / b = -((a - kap - y) / b) := by ring
  have e2 : (y + kap + a) / b = (a + kap + y) / b := by ring
  rw [e1, arctan_neg, e2]
  rcases abs_cases (y - kap) with ⟨h, _⟩ | ⟨h, _⟩ <;> rw [h]
  · have e3 : (y - kap - a) / b = -((a + kap - y) / b) := by ring
    have e4 : (y - kap + a) / b = (a - kap + y) / b := by ring
    rw [e3, e4, arctan_neg]
    ring
  · have e3 : (-(y - kap) - a) / b = -((a - kap + y) / b) := by ring
    have e4 : (-(y - kap) + a) / b = (a + kap - y) / b := by ring
    rw [e3, e4, arctan_neg]
    ring

theorem integral_inv_abs {kap y : ℝ} (hk : 0 < kap) (hy : 0 < y) (h : y ≠ kap) :
    ∫ x in |y - kap|..(y + kap), 1 / x = log ((y + kap) / |y - kap|) :=
  integral_one_div_of_pos (abs_pos.2 (sub_ne_zero.2 h)) (by linarith)

/-- The static weight as an integral over the Fermi function. -/
theorem mass_eq (eta : ℝ) {kap : ℝ} (hk : 0 < kap) :
    mass eta kap = ∫ y in Ioi (0 : ℝ), phi eta y * log ((y + kap) / |y - kap|) := by
  have hint : IntegrableOn (fun x => wgt eta kap x * (1 / x)) (Ioi 0) := by
    refine (wgt_div_integrable eta hk.le).congr (Filter.Eventually.of_forall fun x => ?_)
    simp only
    ring
  have h := wgt_swap eta hk (K := fun x => 1 / x) (by fun_prop) hint
  have e : mass eta kap = ∫ x in Ioi (0 : ℝ), wgt eta kap x * (1 / x) := by
    unfold mass dens
    congr 1
    funext x
    ring
  rw [e, h]
  refine integral_congr_ae ?_
  rw [Filter.EventuallyEq, ae_restrict_iff' measurableSet_Ioi]
  have hne : ∀ᵐ y : ℝ, y ≠ kap := by simp [ae_iff]
  filter_upwards [hne] with y hy hy0
  rw [integral_inv_abs hk hy0 hy]

theorem phi_log_integrable (eta : ℝ) {kap : ℝ} (hk : 0 < kap) :
    IntegrableOn (fun y => phi eta y * log ((y + kap) / |y - kap|)) (Ioi 0) := by
  have hint : IntegrableOn (fun x => wgt eta kap x * (1 / x)) (Ioi 0) := by
    refine (wgt_div_integrable eta hk.le).congr (Filter.Eventually.of_forall fun x => ?_)
    simp only
    ring
  refine (phi_integrable eta hk (K := fun x => 1 / x) (by fun_prop) hint).congr ?_
  rw [Filter.EventuallyEq, ae_restrict_iff' measurableSet_Ioi]
  have hne : ∀ᵐ y : ℝ, y ≠ kap := by simp [ae_iff]
  filter_upwards [hne] with y hy hy0
  rw [integral_inv_abs hk hy0 hy]

/-- The integral in the two pieces and the unit the code uses. -/
theorem split_scale {f : ℝ → ℝ} (hf : IntegrableOn f (Ioi 0)) {s : ℝ} (hs : 0 < s) :
    ((∫ t in Ioc (0 : ℝ) 1, f (t * s)) + ∫ t in Ioi (1 : ℝ), f (t * s)) * s = ∫ x in Ioi (0 : ℝ), f x := by
  have hint : IntegrableOn (fun t => f (t * s)) (Ioi 0) := by
    rw [integrableOn_Ioi_comp_mul_right_iff f 0 hs, zero_mul]
    exact hf
  have hu : Ioc (0 : ℝ) 1 ∪ Ioi 1 = Ioi 0 := Ioc_union_Ioi_eq_Ioi zero_le_one
  rw [← setIntegral_union (Ioc_disjoint_Ioi le_rfl) measurableSet_Ioi
    (hint.mono_set (hu ▸ subset_union_left)) (hint.mono_set (hu ▸ subset_union_right)), hu,
    integral_comp_mul_right_Ioi f 0 hs, zero_mul, smul_eq_mul]
  field_simp

end Verif.Lindhard
