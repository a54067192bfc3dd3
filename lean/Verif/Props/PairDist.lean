/-
Properties of the pair distribution functions.
-/
import Verif.Model.PairDist
import Verif.Props.StaticSf
import Mathlib.Analysis.Fourier.RiemannLebesgueLemma
import Mathlib.Analysis.SpecialFunctions.ImproperIntegrals
import Mathlib.Analysis.SpecialFunctions.Integrability.Basic
import Mathlib.MeasureTheory.Integral.DominatedConvergence
import Mathlib.Analysis.SpecialFunctions.Trigonometric.Sinc

set_option autoImplicit false

namespace Verif.Ssf

open Real Filter Topology MeasureTheory Set Verif.Expt Verif.Resp

/-! ### Potentials that are bounded and fall off with the fourth power -/

section

variable {f : ℝ → ℝ} {A B : ℝ}

/-- Bounded and at most `B / k ^ 4`. -/
structure Decay (f : ℝ → ℝ) (A B : ℝ) : Prop where
  meas : Measurable f
  bound : ∀ k, 0 < k → |f k| ≤ A
  tail : ∀ k, 0 < k → |f k| ≤ B / k ^ 4

theorem Decay.integrable_sq (h : Decay f A B) : IntegrableOn (fun k => f k * k ^ 2) (Ioi 0) := by
  rw [← Ioc_union_Ioi_eq_Ioi (zero_le_one (α := ℝ))]
  apply IntegrableOn.union
  · apply Measure.integrableOn_of_bounded (M := A) (by simp) (h.meas.mul (measurable_id.pow_const 2)).aestronglyMeasurable
    filter_upwards [ae_restrict_mem measurableSet_Ioc] with k hk
    simp only [Pi.mul_apply, id]
    rw [norm_mul, norm_eq_abs, norm_eq_abs, abs_of_nonneg (sq_nonneg k)]
    have h1 := h.bound k hk.1
    have h2 : k ^ 2 ≤ 1 := pow_le_one₀ hk.1.le hk.2
    nlinarith [abs_nonneg (f k)]
  · have hi : IntegrableOn (fun k : ℝ => B * k ^ (-2 : ℝ)) (Ioi 1) :=
      (integrableOn_Ioi_rpow_of_lt (by norm_num) one_pos).const_mul B
    refine Integrable.mono' hi (h.meas.mul (measurable_id.pow_const 2)).aestronglyMeasurable ?_
    filter_upwards [ae_restrict_mem measurableSet_Ioi] with k hk
    have hk0 : 0 < k := zero_lt_one.trans hk
    rw [norm_mul, norm_eq_abs, norm_eq_abs, abs_of_nonneg (sq_nonneg k), rpow_neg hk0.le, rpow_two]
    calc |f k| * k ^ 2 ≤ B / k ^ 4 * k ^ 2 := mul_le_mul_of_nonneg_right (h.tail k hk0) (sq_nonneg k)
      _ = B * (k ^ 2)⁻¹ := by field_simp

theorem Decay.integrable (h : Decay f A B) : IntegrableOn (fun k => f k * k) (Ioi 0) := by
  have h1 : IntegrableOn (fun k => A * indicator (Ioc (0 : ℝ) 1) 1 k + |f k * k ^ 2|) (Ioi 0) := by
    refine Integrable.add (Integrable.const_mul ?_ A) h.integrable_sq.abs
    have : IntegrableOn (fun _ : ℝ => (1 : ℝ)) (Ioc 0 1) := by simp
    exact (integrable_indicator_iff measurableSet_Ioc).2 this |>.integrableOn
  refine Integrable.mono' h1 (h.meas.mul measurable_id).aestronglyMeasurable ?_
  filter_upwards [ae_restrict_mem measurableSet_Ioi] with k hk
  have hk' : 0 < k := hk
  have hb := h.bound k hk'
  rw [norm_mul, norm_eq_abs, norm_eq_abs, abs_mul, abs_of_pos hk', abs_of_nonneg (sq_nonneg k)]
  by_cases hle : k ≤ 1
  · rw [indicator_of_mem (show k ∈ Ioc (0 : ℝ) 1 from ⟨hk', hle⟩)]
    simp only [Pi.one_apply, mul_one]
    nlinarith [abs_nonneg (f k), mul_nonneg (abs_nonneg (f k)) (sq_nonneg k)]
  · rw [indicator_of_notMem (fun hm => hle hm.2)]
    push Not at hle
    have : k ≤ k ^ 2 := by nlinarith
    nlinarith [abs_nonneg (f k)]

/-- The potential vanishes at large distances. -/
theorem Decay.large (h : Decay f A B) : Tendsto (radialPotential f) atTop (𝓝 0) := by
  have hi := h.integrable
  have rl := Real.tendsto_integral_exp_smul_cocompact (indicator (Ioi 0) fun k => ((f k * k : ℝ) : ℂ))
  have hw : Tendsto (fun r : ℝ => r / (2 * π)) atTop (cocompact ℝ) :=
    (tendsto_id.atTop_div_const (by positivity)).mono_right atTop_le_cocompact
  have him := (Complex.continuous_im.tendsto 0).comp (rl.comp hw)
  have e : ∀ r : ℝ, ∫ k in Ioi (0 : ℝ), f k * (sin (k * r) * k) =
      -(∫ k : ℝ, Real.fourierChar (-(k * (r / (2 * π)))) • indicator (Ioi 0) (fun k => ((f k * k : ℝ) : ℂ)) k).im := by
    intro r
    have e1 : ∀ k : ℝ, Real.fourierChar (-(k * (r / (2 * π)))) • indicator (Ioi 0) (fun k => ((f k * k : ℝ) : ℂ)) k =
        indicator (Ioi 0) (fun k : ℝ => Complex.exp (((-(k * r) : ℝ) : ℂ) * Complex.I) * ((f k * k : ℝ) : ℂ)) k := by
      intro k
      by_cases hk : k ∈ Ioi (0 : ℝ)
      · rw [indicator_of_mem hk, indicator_of_mem hk, Circle.smul_def, Real.fourierChar_apply, smul_eq_mul]
        congr 4
        field_simp
      · rw [indicator_of_notMem hk, indicator_of_notMem hk, smul_zero]
    simp_rw [e1]
    rw [integral_indicator measurableSet_Ioi]
    have hint : IntegrableOn (fun k : ℝ => Complex.exp (((-(k * r) : ℝ) : ℂ) * Complex.I) * ((f k * k : ℝ) : ℂ)) (Ioi 0) := by
      refine Integrable.mono' hi.norm ?_ ?_
      · refine AEStronglyMeasurable.mul (by fun_prop) ?_
        exact (Complex.measurable_ofReal.comp (h.meas.mul measurable_id)).aestronglyMeasurable
      · filter_upwards with k
        rw [norm_mul, Complex.norm_exp_ofReal_mul_I, one_mul, Complex.norm_real]
    have := Complex.imCLM.integral_comp_comm hint
    simp only [Complex.imCLM_apply] at this
    rw [← this, ← integral_neg]
    refine integral_congr_ae (Eventually.of_forall fun k => ?_)
    simp only []
    rw [Complex.im_mul_ofReal, Complex.exp_ofReal_mul_I_im, sin_neg]
    ring
  have t1 : Tendsto (fun r : ℝ => ∫ k in Ioi (0 : ℝ), f k * (sin (k * r) * k)) atTop (𝓝 0) := by
    have := him.neg
    rw [Complex.zero_im, neg_zero] at this
    exact this.congr fun r => (e r).symm
  have t2 : Tendsto (fun r : ℝ => 4 * π / r) atTop (𝓝 0) := tendsto_const_nhds.div_atTop tendsto_id
  have := t2.mul (t1.div_const ((2 * π) ^ 3))
  rw [zero_mul] at this
  exact this

/-- Its value at contact. -/
noncomputable def contact (f : ℝ → ℝ) : ℝ := (∫ k in Ioi (0 : ℝ), f k * k ^ 2) / (2 * π ^ 2)

theorem radialPotential_eq (f : ℝ → ℝ) {r : ℝ} (hr : 0 < r) :
    radialPotential f r = (∫ k in Ioi (0 : ℝ), f k * k ^ 2 * sinc (k * r)) / (2 * π ^ 2) := by
  unfold radialPotential
  simp only []
  have : ∫ k in Ioi (0 : ℝ), f k * (sin (k * r) * k) = r * ∫ k in Ioi (0 : ℝ), f k * k ^ 2 * sinc (k * r) := by
    rw [← integral_const_mul]
    refine setIntegral_congr_fun measurableSet_Ioi fun k hk => ?_
    have : (k : ℝ) ≠ 0 := (mem_Ioi.1 hk).ne'
    rw [sinc_of_ne_zero (by positivity)]
    field_simp
  rw [this]
  field_simp
  ring

/-- The potential at contact. -/
theorem Decay.small (h : Decay f A B) : Tendsto (radialPotential f) (𝓝[>] 0) (𝓝 (contact f)) := by
  have hd : Tendsto (fun r : ℝ => ∫ k in Ioi (0 : ℝ), f k * k ^ 2 * sinc (k * r)) (𝓝[>] 0)
      (𝓝 (∫ k in Ioi (0 : ℝ), f k * k ^ 2)) := by
    refine tendsto_integral_filter_of_dominated_convergence (fun k => |f k * k ^ 2|) ?_ ?_ h.integrable_sq.abs ?_
    · filter_upwards with r
      exact ((h.meas.mul (measurable_id.pow_const 2)).mul (by fun_prop)).aestronglyMeasurable
    · filter_upwards with r
      filter_upwards with k
      rw [norm_mul, norm_eq_abs, norm_eq_abs]
      exact mul_le_of_le_one_right (abs_nonneg _) (abs_sinc_le_one _)
    · filter_upwards with k
      have hc : Continuous fun r : ℝ => f k * k ^ 2 * sinc (k * r) := by fun_prop
      have := (hc.tendsto 0).mono_left (nhdsWithin_le_nhds (s := Ioi 0))
      simpa only [mul_zero, sinc_zero, mul_one] using this
  refine (hd.div_const (2 * π ^ 2)).congr' ?_
  filter_upwards [self_mem_nhdsWithin] with r hr
  rw [radialPotential_eq f hr]

/-- A repulsive potential (in Fourier space) is largest at contact. -/
theorem Decay.le_contact (h : Decay f A B) (h0 : ∀ k, 0 < k → 0 ≤ f k) {r : ℝ} (hr : 0 < r) :
    |radialPotential f r| ≤ contact f := by
  rw [radialPotential_eq f hr, abs_div, abs_of_pos (by positivity : (0 : ℝ) < 2 * π ^ 2)]
  refine div_le_div_of_nonneg_right ?_ (by positivity)
  rw [← norm_eq_abs]
  refine (norm_integral_le_integral_norm _).trans ?_
  refine setIntegral_mono_on ?_ h.integrable_sq measurableSet_Ioi fun k hk => ?_
  · refine Integrable.norm (Integrable.mono' h.integrable_sq.abs
      ((h.meas.mul (measurable_id.pow_const 2)).mul (by fun_prop)).aestronglyMeasurable ?_)
    filter_upwards with k
    rw [norm_mul, norm_eq_abs, norm_eq_abs]
    exact mul_le_of_le_one_right (abs_nonneg _) (abs_sinc_le_one _)
  · have hk' : 0 < k := hk
    rw [norm_mul, norm_eq_abs, norm_eq_abs, abs_of_nonneg (mul_nonneg (h0 k hk') (sq_nonneg k))]
    exact mul_le_of_le_one_right (mul_nonneg (h0 k hk') (sq_nonneg k)) (abs_sinc_le_one _)

theorem Decay.contact_pos (h : Decay f A B) (h0 : ∀ k, 0 < k → 0 < f k) : 0 < contact f := by
  refine div_pos ?_ (by positivity)
  rw [setIntegral_pos_iff_support_of_nonneg_ae ?_ h.integrable_sq]
  · refine lt_of_lt_of_le ?_ (measure_mono (s := Ioi (0 : ℝ)) ?_)
    · simp
    · intro k hk
      have hk' : 0 < k := hk
      exact ⟨(mul_pos (h0 k hk') (by positivity)).ne', hk⟩
  · filter_upwards [ae_restrict_mem measurableSet_Ioi] with k hk
    exact (mul_pos (h0 k hk) (pow_pos (mem_Ioi.1 hk) 2)).le

theorem radialPotential_mul (c : ℝ) (f : ℝ → ℝ) (r : ℝ) :
    radialPotential (fun k => c * f k) r = c * radialPotential f r := by
  unfold radialPotential
  simp only [mul_assoc c, integral_const_mul]
  ring

end

/-! ### The distribution functions -/

section

variable {u : Consts} {T Te Ti ne mi Zf : ℝ}

/-- The Fourier transform of an isotropic function of the wave vector. -/
noncomputable def fourierRadial (S : ℝ → ℝ) (r : ℝ) : ℝ :=
  1 / (2 * π ^ 2 * r) * ∫ k in Ioi (0 : ℝ), S k * k * sin (k * r)

theorem radialPotential_fourier (f : ℝ → ℝ) (r : ℝ) : radialPotential f r = fourierRadial f r := by
  unfold radialPotential fourierRadial
  simp only []
  have : ∀ k, f k * (sin (k * r) * k) = f k * k * sin (k * r) := fun k => by ring
  simp_rw [this]
  by_cases hr : r = 0
  · simp [hr]
  field_simp
  ring

theorem fourierRadial_mul (c : ℝ) (f : ℝ → ℝ) (r : ℝ) :
    fourierRadial (fun k => c * f k) r = c * fourierRadial f r := by
  rw [← radialPotential_fourier, ← radialPotential_fourier, radialPotential_mul]

theorem fourierRadial_flip (f : ℝ → ℝ) (r : ℝ) :
    fourierRadial (fun k => f k - 1) r = -fourierRadial (fun k => 1 - f k) r := by
  rw [← neg_one_mul, ← fourierRadial_mul]
  congr 1
  funext k
  ring

/-- C92: the logarithm of the ion-ion distribution is the Fourier transform of the structure factor
returned by `S_ii_AD`. -/
theorem gIi_structure (h : Phys Te Ti ne mi Zf) (r : ℝ) :
    log (gIi u r Te Ti ne mi Zf) = Zf / ne * fourierRadial (fun k => sIiAD u k Te Ti ne mi Zf - 1) r := by
  have := u.kB_pos; have := h.ti; have := h.ne; have := h.zf
  unfold gIi sIiAD
  rw [log_exp, radialPotential_fourier, ← fourierRadial_mul, ← neg_one_mul, mul_div_assoc, div_eq_mul_inv,
    mul_comm _ (_⁻¹), ← mul_assoc, ← fourierRadial_mul]
  congr 1
  funext k
  field_simp
  ring

/-- C92: the same for electrons and ions. -/
theorem gEi_structure (h : Phys Te Ti ne mi Zf) (r : ℝ) :
    log (gEi u r Te Ti ne mi Zf) =
      1 / sqrt (ne / Zf * ne) * fourierRadial (fun k => sEiAD u k Te Ti ne mi Zf) r := by
  have := u.kB_pos; have := tRs_pos (u := u) h
  have : 0 < sqrt (ne / Zf * ne) := by
    have := h.ne; have := h.zf
    exact sqrt_pos.2 (by positivity)
  unfold gEi sEiAD
  generalize sqrt (ne / Zf * ne) = q at this ⊢
  rw [log_exp, radialPotential_fourier, ← fourierRadial_mul, ← neg_one_mul, mul_div_assoc, div_eq_mul_inv,
    mul_comm _ (_⁻¹), ← mul_assoc, ← fourierRadial_mul]
  congr 1
  funext k
  field_simp

/-- C92: the same for the electrons, in equilibrium. -/
theorem gEe_structure (h : Phys T T ne mi Zf) (r : ℝ) :
    log (gEe u r T T ne mi Zf) = 1 / ne * fourierRadial (fun k => sEeAD u k T T ne mi Zf - 1) r := by
  have := u.kB_pos; have := h.te; have := h.ne
  unfold gEe sEeAD
  simp only [div_self h.te.ne', sub_self, zero_mul, zero_div, sub_zero]
  rw [log_exp, radialPotential_fourier, ← fourierRadial_mul, ← neg_one_mul, mul_div_assoc, div_eq_mul_inv,
    mul_comm _ (_⁻¹), ← mul_assoc, ← fourierRadial_mul]
  congr 1
  funext k
  field_simp
  ring

theorem measurable_sIiAD : Measurable fun k => sIiAD u k Te Ti ne mi Zf := by
  unfold sIiAD phiIi deltaAD
  fun_prop

theorem measurable_sEiAD : Measurable fun k => sEiAD u k Te Ti ne mi Zf := by
  unfold sEiAD phiEi deltaAD
  fun_prop

theorem measurable_sEeAD : Measurable fun k => sEeAD u k Te Ti ne mi Zf := by
  have h1 := measurable_sIiAD (u := u) (Te := Te) (Ti := Ti) (ne := ne) (mi := mi) (Zf := Zf)
  have h2 := measurable_sEiAD (u := u) (Te := Te) (Ti := Ti) (ne := ne) (mi := mi) (Zf := Zf)
  unfold sEeAD phiEe deltaAD
  fun_prop

/-- Pseudopotentials fall off with the fourth power. -/
theorem pseudo_tail {k q l : ℝ} (hk : 0 < k) (hq : 0 ≤ q) (hl : 0 < l) :
    pseudo u k q l ≤ q / (u.eps0 * l) / k ^ 4 := by
  have := u.eps0_pos
  unfold pseudo
  rw [div_div]
  apply div_le_div_of_nonneg_left hq (by positivity)
  nlinarith [mul_pos this (pow_pos hk 2)]

theorem rpa_le {a b x D : ℝ} (ha : 0 < a) (hD : D = (1 + a) * (1 + b) - x ^ 2) (h0 : 0 < D) :
    1 - (1 + a) / D ≤ b := by
  rw [sub_le_comm, le_div_iff₀ h0]
  by_cases h1 : 1 ≤ b
  · nlinarith
  · push Not at h1
    have h2 : D ≤ (1 + a) * (1 + b) := by nlinarith [sq_nonneg x]
    calc (1 - b) * D ≤ (1 - b) * ((1 + a) * (1 + b)) := mul_le_mul_of_nonneg_left h2 (by linarith)
      _ = (1 + a) * (1 - b ^ 2) := by ring
      _ ≤ 1 + a := by nlinarith [sq_nonneg b]

theorem decay_ii (h : Phys T T ne mi Zf) : ∃ B, Decay (fun k => 1 - sIiAD u k T T ne mi Zf) 1 B := by
  have he := u.eps0_pos; have hB := u.kB_pos; have hee := u.e_pos
  have hT := h.te; have hn := h.ne; have hm := h.mi; have hz := h.zf
  have hM := lam2_pos (u := u) hT hm hm
  refine ⟨ne / Zf / (u.kB * T) * (Zf ^ 2 * u.e ^ 2 / (u.eps0 * lam2 u T mi mi)), measurable_const.sub measurable_sIiAD, ?_, ?_⟩
  · intro k hk
    have := sAD_bounds (u := u) h hk.ne'
    rw [abs_le]
    constructor <;> linarith
  · intro k hk
    have hb := sAD_bounds (u := u) h hk.ne'
    have h1 := uEe_pos (u := u) hT hn hk.ne'
    have h2 := uIi_pos (u := u) hT hn hm hz hk.ne'
    have hD := rpaDet_pos (u := u) h hk.ne'
    rw [abs_of_pos (by linarith), mul_div_assoc]
    refine le_trans ?_ (mul_le_mul_of_nonneg_left (pseudo_tail hk (by positivity) hM) (by positivity))
    change _ ≤ uIi u k T ne mi Zf
    rw [sIiAD_eq h hk.ne' hD.ne']
    exact rpa_le h1 (by unfold rpaDet; rw [uEi2_self h]) hD

theorem decay_ei (h : Phys T T ne mi Zf) : ∃ B, Decay (fun k => sEiAD u k T T ne mi Zf) 1 B := by
  have he := u.eps0_pos; have hB := u.kB_pos; have hee := u.e_pos
  have hT := h.te; have hn := h.ne; have hm := h.mi; have hz := h.zf
  have hN := lam2_pos (u := u) hT u.me_pos hm
  refine ⟨sqrt (ne / Zf * ne) / (u.kB * T) * (Zf * u.e ^ 2 / (u.eps0 * lam2 u T u.me mi)), measurable_sEiAD, ?_, ?_⟩
  · intro k hk
    obtain ⟨a, b, c, d, e, f⟩ := sAD_bounds (u := u) h hk.ne'
    rw [abs_of_pos e]
    nlinarith [mul_pos a c]
  · intro k hk
    have hb := sAD_bounds (u := u) h hk.ne'
    have h1 := uEe_pos (u := u) hT hn hk.ne'
    have h2 := uIi_pos (u := u) hT hn hm hz hk.ne'
    have hD := rpaDet_pos (u := u) h hk.ne'
    have hg := rpaDet_gt (u := u) h hk.ne'
    have hu : -uEi u k T ne mi Zf = sqrt (ne / Zf * ne) / (u.kB * T) * pseudo u k (Zf * u.e ^ 2) (lam2 u T u.me mi) := by
      unfold uEi pseudo; ring
    have hpos := hb.2.2.2.2.1
    rw [abs_of_pos hpos, mul_div_assoc]
    refine le_trans ?_ (mul_le_mul_of_nonneg_left (pseudo_tail hk (by positivity) hN) (by positivity))
    rw [sEiAD_self h hk.ne'] at hpos ⊢
    rw [← hu]
    refine div_le_self ?_ (by linarith)
    exact ((div_pos_iff_of_pos_right hD).1 hpos).le

theorem exp_tail {x c : ℝ} (hx : 0 < x) (hc : 0 < c) : exp (-(x ^ 2 * c)) ≤ 2 / c ^ 2 / x ^ 4 := by
  have h1 := quadratic_le_exp_of_nonneg (by positivity : 0 ≤ x ^ 2 * c)
  rw [exp_neg, div_div, inv_eq_one_div, div_le_div_iff₀ (exp_pos _) (by positivity)]
  nlinarith [mul_pos (pow_pos hx 2) hc]

theorem decay_ee (h : Phys T T ne mi Zf) : ∃ B, Decay (fun k => 1 - sEeAD u k T T ne mi Zf) 1 B := by
  have he := u.eps0_pos; have hB := u.kB_pos; have hee := u.e_pos
  have hT := h.te; have hn := h.ne; have hm := h.mi; have hz := h.zf
  have hL := lam2_pos (u := u) hT u.me_pos u.me_pos
  have hl2 := log_two_pos
  have hc : 0 < π * log 2 * lam2 u T u.me u.me / 4 := by positivity
  refine ⟨ne / (u.kB * T) * (u.e ^ 2 / (u.eps0 * lam2 u T u.me u.me) +
    u.kB * T * log 2 * (π * (π * log 2 * lam2 u T u.me u.me)) ^ (3 / 2 : ℝ) *
      (2 / (π * log 2 * lam2 u T u.me u.me / 4) ^ 2)), measurable_const.sub measurable_sEeAD, ?_, ?_⟩
  · intro k hk
    have := sAD_bounds (u := u) h hk.ne'
    rw [abs_le]
    constructor <;> linarith
  · intro k hk
    have hb := sAD_bounds (u := u) h hk.ne'
    have h1 := uEe_pos (u := u) hT hn hk.ne'
    have h2 := uIi_pos (u := u) hT hn hm hz hk.ne'
    have hD := rpaDet_pos (u := u) h hk.ne'
    have hle : uEe u k T ne ≤ ne / (u.kB * T) * (u.e ^ 2 / (u.eps0 * lam2 u T u.me u.me) +
        u.kB * T * log 2 * (π * (π * log 2 * lam2 u T u.me u.me)) ^ (3 / 2 : ℝ) *
          (2 / (π * log 2 * lam2 u T u.me u.me / 4) ^ 2)) / k ^ 4 := by
      unfold uEe
      rw [mul_div_assoc, add_div]
      refine mul_le_mul_of_nonneg_left (add_le_add (pseudo_tail hk (by positivity) hL) ?_) (by positivity)
      unfold exch
      rw [mul_div_assoc _ (2 / (π * log 2 * lam2 u T u.me u.me / 4) ^ 2)]
      refine mul_le_mul_of_nonneg_left ?_ (by positivity)
      rw [mul_div_assoc (k ^ 2)]
      exact exp_tail hk hc
    rw [abs_of_pos (by linarith)]
    refine le_trans ?_ hle
    rw [sEeAD_self h hk.ne']
    exact rpa_le h2 (by unfold rpaDet; rw [uEi2_self h, mul_comm (1 + uEe u k T ne)]) hD

/-- C92: in equilibrium particles at large distances are independent. -/
theorem pair_large (h : Phys T T ne mi Zf) :
    Tendsto (fun r => gEe u r T T ne mi Zf) atTop (𝓝 1) ∧
      Tendsto (fun r => gIi u r T T ne mi Zf) atTop (𝓝 1) ∧
      Tendsto (fun r => gEi u r T T ne mi Zf) atTop (𝓝 1) := by
  have lim : ∀ {g : ℝ → ℝ} {f : ℝ → ℝ} {c A B : ℝ}, Decay f A B → (∀ r, 0 < g r) →
      (∀ r, log (g r) = c * fourierRadial f r) → Tendsto g atTop (𝓝 1) := by
    intro g f c A B hf hg hl
    have := (continuous_exp.tendsto 0).comp (by simpa using hf.large.const_mul c)
    rw [exp_zero] at this
    refine this.congr fun r => ?_
    rw [Function.comp, radialPotential_fourier, ← hl, exp_log (hg r)]
  obtain ⟨_, de⟩ := decay_ee (u := u) h
  obtain ⟨_, di⟩ := decay_ii (u := u) h
  obtain ⟨_, dx⟩ := decay_ei (u := u) h
  refine ⟨lim (c := -(1 / ne)) de (fun r => exp_pos _) fun r => ?_,
    lim (c := -(Zf / ne)) di (fun r => exp_pos _) fun r => ?_,
    lim dx (fun r => exp_pos _) fun r => gEi_structure h r⟩
  · rw [gEe_structure h, fourierRadial_flip, mul_neg, neg_mul]
  · rw [gIi_structure h, fourierRadial_flip, mul_neg, neg_mul]

/-- C92: in equilibrium the distributions have finite values at contact.  Equal particles are nowhere
rarer, electrons and ions nowhere denser, than at contact. -/
theorem pair_contact (h : Phys T T ne mi Zf) :
    (∃ c, 0 < c ∧ c < 1 ∧ Tendsto (fun r => gEe u r T T ne mi Zf) (𝓝[>] 0) (𝓝 c) ∧
        ∀ r, 0 < r → c ≤ gEe u r T T ne mi Zf ∧ gEe u r T T ne mi Zf ≤ 1 / c) ∧
      (∃ c, 0 < c ∧ c < 1 ∧ Tendsto (fun r => gIi u r T T ne mi Zf) (𝓝[>] 0) (𝓝 c) ∧
        ∀ r, 0 < r → c ≤ gIi u r T T ne mi Zf ∧ gIi u r T T ne mi Zf ≤ 1 / c) ∧
      ∃ c, 1 < c ∧ Tendsto (fun r => gEi u r T T ne mi Zf) (𝓝[>] 0) (𝓝 c) ∧
        ∀ r, 0 < r → 1 / c ≤ gEi u r T T ne mi Zf ∧ gEi u r T T ne mi Zf ≤ c := by
  have hn := h.ne; have hz := h.zf
  obtain ⟨_, de⟩ := decay_ee (u := u) h
  obtain ⟨_, di⟩ := decay_ii (u := u) h
  obtain ⟨_, dx⟩ := decay_ei (u := u) h
  have lim : ∀ {g : ℝ → ℝ} {f : ℝ → ℝ} {c A B : ℝ}, Decay f A B → (∀ r, 0 < g r) →
      (∀ r, log (g r) = c * fourierRadial f r) → Tendsto g (𝓝[>] 0) (𝓝 (exp (c * contact f))) := by
    intro g f c A B hf hg hl
    refine ((continuous_exp.tendsto _).comp (hf.small.const_mul c)).congr fun r => ?_
    rw [Function.comp, radialPotential_fourier, ← hl, exp_log (hg r)]
  have lee : ∀ r, log (gEe u r T T ne mi Zf) = -(1 / ne) * fourierRadial (fun k => 1 - sEeAD u k T T ne mi Zf) r := by
    intro r
    rw [gEe_structure h, fourierRadial_flip, mul_neg, neg_mul]
  have lii : ∀ r, log (gIi u r T T ne mi Zf) = -(Zf / ne) * fourierRadial (fun k => 1 - sIiAD u k T T ne mi Zf) r := by
    intro r
    rw [gIi_structure h, fourierRadial_flip, mul_neg, neg_mul]
  have pe := de.contact_pos fun k hk => by linarith [(sAD_bounds (u := u) h hk.ne').2.2.2.1]
  have pi := di.contact_pos fun k hk => by linarith [(sAD_bounds (u := u) h hk.ne').2.1]
  have px := dx.contact_pos fun k hk => (sAD_bounds (u := u) h hk.ne').2.2.2.2.1
  have bnd : ∀ {g : ℝ → ℝ} {f : ℝ → ℝ} {c A B : ℝ}, Decay f A B → (∀ r, 0 < g r) → (∀ k, 0 < k → 0 < f k) →
      (∀ r, log (g r) = c * fourierRadial f r) → ∀ r, 0 < r →
        exp (-(|c| * contact f)) ≤ g r ∧ g r ≤ exp (|c| * contact f) := by
    intro g f c A B hf hg h0 hl r hr
    have h1 := hf.le_contact (fun k hk => (h0 k hk).le) hr
    have h2 : |log (g r)| ≤ |c| * contact f := by
      rw [hl, abs_mul, ← radialPotential_fourier]
      exact mul_le_mul_of_nonneg_left h1 (abs_nonneg _)
    rw [abs_le] at h2
    rw [← exp_log (hg r)]
    exact ⟨exp_le_exp.2 h2.1, exp_le_exp.2 h2.2⟩
  refine ⟨⟨exp (-(1 / ne) * contact _), exp_pos _, ?_, lim de (fun r => exp_pos _) lee, fun r hr => ?_⟩,
    ⟨exp (-(Zf / ne) * contact _), exp_pos _, ?_, lim di (fun r => exp_pos _) lii, fun r hr => ?_⟩,
    ⟨exp (1 / sqrt (ne / Zf * ne) * contact _), ?_, lim dx (fun r => exp_pos _) (gEi_structure h), fun r hr => ?_⟩⟩
  · rw [exp_lt_one_iff, neg_mul, neg_neg_iff_pos]; positivity
  · have := bnd de (fun r => exp_pos _) (fun k hk => by linarith [(sAD_bounds (u := u) h hk.ne').2.2.2.1]) lee r hr
    rw [abs_neg, abs_of_pos (by positivity)] at this
    rw [one_div (exp _), ← exp_neg, neg_mul, neg_neg]
    exact this
  · rw [exp_lt_one_iff, neg_mul, neg_neg_iff_pos]; positivity
  · have := bnd di (fun r => exp_pos _) (fun k hk => by linarith [(sAD_bounds (u := u) h hk.ne').2.1]) lii r hr
    rw [abs_neg, abs_of_pos (by positivity)] at this
    rw [one_div (exp _), ← exp_neg, neg_mul, neg_neg]
    exact this
  · rw [one_lt_exp_iff]
    have : 0 < sqrt (ne / Zf * ne) := sqrt_pos.2 (by positivity)
    positivity
  · have := bnd dx (fun r => exp_pos _) (fun k hk => (sAD_bounds (u := u) h hk.ne').2.2.2.2.1) (gEi_structure h) r hr
    rw [abs_of_nonneg (by positivity)] at this
    rw [one_div (exp _), ← exp_neg]
    exact this

example : Tendsto (fun r => gIi unitConsts r 1 1 3 5 (3 / 2)) atTop (𝓝 1) :=
  (pair_large ⟨by norm_num, by norm_num, by norm_num, by norm_num, by norm_num⟩).2.1

end

end Verif.Ssf
