/-
Properties of the Debye-Waller factor.
-/
import Verif.Model.StaticSf
import Verif.Props.Setup
import Mathlib.Analysis.SpecialFunctions.Trigonometric.DerivHyp
import Mathlib.Analysis.SpecialFunctions.Integrals.Basic
import Mathlib.MeasureTheory.Integral.IntervalIntegral.Basic

set_option autoImplicit false

namespace Verif.Ssf

open Real Filter Topology Set MeasureTheory Verif.Expt

variable {u : Consts}

/-! ### Specification: the Debye model of the lattice -/

/-- Mean square displacement, along one direction, of an atom of mass `m` in a lattice with Debye
temperature `theta`: the average over the modes, of which the density is `3 s²` at the fraction `s` of
the Debye frequency, of the displacement `ħ² / (2 m k_B theta s) coth(theta s / (2 T))` of an
oscillator. -/
noncomputable def meanSquare (u : Consts) (m theta T : ℝ) : ℝ :=
  ∫ s in (0 : ℝ)..1, 3 * s ^ 2 * (u.hbar ^ 2 / (2 * m * u.kB * theta * s) *
    (cosh (theta * s / (2 * T)) / sinh (theta * s / (2 * T))))

/-! ### The Debye integral -/

theorem exp_sub_one_pos {x : ℝ} (hx : 0 < x) : 0 < exp x - 1 := by
  have := add_one_lt_exp hx.ne'
  linarith

theorem bose_mem {x : ℝ} (hx : 0 < x) : 0 < x / (exp x - 1) ∧ x / (exp x - 1) ≤ 1 ∧ 1 - x / 2 ≤ x / (exp x - 1) := by
  have h1 := exp_sub_one_pos hx
  refine ⟨by positivity, ?_, ?_⟩
  · rw [div_le_one h1]
    have := add_one_le_exp x
    linarith
  · rw [le_div_iff₀ h1]
    -- (1 - x/2) (e^x - 1) ≤ x
    have h2 : (2 - x) * exp x ≤ 2 + x := by
      -- the difference vanishes at 0 and grows
      have hm : MonotoneOn (fun y : ℝ => 2 + y - (2 - y) * exp y) (Ici 0) := by
        apply monotoneOn_of_deriv_nonneg (convex_Ici 0)
        · fun_prop
        · exact ((differentiable_const 2).add differentiable_id).sub
            (((differentiable_const 2).sub differentiable_id).mul differentiable_exp) |>.differentiableOn
        · intro y hy
          rw [interior_Ici] at hy
          have hd : HasDerivAt (fun y : ℝ => 2 + y - (2 - y) * exp y)
              (0 + 1 - ((0 - 1) * exp y + (2 - y) * exp y)) y :=
            ((hasDerivAt_const y 2).add (hasDerivAt_id y)).sub
              (((hasDerivAt_const y 2).sub (hasDerivAt_id y)).mul (hasDerivAt_exp y))
          rw [hd.deriv]
          have h3 := add_one_le_exp (-y)
          have h4 : exp (-y) * exp y = 1 := by rw [← exp_add]; simp
          have h5 := exp_pos y
          nlinarith [mul_le_mul_of_nonneg_right h3 h5.le]
      have := hm (self_mem_Ici) (mem_Ici.2 hx.le) hx.le
      simp at this
      linarith
    linarith

/-- The thermal part in the Debye integral, at the fraction `s` of the Debye frequency. -/
noncomputable def boseJ (t : ℝ) : ℝ := ∫ s in (0 : ℝ)..1, s / (exp (s / t) - 1)

theorem bose_measurable (t : ℝ) : Measurable fun s : ℝ => s / (exp (s / t) - 1) := by fun_prop

theorem bose_scaled {t s : ℝ} (ht : 0 < t) (hs : 0 < s) :
    0 < s / (exp (s / t) - 1) ∧ s / (exp (s / t) - 1) ≤ t ∧ t - s / 2 ≤ s / (exp (s / t) - 1) := by
  obtain ⟨h1, h2, h3⟩ := bose_mem (div_pos hs ht)
  have e : s / (exp (s / t) - 1) = t * (s / t / (exp (s / t) - 1)) := by
    field_simp
  rw [e]
  refine ⟨mul_pos ht h1, by nlinarith, ?_⟩
  have : t - s / 2 = t * (1 - s / t / 2) := by field_simp
  rw [this]
  exact mul_le_mul_of_nonneg_left h3 ht.le

theorem bose_integrable {t : ℝ} (ht : 0 < t) :
    IntervalIntegrable (fun s : ℝ => s / (exp (s / t) - 1)) volume 0 1 := by
  rw [intervalIntegrable_iff_integrableOn_Ioc_of_le zero_le_one]
  refine Measure.integrableOn_of_bounded (M := t) (by simp) (bose_measurable t).aestronglyMeasurable ?_
  filter_upwards [ae_restrict_mem measurableSet_Ioc] with s hs
  have := bose_scaled ht hs.1
  rw [norm_eq_abs, abs_of_pos this.1]
  exact this.2.1

theorem boseJ_bounds {t : ℝ} (ht : 0 < t) : 0 < boseJ t ∧ boseJ t ≤ t ∧ t - 1 / 4 ≤ boseJ t := by
  have hi := bose_integrable ht
  refine ⟨?_, ?_, ?_⟩
  · exact intervalIntegral.intervalIntegral_pos_of_pos_on hi (fun s hs => (bose_scaled ht hs.1).1) one_pos
  · have h1 : boseJ t ≤ ∫ _ in (0 : ℝ)..1, t := by
      refine intervalIntegral.integral_mono_on_of_le_Ioo zero_le_one hi (by simp) fun s hs => (bose_scaled ht hs.1).2.1
    simpa using h1
  · have h1 : (∫ s in (0 : ℝ)..1, (t - s / 2)) ≤ boseJ t := by
      refine intervalIntegral.integral_mono_on_of_le_Ioo zero_le_one ?_ hi fun s hs => (bose_scaled ht hs.1).2.2
      exact Continuous.intervalIntegrable (by fun_prop) _ _
    have h2 : (∫ s in (0 : ℝ)..1, (t - s / 2)) = t - 1 / 4 := by
      rw [intervalIntegral.integral_sub (by simp) (Continuous.intervalIntegrable (by fun_prop) _ _),
        intervalIntegral.integral_div, integral_id]
      norm_num
    linarith

theorem boseJ_lt {t t' : ℝ} (ht : 0 < t) (h : t < t') : boseJ t < boseJ t' := by
  have ht' := ht.trans h
  have h1 : 0 < ∫ s in (0 : ℝ)..1, (s / (exp (s / t') - 1) - s / (exp (s / t) - 1)) := by
    refine intervalIntegral.intervalIntegral_pos_of_pos_on ((bose_integrable ht').sub (bose_integrable ht)) ?_ one_pos
    intro s hs
    have h2 : exp (s / t') < exp (s / t) := exp_lt_exp.2 (div_lt_div_of_pos_left hs.1 ht h)
    have h3 := exp_sub_one_pos (div_pos hs.1 ht')
    have := div_lt_div_of_pos_left hs.1 h3 (by linarith : exp (s / t') - 1 < exp (s / t) - 1)
    linarith
  rw [intervalIntegral.integral_sub (bose_integrable ht') (bose_integrable ht)] at h1
  unfold boseJ
  linarith

/-- The function `phi` of the code. -/
theorem dwPhi_eq {theta T : ℝ} (h1 : 0 < theta) (h2 : 0 < T) :
    T / theta * dwPhi (theta / T) = boseJ (T / theta) := by
  have hy : 0 < theta / T := div_pos h1 h2
  have e := intervalIntegral.integral_comp_mul_left (a := 0) (b := 1) (fun x : ℝ => x / (exp x - 1)) hy.ne'
  rw [mul_zero, mul_one] at e
  have e2 : ∀ s : ℝ, theta / T * s / (exp (theta / T * s) - 1) = theta / T * (s / (exp (s / (T / theta)) - 1)) := by
    intro s
    have : theta / T * s = s / (T / theta) := by field_simp
    rw [this, show theta / T * (s / (exp (s / (T / theta)) - 1)) = theta / T * s / (exp (s / (T / theta)) - 1) by ring, this]
  simp only [e2, intervalIntegral.integral_const_mul, smul_eq_mul] at e
  unfold dwPhi boseJ
  have e3 : (1 / (theta / T)) * ∫ x in (0 : ℝ)..theta / T, x / (exp x - 1) =
      theta / T * ∫ s in (0 : ℝ)..1, s / (exp (s / (T / theta)) - 1) := by
    rw [e]; simp
  rw [e3]
  field_simp

theorem coth_eq {x : ℝ} (hx : 0 < x) : cosh (x / 2) / sinh (x / 2) = 1 + 2 / (exp x - 1) := by
  have h1 := exp_sub_one_pos hx
  have h2 : 0 < sinh (x / 2) := sinh_pos_iff.2 (by linarith)
  have e : exp x = exp (x / 2) * exp (x / 2) := by rw [← exp_add]; congr 1; ring
  have e' : exp (x / 2) * exp (-(x / 2)) = 1 := by rw [← exp_add]; simp
  rw [div_eq_iff h2.ne', cosh_eq, sinh_eq]
  rw [e] at h1 ⊢
  have h3 := exp_pos (x / 2)
  have e4 : exp (-(x / 2)) = 1 / exp (x / 2) := by field_simp; linarith
  rw [e4]
  generalize exp (x / 2) = y at *
  have h5 : y * y - 1 ≠ 0 := h1.ne'
  have e6 : 1 + 2 / (y * y - 1) = (y * y + 1) / (y * y - 1) := by
    rw [eq_div_iff h5, add_mul, div_mul_cancel₀ _ h5]; ring
  have e7 : (y - 1 / y) / 2 = (y * y - 1) / (2 * y) := by field_simp
  rw [e6, e7, div_mul_div_comm, mul_comm (y * y - 1), mul_div_mul_right _ _ h5]
  field_simp

theorem meanSquare_eq {m theta T : ℝ} (hm : 0 < m) (h1 : 0 < theta) (h2 : 0 < T) :
    meanSquare u m theta T = 3 * u.hbar ^ 2 / (m * u.kB * theta) * (boseJ (T / theta) + 1 / 4) := by
  have hB := u.kB_pos
  have ht : 0 < T / theta := div_pos h2 h1
  have key : meanSquare u m theta T =
      ∫ s in (0 : ℝ)..1, 3 * u.hbar ^ 2 / (m * u.kB * theta) * (s / (exp (s / (T / theta)) - 1) + s / 2) := by
    unfold meanSquare
    refine intervalIntegral.integral_congr_uIoo fun s hs => ?_
    rw [uIoo_of_le zero_le_one] at hs
    have hs0 := hs.1
    have hx : 0 < theta * s / T := by positivity
    have e1 : theta * s / (2 * T) = theta * s / T / 2 := by field_simp
    have e2 : s / (T / theta) = theta * s / T := by field_simp
    rw [e1, coth_eq hx, e2]
    have := exp_sub_one_pos hx
    generalize exp (theta * s / T) - 1 = E at *
    field_simp
    ring
  rw [key, intervalIntegral.integral_const_mul, intervalIntegral.integral_add (bose_integrable ht)
    (Continuous.intervalIntegrable (by fun_prop) _ _), intervalIntegral.integral_div, integral_id]
  unfold boseJ
  norm_num

/-! ### The factor -/

section

variable {NA k M theta T : ℝ}

/-- C68: the factor is `exp(- k² ⟨x²⟩)` with the mean square displacement of the Debye model for atoms of
mass `M / NA`. -/
theorem debyeWaller_spec (hN : 0 < NA) (hM : 0 < M) (h1 : 0 < theta) (h2 : 0 < T) :
    debyeWaller u NA k M theta T = exp (-(k ^ 2 * meanSquare u (M / NA) theta T)) := by
  have hB := u.kB_pos
  rw [meanSquare_eq (div_pos hM hN) h1 h2]
  unfold debyeWaller
  rw [dwPhi_eq h1 h2]
  field_simp

theorem meanSquare_pos {m : ℝ} (hm : 0 < m) (h1 : 0 < theta) (h2 : 0 < T) : 0 < meanSquare u m theta T := by
  have hB := u.kB_pos; have hh := u.hbar_pos
  rw [meanSquare_eq hm h1 h2]
  have := (boseJ_bounds (div_pos h2 h1)).1
  positivity

/-- C68: the factor lies between zero and one. -/
theorem debyeWaller_mem (hN : 0 < NA) (hM : 0 < M) (h1 : 0 < theta) (h2 : 0 < T) (hk : k ≠ 0) :
    0 < debyeWaller u NA k M theta T ∧ debyeWaller u NA k M theta T < 1 := by
  rw [debyeWaller_spec hN hM h1 h2]
  refine ⟨exp_pos _, exp_lt_one_iff.2 ?_⟩
  have := meanSquare_pos (u := u) (div_pos hM hN) h1 h2
  have : 0 < k ^ 2 * meanSquare u (M / NA) theta T := by positivity
  linarith

/-- C68: scattering by larger wavenumbers, and by hotter lattices, is weaker. -/
theorem debyeWaller_anti (hN : 0 < NA) (hM : 0 < M) (h1 : 0 < theta) (h2 : 0 < T) (hk : 0 < k) :
    (∀ k', k < k' → debyeWaller u NA k' M theta T < debyeWaller u NA k M theta T) ∧
      ∀ T', T < T' → debyeWaller u NA k M theta T' < debyeWaller u NA k M theta T := by
  have hB := u.kB_pos; have hh := u.hbar_pos
  have hm := div_pos hM hN
  refine ⟨fun k' hkk => ?_, fun T' hT => ?_⟩
  · rw [debyeWaller_spec hN hM h1 h2, debyeWaller_spec hN hM h1 h2, exp_lt_exp, neg_lt_neg_iff]
    exact mul_lt_mul_of_pos_right (pow_lt_pow_left₀ hkk hk.le two_ne_zero) (meanSquare_pos hm h1 h2)
  · rw [debyeWaller_spec hN hM h1 h2, debyeWaller_spec hN hM h1 (h2.trans hT), exp_lt_exp, neg_lt_neg_iff,
      meanSquare_eq hm h1 h2, meanSquare_eq hm h1 (h2.trans hT)]
    have := boseJ_lt (div_pos h2 h1) (div_lt_div_of_pos_right hT h1)
    have hc : 0 < 3 * u.hbar ^ 2 / (M / NA * u.kB * theta) := by positivity
    exact mul_lt_mul_of_pos_left (mul_lt_mul_of_pos_left (by linarith) hc) (by positivity)

/-- C68: the displacement lies between the one of classical atoms and the sum of this and the motion at
zero temperature, and is never below either. -/
theorem meanSquare_bounds {m : ℝ} (hm : 0 < m) (h1 : 0 < theta) (h2 : 0 < T) :
    3 * u.hbar ^ 2 * T / (m * u.kB * theta ^ 2) ≤ meanSquare u m theta T ∧
      3 * u.hbar ^ 2 / (4 * m * u.kB * theta) < meanSquare u m theta T ∧
      meanSquare u m theta T ≤
        3 * u.hbar ^ 2 * T / (m * u.kB * theta ^ 2) + 3 * u.hbar ^ 2 / (4 * m * u.kB * theta) := by
  have hB := u.kB_pos; have hh := u.hbar_pos
  rw [meanSquare_eq hm h1 h2]
  obtain ⟨a, b, c⟩ := boseJ_bounds (div_pos h2 h1)
  have hc : 0 < 3 * u.hbar ^ 2 / (m * u.kB * theta) := by positivity
  have e1 : 3 * u.hbar ^ 2 * T / (m * u.kB * theta ^ 2) = 3 * u.hbar ^ 2 / (m * u.kB * theta) * (T / theta) := by
    field_simp
  have e2 : 3 * u.hbar ^ 2 / (4 * m * u.kB * theta) = 3 * u.hbar ^ 2 / (m * u.kB * theta) * (1 / 4) := by
    field_simp
  rw [e1, e2, ← mul_add]
  exact ⟨mul_le_mul_of_nonneg_left (by linarith) hc.le, mul_lt_mul_of_pos_left (by linarith) hc,
    mul_le_mul_of_nonneg_left (by linarith) hc.le⟩

/-- C68: the classical limit (Dulong and Petit): `⟨x²⟩ / T` tends to `3 ħ² / (m k_B θ²)`. -/
theorem meanSquare_hot {m : ℝ} (hm : 0 < m) (h1 : 0 < theta) :
    Tendsto (fun T => meanSquare u m theta T / T) atTop (𝓝 (3 * u.hbar ^ 2 / (m * u.kB * theta ^ 2))) := by
  have hB := u.kB_pos; have hh := u.hbar_pos
  have h3 : Tendsto (fun T : ℝ => 3 * u.hbar ^ 2 / (m * u.kB * theta ^ 2) + 3 * u.hbar ^ 2 / (4 * m * u.kB * theta) * T⁻¹)
      atTop (𝓝 (3 * u.hbar ^ 2 / (m * u.kB * theta ^ 2) + 3 * u.hbar ^ 2 / (4 * m * u.kB * theta) * 0)) :=
    tendsto_const_nhds.add (tendsto_inv_atTop_zero.const_mul _)
  rw [mul_zero, add_zero] at h3
  refine tendsto_of_tendsto_of_tendsto_of_le_of_le' tendsto_const_nhds h3 ?_ ?_
  · filter_upwards [eventually_gt_atTop 0] with T hT
    rw [le_div_iff₀ hT]
    have := (meanSquare_bounds (u := u) hm h1 hT).1
    have e : 3 * u.hbar ^ 2 / (m * u.kB * theta ^ 2) * T = 3 * u.hbar ^ 2 * T / (m * u.kB * theta ^ 2) := by ring
    rwa [e]
  · filter_upwards [eventually_gt_atTop 0] with T hT
    rw [div_le_iff₀ hT]
    have := (meanSquare_bounds (u := u) hm h1 hT).2.2
    have e : (3 * u.hbar ^ 2 / (m * u.kB * theta ^ 2) + 3 * u.hbar ^ 2 / (4 * m * u.kB * theta) * T⁻¹) * T =
        3 * u.hbar ^ 2 * T / (m * u.kB * theta ^ 2) + 3 * u.hbar ^ 2 / (4 * m * u.kB * theta) := by
      field_simp
    rwa [e]

/-- C68: the motion at zero temperature. -/
theorem meanSquare_cold {m : ℝ} (hm : 0 < m) (h1 : 0 < theta) :
    Tendsto (fun T => meanSquare u m theta T) (𝓝[>] 0) (𝓝 (3 * u.hbar ^ 2 / (4 * m * u.kB * theta))) := by
  have hB := u.kB_pos; have hh := u.hbar_pos
  have h3 : Tendsto (fun T : ℝ => 3 * u.hbar ^ 2 * T / (m * u.kB * theta ^ 2) + 3 * u.hbar ^ 2 / (4 * m * u.kB * theta))
      (𝓝[>] 0) (𝓝 (3 * u.hbar ^ 2 * 0 / (m * u.kB * theta ^ 2) + 3 * u.hbar ^ 2 / (4 * m * u.kB * theta))) := by
    have : Continuous fun T : ℝ => 3 * u.hbar ^ 2 * T / (m * u.kB * theta ^ 2) + 3 * u.hbar ^ 2 / (4 * m * u.kB * theta) := by
      fun_prop
    exact (this.tendsto 0).mono_left nhdsWithin_le_nhds
  simp only [mul_zero, zero_div, zero_add] at h3
  refine tendsto_of_tendsto_of_tendsto_of_le_of_le' tendsto_const_nhds h3 ?_ ?_
  · filter_upwards [self_mem_nhdsWithin] with T hT
    exact (meanSquare_bounds (u := u) hm h1 hT).2.1.le
  · filter_upwards [self_mem_nhdsWithin] with T hT
    exact (meanSquare_bounds (u := u) hm h1 hT).2.2

/-- C68: the structure factor of a solid lies between the structure factor of the plasma and that of
the perfect lattice, tends to the latter for small wavenumbers and is not negative. -/
theorem debyeWallerSolid_spec (hN : 0 < NA) (hM : 0 < M) (h1 : 0 < theta) (h2 : 0 < T) (hk : k ≠ 0) {S b : ℝ}
    (hS : 0 ≤ S) (hb : 0 ≤ b) :
    min S (S * b) ≤ debyeWallerSolid (debyeWaller u NA k M theta T) S b ∧
      debyeWallerSolid (debyeWaller u NA k M theta T) S b ≤ max S (S * b) ∧
      0 ≤ debyeWallerSolid (debyeWaller u NA k M theta T) S b := by
  obtain ⟨h3, h4⟩ := debyeWaller_mem (u := u) hN hM h1 h2 hk
  generalize debyeWaller u NA k M theta T = w at *
  unfold debyeWallerSolid
  have e : S * ((1 - w) + w * b) = (1 - w) * S + w * (S * b) := by ring
  have hSb : 0 ≤ S * b := mul_nonneg hS hb
  refine ⟨?_, ?_, ?_⟩
  · rw [e]
    nlinarith [min_le_left S (S * b), min_le_right S (S * b)]
  · rw [e]
    nlinarith [le_max_left S (S * b), le_max_right S (S * b)]
  · rw [e]
    have : 0 ≤ 1 - w := by linarith
    positivity

theorem debyeWaller_small (hN : 0 < NA) (hM : 0 < M) (h1 : 0 < theta) (h2 : 0 < T) :
    Tendsto (fun k => debyeWaller u NA k M theta T) (𝓝 0) (𝓝 1) := by
  simp only [debyeWaller_spec hN hM h1 h2]
  have : Continuous fun k : ℝ => exp (-(k ^ 2 * meanSquare u (M / NA) theta T)) := by fun_prop
  simpa using this.tendsto 0

/-- Hypotheses hold for instance for unit parameters. -/
example : debyeWaller unitConsts 1 2 1 1 1 < debyeWaller unitConsts 1 1 1 1 1 ∧
    debyeWaller unitConsts 1 1 1 1 2 < debyeWaller unitConsts 1 1 1 1 1 ∧
    debyeWaller unitConsts 1 1 1 1 1 < 1 :=
  ⟨(debyeWaller_anti one_pos one_pos one_pos one_pos one_pos).1 2 (by norm_num),
    (debyeWaller_anti one_pos one_pos one_pos one_pos one_pos).2 2 (by norm_num),
    (debyeWaller_mem one_pos one_pos one_pos one_pos one_ne_zero).2⟩

end

end Verif.Ssf
