/-
Properties C83 and C109: the static dielectric function at long wave lengths.
-/
import Verif.Props.FSum
import Verif.Props.ScreeningLength

set_option autoImplicit false

namespace Verif.Lindhard

open Real MeasureTheory Set Filter Topology

theorem wgt_slope (eta x : ℝ) :
    Tendsto (fun kap : ℝ => wgt eta kap x / kap) (𝓝[>] 0) (𝓝 (2 * phi eta x)) := by
  have h1 : HasDerivAt (fun kap : ℝ => wgt eta kap x) (2 * phi eta x) 0 := by
    have a : HasDerivAt (fun kap : ℝ => x - kap) (-1) 0 := (hasDerivAt_id (0 : ℝ)).const_sub x
    have b : HasDerivAt (fun kap : ℝ => x + kap) 1 0 := (hasDerivAt_id (0 : ℝ)).const_add x
    have pa : HasDerivAt (psi eta) (-phi eta x) (x - 0) := by rw [sub_zero]; exact psi_hasDerivAt eta x
    have pb : HasDerivAt (psi eta) (-phi eta x) (x + 0) := by rw [add_zero]; exact psi_hasDerivAt eta x
    have h := (pa.comp 0 a).sub (pb.comp 0 b)
    have e : -phi eta x * -1 - -phi eta x * 1 = 2 * phi eta x := by ring
    rw [e] at h
    exact h
  have h2 := h1.tendsto_slope_zero_right
  have h0 : wgt eta 0 x = 0 := by simp [wgt]
  refine h2.congr fun kap => ?_
  rw [zero_add, h0, sub_zero, smul_eq_mul]
  ring

/-- The inverse moment of the weight at long wave lengths. -/
theorem mass_small (eta : ℝ) :
    Tendsto (fun kap : ℝ => mass eta kap / kap) (𝓝[>] 0)
      (𝓝 (4 * ∫ y in Ioi (0 : ℝ), 1 / (exp (y ^ 2 - eta) + 1))) := by
  rw [← integral_const_mul]
  have e : ∀ kap : ℝ, mass eta kap / kap = ∫ x in Ioi (0 : ℝ), wgt eta kap x / kap / x := by
    intro kap
    unfold mass dens
    rw [← integral_div]
    congr 1
    ext x
    ring
  simp only [e]
  refine tendsto_integral_filter_of_dominated_convergence
    (fun x => 4 * exp (eta + 1) * exp (-(1 / 2) * x ^ 2)) ?_ ?_ ?_ ?_
  · refine Eventually.of_forall fun kap => ?_
    exact (((wgt_continuous eta kap).measurable.div_const _).div measurable_id).aestronglyMeasurable
  · have h1 : ∀ᶠ kap : ℝ in 𝓝[>] 0, kap < 1 := nhdsWithin_le_nhds (Iio_mem_nhds one_pos)
    filter_upwards [self_mem_nhdsWithin, h1] with kap hk hk1
    have hk' : 0 < kap := hk
    refine (ae_restrict_mem measurableSet_Ioi).mono fun x hx => ?_
    have hx' : 0 < x := hx
    have hw := wgt_le (eta := eta) hk'.le hx'.le
    have h0 := wgt_nonneg (eta := eta) hk'.le hx'.le
    rw [norm_eq_abs, abs_of_nonneg (by positivity), div_div, div_le_iff₀ (by positivity)]
    refine hw.trans ?_
    have : exp (eta - (x - kap) ^ 2) ≤ exp (eta + 1) * exp (-(1 / 2) * x ^ 2) := by
      rw [← exp_add, exp_le_exp]
      nlinarith [sq_nonneg (x - 2 * kap)]
    calc _ = 4 * exp (eta - (x - kap) ^ 2) * (kap * x) := by ring
      _ ≤ 4 * (exp (eta + 1) * exp (-(1 / 2) * x ^ 2)) * (kap * x) := by gcongr
      _ = _ := by ring
  · exact ((integrable_exp_neg_mul_sq (by norm_num : (0 : ℝ) < 1 / 2)).const_mul _).integrableOn
  · refine (ae_restrict_mem measurableSet_Ioi).mono fun x hx => ?_
    have hx' : 0 < x := hx
    have h := (wgt_slope eta x).div_const x
    have e2 : 2 * phi eta x / x = 4 * (1 / (exp (x ^ 2 - eta) + 1)) := by
      unfold phi
      field_simp
      ring
    rwa [e2] at h

end Verif.Lindhard

namespace Verif.Resp

open Real Verif.Expt Verif.Ipd Verif.FermiInt Filter Topology Set MeasureTheory Verif.Lindhard

variable (u : Consts)

theorem exact_red {T : ℝ} (hT : 0 < T) (mu : ℝ) :
    invScreeningExact u T mu ^ 2 = u.e ^ 2 * u.me * pTh u T / (π ^ 2 * u.eps0 * u.hbar ^ 3) *
      ∫ y in Ioi (0 : ℝ), 1 / (exp (y ^ 2 - mu / (u.kB * T)) + 1) := by
  have hm := u.me_pos
  have hB := u.kB_pos
  have hh := u.hbar_pos
  have h0 := u.eps0_pos
  have he := u.e_pos
  have hπ := pi_pos
  have hτ : 0 < u.kB * T := by positivity
  have hp := pTh_pos u hT
  have h1 := integral_comp_rpow_Ioi_of_pos (p := 2) (g := fun ε : ℝ =>
    ε ^ (-1 / 2 : ℝ) * (exp (ε - mu / (u.kB * T)) + 1)⁻¹) (by norm_num)
  have h2 := integral_comp_mul_left_Ioi (fun ε : ℝ =>
    ε ^ (-1 / 2 : ℝ) * (exp ((ε - mu) / (u.kB * T)) + 1)⁻¹) 0 hτ
  rw [mul_zero, smul_eq_mul] at h2
  have e1 : ∫ x in Ioi (0 : ℝ), (u.kB * T * x) ^ (-1 / 2 : ℝ) *
      (exp ((u.kB * T * x - mu) / (u.kB * T)) + 1)⁻¹ =
      (u.kB * T) ^ (-1 / 2 : ℝ) * ∫ ε in Ioi (0 : ℝ),
        ε ^ (-1 / 2 : ℝ) * (exp (ε - mu / (u.kB * T)) + 1)⁻¹ := by
    rw [← integral_const_mul]
    refine setIntegral_congr_fun measurableSet_Ioi fun x hx => ?_
    have hx' : 0 < x := hx
    rw [mul_rpow hτ.le hx'.le]
    have : (u.kB * T * x - mu) / (u.kB * T) = x - mu / (u.kB * T) := by field_simp
    rw [this]
    ring
  have e2 : ∫ x in Ioi (0 : ℝ), (2 * x ^ ((2 : ℝ) - 1)) • ((x ^ (2 : ℝ)) ^ (-1 / 2 : ℝ) *
      (exp (x ^ (2 : ℝ) - mu / (u.kB * T)) + 1)⁻¹) =
      2 * ∫ y in Ioi (0 : ℝ), 1 / (exp (y ^ 2 - mu / (u.kB * T)) + 1) := by
    rw [← integral_const_mul]
    refine setIntegral_congr_fun measurableSet_Ioi fun x hx => ?_
    have hx' : 0 < x := hx
    simp only [smul_eq_mul]
    rw [← rpow_mul hx'.le, show (2 : ℝ) * (-1 / 2) = -1 by norm_num, show (2 : ℝ) - 1 = 1 by norm_num,
      rpow_one, rpow_neg_one, rpow_two]
    field_simp
  rw [e1] at h2
  rw [e2] at h1
  have hJ : 0 ≤ ∫ ε in Ioi (0 : ℝ), ε ^ (-1 / 2 : ℝ) * (exp ((ε - mu) / (u.kB * T)) + 1)⁻¹ :=
    setIntegral_nonneg measurableSet_Ioi fun ε hε => by
      have : 0 < ε := hε
      positivity
  unfold invScreeningExact
  rw [sq_sqrt (by positivity)]
  have h3 : ∫ ε in Ioi (0 : ℝ), ε ^ (-1 / 2 : ℝ) * (exp ((ε - mu) / (u.kB * T)) + 1)⁻¹ =
      sqrt (u.kB * T) * (2 * ∫ y in Ioi (0 : ℝ), 1 / (exp (y ^ 2 - mu / (u.kB * T)) + 1)) := by
    rw [h1]
    have h4 : (u.kB * T) ^ (-1 / 2 : ℝ) = (sqrt (u.kB * T))⁻¹ := by
      rw [show (-1 / 2 : ℝ) = -(1 / 2) by norm_num, rpow_neg hτ.le, ← sqrt_eq_rpow]
    rw [h4] at h2
    have h5 := mul_self_sqrt hτ.le
    have h6 := sqrt_pos.2 hτ
    have h7 : (u.kB * T)⁻¹ ≠ 0 := by positivity
    apply mul_left_cancel₀ h7
    rw [← h2]
    generalize (∫ ε in Ioi (0 : ℝ), ε ^ (-1 / 2 : ℝ) * (exp (ε - mu / (u.kB * T)) + 1)⁻¹) = I
    generalize u.kB * T = t at *
    field_simp
    rw [sq, h5, mul_comm]
  rw [h3, rpow_three_half hm.le]
  have hps : pTh u T = sqrt 2 * sqrt u.me * sqrt (u.kB * T) := by
    unfold pTh
    rw [show 2 * u.me * u.kB * T = 2 * u.me * (u.kB * T) by ring, sqrt_mul (by positivity),
      sqrt_mul (by norm_num)]
  rw [hps]
  generalize (∫ y in Ioi (0 : ℝ), 1 / (exp (y ^ 2 - mu / (u.kB * T)) + 1)) = J
  have a4 : 0 < sqrt (2 : ℝ) := by positivity
  have b4 : sqrt (2 : ℝ) ^ 2 = 2 := sq_sqrt (by norm_num)
  generalize sqrt (u.kB * T) = s1 at *
  generalize sqrt u.me = s2 at *
  generalize sqrt (2 : ℝ) = s4 at *
  field_simp
  rw [b4]
  ring

/-- C83, C109: at long wave lengths the static dielectric function screens with the exact inverse
screening length. -/
theorem epsRPA_longWave {T : ℝ} (hT : 0 < T) (mu : ℝ) (unsave : Bool) :
    Tendsto (fun k : ℝ => k ^ 2 * ((epsRPANoDamping u k 0 mu T unsave).re - 1)) (𝓝[>] 0)
      (𝓝 (invScreeningExact u T mu ^ 2)) := by
  have hm := u.me_pos
  have hh := u.hbar_pos
  have h0 := u.eps0_pos
  have he := u.e_pos
  have hπ := pi_pos
  have hp := pTh_pos u hT
  have hk : Tendsto (fun k : ℝ => kapRewrite u k T) (𝓝[>] 0) (𝓝[>] 0) := by
    rw [tendsto_nhdsWithin_iff]
    constructor
    · have hc : Continuous fun k : ℝ => kapRewrite u k T := by
        unfold kapRewrite
        fun_prop
      have := (hc.tendsto 0).mono_left (nhdsWithin_le_nhds (s := Ioi (0 : ℝ)))
      have e : kapRewrite u 0 T = 0 := by simp [kapRewrite]
      rwa [e] at this
    · filter_upwards [self_mem_nhdsWithin] with k hk
      exact kapRewrite_pos u hk hT
  have h := ((mass_small (mu / (u.kB * T))).comp hk).const_mul
    (u.e ^ 2 * u.me * pTh u T / (π ^ 2 * u.eps0 * u.hbar ^ 3) / 4)
  rw [exact_red u hT]
  have e : u.e ^ 2 * u.me * pTh u T / (π ^ 2 * u.eps0 * u.hbar ^ 3) / 4 *
      (4 * ∫ y in Ioi (0 : ℝ), 1 / (exp (y ^ 2 - mu / (u.kB * T)) + 1)) =
      u.e ^ 2 * u.me * pTh u T / (π ^ 2 * u.eps0 * u.hbar ^ 3) *
      ∫ y in Ioi (0 : ℝ), 1 / (exp (y ^ 2 - mu / (u.kB * T)) + 1) := by ring
  rw [e] at h
  refine h.congr' ?_
  filter_upwards [self_mem_nhdsWithin] with k hk0
  have hk' : 0 < k := hk0
  have hus : epsRPANoDamping u k 0 mu T unsave = epsRPANoDamping u k 0 mu T true := by
    cases unsave
    · exact (epsRPANoDamping_unsave u hk' hT 0 mu).symm
    · rfl
  rw [hus, epsRPANoDamping_static u hk' hT, Complex.ofReal_re, Function.comp_apply]
  generalize mass _ _ = M
  rw [kapRewrite_eq u k hT]
  unfold cst
  rw [thermalUnit_eq u hT]
  generalize pTh u T = p at *
  field_simp
  ring

/-- C83: the limit is the change of the density with the chemical potential. -/
theorem epsRPA_compressibility {T : ℝ} (hT : 0 < T) (mu : ℝ) (unsave : Bool) :
    Tendsto (fun k : ℝ => k ^ 2 * ((epsRPANoDamping u k 0 mu T unsave).re - 1)) (𝓝[>] 0)
      (𝓝 (u.e ^ 2 / u.eps0 * deriv (gasDensity u T) mu)) := by
  have h0 := u.eps0_pos
  have he := u.e_pos
  have h := epsRPA_longWave u hT mu unsave
  rw [(exact_compressibility u hT mu).deriv]
  convert h using 2
  field_simp

-- The function differs from one.
example (mu : ℝ) : 0 < (epsRPANoDamping u 1 0 mu 1 true).re - 1 := by
  rw [epsRPANoDamping_static u one_pos one_pos, Complex.ofReal_re, add_sub_cancel_left]
  have h1 := cst_pos u (k := 1) one_pos (one_pos : (0 : ℝ) < 1)
  have h2 := mass_pos (mu / (u.kB * 1)) (kapRewrite_pos u (k := 1) one_pos (one_pos : (0 : ℝ) < 1))
  positivity

end Verif.Resp
