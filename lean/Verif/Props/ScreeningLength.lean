/-
Property C83, the screening lengths of the electrons.
-/
import Verif.Model.ScreeningLength
import Verif.Props.ElectronScreening
import Verif.Props.PlasmaScales

set_option autoImplicit false

namespace Verif.Resp

open Real Verif.Expt Verif.Ipd Verif.FermiInt Filter Topology Set MeasureTheory

variable (u : Consts)

/-! ### Debye and Hückel -/

theorem slDebye_sq {T n : ℝ} (hT : 0 ≤ T) (hn : 0 ≤ n) :
    slDebye u T n ^ 2 = u.eps0 * u.kB * T / (n * u.e ^ 2) := by
  have := u.kB_pos
  have := u.eps0_pos
  unfold slDebye debyeLength
  simp only [List.map_cons, List.map_nil, List.sum_cons, List.sum_nil, add_zero, one_mul]
  rw [sq_sqrt (by positivity)]

theorem slDebye_pos {T n : ℝ} (hT : 0 < T) (hn : 0 < n) : 0 < slDebye u T n := by
  have := u.kB_pos
  have := u.eps0_pos
  have := u.e_pos
  unfold slDebye debyeLength
  simp only [List.map_cons, List.map_nil, List.sum_cons, List.sum_nil, add_zero, one_mul]
  positivity

/-- C83: the length of the model is the inverse of the classical inverse screening length. -/
theorem nonDegenerate_inverse {T n : ℝ} (hT : 0 < T) (hn : 0 < n) :
    invScreeningNonDegenerate u n T * slDebye u T n = 1 := by
  have := u.kB_pos
  have := u.eps0_pos
  have := u.e_pos
  unfold slDebye debyeLength invScreeningNonDegenerate
  simp only [List.map_cons, List.map_nil, List.sum_cons, List.sum_nil, add_zero, one_mul]
  rw [← sqrt_mul (by positivity), sqrt_eq_one]
  field_simp

/-! ### The exact length -/

theorem exact_sq {T : ℝ} (hT : 0 < T) (mu : ℝ) :
    invScreeningExact u T mu ^ 2 =
      inverseScreeningE u (fun x => fermiIntegral x (-1 / 2)) (fun _ _ => mu) 0 T ^ 2 := by
  have hh := u.hbar_pos
  have hm := u.me_pos
  have hkB := u.kB_pos
  have he := u.e_pos
  have h0 := u.eps0_pos
  have hπ := pi_pos
  have hτ : 0 < u.kB * T := by positivity
  have hF := fermiIntegral_pos (-1 / 2) (by norm_num) (mu / (u.kB * T))
  have hwl : 0 < sqrt (2 * π * 1 * u.hbar ^ 2 / (1 * u.me * 1 * u.kB * T)) := by
    apply sqrt_pos.2; positivity
  have h := scale_integral (-1 / 2) (u.kB * T) (mu / (u.kB * T)) hτ
  rw [div_mul_cancel₀ _ hτ.ne'] at h
  have hi : ∫ t in Ioi (0 : ℝ), t ^ (-1 / 2 : ℝ) / (exp (t - mu / (u.kB * T)) + 1) =
      sqrt π * fermiIntegral (mu / (u.kB * T)) (-1 / 2) := by
    unfold fermiIntegral
    rw [show (-1 / 2 + 1 : ℝ) = 1 / 2 by norm_num, Gamma_one_half_eq]
    rw [mul_div_cancel₀ _ (sqrt_pos.2 hπ).ne']
  have hint : ∫ ε in Ioi (0 : ℝ), ε ^ (-1 / 2 : ℝ) * (exp ((ε - mu) / (u.kB * T)) + 1)⁻¹ =
      sqrt (u.kB * T) * (sqrt π * fermiIntegral (mu / (u.kB * T)) (-1 / 2)) := by
    rw [hi, show (-1 / 2 + 1 : ℝ) = 1 / 2 by norm_num, ← sqrt_eq_rpow] at h
    rw [← h]
    rfl
  unfold invScreeningExact
  simp only [inverseScreeningE]
  rw [hint, show mu * (1 / (1 * u.kB * T)) = mu / (u.kB * T) by ring, wl_cube u hT,
    sq_sqrt (by positivity), sq_sqrt (by positivity), rpow_three_half hm.le]
  rw [mul_assoc u.eps0 u.kB T, sqrt_mul hm.le, sqrt_mul (by norm_num : (0 : ℝ) ≤ 2)]
  generalize fermiIntegral (mu / (u.kB * T)) (-1 / 2) = F at *
  have a1 := sqrt_pos.2 hτ
  have a2 := sqrt_pos.2 hm
  have a3 := sqrt_pos.2 hπ
  have a4 : 0 < sqrt (2 : ℝ) := by positivity
  have b3 := mul_self_sqrt hπ.le
  generalize u.kB * T = τ at *
  generalize sqrt τ = s1 at *
  generalize sqrt u.me = s2 at *
  generalize sqrt (2 : ℝ) = s4 at *
  field_simp
  rw [pow_two, b3]

/-- C83: the exact inverse screening length is the change of the density of the electrons with their
chemical potential. -/
theorem exact_compressibility {T : ℝ} (hT : 0 < T) (mu : ℝ) :
    HasDerivAt (gasDensity u T) (u.eps0 / u.e ^ 2 * invScreeningExact u T mu ^ 2) mu := by
  rw [exact_sq u hT]
  exact screening_compressibility u (fun _ _ => mu) hT

/-- C83: the classical inverse screening length is an upper bound of the exact one. -/
theorem exact_lt_nonDegenerate {T : ℝ} (hT : 0 < T) (mu : ℝ) :
    invScreeningExact u T mu < invScreeningNonDegenerate u (gasDensity u T mu) T := by
  have h := screening_lt_debye u (fun _ _ => mu) (n := 0) hT
  rw [← exact_sq u hT] at h
  unfold invScreeningNonDegenerate
  apply lt_sqrt_of_sq_lt
  convert h using 1
  ring

/-- C83: with the exact Fermi integral in place of its fit, the length for arbitrary degeneracy is the
exact one, at the chemical potential it uses. -/
theorem arbitrary_exact {T : ℝ} (hT : 0 < T) (mu : ℝ → ℝ → ℝ) (n : ℝ) :
    inverseScreeningE u (fun x => fermiIntegral x (-1 / 2)) mu n T = invScreeningExact u T (mu T n) := by
  have h := exact_sq u hT (mu T n)
  have e : inverseScreeningE u (fun x => fermiIntegral x (-1 / 2)) (fun _ _ => mu T n) 0 T =
      inverseScreeningE u (fun x => fermiIntegral x (-1 / 2)) mu n T := rfl
  rw [e] at h
  exact ((sq_eq_sq₀ (sqrt_nonneg _) (sqrt_nonneg _)).1 h).symm

/-- C83: the potential of a screened ion is the bare potential over the static dielectric function
`1 + κ² / q²`. -/
theorem debyePotentialIE_screened {q kappa : ℝ} (Zf : ℝ) (hq : 0 < q) :
    debyePotentialIE u q kappa Zf * (1 + kappa ^ 2 / q ^ 2) = -Zf * vee u q := by
  have h0 := u.eps0_pos
  have : 0 < q ^ 2 + kappa ^ 2 := by positivity
  unfold debyePotentialIE vee coulombFourier
  field_simp

/-! ### Gericke -/

/-- C83: the interpolated temperature makes the screening length larger. -/
theorem slDebye_le_gericke {T n : ℝ} (hT : 0 < T) (hn : 0 < n) : slDebye u T n ≤ slGericke u T n := by
  have hI := (temperatureInterpolation_bounds u hn hT.le (p := 4) (by norm_num))
  have := u.kB_pos
  have := u.eps0_pos
  have := u.e_pos
  unfold slDebye slGericke debyeLength
  simp only [List.map_cons, List.map_nil, List.sum_cons, List.sum_nil, add_zero, one_mul]
  apply sqrt_le_sqrt
  have h1 : T ≤ temperatureInterpolation u n T 4 := le_trans (le_max_left _ _) hI.1
  gcongr

theorem slGericke_sq {T n : ℝ} (hT : 0 < T) (hn : 0 < n) :
    slGericke u T n ^ 2 = u.eps0 * u.kB * temperatureInterpolation u n T 4 / (n * u.e ^ 2) := by
  have hI := (temperatureInterpolation_bounds u hn hT.le (p := 4) (by norm_num))
  have h1 : T ≤ temperatureInterpolation u n T 4 := le_trans (le_max_left _ _) hI.1
  exact slDebye_sq u (by linarith) hn.le

/-- C83: at high temperature the length of Gericke is that of Debye and Hückel. -/
theorem slGericke_classical {n : ℝ} (hn : 0 < n) :
    Tendsto (fun T => slGericke u T n / slDebye u T n) atTop (𝓝 1) := by
  have hkB := u.kB_pos
  have h0 := u.eps0_pos
  have he := u.e_pos
  have hF := fermiTemperature_pos u hn
  have hup : Tendsto (fun T : ℝ => 1 + fermiTemperature u n / T) atTop (𝓝 1) := by
    have := (tendsto_const_nhds (x := fermiTemperature u n)).div_atTop tendsto_id
    simpa using this.const_add 1
  have hr : Tendsto (fun T => temperatureInterpolation u n T 4 / T) atTop (𝓝 1) := by
    refine tendsto_of_tendsto_of_tendsto_of_le_of_le' tendsto_const_nhds hup ?_ ?_
    · filter_upwards [eventually_gt_atTop 0] with T hT
      have hI := (temperatureInterpolation_bounds u hn hT.le (p := 4) (by norm_num))
      rw [le_div_iff₀ hT, one_mul]
      exact le_trans (le_max_left _ _) hI.1
    · filter_upwards [eventually_gt_atTop 0] with T hT
      have hI := (temperatureInterpolation_bounds u hn hT.le (p := 4) (by norm_num))
      rw [div_le_iff₀ hT, add_mul, div_mul_cancel₀ _ hT.ne', one_mul]
      exact hI.2
  have hs := hr.sqrt
  rw [sqrt_one] at hs
  refine hs.congr' ?_
  filter_upwards [eventually_gt_atTop 0] with T hT
  have hp := slDebye_pos u hT hn
  have hG : 0 < slGericke u T n := lt_of_lt_of_le hp (slDebye_le_gericke u hT hn)
  rw [← sqrt_sq (div_pos hG hp).le, div_pow, slGericke_sq u hT hn, slDebye_sq u hT.le hn.le]
  congr 1
  field_simp

/-- At vanishing temperature the squared length of Gericke is one and a half that of Thomas and
Fermi, `2 ε₀ E_F / (3 n e²)`. -/
theorem slGericke_degenerate {n : ℝ} (hn : 0 < n) :
    Tendsto (fun T => slGericke u T n ^ 2) (𝓝[>] 0)
      (𝓝 (3 / 2 * (2 * u.eps0 * fermiEnergy u n / (3 * n * u.e ^ 2)))) := by
  have hkB := u.kB_pos
  have h0 := u.eps0_pos
  have he := u.e_pos
  have hF := fermiTemperature_pos u hn
  have hid : Tendsto (fun T : ℝ => T) (𝓝[>] 0) (𝓝 0) := tendsto_nhdsWithin_of_tendsto_nhds tendsto_id
  have hr : Tendsto (fun T => temperatureInterpolation u n T 4) (𝓝[>] 0) (𝓝 (fermiTemperature u n)) := by
    have hup := hid.add_const (fermiTemperature u n)
    rw [zero_add] at hup
    refine tendsto_of_tendsto_of_tendsto_of_le_of_le' tendsto_const_nhds hup ?_ ?_
    · filter_upwards [self_mem_nhdsWithin] with T hT
      have hT' : 0 < T := hT
      have hI := (temperatureInterpolation_bounds u hn hT'.le (p := 4) (by norm_num))
      exact le_trans (le_max_right _ _) hI.1
    · filter_upwards [self_mem_nhdsWithin] with T hT
      have hT' : 0 < T := hT
      exact (temperatureInterpolation_bounds u hn hT'.le (p := 4) (by norm_num)).2
  have h := (hr.const_mul (u.eps0 * u.kB)).div_const (n * u.e ^ 2)
  have e : u.eps0 * u.kB * fermiTemperature u n / (n * u.e ^ 2) =
      3 / 2 * (2 * u.eps0 * fermiEnergy u n / (3 * n * u.e ^ 2)) := by
    unfold fermiTemperature
    field_simp
  rw [e] at h
  refine h.congr' ?_
  filter_upwards [self_mem_nhdsWithin] with T hT
  exact (slGericke_sq u hT hn).symm

/-- C83 fails for the length of Gericke: at low temperatures it exceeds that of Thomas and Fermi by
more than a fifth, at every density. -/
theorem slGericke_not_degenerate {n : ℝ} (hn : 0 < n) :
    ∀ᶠ T in 𝓝[>] 0, (6 / 5) ^ 2 * (2 * u.eps0 * fermiEnergy u n / (3 * n * u.e ^ 2)) < slGericke u T n ^ 2 := by
  have h0 := u.eps0_pos
  have he := u.e_pos
  have hE := fermiEnergy_pos u hn
  have hp : 0 < 2 * u.eps0 * fermiEnergy u n / (3 * n * u.e ^ 2) := by positivity
  apply (slGericke_degenerate u hn).eventually (lt_mem_nhds _)
  nlinarith

/-! ### Arbitrary degeneracy -/

theorem slArbitrary_ratio {T n : ℝ} (hT : 0 < T) (hn : 0 < n) :
    (slDebye u T n / slArbitrary u T n) ^ 2 =
      inverseScreeningE u fermiNeg12 (chemPotIchimaru u) n T ^ 2 / (u.e ^ 2 * n / (u.eps0 * (u.kB * T))) := by
  have hkB := u.kB_pos
  have h0 := u.eps0_pos
  have he := u.e_pos
  unfold slArbitrary
  rw [div_pow, slDebye_sq u hT.le hn.le, one_div, inv_pow]
  generalize inverseScreeningE u fermiNeg12 (chemPotIchimaru u) n T = x
  rw [div_inv_eq_mul]
  field_simp

/-- C83: at high temperature the length for arbitrary degeneracy is, to a few parts in a million, that
of Debye and Hückel. (Partial: the fit of the Fermi integral leaves this error.) -/
theorem slArbitrary_classical_partial {n : ℝ} (hn : 0 < n) :
    ∀ᶠ T in atTop, |(slDebye u T n / slArbitrary u T n) ^ 2 - 1| ≤ 2 / 10 ^ 6 := by
  filter_upwards [screening_classical_code u hn, eventually_gt_atTop 0] with T h hT
  rw [slArbitrary_ratio u hT hn]
  exact h

/-- C83: at vanishing temperature the length for arbitrary degeneracy is that of Thomas and Fermi.
(Partial: but for a relative error of the square below `10⁻¹¹`, from the fit.) -/
theorem slArbitrary_degenerate_partial {n : ℝ} (hn : 0 < n) :
    ∃ L, |L - 1| ≤ 1 / 10 ^ 11 ∧ Tendsto (fun T => slArbitrary u T n ^ 2) (𝓝[>] 0)
      (𝓝 (2 * u.eps0 * fermiEnergy u n / (3 * n * u.e ^ 2) / L)) := by
  obtain ⟨L, hL, ht⟩ := screening_degenerate_code u hn
  have h0 := u.eps0_pos
  have he := u.e_pos
  have hE := fermiEnergy_pos u hn
  have hL0 : 0 < L := by
    have := (abs_le.1 hL).1
    norm_num at this ⊢
    linarith
  refine ⟨L, hL, ?_⟩
  have h := ht.inv₀ (by positivity)
  convert h using 2 with T
  · unfold slArbitrary
    rw [one_div, inv_pow]
  · field_simp

/-- Four times as hot, the length doubles. -/
example : slDebye unitConsts 4 1 = 2 ∧ slDebye unitConsts 1 1 = 1 := by
  constructor
  · have h := slDebye_sq unitConsts (T := 4) (n := 1) (by norm_num) (by norm_num)
    have hp := slDebye_pos unitConsts (T := 4) (n := 1) (by norm_num) (by norm_num)
    norm_num [unitConsts] at h hp ⊢
    nlinarith
  · have h := slDebye_sq unitConsts (T := 1) (n := 1) (by norm_num) (by norm_num)
    have hp := slDebye_pos unitConsts (T := 1) (n := 1) (by norm_num) (by norm_num)
    norm_num [unitConsts] at h hp ⊢
    rcases h with h | h <;> linarith

end Verif.Resp
