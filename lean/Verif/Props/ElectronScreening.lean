/-
Properties C20 and C80: the screening by electrons of any degeneracy.
-/
import Verif.Model.Ipd
import Verif.Model.Response
import Verif.Lemmas.FermiExact
import Verif.Props.FermiInverse
import Verif.Props.FermiAll
import Verif.Props.Fermi
import Verif.Props.Setup

set_option autoImplicit false

namespace Verif.Resp

open Real MeasureTheory Filter Topology Set Verif.Expt Verif.FermiInt Verif.Ipd

variable (u : Consts)

/-- The density of states of free electrons times `2 π² ħ³`: each integral over the momenta is one over the
energies with this weight. -/
noncomputable def dosFactor : ℝ := (2 * u.me) ^ (3 / 2 : ℝ) / (2 * π ^ 2 * u.hbar ^ 3)

/-- Specification: the density of free electrons of temperature `T` and chemical potential `mu`. -/
noncomputable def gasDensity (T mu : ℝ) : ℝ :=
  dosFactor u * ∫ ε in Ioi (0 : ℝ), ε ^ (1 / 2 : ℝ) / (exp ((ε - mu) / (u.kB * T)) + 1)

/-- Specification: their kinetic energy in a unit of volume. -/
noncomputable def gasKinetic (T mu : ℝ) : ℝ :=
  dosFactor u * ∫ ε in Ioi (0 : ℝ), ε ^ (3 / 2 : ℝ) / (exp ((ε - mu) / (u.kB * T)) + 1)

theorem rpow_three_half {a : ℝ} (h : 0 ≤ a) : a ^ (3 / 2 : ℝ) = a * sqrt a := by
  rcases h.eq_or_lt with h | h
  · rw [← h, zero_rpow (by norm_num)]; simp
  · rw [show (3 / 2 : ℝ) = 1 + 1 / 2 by norm_num, rpow_add h, rpow_one, sqrt_eq_rpow]

theorem rpow_five_half {a : ℝ} (h : 0 ≤ a) : a ^ (5 / 2 : ℝ) = a ^ 2 * sqrt a := by
  rcases h.eq_or_lt with h | h
  · rw [← h, zero_rpow (by norm_num)]; simp
  · rw [show (5 / 2 : ℝ) = 2 + 1 / 2 by norm_num, rpow_add h, sqrt_eq_rpow, rpow_two]

theorem scale_integral (s τ η : ℝ) (hτ : 0 < τ) :
    ∫ ε in Ioi (0 : ℝ), ε ^ s / (exp ((ε - η * τ) / τ) + 1) =
      τ ^ (s + 1) * ∫ t in Ioi (0 : ℝ), t ^ s / (exp (t - η) + 1) := by
  have h := integral_comp_mul_left_Ioi (fun ε : ℝ => ε ^ s / (exp ((ε - η * τ) / τ) + 1)) 0 hτ
  rw [mul_zero, smul_eq_mul] at h
  have e : ∫ t in Ioi (0 : ℝ), (τ * t) ^ s / (exp ((τ * t - η * τ) / τ) + 1) =
      τ ^ s * ∫ t in Ioi (0 : ℝ), t ^ s / (exp (t - η) + 1) := by
    rw [← integral_const_mul]
    apply setIntegral_congr_fun measurableSet_Ioi
    intro t ht
    have ht' : (0 : ℝ) < t := ht
    simp only
    rw [mul_rpow hτ.le ht'.le, show (τ * t - η * τ) / τ = t - η by field_simp, mul_div_assoc]
  rw [e] at h
  rw [rpow_add hτ, rpow_one]
  field_simp at h
  linarith

theorem Gamma_half_sq : Gamma (1 / 2 + 1) = sqrt π / 2 := by
  rw [Gamma_add_one (by norm_num), Gamma_one_half_eq]; ring

/-- The thermal wavelength of the code. -/
theorem wl_cube {T : ℝ} (hT : 0 < T) :
    sqrt (2 * π * 1 * u.hbar ^ 2 / (1 * u.me * 1 * u.kB * T)) ^ 3 =
      2 * π * sqrt (2 * π) * u.hbar ^ 3 / (u.me * (u.kB * T) * sqrt (u.me * (u.kB * T))) := by
  have hh := u.hbar_pos
  have hm := u.me_pos
  have hkB := u.kB_pos
  have hπ := pi_pos
  rw [show 2 * π * 1 * u.hbar ^ 2 / (1 * u.me * 1 * u.kB * T) =
    (2 * π) * u.hbar ^ 2 / (u.me * (u.kB * T)) by ring, sqrt_div (by positivity), sqrt_mul (by positivity),
    sqrt_sq hh.le, div_pow, mul_pow, pow_succ (sqrt (2 * π)) 2, sq_sqrt (by positivity),
    pow_succ (sqrt (u.me * (u.kB * T))) 2, sq_sqrt (by positivity)]

/-- The density in terms of the Fermi integral of order 1/2. -/
theorem gasDensity_eq {T : ℝ} (hT : 0 < T) (mu : ℝ) :
    gasDensity u T mu = 2 / sqrt (2 * π * 1 * u.hbar ^ 2 / (1 * u.me * 1 * u.kB * T)) ^ 3 *
      fermiIntegral (mu / (u.kB * T)) (1 / 2) := by
  have hh := u.hbar_pos
  have hm := u.me_pos
  have hkB := u.kB_pos
  have hπ := pi_pos
  have hτ : 0 < u.kB * T := by positivity
  have h := scale_integral (1 / 2) (u.kB * T) (mu / (u.kB * T)) hτ
  rw [div_mul_cancel₀ _ hτ.ne'] at h
  unfold gasDensity fermiIntegral
  rw [h, wl_cube u hT, Gamma_half_sq, show (1 / 2 + 1 : ℝ) = 3 / 2 by norm_num, rpow_three_half hτ.le]
  unfold dosFactor
  rw [rpow_three_half (by positivity), sqrt_mul (by norm_num) u.me, sqrt_mul (by norm_num) π,
    sqrt_mul hm.le (u.kB * T)]
  generalize ∫ t in Ioi (0 : ℝ), t ^ (1 / 2 : ℝ) / (exp (t - mu / (u.kB * T)) + 1) = I
  generalize u.kB * T = τ at *
  have h2 : sqrt 2 * sqrt 2 = 2 := mul_self_sqrt (by norm_num)
  have h2' : 0 < sqrt 2 := by positivity
  have h3 : sqrt π * sqrt π = π := mul_self_sqrt hπ.le
  have h3' : 0 < sqrt π := by positivity
  have h4' : 0 < sqrt u.me := sqrt_pos.2 hm
  have h5' : 0 < sqrt τ := sqrt_pos.2 hτ
  generalize sqrt u.me = a at *
  generalize sqrt τ = b at *
  generalize sqrt 2 = c at *
  generalize sqrt π = d at *
  rw [← h3]
  field_simp
  rw [show c ^ 2 = 2 by rw [sq, h2]]

/-- C20: with the exact Fermi integral, the squared inverse screening length is the change of the density
with the chemical potential: the compressibility of the electrons decides about their screening. -/
theorem screening_compressibility (mu : ℝ → ℝ → ℝ) {n T : ℝ} (hT : 0 < T) :
    HasDerivAt (gasDensity u T) (u.eps0 / u.e ^ 2 *
      inverseScreeningE u (fun x => fermiIntegral x (-1 / 2)) mu n T ^ 2) (mu T n) := by
  have hkB := u.kB_pos
  have he := u.e_pos
  have h0 := u.eps0_pos
  have hh := u.hbar_pos
  have hm := u.me_pos
  have hπ := pi_pos
  have hτ : 0 < u.kB * T := by positivity
  have hd := ((fermiIntegral_deriv (1 / 2) (by norm_num) (mu T n / (u.kB * T))).comp (mu T n)
    ((hasDerivAt_id (mu T n)).div_const (u.kB * T))).const_mul
      (2 / sqrt (2 * π * 1 * u.hbar ^ 2 / (1 * u.me * 1 * u.kB * T)) ^ 3)
  have e : gasDensity u T = fun mu => 2 / sqrt (2 * π * 1 * u.hbar ^ 2 / (1 * u.me * 1 * u.kB * T)) ^ 3 *
      ((fun x => fermiIntegral x (1 / 2)) ∘ fun mu => id mu / (u.kB * T)) mu := by
    funext mu
    exact gasDensity_eq u hT mu
  rw [e]
  refine hd.congr_deriv ?_
  have hwl : 0 < sqrt (2 * π * 1 * u.hbar ^ 2 / (1 * u.me * 1 * u.kB * T)) := by
    apply sqrt_pos.2; positivity
  simp only [inverseScreeningE]
  rw [show (1 / 2 - 1 : ℝ) = -1 / 2 by norm_num,
    show mu T n * (1 / (1 * u.kB * T)) = mu T n / (u.kB * T) by ring]
  have hF := fermiIntegral_pos (-1 / 2) (by norm_num) (mu T n / (u.kB * T))
  rw [sq_sqrt (by positivity)]
  generalize sqrt (2 * π * 1 * u.hbar ^ 2 / (1 * u.me * 1 * u.kB * T)) = w at *
  field_simp

/-- C20: electrons never screen better than Debye's law for their density. -/
theorem screening_lt_debye (mu : ℝ → ℝ → ℝ) {n T : ℝ} (hT : 0 < T) :
    inverseScreeningE u (fun x => fermiIntegral x (-1 / 2)) mu n T ^ 2 <
      u.e ^ 2 * gasDensity u T (mu T n) / (u.eps0 * (u.kB * T)) := by
  have hkB := u.kB_pos
  have he := u.e_pos
  have h0 := u.eps0_pos
  have hh := u.hbar_pos
  have hm := u.me_pos
  have hπ := pi_pos
  have hwl : 0 < sqrt (2 * π * 1 * u.hbar ^ 2 / (1 * u.me * 1 * u.kB * T)) := by
    apply sqrt_pos.2; positivity
  rw [gasDensity_eq u hT]
  simp only [inverseScreeningE]
  rw [show mu T n * (1 / (1 * u.kB * T)) = mu T n / (u.kB * T) by ring]
  have hF := fermiIntegral_pos (-1 / 2) (by norm_num) (mu T n / (u.kB * T))
  have hlt := fermiIntegral_lt (1 / 2) (by norm_num) (mu T n / (u.kB * T))
  rw [show (1 / 2 - 1 : ℝ) = -1 / 2 by norm_num] at hlt
  rw [sq_sqrt (by positivity)]
  generalize sqrt (2 * π * 1 * u.hbar ^ 2 / (1 * u.me * 1 * u.kB * T)) = w at *
  have : 0 < u.e ^ 2 / (u.eps0 * (u.kB * T)) * (2 / w ^ 3) := by positivity
  have := mul_lt_mul_of_pos_left hlt this
  calc _ = u.e ^ 2 / (u.eps0 * (u.kB * T)) * (2 / w ^ 3) * fermiIntegral (mu T n / (u.kB * T)) (-1 / 2) := by ring
    _ < _ := this
    _ = _ := by ring

/-- C20: the function of the code, with its approximation of the Fermi integral, agrees with the change of
the density to six digits, for every chemical potential. -/
theorem screening_accurate (mu : ℝ → ℝ → ℝ) {n T : ℝ} (hT : 0 < T) :
    |inverseScreeningE u fermiNeg12 mu n T ^ 2 - u.e ^ 2 / u.eps0 * deriv (gasDensity u T) (mu T n)| ≤
      1 / 10 ^ 6 * (u.e ^ 2 / u.eps0 * deriv (gasDensity u T) (mu T n)) := by
  have hkB := u.kB_pos
  have he := u.e_pos
  have h0 := u.eps0_pos
  have hh := u.hbar_pos
  have hm := u.me_pos
  have hπ := pi_pos
  have hwl : 0 < sqrt (2 * π * 1 * u.hbar ^ 2 / (1 * u.me * 1 * u.kB * T)) := by
    apply sqrt_pos.2; positivity
  have hacc := (fermi_accurate (mu T n / (u.kB * T))).2.1
  rw [(screening_compressibility u mu hT).deriv]
  simp only [inverseScreeningE]
  rw [show mu T n * (1 / (1 * u.kB * T)) = mu T n / (u.kB * T) by ring]
  have hF := fermiIntegral_pos (-1 / 2) (by norm_num) (mu T n / (u.kB * T))
  have hF' := (fermi_pos (mu T n / (u.kB * T))).2.1
  rw [sq_sqrt (by positivity), sq_sqrt (by positivity)]
  generalize sqrt (2 * π * 1 * u.hbar ^ 2 / (1 * u.me * 1 * u.kB * T)) = w at *
  generalize fermiIntegral (mu T n / (u.kB * T)) (-1 / 2) = F at *
  generalize fermiNeg12 (mu T n / (u.kB * T)) = F' at *
  have hc : 0 < (-1 * u.e) ^ 2 / (u.eps0 * u.kB * T) * (2 / w ^ 3) := by positivity
  have e : u.e ^ 2 / u.eps0 * (u.eps0 / u.e ^ 2 * ((-1 * u.e) ^ 2 / (u.eps0 * u.kB * T) * (2 / w ^ 3) * F)) =
      (-1 * u.e) ^ 2 / (u.eps0 * u.kB * T) * (2 / w ^ 3) * F := by field_simp
  rw [e]
  generalize (-1 * u.e) ^ 2 / (u.eps0 * u.kB * T) * (2 / w ^ 3) = c at *
  rw [← mul_sub, abs_mul, abs_of_pos hc]
  calc c * |F' - F| ≤ c * (1 / 10 ^ 6 * F) := mul_le_mul_of_nonneg_left hacc hc.le
    _ = _ := by ring

/-- C20: the function of the code is never above the value of Debye and Hückel for the density of the gas,
but for its accuracy. -/
theorem screening_le_debye_code (mu : ℝ → ℝ → ℝ) {n T : ℝ} (hT : 0 < T) :
    inverseScreeningE u fermiNeg12 mu n T ^ 2 ≤
      (1 + 1 / 10 ^ 6) * (u.e ^ 2 * gasDensity u T (mu T n) / (u.eps0 * (u.kB * T))) := by
  have he := u.e_pos
  have h0 := u.eps0_pos
  have h1 := (abs_le.1 (screening_accurate u mu (n := n) hT)).2
  have h2 := screening_lt_debye u mu (n := n) hT
  have h3 : inverseScreeningE u (fun x => fermiIntegral x (-1 / 2)) mu n T ^ 2 =
      u.e ^ 2 / u.eps0 * deriv (gasDensity u T) (mu T n) := by
    rw [(screening_compressibility u mu hT).deriv]
    field_simp
  rw [h3] at h2
  linarith

example : inverseScreeningE unitConsts (fun x => fermiIntegral x (-1 / 2)) (fun _ _ => 0) 1 1 ^ 2 <
    unitConsts.e ^ 2 * gasDensity unitConsts 1 0 / (unitConsts.eps0 * (unitConsts.kB * 1)) :=
  screening_lt_debye unitConsts (fun _ _ => 0) one_pos

/-! ### Limits of the function of the code, with its chemical potential -/

theorem screening_eq (f : ℝ → ℝ) (mu : ℝ → ℝ → ℝ) {n T : ℝ} (hn : 0 < n) (hT : 0 < T)
    (hf : 0 < f (mu T n / (u.kB * T))) :
    inverseScreeningE u f mu n T ^ 2 = u.e ^ 2 * n / (u.eps0 * (u.kB * T)) *
      (f (mu T n / (u.kB * T)) / (degeneracyParam u n T / 2)) := by
  have hkB := u.kB_pos
  have he := u.e_pos
  have h0 := u.eps0_pos
  have hh := u.hbar_pos
  have hm := u.me_pos
  have hπ := pi_pos
  have hwl : 0 < sqrt (2 * π * 1 * u.hbar ^ 2 / (1 * u.me * 1 * u.kB * T)) := by
    apply sqrt_pos.2; positivity
  have e : thermDeBroglie u T = sqrt (2 * π * 1 * u.hbar ^ 2 / (1 * u.me * 1 * u.kB * T)) := by
    unfold thermDeBroglie
    rw [show 2 * π * 1 * u.hbar ^ 2 / (1 * u.me * 1 * u.kB * T) = u.hbar ^ 2 * (2 * π / (u.me * u.kB * T)) by ring,
      sqrt_mul (by positivity), sqrt_sq hh.le]
  simp only [inverseScreeningE, degeneracyParam]
  rw [show mu T n * (1 / (1 * u.kB * T)) = mu T n / (u.kB * T) by ring, sq_sqrt (by positivity), e]
  generalize sqrt (2 * π * 1 * u.hbar ^ 2 / (1 * u.me * 1 * u.kB * T)) = w at *
  field_simp

/-- Bounds of the Fermi integrals without degeneracy. -/
theorem fermiIntegral_ge (n : ℝ) (hn : -1 < n) (x : ℝ) : exp x / (1 + exp x) ≤ fermiIntegral x n := by
  have hG : 0 < Gamma (n + 1) := Gamma_pos_of_pos (by linarith)
  unfold fermiIntegral
  rw [le_div_iff₀ hG, Gamma_eq_integral (by linarith), ← integral_const_mul]
  have hi := term_integrable n hn 1 0
  simp only [zero_add, pow_one, one_mul] at hi
  apply setIntegral_mono_on _ (integrand_integrable n hn x) measurableSet_Ioi
  · intro t ht
    have ht' : (0 : ℝ) < t := ht
    have hp := rpow_pos_of_pos ht' n
    have hx := exp_pos x
    rw [add_sub_cancel_right, div_eq_mul_inv (t ^ n), show exp x / (1 + exp x) * (exp (-t) * t ^ n) =
      t ^ n * (exp x * exp (-t) / (1 + exp x)) by ring]
    apply mul_le_mul_of_nonneg_left _ hp.le
    rw [inv_eq_one_div, div_le_div_iff₀ (by positivity) (by positivity)]
    have e : exp x * exp (-t) * exp (t - x) = 1 := by
      rw [← exp_add, ← exp_add, show x + -t + (t - x) = 0 by ring, exp_zero]
    have h1 : exp (-t) ≤ 1 := exp_le_one_iff.2 (by linarith)
    nlinarith
  · refine IntegrableOn.congr_fun (hi.const_mul (exp x / (1 + exp x))) (fun t ht => ?_) measurableSet_Ioi
    simp only [add_sub_cancel_right]; ring

theorem degeneracy_zero {n : ℝ} (hn : 0 < n) :
    Tendsto (fun T => degeneracyParam u n T / 2) atTop (𝓝 0) := by
  have hE := fermiEnergy_pos u hn
  have hB := u.kB_pos
  have hx : Tendsto (fun T : ℝ => u.kB * T / fermiEnergy u n) atTop atTop :=
    (tendsto_id.const_mul_atTop hB).atTop_div_const hE
  have h := ((tendsto_rpow_neg_atTop (y := 3 / 2) (by norm_num)).comp hx).const_mul (4 / (3 * sqrt π))
  rw [mul_zero] at h
  refine h.congr' ?_
  filter_upwards [eventually_gt_atTop 0] with T hT
  rw [degeneracyParam_eq u hn hT]
  rfl

theorem classical_activity {n : ℝ} (hn : 0 < n) :
    Tendsto (fun T => exp (chemPotIchimaru u T n / (u.kB * T))) atTop (𝓝 0) := by
  have h := (chemPotIchimaru_classical u hn).mul (degeneracy_zero u hn)
  rw [one_mul] at h
  refine h.congr' ?_
  filter_upwards [eventually_gt_atTop 0] with T hT
  have hd : 0 < degeneracyParam u n T / 2 := by
    rw [degeneracyParam_eq u hn hT]
    have hE := fermiEnergy_pos u hn
    have hB := u.kB_pos
    positivity
  exact div_mul_cancel₀ _ hd.ne'

/-- C20: without degeneracy the screening is that of Debye and Hückel. -/
theorem screening_classical {n : ℝ} (hn : 0 < n) :
    Tendsto (fun T => inverseScreeningE u (fun x => fermiIntegral x (-1 / 2)) (chemPotIchimaru u) n T ^ 2 /
      (u.e ^ 2 * n / (u.eps0 * (u.kB * T)))) atTop (𝓝 1) := by
  have hkB := u.kB_pos
  have he := u.e_pos
  have h0 := u.eps0_pos
  have ha := classical_activity u hn
  have hb := chemPotIchimaru_classical u hn
  have hr : Tendsto (fun T => fermiIntegral (chemPotIchimaru u T n / (u.kB * T)) (-1 / 2) /
      exp (chemPotIchimaru u T n / (u.kB * T))) atTop (𝓝 1) := by
    have hl : Tendsto (fun T => 1 / (1 + exp (chemPotIchimaru u T n / (u.kB * T)))) atTop (𝓝 1) := by
      have := (tendsto_const_nhds (x := (1 : ℝ))).div (ha.const_add 1) (by norm_num)
      simpa only [Pi.div_def, add_zero, div_one] using this
    refine tendsto_of_tendsto_of_tendsto_of_le_of_le hl tendsto_const_nhds ?_ ?_
    · intro T
      have h1 := fermiIntegral_ge (-1 / 2) (by norm_num) (chemPotIchimaru u T n / (u.kB * T))
      have hx := exp_pos (chemPotIchimaru u T n / (u.kB * T))
      simp only
      rw [le_div_iff₀ hx]
      refine le_trans (le_of_eq ?_) h1
      ring
    · intro T
      simp only
      rw [div_le_one (exp_pos _)]
      exact fermiIntegral_lt_exp (-1 / 2) (by norm_num) _
  have h := hr.mul hb
  rw [one_mul] at h
  refine h.congr' ?_
  filter_upwards [eventually_gt_atTop 0] with T hT
  rw [screening_eq u (fun x => fermiIntegral x (-1 / 2)) _ hn hT (fermiIntegral_pos _ (by norm_num) _), mul_div_cancel_left₀ _ (by positivity)]
  have hx := (exp_pos (chemPotIchimaru u T n / (u.kB * T))).ne'
  field_simp

/-- C20: the same for the approximation of the Fermi integral in the code: at high temperatures the
screening is that of Debye and Hückel to within two millionths. -/
theorem screening_classical_code {n : ℝ} (hn : 0 < n) :
    ∀ᶠ T in atTop, |inverseScreeningE u fermiNeg12 (chemPotIchimaru u) n T ^ 2 /
      (u.e ^ 2 * n / (u.eps0 * (u.kB * T))) - 1| ≤ 2 / 10 ^ 6 := by
  have hkB := u.kB_pos
  have he := u.e_pos
  have h0 := u.eps0_pos
  have hx : ∀ᶠ T in atTop, exp (chemPotIchimaru u T n / (u.kB * T)) < 1 :=
    (classical_activity u hn).eventually (gt_mem_nhds one_pos)
  have hr : ∀ᶠ T in atTop, |inverseScreeningE u (fun x => fermiIntegral x (-1 / 2)) (chemPotIchimaru u) n T ^ 2 /
      (u.e ^ 2 * n / (u.eps0 * (u.kB * T))) - 1| < 1 / 10 ^ 7 := by
    have := (screening_classical u hn).eventually (Metric.ball_mem_nhds 1 (by norm_num : (0 : ℝ) < 1 / 10 ^ 7))
    simpa [Metric.mem_ball, dist_eq] using this
  filter_upwards [hx, hr, eventually_gt_atTop 0] with T h1 h2 hT
  have hxx : chemPotIchimaru u T n / (u.kB * T) < 2 := by
    have := exp_lt_one_iff.1 h1; linarith
  have hacc := (fermi_accurate_below _ hxx).2.1
  have hd : 0 < degeneracyParam u n T / 2 := by
    rw [degeneracyParam_eq u hn hT]
    have hE := fermiEnergy_pos u hn
    positivity
  rw [screening_eq u (fun x => fermiIntegral x (-1 / 2)) _ hn hT (fermiIntegral_pos _ (by norm_num) _), mul_div_cancel_left₀ _ (by positivity)] at h2
  rw [screening_eq u _ _ hn hT (fermi_pos _).2.1, mul_div_cancel_left₀ _ (by positivity)]
  have hF := fermiIntegral_pos (-1 / 2) (by norm_num) (chemPotIchimaru u T n / (u.kB * T))
  generalize fermiIntegral (chemPotIchimaru u T n / (u.kB * T)) (-1 / 2) = F at *
  generalize fermiNeg12 (chemPotIchimaru u T n / (u.kB * T)) = F' at *
  generalize degeneracyParam u n T / 2 = D at *
  have h3 : |F' / D - F / D| ≤ 1 / 10 ^ 6 * (F / D) := by
    rw [← sub_div, abs_div, abs_of_pos hd, div_le_iff₀ hd, mul_assoc, div_mul_cancel₀ _ hd.ne']
    exact hacc
  obtain ⟨a1, a2⟩ := abs_le.1 h3
  obtain ⟨b1, b2⟩ := abs_lt.1 h2
  rw [abs_le]
  constructor <;> linarith

theorem screening_degenerate_gen {n : ℝ} (hn : 0 < n) (f : ℝ → ℝ) (hf : ∀ x, 0 < f x) (c : ℝ)
    (hc : Tendsto (fun x => f x / x ^ (1 / 2 : ℝ)) atTop (𝓝 c)) :
    Tendsto (fun T => inverseScreeningE u f (chemPotIchimaru u) n T ^ 2) (𝓝[>] 0)
      (𝓝 (3 * u.e ^ 2 * n / (2 * u.eps0 * fermiEnergy u n) * (sqrt π / 2 * c))) := by
  have hkB := u.kB_pos
  have he := u.e_pos
  have h0 := u.eps0_pos
  have hE := fermiEnergy_pos u hn
  have hmu := chemPotIchimaru_degenerate u hn
  have hpos : ∀ᶠ T in 𝓝[>] (0 : ℝ), 0 < chemPotIchimaru u T n := hmu.eventually (lt_mem_nhds hE)
  have hT0 : Tendsto (fun T : ℝ => (u.kB * T)⁻¹) (𝓝[>] 0) atTop := by
    have : Tendsto (fun T : ℝ => u.kB⁻¹ * T⁻¹) (𝓝[>] 0) atTop :=
      tendsto_inv_nhdsGT_zero.const_mul_atTop (by positivity)
    refine this.congr fun T => ?_
    rw [mul_inv]
  have hx : Tendsto (fun T => chemPotIchimaru u T n / (u.kB * T)) (𝓝[>] 0) atTop := hmu.pos_mul_atTop hE hT0
  have h := ((hc.comp hx).mul (hmu.sqrt)).const_mul
    (u.e ^ 2 * n / u.eps0 * (3 * sqrt π / 4) / (fermiEnergy u n * sqrt (fermiEnergy u n)))
  have e : u.e ^ 2 * n / u.eps0 * (3 * sqrt π / 4) / (fermiEnergy u n * sqrt (fermiEnergy u n)) *
      (c * sqrt (fermiEnergy u n)) = 3 * u.e ^ 2 * n / (2 * u.eps0 * fermiEnergy u n) * (sqrt π / 2 * c) := by
    have := sqrt_pos.2 hE
    field_simp
    norm_num [mul_comm]
  rw [e] at h
  refine h.congr' ?_
  filter_upwards [hpos, self_mem_nhdsWithin] with T h1 hT
  have hT' : (0 : ℝ) < T := hT
  rw [screening_eq u f _ hn hT' (hf _), degeneracyParam_eq u hn hT', Function.comp_apply]
  have hτ : 0 < u.kB * T := by positivity
  rw [rpow_neg (by positivity), rpow_three_half (by positivity), ← sqrt_eq_rpow, sqrt_div h1.le, sqrt_div hτ.le]
  have s1 := sqrt_pos.2 h1
  have s2 := sqrt_pos.2 hτ
  have s3 := sqrt_pos.2 hE
  have s4 := sqrt_pos.2 pi_pos
  generalize f (chemPotIchimaru u T n / (u.kB * T)) = F
  field_simp

/-- C20: at zero temperature the screening is that of Thomas and Fermi. -/
theorem screening_degenerate {n : ℝ} (hn : 0 < n) :
    Tendsto (fun T => inverseScreeningE u (fun x => fermiIntegral x (-1 / 2)) (chemPotIchimaru u) n T ^ 2)
      (𝓝[>] 0) (𝓝 (3 * u.e ^ 2 * n / (2 * u.eps0 * fermiEnergy u n))) := by
  have hs := fermi_scaled (-1 / 2) (by norm_num)
  rw [show (-1 / 2 + 1 : ℝ) = 1 / 2 by norm_num] at hs
  have := screening_degenerate_gen u hn _ (fun x => fermiIntegral_pos (-1 / 2) (by norm_num) x) _ hs
  rw [Gamma_one_half_eq] at this
  have hp := sqrt_pos.2 pi_pos
  convert this using 2
  field_simp

/-- C20: the same for the approximation of the Fermi integral in the code. -/
theorem screening_degenerate_code {n : ℝ} (hn : 0 < n) :
    ∃ L, |L - 1| ≤ 1 / 10 ^ 11 ∧
      Tendsto (fun T => inverseScreeningE u fermiNeg12 (chemPotIchimaru u) n T ^ 2) (𝓝[>] 0)
        (𝓝 (3 * u.e ^ 2 * n / (2 * u.eps0 * fermiEnergy u n) * L)) := by
  obtain ⟨L, hL, ht⟩ := fermi_degenerate.2.1
  refine ⟨L, hL, ?_⟩
  have hs := fermi_scaled (-1 / 2) (by norm_num)
  rw [show (-1 / 2 + 1 : ℝ) = 1 / 2 by norm_num] at hs
  have hm := ht.mul hs
  have := screening_degenerate_gen u hn fermiNeg12 (fun x => (fermi_pos x).2.1) _ (hm.congr fun x => by
    exact div_mul_div_cancel₀ (fermiIntegral_pos (-1 / 2) (by norm_num) x).ne')
  rw [Gamma_one_half_eq] at this
  have hp := sqrt_pos.2 pi_pos
  convert this using 2
  field_simp

end Verif.Resp
