/-
The chemical potential of the Sommerfeld-Fermi interpolation in its limits, and the lengths and
energies of plasma physics stated in terms of what they measure.
-/
import Verif.Props.Fermi

set_option autoImplicit false

namespace Verif.Resp

open Real Verif.Expt Filter Topology

variable (u : Consts)

/-! ### C39: the chemical potential interpolated between the expansions -/

/-- The high temperature expansion per temperature is the chemical potential of a classical gas. -/
theorem chemHigh_classical :
    Tendsto (fun x => chemHigh x / x + 3 / 2 * log x - log (4 / (3 * sqrt π))) atTop (𝓝 0) := by
  have h1 := (tendsto_rpow_neg_atTop (y := 3 / 2) (by norm_num)).const_mul (1 / 3 * sqrt (2 / π))
  have h2 := (tendsto_rpow_neg_atTop (y := 3) (by norm_num)).const_mul ((16 * sqrt 3 - 27) / (81 * π))
  have h3 := h1.sub h2
  rw [mul_zero, mul_zero, sub_zero] at h3
  refine h3.congr' ?_
  filter_upwards [eventually_gt_atTop 0] with x hx
  have hp := sqrt_pos.2 pi_pos
  have e1 : log (4 / 3 / sqrt π / x ^ (3 / 2 : ℝ)) = log (4 / (3 * sqrt π)) - 3 / 2 * log x := by
    rw [log_div (by positivity) (rpow_pos_of_pos hx _).ne', log_rpow hx, div_div]
  have e2 : x ^ (-(3 / 2) : ℝ) = (x ^ (1 / 2 : ℝ))⁻¹ * x⁻¹ := by
    rw [← rpow_neg hx.le, ← rpow_neg_one, ← rpow_add hx]
    norm_num
  have e3 : x ^ (-3 : ℝ) = (x ^ 2)⁻¹ * x⁻¹ := by
    rw [rpow_neg hx.le]
    norm_cast
    rw [pow_succ, mul_inv]
  unfold chemHigh
  rw [e1, e2, e3]
  generalize x ^ (1 / 2 : ℝ) = y
  generalize log x = l
  generalize log (4 / (3 * sqrt π)) = c
  field_simp
  ring

/-- At high temperatures the high temperature expansion is the larger one. -/
theorem chemLow_lt_high : ∀ᶠ x in atTop, chemLow x < chemHigh x := by
  have h1 := chemHigh_classical.eventually (lt_mem_nhds (show (-1 : ℝ) < 0 by norm_num))
  have h2 := (isLittleO_log_id_atTop.bound (show (0 : ℝ) < 1 / 6 by norm_num))
  filter_upwards [h1, h2, eventually_ge_atTop 1,
    eventually_gt_atTop (4 * (2 - log (4 / (3 * sqrt π))))] with x a b hx hc
  simp only [id, norm_eq_abs] at b
  rw [abs_of_nonneg (log_nonneg hx), abs_of_pos (by linarith)] at b
  have hx0 : 0 < x := by linarith
  have hpi : (1 / 2 : ℝ) ≤ π ^ 2 / 12 := by nlinarith [pi_gt_three]
  have hl : chemLow x ≤ x * (1 - x / 2) := by
    unfold chemLow
    have : 0 ≤ π ^ 4 / 80 * x ^ 4 := by positivity
    nlinarith [mul_le_mul_of_nonneg_right hpi (sq_nonneg x)]
  have hh : x * (-1 - 3 / 2 * log x + log (4 / (3 * sqrt π))) < chemHigh x := by
    have : -1 - 3 / 2 * log x + log (4 / (3 * sqrt π)) < chemHigh x / x := by linarith
    rw [lt_div_iff₀ hx0] at this
    linarith
  refine lt_of_le_of_lt hl (lt_of_le_of_lt ?_ hh)
  exact mul_le_mul_of_nonneg_left (by linarith) hx0.le

/-- At low temperatures the low temperature expansion is the larger one. -/
theorem chemHigh_lt_low : ∀ᶠ x in 𝓝[>] (0 : ℝ), chemHigh x < chemLow x := by
  have hpow : ∀ r : ℝ, 0 < r → Tendsto (fun x : ℝ => x ^ r) (𝓝[>] 0) (𝓝 0) := by
    intro r hr
    have := (continuousAt_rpow_const (0 : ℝ) r (Or.inr hr.le)).tendsto
    rw [zero_rpow hr.ne'] at this
    exact tendsto_nhdsWithin_of_tendsto_nhds this
  have hc : 0 < (16 * sqrt 3 - 27) / (81 * π) := by
    apply div_pos _ (by positivity)
    have : (27 / 16 : ℝ) < sqrt 3 := lt_sqrt_of_sq_lt (by norm_num)
    linarith
  have hl := tendsto_log_mul_rpow_nhdsGT_zero (r := 3) (by norm_num)
  have h1 := (((hpow 3 (by norm_num)).const_mul (log (4 / (3 * sqrt π)))).sub
    (hl.const_mul (3 / 2))).add ((hpow (3 / 2) (by norm_num)).const_mul (1 / 3 * sqrt (2 / π)))
  have hlow : Tendsto (fun x : ℝ => x ^ 2 * chemLow x) (𝓝[>] 0) (𝓝 0) := by
    have : ContinuousAt (fun x : ℝ => x ^ 2 * chemLow x) 0 := by
      unfold chemLow
      fun_prop
    have h := this.tendsto
    simp only [ne_eq, OfNat.ofNat_ne_zero, not_false_eq_true, zero_pow, zero_mul] at h
    exact tendsto_nhdsWithin_of_tendsto_nhds h
  have h2 := h1.sub hlow
  simp only [mul_zero, sub_zero, add_zero] at h2
  filter_upwards [h2.eventually (gt_mem_nhds hc), self_mem_nhdsWithin] with x a hx
  have hx' : 0 < x := hx
  have hp := sqrt_pos.2 pi_pos
  have e1 : log (4 / 3 / sqrt π / x ^ (3 / 2 : ℝ)) = log (4 / (3 * sqrt π)) - 3 / 2 * log x := by
    rw [log_div (by positivity) (rpow_pos_of_pos hx' _).ne', log_rpow hx', div_div]
  have e2 : x ^ (3 / 2 : ℝ) = x ^ 2 / x ^ (1 / 2 : ℝ) := by
    rw [eq_div_iff (rpow_pos_of_pos hx' _).ne', ← rpow_add hx']
    norm_num
  have e3 : x ^ (3 : ℝ) = x ^ 3 := by norm_cast
  rw [e2, e3] at a
  have key : x ^ 2 * chemHigh x < x ^ 2 * chemLow x := by
    have e : x ^ 2 * chemHigh x = log (4 / (3 * sqrt π)) * x ^ 3 - 3 / 2 * (log x * x ^ 3) +
        1 / 3 * sqrt (2 / π) * (x ^ 2 / x ^ (1 / 2 : ℝ)) - (16 * sqrt 3 - 27) / (81 * π) := by
      unfold chemHigh
      rw [e1]
      have hy := rpow_pos_of_pos hx' (1 / 2)
      generalize x ^ (1 / 2 : ℝ) = y at hy ⊢
      generalize (16 * sqrt 3 - 27) / (81 * π) = c
      field_simp
    rw [e]
    linarith
  exact lt_of_mul_lt_mul_left key (by positivity)

/-- C39: at high temperature the chemical potential of this interpolation, too, is that of a
classical ideal gas: the activity is half the degeneracy parameter (two spins). -/
theorem chemPotSommerfeld_classical {n : ℝ} (hn : 0 < n) :
    Tendsto (fun T => exp (chemPotSommerfeld u T n / (u.kB * T)) / (degeneracyParam u n T / 2))
      atTop (𝓝 1) := by
  have hE := fermiEnergy_pos u hn
  have hB := u.kB_pos
  have hx : Tendsto (fun T : ℝ => u.kB * T / fermiEnergy u n) atTop atTop :=
    (tendsto_id.const_mul_atTop hB).atTop_div_const hE
  have h2 := (continuous_exp.tendsto 0).comp (chemHigh_classical.comp hx)
  rw [exp_zero] at h2
  refine h2.congr' ?_
  filter_upwards [eventually_gt_atTop 0, hx.eventually chemLow_lt_high] with T hT hlt
  rw [degeneracyParam_eq u hn hT]
  have hth : 0 < u.kB * T / fermiEnergy u n := by positivity
  have hc : 0 < 4 / (3 * sqrt π) := by
    have := sqrt_pos.2 pi_pos
    positivity
  have e0 : T / fermiTemperature u n = u.kB * T / fermiEnergy u n := by
    unfold fermiTemperature
    field_simp
  have e1 : chemPotSommerfeld u T n / (u.kB * T) = chemHigh (u.kB * T / fermiEnergy u n) /
      (u.kB * T / fermiEnergy u n) := by
    rw [chemPotSommerfeld_eq, e0, max_eq_right hlt.le]
    generalize chemHigh (u.kB * T / fermiEnergy u n) = c
    field_simp
  simp only [Function.comp]
  rw [e1, exp_sub, exp_log hc, exp_add, rpow_neg hth.le]
  have e2 : exp (3 / 2 * log (u.kB * T / fermiEnergy u n)) = (u.kB * T / fermiEnergy u n) ^ (3 / 2 : ℝ) := by
    rw [rpow_def_of_pos hth, mul_comm]
  rw [e2]
  have := rpow_pos_of_pos hth (3 / 2)
  generalize exp (chemHigh (u.kB * T / fermiEnergy u n) / (u.kB * T / fermiEnergy u n)) = y
  field_simp

/-- C39: at low temperature the chemical potential of this interpolation is the Fermi energy, and it
falls below it as Sommerfeld's expansion demands. -/
theorem chemPotSommerfeld_degenerate {n : ℝ} (hn : 0 < n) :
    Tendsto (fun T => chemPotSommerfeld u T n) (𝓝[>] 0) (𝓝 (fermiEnergy u n)) ∧
      Tendsto (fun T => (chemPotSommerfeld u T n - fermiEnergy u n) * fermiEnergy u n / (u.kB * T) ^ 2)
        (𝓝[>] 0) (𝓝 (-(π ^ 2 / 12))) := by
  have hE := fermiEnergy_pos u hn
  have hB := u.kB_pos
  have hx : Tendsto (fun T : ℝ => T / fermiTemperature u n) (𝓝[>] 0) (𝓝[>] 0) := by
    rw [tendsto_nhdsWithin_iff]
    have hF := fermiTemperature_pos u hn
    constructor
    · have : Tendsto (fun T : ℝ => T / fermiTemperature u n) (𝓝 0) (𝓝 (0 / fermiTemperature u n)) :=
        tendsto_id.div_const _
      rw [zero_div] at this
      exact tendsto_nhdsWithin_of_tendsto_nhds this
    · filter_upwards [self_mem_nhdsWithin] with T hT
      have hT' : 0 < T := hT
      exact div_pos hT' hF
  have hev := hx.eventually chemHigh_lt_low
  have hx0 : Tendsto (fun T : ℝ => T / fermiTemperature u n) (𝓝[>] 0) (𝓝 0) :=
    hx.mono_right nhdsWithin_le_nhds
  have hF := fermiTemperature_pos u hn
  constructor
  · have hc : ContinuousAt chemLow 0 := by
      unfold chemLow
      fun_prop
    have h := (hc.tendsto.comp hx0).mul_const (fermiEnergy u n)
    have e : chemLow 0 = 1 := by simp [chemLow]
    rw [e, one_mul] at h
    refine h.congr' ?_
    filter_upwards [hev] with T hT
    rw [chemPotSommerfeld_eq, max_eq_left hT.le]
    rfl
  · have hc : ContinuousAt (fun x : ℝ => -(π ^ 2 / 12) - π ^ 4 / 80 * x ^ 2) 0 := by fun_prop
    have h := hc.tendsto.comp hx0
    simp only [ne_eq, OfNat.ofNat_ne_zero, not_false_eq_true, zero_pow, mul_zero, sub_zero] at h
    refine h.congr' ?_
    filter_upwards [hev, self_mem_nhdsWithin] with T hT hT0
    have hT' : 0 < T := hT0
    rw [chemPotSommerfeld_eq, max_eq_left hT.le]
    simp only [Function.comp]
    have eF : fermiEnergy u n = u.kB * fermiTemperature u n := by
      unfold fermiTemperature
      field_simp
    rw [eF]
    generalize fermiTemperature u n = tF at hF ⊢
    unfold chemLow
    field_simp
    ring

/-! ### C82: what the lengths and energies measure -/

/-- C82: a sphere of the interparticle spacing holds, at the given density, the geometric mean of
the two charge numbers of particles. -/
theorem interparticleSpacing_sphere {Z1 Z2 n : ℝ} (hZ : 0 ≤ Z1 * Z2) (hn : 0 < n) :
    4 / 3 * π * interparticleSpacing Z1 Z2 n ^ 3 * n = sqrt (Z1 * Z2) := by
  have hp := pi_pos
  unfold interparticleSpacing
  have h0 : 0 ≤ 3 * (Z1 * Z2) ^ (1 / 2 : ℝ) / (4 * π * n) :=
    div_nonneg (mul_nonneg (by norm_num) (rpow_nonneg hZ _)) (by positivity)
  rw [← rpow_natCast (_ ^ _), ← rpow_mul h0]
  norm_num
  rw [sqrt_eq_rpow]
  field_simp

/-- C82: for the same species twice the sphere holds the electrons of one ion. -/
theorem interparticleSpacing_ion {Z n : ℝ} (hZ : 0 ≤ Z) (hn : 0 < n) :
    4 / 3 * π * interparticleSpacing Z Z n ^ 3 * n = Z := by
  rw [interparticleSpacing_sphere (mul_self_nonneg Z) hn, sqrt_mul_self hZ]

theorem interparticleSpacing_pos {Z1 Z2 n : ℝ} (hZ : 0 < Z1 * Z2) (hn : 0 < n) :
    0 < interparticleSpacing Z1 Z2 n := by
  unfold interparticleSpacing
  have := rpow_pos_of_pos hZ (1 / 2)
  have := pi_pos
  positivity

/-- C82: the coupling parameter is the Coulomb energy of the two charges, at the distance at which a
sphere holds the mean of the charges, in units of the thermal energy. -/
theorem couplingParam_energy {Z1 Z2 n T : ℝ} (hZ : 0 < Z1 * Z2) (hn : 0 < n) (hT : 0 < T) :
    ∃ a, 0 < a ∧ 4 / 3 * π * a ^ 3 * n = sqrt (Z1 * Z2) ∧
      couplingParam u Z1 Z2 n T * (u.kB * T) = Z1 * u.e * (Z2 * u.e) / (4 * π * u.eps0 * a) := by
  refine ⟨interparticleSpacing Z1 Z2 n, interparticleSpacing_pos hZ hn,
    interparticleSpacing_sphere hZ.le hn, ?_⟩
  have ha := interparticleSpacing_pos hZ hn
  have := u.kB_pos
  have := u.eps0_pos
  have := pi_pos
  unfold couplingParam
  generalize interparticleSpacing Z1 Z2 n = a at ha
  field_simp

/-- The charge density squared that screens. -/
private theorem sum_charges_nonneg (nZ : List (ℝ × ℝ)) (h : ∀ p ∈ nZ, 0 ≤ p.1) :
    0 ≤ (nZ.map fun p => p.1 * (p.2 * u.e) ^ 2).sum := by
  apply List.sum_nonneg
  intro x hx
  obtain ⟨p, hp, rfl⟩ := List.mem_map.1 hx
  exact mul_nonneg (h p hp) (sq_nonneg _)

/-- C82: the inverse squares of the Debye lengths of parts of the plasma add up. -/
theorem debyeLength_append (a b : List (ℝ × ℝ)) {T : ℝ} (hT : 0 < T) (ha : ∀ p ∈ a, 0 ≤ p.1)
    (hb : ∀ p ∈ b, 0 ≤ p.1) :
    1 / debyeLength u (a ++ b) T ^ 2 = 1 / debyeLength u a T ^ 2 + 1 / debyeLength u b T ^ 2 := by
  have h1 := sum_charges_nonneg u a ha
  have h2 := sum_charges_nonneg u b hb
  have h3 := sum_charges_nonneg u (a ++ b) (by
    intro p hp
    rcases List.mem_append.1 hp with h | h
    · exact ha p h
    · exact hb p h)
  have := u.kB_pos
  have := u.eps0_pos
  unfold debyeLength
  rw [sq_sqrt (div_nonneg (by positivity) h1), sq_sqrt (div_nonneg (by positivity) h2),
    sq_sqrt (div_nonneg (by positivity) h3), one_div_div, one_div_div, one_div_div, ← add_div,
    List.map_append, List.sum_append]

/-- C82: within a Debye length of particles of one kind an oscillation at their plasma frequency
moves as fast as the thermal motion, whatever their charge: `λ ω = v`. -/
theorem debyeLength_thermal {n Z T : ℝ} (hn : 0 < n) (hZ : Z ≠ 0) (hT : 0 < T) :
    debyeLength u [(n, Z)] T * (|Z| * plasmaFrequency u n) = sqrt (u.kB * T / u.me) := by
  have := u.kB_pos
  have := u.eps0_pos
  have := u.e_pos
  have := u.me_pos
  unfold debyeLength plasmaFrequency
  rw [← sqrt_sq_eq_abs, ← sqrt_mul (sq_nonneg Z), ← sqrt_mul (by
    simp only [List.map_cons, List.map_nil, List.sum_cons, List.sum_nil, add_zero]
    positivity)]
  congr 1
  simp only [List.map_cons, List.map_nil, List.sum_cons, List.sum_nil, add_zero]
  field_simp

example : interparticleSpacing 2 2 (3 / (4 * π)) ^ 3 = 2 := by
  have h := interparticleSpacing_ion (Z := 2) (n := 3 / (4 * π)) (by norm_num)
    (by have := pi_pos; positivity)
  have := pi_pos
  field_simp at h
  linarith

end Verif.Resp
