/-
Properties of Fermi functions, chemical potentials, effective temperatures and static local field
corrections.
-/
import Verif.Model.Fermi
import Verif.Props.Response
import Verif.Props.Setup
import Mathlib.Analysis.SpecialFunctions.Pow.Asymptotics
import Mathlib.Analysis.SpecialFunctions.Log.Deriv
import Mathlib.Analysis.SpecialFunctions.Log.NegMulLog
import Mathlib.Analysis.MeanInequalitiesPow
import Mathlib.Analysis.Real.Pi.Bounds

set_option autoImplicit false

namespace Verif.Resp

open Real Verif.Expt Filter Topology

variable (u : Consts)

/-! ### C39: the Fermi function -/

/-- C39: the Fermi function lies strictly between zero and one. -/
theorem fermiDirac_mem (k mu T : ℝ) : 0 < fermiDirac u k mu T ∧ fermiDirac u k mu T < 1 := by
  have h := exp_pos ((kinEnergy u k - mu) / (u.kB * T))
  unfold fermiDirac
  refine ⟨by positivity, ?_⟩
  rw [div_lt_one (by positivity)]
  linarith

/-- C39: it is one half exactly at the chemical potential. -/
theorem fermiDirac_half {T : ℝ} (hT : 0 < T) (k mu : ℝ) :
    fermiDirac u k mu T = 1 / 2 ↔ kinEnergy u k = mu := by
  have hB := u.kB_pos
  have hpos := exp_pos ((kinEnergy u k - mu) / (u.kB * T))
  unfold fermiDirac
  rw [div_eq_div_iff (by positivity) (by norm_num)]
  constructor
  · intro h
    have h1 : exp ((kinEnergy u k - mu) / (u.kB * T)) = 1 := by linarith
    rw [exp_eq_one_iff, div_eq_zero_iff] at h1
    rcases h1 with h1 | h1
    · linarith
    · exact absurd h1 (by positivity)
  · intro h
    rw [h, sub_self, zero_div, exp_zero]
    norm_num

/-- C39: it decreases strictly with the length of the wave vector. -/
theorem fermiDirac_lt {T : ℝ} (hT : 0 < T) (mu : ℝ) {k k' : ℝ} :
    fermiDirac u k' mu T < fermiDirac u k mu T ↔ |k| < |k'| := by
  have hB := u.kB_pos
  unfold fermiDirac
  rw [one_div_lt_one_div (by positivity) (by positivity), add_lt_add_iff_right, exp_lt_exp,
    div_lt_div_iff_of_pos_right (by positivity), sub_lt_sub_iff_right, kinEnergy_lt]

/-- C39: particles and holes are symmetric about the chemical potential. -/
theorem fermiDirac_hole {k k' mu T : ℝ} (h : kinEnergy u k - mu = mu - kinEnergy u k') :
    fermiDirac u k mu T + fermiDirac u k' mu T = 1 := by
  unfold fermiDirac
  have e : (kinEnergy u k' - mu) / (u.kB * T) = -((kinEnergy u k - mu) / (u.kB * T)) := by
    rw [h]
    ring
  rw [e, exp_neg]
  have := exp_pos ((kinEnergy u k - mu) / (u.kB * T))
  field_simp
  ring

example : fermiDirac Verif.Expt.unitConsts 1 (1 / 2) 1 = 1 / 2 := by
  rw [fermiDirac_half _ one_pos]
  norm_num [kinEnergy, Verif.Expt.unitConsts]

/-! ### C39: effective temperatures -/

theorem fermiTemperature_pos {n : ℝ} (hn : 0 < n) : 0 < fermiTemperature u n :=
  div_pos (fermiEnergy_pos u hn) u.kB_pos

/-- C39: the interpolated temperature is not below the electron and the Fermi temperature and not
above their sum, for every power. -/
theorem temperatureInterpolation_bounds {n T : ℝ} (hn : 0 < n) (hT : 0 ≤ T) {p : ℕ} (hp : 1 ≤ p) :
    max T (fermiTemperature u n) ≤ temperatureInterpolation u n T p ∧
      temperatureInterpolation u n T p ≤ T + fermiTemperature u n := by
  have hF := (fermiTemperature_pos u hn).le
  have hp0 : p ≠ 0 := by omega
  have hpR : (1 : ℝ) ≤ p := by exact_mod_cast hp
  have key : ∀ x : ℝ, 0 ≤ x → (x ^ p) ^ (1 / (p : ℝ)) = x := by
    intro x hx
    rw [one_div]
    exact pow_rpow_inv_natCast hx hp0
  have he : temperatureInterpolation u n T p = (T ^ p + fermiTemperature u n ^ p) ^ (1 / (p : ℝ)) := rfl
  rw [he]
  refine ⟨max_le ?_ ?_, ?_⟩
  · calc T = (T ^ p) ^ (1 / (p : ℝ)) := (key T hT).symm
      _ ≤ _ := rpow_le_rpow (by positivity) (by linarith [pow_nonneg hF p]) (by positivity)
  · calc fermiTemperature u n = (fermiTemperature u n ^ p) ^ (1 / (p : ℝ)) := (key _ hF).symm
      _ ≤ _ := rpow_le_rpow (by positivity) (by linarith [pow_nonneg hT p]) (by positivity)
  · have h1 : T ^ p + fermiTemperature u n ^ p ≤ (T + fermiTemperature u n) ^ p := by
      have := add_rpow_le_rpow_add hT hF hpR
      rw [rpow_natCast, rpow_natCast, rpow_natCast] at this
      exact this
    calc _ ≤ ((T + fermiTemperature u n) ^ p) ^ (1 / (p : ℝ)) :=
          rpow_le_rpow (by positivity) h1 (by positivity)
      _ = _ := key _ (by linarith)

/-- C39: Gregori's effective temperature is not below the electron temperature nor the quantum
temperature.
(Partial: it fails at high density, see `tCfGreg_below_fermi`.) -/
theorem tCfGreg_ge_partial (T n : ℝ) : |T| ≤ tCfGreg u T n ∧ |tQuantum u n| ≤ tCfGreg u T n := by
  unfold tCfGreg
  exact ⟨abs_le_sqrt (by nlinarith [sq_nonneg (tQuantum u n)]),
    abs_le_sqrt (by nlinarith [sq_nonneg T])⟩

/-- C39 is false for Gregori's effective temperature: at zero electron temperature it is below the
Fermi temperature at every density at which the Wigner-Seitz radius is below three Bohr radii. -/
theorem tCfGreg_below_fermi {n : ℝ} (hn : 0 < n) (hr : wignerSeitz n < 3 * bohr u) :
    tCfGreg u 0 n < fermiTemperature u n := by
  have hF := fermiTemperature_pos u hn
  have hb := bohr_pos u
  have hx : wignerSeitz n / bohr u ≤ 3 := by
    rw [div_le_iff₀ hb]
    exact hr.le
  have hs : sqrt (wignerSeitz n / bohr u) ≤ 18 / 10 := by
    rw [sqrt_le_left (by norm_num)]
    norm_num
    linarith
  have hs0 := sqrt_nonneg (wignerSeitz n / bohr u)
  have hd : (1 : ℝ) < 13251 / 10000 - 1779 / 10000 * sqrt (wignerSeitz n / bohr u) := by
    nlinarith
  unfold tCfGreg
  rw [zero_pow (by norm_num), zero_add, sqrt_sq_eq_abs]
  unfold tQuantum
  rw [abs_of_pos (div_pos hF (by linarith))]
  exact div_lt_self hF hd

/-- C39 fails in every system of units: at the density at which the Wigner-Seitz radius is the Bohr
radius. -/
theorem tCfGreg_not_ge : ∃ n, 0 < n ∧ tCfGreg u 0 n < fermiTemperature u n := by
  have hb := bohr_pos u
  have hpi := pi_pos
  refine ⟨3 / (4 * π * bohr u ^ 3), by positivity, tCfGreg_below_fermi u (by positivity) ?_⟩
  have e : wignerSeitz (3 / (4 * π * bohr u ^ 3)) = bohr u := by
    unfold wignerSeitz
    have : 3 / (4 * π * (3 / (4 * π * bohr u ^ 3))) = bohr u ^ 3 := by field_simp
    rw [this, one_div]
    exact pow_rpow_inv_natCast hb.le (by norm_num : (3 : ℕ) ≠ 0)
  rw [e]
  linarith

/-- C39: the effective ion temperature is not below the ion temperature. -/
theorem tIEffGreg_ge (Ti TD : ℝ) : |Ti| ≤ tIEffGreg Ti TD := by
  unfold tIEffGreg
  refine abs_le_sqrt ?_
  have : 0 ≤ 3 / (2 * π ^ 2) * TD ^ 2 := by positivity
  linarith

/-- C39: the mixing rule for pairs is a weighted mean: equal temperatures are reproduced, the result
lies between the temperatures, and exchanging the species changes nothing. -/
theorem tRsGreg_mean {Tr Ts mr ms : ℝ} (hr : 0 < mr) (hs : 0 < ms) :
    min Tr Ts ≤ tRsGreg Tr Ts mr ms ∧ tRsGreg Tr Ts mr ms ≤ max Tr Ts ∧
      tRsGreg Tr Tr mr ms = Tr ∧ tRsGreg Tr Ts mr ms = tRsGreg Ts Tr ms mr ∧
      (Tr < Ts → Tr < tRsGreg Tr Ts mr ms ∧ tRsGreg Tr Ts mr ms < Ts) := by
  have hm : 0 < mr + ms := by linarith
  unfold tRsGreg
  refine ⟨?_, ?_, ?_, ?_, fun h => ⟨?_, ?_⟩⟩
  · rw [le_div_iff₀ hm]
    nlinarith [min_le_left Tr Ts, min_le_right Tr Ts]
  · rw [div_le_iff₀ hm]
    nlinarith [le_max_left Tr Ts, le_max_right Tr Ts]
  · field_simp
    ring
  · rw [add_comm (ms * Tr), add_comm mr]
  · rw [lt_div_iff₀ hm]
    nlinarith
  · rw [div_lt_iff₀ hm]
    nlinarith

/-- C39: for an electron and a heavy ion the electron temperature counts. -/
theorem tRsGreg_electron (Te Ti me : ℝ) :
    Tendsto (fun mi => tRsGreg Te Ti me mi) atTop (𝓝 Te) := by
  have h : Tendsto (fun mi : ℝ => Te + me * (Ti - Te) * (me + mi)⁻¹) atTop
      (𝓝 (Te + me * (Ti - Te) * 0)) :=
    (((tendsto_atTop_add_const_left atTop me tendsto_id).inv_tendsto_atTop).const_mul _).const_add _
  rw [mul_zero, add_zero] at h
  refine h.congr' ?_
  filter_upwards [eventually_gt_atTop (-me)] with mi hmi
  have : me + mi ≠ 0 := by linarith
  unfold tRsGreg
  field_simp
  ring

/-- C39: the Bohm-Staver Debye temperature never exceeds the one of the ion plasma frequency. -/
theorem tDebyeBohmStaver_le {Te n mi Zf : ℝ} (hn : 0 < n) (hm : 0 < mi) (hZ : 0 < Zf) :
    0 ≤ tDebyeBohmStaver u Te n mi Zf ∧
      tDebyeBohmStaver u Te n mi Zf ≤ u.hbar / u.kB * sqrt (Zf * u.e ^ 2 * n / (u.eps0 * mi)) := by
  have hh := u.hbar_pos
  have hB := u.kB_pos
  have he := u.e_pos
  have h0 := u.eps0_pos
  simp only [tDebyeBohmStaver]
  refine ⟨by positivity, ?_⟩
  apply mul_le_mul_of_nonneg_left _ (by positivity)
  rw [sq_sqrt (by positivity)]
  apply sqrt_le_sqrt
  apply div_le_self (by positivity)
  have : 0 ≤ kDAD u Te n ^ 2 / ((6 * π ^ 2 * n / Zf) ^ (1 / 3 : ℝ)) ^ 2 := by positivity
  linarith

/-! ### C39: chemical potentials -/

/-- C39: the interpolation of Cowan and Kirkwood is the larger of the two expansions, in particular
continuous where they cross. -/
theorem chemPotSommerfeld_eq (T n : ℝ) :
    chemPotSommerfeld u T n =
      max (chemLow (T / fermiTemperature u n)) (chemHigh (T / fermiTemperature u n)) *
        fermiEnergy u n := by
  simp only [chemPotSommerfeld]
  congr 1
  rcases lt_or_ge (chemLow (T / fermiTemperature u n)) (chemHigh (T / fermiTemperature u n)) with h | h
  · rw [if_pos h, max_eq_right h.le]
  · rw [if_neg (not_lt.2 h), max_eq_left h]

/-- The fit of Ichimaru in the degenerate limit. -/
theorem ichimaruF_degenerate {A B b : ℝ} (hA : 0 < A) (hb : 0 < b) (hb1 : b < 1) :
    Tendsto (fun x => ichimaruF A B b x * x) (𝓝[>] 0) (𝓝 1) := by
  have h1 : Tendsto (fun x : ℝ => log x * x) (𝓝[>] 0) (𝓝 0) := by
    have := tendsto_log_mul_rpow_nhdsGT_zero (r := 1) one_pos
    simpa using this
  have h2 : Tendsto (fun x : ℝ => x) (𝓝[>] 0) (𝓝 0) := tendsto_nhdsWithin_of_tendsto_nhds tendsto_id
  have hpow : ∀ r : ℝ, 0 < r → Tendsto (fun x : ℝ => x ^ r) (𝓝[>] 0) (𝓝 0) := by
    intro r hr
    have := (continuousAt_rpow_const (0 : ℝ) r (Or.inr hr.le)).tendsto
    rw [zero_rpow hr.ne'] at this
    exact tendsto_nhdsWithin_of_tendsto_nhds this
  -- the rational part
  have h3 : Tendsto (fun x : ℝ => (A + B * x ^ ((b + 1) / 2)) / (x ^ b + A)) (𝓝[>] 0) (𝓝 1) := by
    have := ((hpow ((b + 1) / 2) (by linarith)).const_mul B).const_add A |>.div
      ((hpow b hb).add_const A) (by rw [zero_add]; exact hA.ne')
    rw [mul_zero, add_zero, zero_add, div_self hA.ne'] at this
    exact this
  have h4 := ((h1.const_mul (-3 / 2)).add (h2.const_mul (log (4 / (3 * sqrt π))))).add h3
  rw [mul_zero, mul_zero, add_zero, zero_add] at h4
  refine h4.congr' ?_
  filter_upwards [self_mem_nhdsWithin] with x hx
  have hx' : 0 < x := hx
  unfold ichimaruF
  have e1 : x ^ (-b - 1) = (x ^ b)⁻¹ * x⁻¹ := by
    rw [sub_eq_add_neg, rpow_add hx', rpow_neg hx'.le, rpow_neg_one]
  have e2 : x ^ (-b) = (x ^ b)⁻¹ := rpow_neg hx'.le b
  have e3 : x ^ (-(b + 1) / 2) * (x ^ b * x) = x ^ ((b + 1) / 2) := by
    have : x ^ b * x = x ^ (b + 1) := by rw [rpow_add_one hx'.ne']
    rw [this, ← rpow_add hx']
    congr 1
    ring
  have hxb : 0 < x ^ b := rpow_pos_of_pos hx' b
  rw [e1, e2]
  rw [← e3]
  generalize x ^ (-(b + 1) / 2) = Y
  field_simp

/-- The fit of Ichimaru in the classical limit. -/
theorem ichimaruF_classical {A B b : ℝ} (hb : 0 < b) :
    Tendsto (fun x => ichimaruF A B b x + 3 / 2 * log x - log (4 / (3 * sqrt π))) atTop (𝓝 0) := by
  have hpow : ∀ r : ℝ, 0 < r → Tendsto (fun x : ℝ => x ^ (-r)) atTop (𝓝 0) := fun r hr =>
    tendsto_rpow_neg_atTop hr
  have h1 : Tendsto (fun x : ℝ => (A * x ^ (-(b + 1)) + B * x ^ (-((b + 1) / 2))) /
      (1 + A * x ^ (-b))) atTop (𝓝 ((A * 0 + B * 0) / (1 + A * 0))) :=
    (((hpow (b + 1) (by linarith)).const_mul A).add ((hpow ((b + 1) / 2) (by linarith)).const_mul B)).div
      (((hpow b hb).const_mul A).const_add 1) (by norm_num)
  rw [mul_zero, mul_zero, add_zero, zero_div] at h1
  refine h1.congr fun x => ?_
  unfold ichimaruF
  have e1 : -b - 1 = -(b + 1) := by ring
  have e2 : -(b + 1) / 2 = -((b + 1) / 2) := by ring
  rw [e1, e2]
  ring

/-- C39: at vanishing temperature the chemical potential is the Fermi energy. -/
theorem chemPotIchimaru_degenerate {n : ℝ} (hn : 0 < n) :
    Tendsto (fun T => chemPotIchimaru u T n) (𝓝[>] 0) (𝓝 (fermiEnergy u n)) := by
  have hE := fermiEnergy_pos u hn
  have hB := u.kB_pos
  have h := ichimaruF_degenerate (A := 25954 / 100000) (B := 72 / 1000) (b := 858 / 1000)
    (by norm_num) (by norm_num) (by norm_num)
  have hx : Tendsto (fun T : ℝ => u.kB * T / fermiEnergy u n) (𝓝[>] 0) (𝓝[>] 0) := by
    rw [tendsto_nhdsWithin_iff]
    constructor
    · have : Tendsto (fun T : ℝ => u.kB * T / fermiEnergy u n) (𝓝 0) (𝓝 (u.kB * 0 / fermiEnergy u n)) :=
        ((tendsto_id).const_mul _).div_const _
      rw [mul_zero, zero_div] at this
      exact tendsto_nhdsWithin_of_tendsto_nhds this
    · filter_upwards [self_mem_nhdsWithin] with T hT
      have hT' : 0 < T := hT
      exact div_pos (by positivity) hE
  have h2 := (h.comp hx).mul_const (fermiEnergy u n)
  rw [one_mul] at h2
  refine h2.congr fun T => ?_
  simp only [Function.comp, chemPotIchimaru]
  field_simp

/-- The degeneracy parameter in terms of temperature and Fermi energy. -/
theorem degeneracyParam_eq {n T : ℝ} (hn : 0 < n) (hT : 0 < T) :
    degeneracyParam u n T / 2 =
      4 / (3 * sqrt π) * (u.kB * T / fermiEnergy u n) ^ (-(3 / 2) : ℝ) := by
  have hB := u.kB_pos
  have hh := u.hbar_pos
  have hm := u.me_pos
  have hpi := pi_pos
  have hE := fermiEnergy_pos u hn
  have hr : 0 < sqrt π := sqrt_pos.2 hpi
  have hrr : sqrt π ^ 2 = π := sq_sqrt hpi.le
  -- the thermal wave length
  set lam := thermDeBroglie u T with hlam
  have hl2 : lam ^ 2 = u.hbar ^ 2 * (2 * π / (u.me * u.kB * T)) := by
    rw [hlam]
    unfold thermDeBroglie
    rw [mul_pow, sq_sqrt (by positivity)]
  have hl0 : 0 < lam := by
    rw [hlam]
    unfold thermDeBroglie
    have : 0 < 2 * π / (u.me * u.kB * T) := by positivity
    have := sqrt_pos.2 this
    positivity
  set q : ℝ := (3 * π ^ 2 * n) ^ (1 / 3 : ℝ) with hq
  have hq0 : 0 < q := rpow_pos_of_pos (by positivity) _
  have hq3 : q ^ 3 = 3 * π ^ 2 * n := by
    rw [hq, ← rpow_natCast, ← rpow_mul (by positivity)]
    norm_num
  have hE2 : fermiEnergy u n = u.hbar ^ 2 / (2 * u.me) * q ^ 2 := by
    unfold fermiEnergy
    congr 1
    rw [hq, ← rpow_natCast ((3 * π ^ 2 * n) ^ (1 / 3 : ℝ)) 2, ← rpow_mul (by positivity)]
    norm_num
  have hx : u.kB * T / fermiEnergy u n = (lam * q / (2 * sqrt π)) ^ (-2 : ℝ) := by
    rw [rpow_neg (by positivity), rpow_two, div_pow, mul_pow, mul_pow, hrr, hl2, hE2]
    field_simp
  rw [hx, ← rpow_mul (by positivity)]
  have e3 : (-2 : ℝ) * -(3 / 2) = ((3 : ℕ) : ℝ) := by norm_num
  rw [e3, rpow_natCast]
  unfold degeneracyParam
  rw [← hlam, div_pow, mul_pow, hq3]
  generalize sqrt π = r at *
  rw [← hrr]
  field_simp
  ring

/-- C39: at high temperature the chemical potential is that of the classical ideal gas,
`exp (μ / kT) = n λ³ / 2`. -/
theorem chemPotIchimaru_classical {n : ℝ} (hn : 0 < n) :
    Tendsto (fun T => exp (chemPotIchimaru u T n / (u.kB * T)) / (degeneracyParam u n T / 2)) atTop
      (𝓝 1) := by
  have hE := fermiEnergy_pos u hn
  have hB := u.kB_pos
  have h := ichimaruF_classical (A := 25954 / 100000) (B := 72 / 1000) (b := 858 / 1000) (by norm_num)
  have hx : Tendsto (fun T : ℝ => u.kB * T / fermiEnergy u n) atTop atTop :=
    (tendsto_id.const_mul_atTop hB).atTop_div_const hE
  have h2 := (continuous_exp.tendsto 0).comp (h.comp hx)
  rw [exp_zero] at h2
  refine h2.congr' ?_
  filter_upwards [eventually_gt_atTop 0] with T hT
  rw [degeneracyParam_eq u hn hT]
  have hth : 0 < u.kB * T / fermiEnergy u n := by positivity
  have hc : 0 < 4 / (3 * sqrt π) := by
    have := sqrt_pos.2 pi_pos
    positivity
  have e1 : chemPotIchimaru u T n / (u.kB * T) = ichimaruF (25954 / 100000) (72 / 1000) (858 / 1000)
      (u.kB * T / fermiEnergy u n) := by
    unfold chemPotIchimaru
    field_simp
  simp only [Function.comp]
  rw [e1, exp_sub, exp_log hc, exp_add, rpow_neg hth.le]
  have e2 : exp (3 / 2 * log (u.kB * T / fermiEnergy u n)) = (u.kB * T / fermiEnergy u n) ^ (3 / 2 : ℝ) := by
    rw [rpow_def_of_pos hth, mul_comm]
  rw [e2]
  have := rpow_pos_of_pos hth (3 / 2)
  field_simp

/-! ### C33: local field corrections -/

/-- C33: the interpolated corrections lie between the two they interpolate. -/
theorem lfcInterp_between {a b theta : ℝ} (h : 0 ≤ theta) :
    min a b ≤ lfcInterp a b theta ∧ lfcInterp a b theta ≤ max a b := by
  have hd : 0 < 1 + theta := by linarith
  unfold lfcInterp
  constructor
  · rw [le_div_iff₀ hd]
    nlinarith [min_le_left a b, min_le_right a b]
  · rw [div_le_iff₀ hd]
    nlinarith [le_max_left a b, le_max_right a b]

/-- C33: and they take the limiting values. -/
theorem lfcInterp_limits (a b : ℝ) :
    lfcInterp a b 0 = a ∧ Tendsto (fun theta => lfcInterp a b theta) atTop (𝓝 b) := by
  refine ⟨by simp [lfcInterp], ?_⟩
  have h : Tendsto (fun t : ℝ => b + (a - b) * (1 + t)⁻¹) atTop (𝓝 (b + (a - b) * 0)) :=
    (((tendsto_atTop_add_const_left atTop 1 tendsto_id).inv_tendsto_atTop).const_mul _).const_add _
  rw [mul_zero, add_zero] at h
  refine h.congr' ?_
  filter_upwards [eventually_ge_atTop 0] with t ht
  have : 1 + t ≠ 0 := by linarith
  unfold lfcInterp
  field_simp
  ring

theorem lfcTheta_nonneg {T n : ℝ} (hT : 0 ≤ T) (hn : 0 < n) : 0 ≤ lfcTheta u T n :=
  div_nonneg hT (fermiTemperature_pos u hn).le

/-- C33: the Hubbard correction lies in [0, 1/2), vanishes only at zero and grows with the wave
number. -/
theorem lfcHubbard_mem {n : ℝ} (hn : 0 < n) (k : ℝ) :
    0 ≤ lfcHubbard k n ∧ lfcHubbard k n < 1 / 2 ∧ (lfcHubbard k n = 0 ↔ k = 0) := by
  have hF := fermiWavenumber_pos hn
  have hd : 0 < k ^ 2 + fermiWavenumber n ^ 2 := by positivity
  unfold lfcHubbard
  refine ⟨by positivity, ?_, ?_⟩
  · rw [div_lt_div_iff₀ (by positivity) (by norm_num)]
    nlinarith [pow_pos hF 2]
  · rw [div_eq_zero_iff]
    constructor
    · rintro (h | h)
      · exact pow_eq_zero_iff (two_ne_zero) |>.1 h
      · exact absurd h (by positivity)
    · intro h
      left
      simp [h]

theorem lfcHubbard_lt {n : ℝ} (hn : 0 < n) {k k' : ℝ} :
    lfcHubbard k n < lfcHubbard k' n ↔ |k| < |k'| := by
  have hF := pow_pos (fermiWavenumber_pos hn) 2
  unfold lfcHubbard
  rw [div_lt_div_iff₀ (by positivity) (by positivity), ← sq_lt_sq]
  constructor <;> intro h <;> nlinarith

/-- C33: the Geldart-Vosko correction lies between zero and `1 - g(0)`. -/
theorem lfcGeldartVosko_mem {k kF gammaT g : ℝ} (hk : k ≠ 0) (hF : 0 < kF) (hg : 0 < gammaT) (h1 : g < 1) :
    0 < lfcGeldartVosko k kF gammaT g ∧ lfcGeldartVosko k kF gammaT g < 1 - g := by
  have hk2 : 0 < k ^ 2 := sq_pos_of_ne_zero hk
  have h1' : 0 < 1 - g := by linarith
  unfold lfcGeldartVosko
  refine ⟨by positivity, ?_⟩
  rw [div_lt_iff₀ (by positivity)]
  have e : (1 - g) * (1 / gammaT * kF ^ 2 + (1 - g)⁻¹ * k ^ 2) =
      (1 - g) * (1 / gammaT * kF ^ 2) + k ^ 2 := by field_simp
  rw [e]
  have : 0 < (1 - g) * (1 / gammaT * kF ^ 2) := by positivity
  linarith

/-! ### C61: limits of the zero temperature corrections -/

/-- The logarithm in the corrections, in the variable in which it is small. -/
noncomputable def shapeM (x : ℝ) : ℝ := (1 - x ^ 2) / (2 * x) * (log (1 + x) - log (1 - x))

theorem shapeM_expansion {x : ℝ} (h0 : 0 < x) (h1 : x ≤ 1 / 2) :
    |shapeM x - (1 - 2 / 3 * x ^ 2 - 2 / 15 * x ^ 4)| ≤ 3 * x ^ 6 := by
  have hx1 : |x| < 1 := by rw [abs_of_pos h0]; linarith
  have hx2 : |-x| < 1 := by rw [abs_neg]; exact hx1
  have b1 := abs_log_sub_add_sum_range_le hx1 6
  have b2 := abs_log_sub_add_sum_range_le hx2 6
  rw [abs_neg] at b2
  simp only [Finset.sum_range_succ, Finset.sum_range_zero, abs_of_pos h0] at b1 b2
  have hb : x ^ (6 + 1) / (1 - x) ≤ 2 * x ^ 7 := by
    rw [div_le_iff₀ (by linarith)]
    have h7 : 0 < x ^ 7 := by positivity
    have e7 : x ^ (6 + 1) = x ^ 7 := rfl
    rw [e7]
    nlinarith [mul_nonneg h7.le (sub_nonneg.2 h1)]
  have b1' := abs_le.1 (b1.trans hb)
  have b2' := abs_le.1 (b2.trans hb)
  norm_num at b1' b2'
  set p := log (1 - x) with hp
  set q := log (1 + x) with hq
  have hq' : log (1 - -x) = q := by rw [sub_neg_eq_add]
  -- the difference of the logarithms
  have hL : |q - p - (2 * x + 2 / 3 * x ^ 3 + 2 / 5 * x ^ 5)| ≤ 4 * x ^ 7 := by
    rw [abs_le]
    constructor <;> nlinarith [b1'.1, b1'.2, b2'.1, b2'.2]
  have hx7 : 0 < x ^ 7 := by positivity
  have hx6 : 0 < x ^ 6 := by positivity
  have e : shapeM x - (1 - 2 / 3 * x ^ 2 - 2 / 15 * x ^ 4) =
      (1 - x ^ 2) / (2 * x) * (q - p - (2 * x + 2 / 3 * x ^ 3 + 2 / 5 * x ^ 5)) - 1 / 5 * x ^ 6 := by
    unfold shapeM
    rw [← hp, ← hq]
    field_simp
    ring
  rw [e]
  have hc : 0 ≤ (1 - x ^ 2) / (2 * x) := by
    apply div_nonneg _ (by linarith)
    nlinarith
  have h2 : |(1 - x ^ 2) / (2 * x) * (q - p - (2 * x + 2 / 3 * x ^ 3 + 2 / 5 * x ^ 5))| ≤ 2 * x ^ 6 := by
    rw [abs_mul, abs_of_nonneg hc]
    calc _ ≤ (1 - x ^ 2) / (2 * x) * (4 * x ^ 7) := mul_le_mul_of_nonneg_left hL hc
      _ = (1 - x ^ 2) * (2 * x ^ 6) := by field_simp; ring
      _ ≤ 2 * x ^ 6 := by nlinarith [sq_nonneg x]
  rw [abs_le] at h2 ⊢
  constructor <;> nlinarith [h2.1, h2.2]

/-- Small wave numbers. -/
theorem lfcShape_small {A B C D Q : ℝ} (h0 : 0 < Q) (h1 : Q < 2) :
    lfcShape A B C D Q = A * Q ^ 4 + B * Q ^ 2 + C + (A * Q ^ 4 + D * Q ^ 2 - C) * shapeM (Q / 2) := by
  unfold lfcShape shapeM
  rw [abs_of_pos (div_pos (by linarith) (by linarith)), log_div (by linarith) (by linarith)]
  have e1 : log (1 + Q / 2) = log (2 + Q) - log 2 := by
    rw [← log_div (by linarith) (by norm_num)]
    congr 1
    ring
  have e2 : log (1 - Q / 2) = log (2 - Q) - log 2 := by
    rw [← log_div (by linarith) (by norm_num)]
    congr 1
    ring
  rw [e1, e2]
  field_simp
  ring

/-- Large wave numbers. -/
theorem lfcShape_large {A B C D Q : ℝ} (h1 : 2 < Q) :
    lfcShape A B C D Q = A * Q ^ 4 + B * Q ^ 2 + C - (A * Q ^ 4 + D * Q ^ 2 - C) * shapeM (2 / Q) := by
  have h0 : 0 < Q := by linarith
  unfold lfcShape shapeM
  rw [abs_of_neg (div_neg_of_pos_of_neg (by linarith) (by linarith)), ← div_neg, neg_sub,
    log_div (by linarith) (by linarith)]
  have e1 : log (1 + 2 / Q) = log (2 + Q) - log Q := by
    rw [← log_div (by linarith) (by linarith)]
    congr 1
    field_simp
    ring
  have e2 : log (1 - 2 / Q) = log (Q - 2) - log Q := by
    rw [← log_div (by linarith) (by linarith)]
    congr 1
    field_simp
  rw [e1, e2]
  field_simp
  ring

/-- The coefficient of the square at small wave numbers. -/
theorem lfcShape_zero (A B C D : ℝ) :
    Tendsto (fun Q => lfcShape A B C D Q / Q ^ 2) (𝓝[>] 0) (𝓝 (B + D + C / 6)) := by
  rw [tendsto_iff_norm_sub_tendsto_zero]
  -- an explicit bound
  have hlim : Tendsto (fun Q : ℝ => (4 * |A| + 2 * |D| + 2 * |C|) * Q ^ 2) (𝓝[>] 0) (𝓝 0) := by
    have : Tendsto (fun Q : ℝ => (4 * |A| + 2 * |D| + 2 * |C|) * Q ^ 2) (𝓝 0)
        (𝓝 ((4 * |A| + 2 * |D| + 2 * |C|) * 0 ^ 2)) := by
      apply Continuous.tendsto
      fun_prop
    rw [zero_pow (by norm_num), mul_zero] at this
    exact tendsto_nhdsWithin_of_tendsto_nhds this
  refine squeeze_zero' (Eventually.of_forall fun _ => norm_nonneg _) ?_ hlim
  have hev : ∀ᶠ Q : ℝ in 𝓝[>] 0, Q < 1 :=
    tendsto_nhdsWithin_of_tendsto_nhds tendsto_id (Iio_mem_nhds one_pos)
  filter_upwards [self_mem_nhdsWithin, hev] with Q h0 h1
  have h0' : 0 < Q := h0
  have hm := shapeM_expansion (x := Q / 2) (by linarith) (by linarith)
  rw [lfcShape_small h0' (by linarith), norm_eq_abs]
  set m := shapeM (Q / 2)
  set r := m - (1 - 2 / 3 * (Q / 2) ^ 2 - 2 / 15 * (Q / 2) ^ 4) with hr
  have hrb : |r| ≤ Q ^ 4 := by
    refine hm.trans ?_
    have : Q ^ 6 ≤ Q ^ 4 := pow_le_pow_of_le_one h0'.le h1.le (by norm_num)
    have e : 3 * (Q / 2) ^ 6 = 3 / 64 * Q ^ 6 := by ring
    rw [e]
    have : 0 ≤ Q ^ 6 := by positivity
    linarith
  have hmr : m = r + (1 - 2 / 3 * (Q / 2) ^ 2 - 2 / 15 * (Q / 2) ^ 4) := by rw [hr]; ring
  have e : (A * Q ^ 4 + B * Q ^ 2 + C + (A * Q ^ 4 + D * Q ^ 2 - C) * m) / Q ^ 2 - (B + D + C / 6) =
      Q ^ 2 * (2 * A - D / 6 + C / 120) - Q ^ 4 * (A / 6 + D / 120) - A * Q ^ 6 / 120 +
        (A * Q ^ 4 + D * Q ^ 2 - C) * (r / Q ^ 2) := by
    rw [hmr]
    field_simp
    ring
  rw [e]
  have hq2 : 0 < Q ^ 2 := by positivity
  have hQ2 : Q ^ 2 ≤ 1 := by nlinarith
  have hQ4 : Q ^ 4 ≤ Q ^ 2 := pow_le_pow_of_le_one h0'.le h1.le (by norm_num)
  have hQ6 : Q ^ 6 ≤ Q ^ 2 := pow_le_pow_of_le_one h0'.le h1.le (by norm_num)
  have hr2 : |r / Q ^ 2| ≤ Q ^ 2 := by
    rw [abs_div, abs_of_pos hq2, div_le_iff₀ hq2]
    calc |r| ≤ Q ^ 4 := hrb
      _ = Q ^ 2 * Q ^ 2 := by ring
  have t1 : |Q ^ 2 * (2 * A - D / 6 + C / 120)| ≤ Q ^ 2 * (2 * |A| + |D| / 6 + |C| / 120) := by
    rw [abs_mul, abs_of_pos hq2]
    apply mul_le_mul_of_nonneg_left _ hq2.le
    refine (abs_add_le _ _).trans (add_le_add ((abs_sub _ _).trans (add_le_add ?_ ?_)) ?_)
    · rw [abs_mul, abs_two]
    · rw [abs_div, abs_of_pos (by norm_num : (0 : ℝ) < 6)]
    · rw [abs_div, abs_of_pos (by norm_num : (0 : ℝ) < 120)]
  have t2 : |Q ^ 4 * (A / 6 + D / 120)| ≤ Q ^ 2 * (|A| / 6 + |D| / 120) := by
    rw [abs_mul, abs_of_pos (by positivity)]
    apply mul_le_mul hQ4 _ (abs_nonneg _) hq2.le
    refine (abs_add_le _ _).trans (add_le_add ?_ ?_)
    · rw [abs_div, abs_of_pos (by norm_num : (0 : ℝ) < 6)]
    · rw [abs_div, abs_of_pos (by norm_num : (0 : ℝ) < 120)]
  have t3 : |A * Q ^ 6 / 120| ≤ |A| * Q ^ 2 / 120 := by
    rw [abs_div, abs_of_pos (by norm_num : (0 : ℝ) < 120), abs_mul, abs_of_pos (by positivity : 0 < Q ^ 6)]
    have := mul_le_mul_of_nonneg_left hQ6 (abs_nonneg A)
    linarith
  have t4 : |(A * Q ^ 4 + D * Q ^ 2 - C) * (r / Q ^ 2)| ≤ (|A| + |D| + |C|) * Q ^ 2 := by
    rw [abs_mul]
    apply mul_le_mul _ hr2 (abs_nonneg _) (by positivity)
    refine (abs_sub _ _).trans (add_le_add ((abs_add_le _ _).trans (add_le_add ?_ ?_)) le_rfl)
    · rw [abs_mul, abs_of_pos (by positivity : 0 < Q ^ 4)]
      exact mul_le_of_le_one_right (abs_nonneg _) (hQ4.trans hQ2)
    · rw [abs_mul, abs_of_pos hq2]
      exact mul_le_of_le_one_right (abs_nonneg _) hQ2
  refine (abs_add_le _ _).trans ((add_le_add ((abs_sub _ _).trans
    (add_le_add ((abs_sub _ _).trans (add_le_add t1 t2)) t3)) t4).trans ?_)
  have hA := mul_nonneg (abs_nonneg A) hq2.le
  have hD := mul_nonneg (abs_nonneg D) hq2.le
  have hC := mul_nonneg (abs_nonneg C) hq2.le
  nlinarith

/-- The behaviour at large wave numbers: a multiple of the square and a constant. -/
theorem lfcShape_infty (A B C D : ℝ) :
    Tendsto (fun Q => lfcShape A B C D Q - (B - D + 8 / 3 * A) * Q ^ 2) atTop
      (𝓝 (2 * C + 8 / 3 * D + 32 / 15 * A)) := by
  rw [tendsto_iff_norm_sub_tendsto_zero]
  have hlim : Tendsto (fun Q : ℝ => (300 * |A| + 300 * |D| + 300 * |C|) * (Q ^ 2)⁻¹) atTop (𝓝 0) := by
    have := ((tendsto_pow_atTop (α := ℝ) (n := 2) (by norm_num)).inv_tendsto_atTop).const_mul
      (300 * |A| + 300 * |D| + 300 * |C|)
    rw [mul_zero] at this
    exact this
  refine squeeze_zero' (Eventually.of_forall fun _ => norm_nonneg _) ?_ hlim
  filter_upwards [eventually_ge_atTop 4] with Q h4
  have h0 : 0 < Q := by linarith
  have hm := shapeM_expansion (x := 2 / Q) (by positivity) (by
    rw [div_le_div_iff₀ h0 (by norm_num)]
    linarith)
  rw [lfcShape_large (by linarith), norm_eq_abs]
  set m := shapeM (2 / Q)
  set r := m - (1 - 2 / 3 * (2 / Q) ^ 2 - 2 / 15 * (2 / Q) ^ 4) with hr
  have hmr : m = r + (1 - 2 / 3 * (2 / Q) ^ 2 - 2 / 15 * (2 / Q) ^ 4) := by rw [hr]; ring
  set y := (Q ^ 2)⁻¹ with hy
  have hq2 : 0 < Q ^ 2 := by positivity
  have hy0 : 0 < y := by positivity
  have hyQ : y * Q ^ 2 = 1 := by rw [hy]; field_simp
  have hy1 : y ≤ 1 := by nlinarith
  have hrb : |r * Q ^ 4| ≤ 192 * y := by
    rw [abs_mul, abs_of_pos (by positivity : 0 < Q ^ 4)]
    calc |r| * Q ^ 4 ≤ 3 * (2 / Q) ^ 6 * Q ^ 4 := mul_le_mul_of_nonneg_right hm (by positivity)
      _ = 192 * y := by rw [hy]; field_simp; norm_num
  have e : A * Q ^ 4 + B * Q ^ 2 + C - (A * Q ^ 4 + D * Q ^ 2 - C) * m - (B - D + 8 / 3 * A) * Q ^ 2 -
      (2 * C + 8 / 3 * D + 32 / 15 * A) =
      y * (32 / 15 * D - 8 / 3 * C) - y ^ 2 * (32 / 15 * C) -
        (A + D * y - C * y ^ 2) * (r * Q ^ 4) := by
    rw [hmr, hy]
    field_simp
    ring
  rw [e]
  have hy2 : y ^ 2 ≤ y := by nlinarith
  have t1 : |y * (32 / 15 * D - 8 / 3 * C)| ≤ y * (3 * |D| + 3 * |C|) := by
    rw [abs_mul, abs_of_pos hy0]
    apply mul_le_mul_of_nonneg_left _ hy0.le
    refine (abs_sub _ _).trans (add_le_add ?_ ?_)
    · rw [abs_mul, abs_of_pos (by norm_num : (0 : ℝ) < 32 / 15)]
      nlinarith [abs_nonneg D]
    · rw [abs_mul, abs_of_pos (by norm_num : (0 : ℝ) < 8 / 3)]
      nlinarith [abs_nonneg C]
  have t2 : |y ^ 2 * (32 / 15 * C)| ≤ y * (3 * |C|) := by
    rw [abs_mul, abs_of_pos (by positivity : 0 < y ^ 2)]
    apply mul_le_mul hy2 _ (abs_nonneg _) hy0.le
    rw [abs_mul, abs_of_pos (by norm_num : (0 : ℝ) < 32 / 15)]
    nlinarith [abs_nonneg C]
  have t3 : |(A + D * y - C * y ^ 2) * (r * Q ^ 4)| ≤ (|A| + |D| + |C|) * (192 * y) := by
    rw [abs_mul]
    apply mul_le_mul _ hrb (abs_nonneg _) (by positivity)
    refine (abs_sub _ _).trans (add_le_add ((abs_add_le _ _).trans (add_le_add le_rfl ?_)) ?_)
    · rw [abs_mul, abs_of_pos hy0]
      exact mul_le_of_le_one_right (abs_nonneg _) hy1
    · rw [abs_mul, abs_of_pos (by positivity : 0 < y ^ 2)]
      exact mul_le_of_le_one_right (abs_nonneg _) (hy2.trans hy1)
  refine (abs_sub _ _).trans ((add_le_add ((abs_sub _ _).trans (add_le_add t1 t2)) t3).trans ?_)
  have hA := mul_nonneg (abs_nonneg A) hy0.le
  have hD := mul_nonneg (abs_nonneg D) hy0.le
  have hC := mul_nonneg (abs_nonneg C) hy0.le
  nlinarith

/-- C61: the correction of Utsumi and Ichimaru fulfils the compressibility sum rule. -/
theorem lfcUtsumi_compressibility (gamma0 g0 : ℝ) :
    Tendsto (fun Q => lfcUtsumi gamma0 g0 Q / Q ^ 2) (𝓝[>] 0) (𝓝 gamma0) := by
  simp only [lfcUtsumi]
  convert lfcShape_zero _ _ _ _ using 2
  ring

/-- C61: at large wave numbers it tends to `1 - g(0)`. -/
theorem lfcUtsumi_large (gamma0 g0 : ℝ) :
    Tendsto (fun Q => lfcUtsumi gamma0 g0 Q) atTop (𝓝 (1 - g0)) := by
  have h := lfcShape_infty (29 / 1000) (9 / 16 * gamma0 - 3 / 64 * (1 - g0) - 16 / 15 * (29 / 1000))
    (-3 / 4 * gamma0 + 9 / 16 * (1 - g0) - 16 / 5 * (29 / 1000))
    (9 / 16 * gamma0 - 3 / 64 * (1 - g0) - 16 / 15 * (29 / 1000) + 8 / 3 * (29 / 1000))
  convert h using 2
  · simp only [lfcUtsumi]
    ring
  · ring

/-- C61: the correction of Farid et al. fulfils the compressibility sum rule. -/
theorem lfcFarid_compressibility (gamma0 b0A b0B b0C bm2 : ℝ) :
    Tendsto (fun Q => lfcFarid gamma0 b0A b0B b0C bm2 Q / Q ^ 2) (𝓝[>] 0) (𝓝 gamma0) := by
  simp only [lfcFarid]
  convert lfcShape_zero _ _ _ _ using 2
  ring

/-- C61: at large wave numbers it grows as `bm2 Q² + b0`. -/
theorem lfcFarid_large (gamma0 b0A b0B b0C bm2 : ℝ) :
    Tendsto (fun Q => lfcFarid gamma0 b0A b0B b0C bm2 Q - bm2 * Q ^ 2) atTop
      (𝓝 (b0A + b0B + b0C)) := by
  simp only [lfcFarid]
  generalize hA : 63 / 64 * (29 / 1000 : ℝ) + 15 / 4096 * (b0A - 2 * (b0B + b0C) - 16 * bm2) = A
  have h := lfcShape_infty A (9 / 16 * gamma0 + 7 / 16 * bm2 - 3 / 64 * (b0A + b0B + b0C) - 16 / 15 * A)
    (-3 / 4 * gamma0 + 3 / 4 * bm2 + 9 / 16 * (b0A + b0B + b0C) - 16 / 5 * A)
    (9 / 16 * gamma0 - 9 / 16 * bm2 - 3 / 64 * (b0A + b0B + b0C) + 8 / 5 * A)
  convert h using 2
  · ring
  · ring

/-- C61: the Geldart-Vosko correction has the same two limits in terms of its own parameters. -/
theorem lfcGeldartVosko_limits {kF gammaT g : ℝ} (hF : 0 < kF) (hg : 0 < gammaT) (h1 : g < 1) :
    Tendsto (fun k => lfcGeldartVosko k kF gammaT g / (k / kF) ^ 2) (𝓝[>] 0) (𝓝 gammaT) ∧
      Tendsto (fun k => lfcGeldartVosko k kF gammaT g) atTop (𝓝 (1 - g)) := by
  have h1' : 0 < 1 - g := by linarith
  constructor
  · have h : Tendsto (fun k : ℝ => kF ^ 2 / (1 / gammaT * kF ^ 2 + (1 - g)⁻¹ * k ^ 2)) (𝓝 0)
        (𝓝 (kF ^ 2 / (1 / gammaT * kF ^ 2 + (1 - g)⁻¹ * 0 ^ 2))) := by
      apply ContinuousAt.tendsto
      apply ContinuousAt.div (by fun_prop) (by fun_prop)
      positivity
    have e : kF ^ 2 / (1 / gammaT * kF ^ 2 + (1 - g)⁻¹ * 0 ^ 2) = gammaT := by
      field_simp
      ring
    rw [e] at h
    refine (tendsto_nhdsWithin_of_tendsto_nhds h).congr' ?_
    filter_upwards [self_mem_nhdsWithin] with k hk
    have hk' : 0 < k := hk
    unfold lfcGeldartVosko
    have : 0 < 1 / gammaT * kF ^ 2 + (1 - g)⁻¹ * k ^ 2 := by positivity
    field_simp
  · have h : Tendsto (fun k : ℝ => 1 / (1 / gammaT * kF ^ 2 * (k ^ 2)⁻¹ + (1 - g)⁻¹)) atTop
        (𝓝 (1 / (1 / gammaT * kF ^ 2 * 0 + (1 - g)⁻¹))) := by
      refine Tendsto.div tendsto_const_nhds ?_ (by positivity)
      exact (((tendsto_pow_atTop (α := ℝ) (n := 2) (by norm_num)).inv_tendsto_atTop).const_mul _).add_const _
    have e : 1 / (1 / gammaT * kF ^ 2 * 0 + (1 - g)⁻¹) = 1 - g := by
      rw [mul_zero, zero_add, one_div, inv_inv]
    rw [e] at h
    refine h.congr' ?_
    filter_upwards [eventually_gt_atTop 0] with k hk
    unfold lfcGeldartVosko
    have : 0 < 1 / gammaT * kF ^ 2 + (1 - g)⁻¹ * k ^ 2 := by positivity
    field_simp

/-- C33, C61: both limits are met by the interpolation at the degenerate and the classical end. -/
example : Tendsto (fun Q => lfcInterp (lfcUtsumi (1 / 4) (1 / 2) Q) 0 0) atTop (𝓝 (1 / 2)) := by
  have h := lfcUtsumi_large (1 / 4) (1 / 2)
  norm_num at h
  refine h.congr fun Q => ?_
  rw [(lfcInterp_limits _ _).1]

end Verif.Resp
