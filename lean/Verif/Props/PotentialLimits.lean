/-
The matrices of the potentials for the hypernetted chain scheme, and the quantum potentials at small and
at large distances (C74).
-/
import Verif.Props.Potential
import Mathlib.Analysis.SpecialFunctions.Log.Deriv
import Mathlib.Analysis.Complex.ExponentialBounds

set_option autoImplicit false

namespace Verif.Pot

open Real Verif.Expt Verif.Hnc Verif.Interp MeasureTheory Set Filter Topology

variable (u : Consts)

/-! ### Entries of the arrays -/

section
variable (m : Mode) (ions : List ℝ) (x y : ℝ)

theorem arr_ion {a : ℕ} (h : a < ions.length) : arr (withElectrons m ions x y) a = arr ions a := by
  cases m <;> simp [withElectrons, arr, List.getD_eq_getElem?_getD, List.getElem?_append_left h]

theorem arr_electron_averaged : arr (withElectrons .averaged ions x y) ions.length = x := by
  simp [withElectrons, arr, List.getD_eq_getElem?_getD]

theorem arr_electron_separated {a : ℕ} (h : a = ions.length ∨ a = ions.length + 1) :
    arr (withElectrons .separated ions x y) a = y := by
  rcases h with rfl | rfl <;>
    simp [withElectrons, arr, List.getD_eq_getElem?_getD]

end

/-- A species of electrons. -/
def IsElectron (n : ℕ) : Mode → ℕ → Prop
  | .off, _ => False
  | .averaged, a => a = n
  | .separated, a => a = n ∨ a = n + 1

theorem arr_electron (m : Mode) (ions : List ℝ) (x : ℝ) {a : ℕ} (h : IsElectron ions.length m a) :
    arr (withElectrons m ions x x) a = x := by
  cases m with
  | off => exact h.elim
  | averaged =>
    have h' : a = ions.length := h
    rw [h']
    exact arr_electron_averaged _ _ _
  | separated => exact arr_electron_separated _ _ _ h

/-! ### Symmetry -/

/-- The entries are the same for the pair `a, b` and the pair `b, a`, so that every method of every
potential returns a symmetric matrix. -/
theorem pair_symm (p : Plasma) (m : Mode) (a b : ℕ) (hk : p.kappa a b = p.kappa b a) :
    p.pair u m a b = p.pair u m b a := by
  have h1 : p.q2 u m a b = p.q2 u m b a := by
    unfold Plasma.q2
    ring
  have h2 : p.alpha m a b = p.alpha m b a := by
    simp only [Plasma.alpha, mul_comm (arr _ a) (arr _ b)]
  have h3 : p.mu u m a b = p.mu u m b a := by
    simp only [Plasma.mu, mul_comm (arr _ a) (arr _ b), add_comm (arr _ a) (arr _ b)]
  have h4 : p.T u m a b = p.T u m b a := by
    unfold Plasma.T
    simp only []
    congr 1 <;> ring
  have h5 : p.rCut m a b = p.rCut m b a := by
    cases m with
    | off => rfl
    | averaged =>
      simp only [Plasma.rCut]
      by_cases ha : a = p.size .averaged - 1 <;> by_cases hb : b = p.size .averaged - 1 <;>
        simp [ha, hb]
    | separated =>
      simp only [Plasma.rCut]
      have key : ∀ c : ℕ, (c = p.size .separated - 2 ∨ c = p.size .separated - 1) → ¬ c < p.size .separated - 2 := by
        intro c hc
        omega
      by_cases ha : a = p.size .separated - 2 ∨ a = p.size .separated - 1 <;>
        by_cases hb : b = p.size .separated - 2 ∨ b = p.size .separated - 1
      · have h1 := key a ha
        have h2 := key b hb
        simp [h1, h2]
      · have h1 := key a ha
        have ha' := ha.symm
        simp [ha, hb, h1, ha']
      · have h2 := key b hb
        have hb' := hb.symm
        simp [ha, hb, h2, hb']
      · have ha' : ¬(a = p.size .separated - 1 ∨ a = p.size .separated - 2) := fun h => ha h.symm
        have hb' : ¬(b = p.size .separated - 1 ∨ b = p.size .separated - 2) := fun h => hb h.symm
        simp only [ha, hb, ha', hb', false_and, and_false, if_false]
  have h6 : decide (a = b ∧ p.Z.length ≤ a) = decide (b = a ∧ p.Z.length ≤ b) := by
    rw [decide_eq_decide]
    constructor <;> rintro ⟨rfl, h⟩ <;> exact ⟨rfl, h⟩
  simp only [Plasma.pair, Plasma.lam, h1, h2, h3, h4, h5, h6, hk]

/-! ### Charges, temperatures and radii -/

section
variable (p : Plasma) (m : Mode)

/-- Ions repel each other, electrons repel each other with the square of the elementary charge, and ions
attract electrons. -/
theorem charge_signs {a b : ℕ} :
    (a < p.Z.length → b < p.Z.length → 0 < arr p.Z a → 0 < arr p.Z b → 0 < p.q2 u m a b) ∧
    (IsElectron p.Z.length m a → IsElectron p.Z.length m b → p.q2 u m a b = u.e ^ 2) ∧
    (a < p.Z.length → 0 < arr p.Z a → IsElectron p.Z.length m b →
      p.q2 u m a b = -(arr p.Z a * u.e ^ 2) ∧ p.q2 u m a b < 0) := by
  have he := u.e_pos
  refine ⟨fun ha hb hza hzb => ?_, fun ha hb => ?_, fun ha hza hb => ?_⟩
  · simp only [Plasma.q2, arr_ion _ _ _ _ ha, arr_ion _ _ _ _ hb]
    positivity
  · simp only [Plasma.q2, arr_electron _ _ _ ha, arr_electron _ _ _ hb]
    ring
  · have h : p.q2 u m a b = -(arr p.Z a * u.e ^ 2) := by
      simp only [Plasma.q2, arr_ion _ _ _ _ ha, arr_electron _ _ _ hb]
      ring
    refine ⟨h, ?_⟩
    rw [h]
    have : 0 < arr p.Z a * u.e ^ 2 := by positivity
    linarith

/-- The temperature of a species with itself is its own, and the temperature of a pair is between both. -/
theorem pair_temperature {a b : ℕ}
    (ha : 0 < arr (withElectrons m p.mass u.me u.me) a) (hb : 0 < arr (withElectrons m p.mass u.me u.me) b) :
    p.T u m a a = arr (withElectrons m p.Ti p.Te p.Te) a ∧
      min (arr (withElectrons m p.Ti p.Te p.Te) a) (arr (withElectrons m p.Ti p.Te p.Te) b) ≤ p.T u m a b ∧
      p.T u m a b ≤ max (arr (withElectrons m p.Ti p.Te p.Te) a) (arr (withElectrons m p.Ti p.Te p.Te) b) := by
  simp only [Plasma.T]
  generalize arr (withElectrons m p.mass u.me u.me) a = ma at *
  generalize arr (withElectrons m p.mass u.me u.me) b = mb at *
  generalize arr (withElectrons m p.Ti p.Te p.Te) a = Ta at *
  generalize arr (withElectrons m p.Ti p.Te p.Te) b = Tb at *
  refine ⟨?_, ?_, ?_⟩
  · field_simp
  · rw [le_div_iff₀ (by linarith)]
    nlinarith [mul_le_mul_of_nonneg_left (min_le_right Ta Tb) ha.le, mul_le_mul_of_nonneg_left (min_le_left Ta Tb) hb.le]
  · rw [div_le_iff₀ (by linarith)]
    nlinarith [mul_le_mul_of_nonneg_left (le_max_right Ta Tb) ha.le, mul_le_mul_of_nonneg_left (le_max_left Ta Tb) hb.le]

/-- For electrons these are the temperature of the electrons and the length `ħ / sqrt(m_e k_B T_e)`. -/
theorem electron_pair (hlen : p.mass.length = p.Z.length) (hlenT : p.Ti.length = p.Z.length) {a b : ℕ} (hT : 0 < p.Te)
    (ha : IsElectron p.Z.length m a) (hb : IsElectron p.Z.length m b) :
    p.T u m a b = p.Te ∧ p.lam u m a b = u.hbar / sqrt (u.me * u.kB * p.Te) := by
  have hm := u.me_pos
  have hk := u.kB_pos
  have e1 := arr_electron m p.mass u.me (a := a) (by rw [hlen]; exact ha)
  have e2 := arr_electron m p.mass u.me (a := b) (by rw [hlen]; exact hb)
  have e3 := arr_electron m p.Ti p.Te (a := a) (by rw [hlenT]; exact ha)
  have e4 := arr_electron m p.Ti p.Te (a := b) (by rw [hlenT]; exact hb)
  have hTe : p.T u m a b = p.Te := by
    simp only [Plasma.T, e1, e2, e3, e4]
    field_simp
  refine ⟨hTe, ?_⟩
  have hmu : 2 * p.mu u m a b = u.me := by
    simp only [Plasma.mu, e1, e2]
    field_simp
    ring
  rw [Plasma.lam, hTe, hmu, sqrt_div zero_le_one, sqrt_one]
  ring

/-- The core radius is zero for two ions, and for two electrons, and that of the ion for an ion and an
electron. -/
theorem core_radius {a b : ℕ} :
    (a < p.Z.length → b < p.Z.length → p.rCut m a b = 0) ∧
    (IsElectron p.Z.length m a → IsElectron p.Z.length m b → p.rCut m a b = 0) ∧
    (a < p.Z.length → IsElectron p.Z.length m b → p.rCut m a b = arr p.core a) := by
  have s1 : p.size .averaged = p.Z.length + 1 := by simp [Plasma.size, withElectrons]
  have s2 : p.size .separated = p.Z.length + 2 := by simp [Plasma.size, withElectrons]
  cases m with
  | off => exact ⟨fun _ _ => rfl, fun h => h.elim, fun _ h => h.elim⟩
  | averaged =>
    simp only [IsElectron, Plasma.rCut, s1]
    refine ⟨fun ha hb => ?_, fun ha hb => ?_, fun ha hb => ?_⟩
    · rw [if_neg (by omega), if_neg (by omega)]
    · rw [if_neg (by omega), if_neg (by omega)]
    · rw [if_neg (by omega), if_pos (by omega)]
  | separated =>
    simp only [IsElectron, Plasma.rCut, s2]
    refine ⟨fun ha hb => ?_, fun ha hb => ?_, fun ha hb => ?_⟩
    · rw [if_neg (by omega), if_neg (by omega)]
    · rw [if_neg (by omega), if_neg (by omega)]
    · rw [if_neg (by omega), if_pos (by omega)]

/-- The split parameter of a species with itself is two over its Wigner-Seitz radius. -/
theorem alpha_diag {a : ℕ} (ha : 0 < arr (withElectrons m p.ni p.ne (p.ne / 2)) a) :
    0 < p.alpha m a a ∧ 4 / 3 * π * (2 / p.alpha m a a) ^ 3 * arr (withElectrons m p.ni p.ne (p.ne / 2)) a = 1 := by
  simp only [Plasma.alpha]
  generalize arr (withElectrons m p.ni p.ne (p.ne / 2)) a = n at *
  have hp := pi_pos
  have e1 : (n * n) ^ (1 / 2 : ℝ) = n := by
    rw [← sqrt_eq_rpow, sqrt_mul_self ha.le]
  rw [e1]
  have hx : 0 < 3 / (4 * π * n) := by positivity
  have e2 : ((3 / (4 * π * n)) ^ (1 / 3 : ℝ)) ^ 3 = 3 / (4 * π * n) := by
    rw [← rpow_natCast, ← rpow_mul hx.le]
    norm_num
  have hd : 0 < (3 / (4 * π * n)) ^ (1 / 3 : ℝ) := rpow_pos_of_pos hx _
  generalize (3 / (4 * π * n)) ^ (1 / 3 : ℝ) = d at *
  refine ⟨by positivity, ?_⟩
  have e3 : 2 / (2 / d) = d := by field_simp
  rw [e3, e2]
  field_simp

end

/-- Carbon with free electrons, in some units. -/
example : ∃ p : Plasma, p.Z = [4] ∧ p.mass.length = p.Z.length ∧ p.Ti.length = p.Z.length ∧ 0 < p.Te ∧
    IsElectron p.Z.length .averaged 1 ∧ 0 < arr (withElectrons .averaged p.ni p.ne (p.ne / 2)) 1 :=
  ⟨⟨[4], [1], [12], [2], [1 / 2], 4, 3, fun _ _ => 1⟩, rfl, rfl, rfl, by norm_num, rfl, by
    norm_num [withElectrons, arr]⟩

/-! ### The error function -/

theorem gaussian_integrable (a : ℝ) : IntegrableOn (fun t : ℝ => exp (-t ^ 2)) (Ioi a) := by
  have h := (integrable_exp_neg_mul_sq one_pos)
  have e : (fun t : ℝ => exp (-t ^ 2)) = fun t : ℝ => exp (-1 * t ^ 2) := by
    funext t
    congr 1
    ring
  rw [e]
  exact h.integrableOn

/-- `1 - erf` is an integral over the tail. -/
theorem one_sub_erf (x : ℝ) : 1 - erf x = 2 / sqrt π * ∫ t in Ioi x, exp (-t ^ 2) := by
  have h0 : ∫ t in Ioi (0 : ℝ), exp (-t ^ 2) = sqrt π / 2 := by
    have h := integral_gaussian_Ioi 1
    rw [div_one] at h
    rw [← h]
    congr 1
    funext t
    congr 1
    ring
  have h1 := intervalIntegral.integral_interval_add_Ioi (gaussian_integrable 0) (gaussian_integrable x)
  have hs : sqrt π ≠ 0 := (sqrt_pos.2 pi_pos).ne'
  unfold erf
  rw [h0] at h1
  have h2 : ∫ t in Ioi x, exp (-t ^ 2) = sqrt π / 2 - ∫ t in (0 : ℝ)..x, exp (-t ^ 2) := by linarith
  rw [h2]
  field_simp

theorem erf_le_one (x : ℝ) : 0 ≤ 1 - erf x := by
  rw [one_sub_erf]
  refine mul_nonneg (by positivity) (integral_nonneg fun t => (exp_pos _).le)

/-- The bound on the tail. -/
theorem erfc_bound {x : ℝ} (hx : 0 < x) : sqrt π * x * (1 - erf x) ≤ exp (-x ^ 2) := by
  have hs : sqrt π ≠ 0 := (sqrt_pos.2 pi_pos).ne'
  have h1 : sqrt π * x * (1 - erf x) = ∫ t in Ioi x, 2 * x * exp (-t ^ 2) := by
    rw [one_sub_erf, integral_const_mul]
    field_simp
  have hd : ∀ t : ℝ, HasDerivAt (fun t => -exp (-t ^ 2)) (2 * t * exp (-t ^ 2)) t := by
    intro t
    have h := ((hasDerivAt_pow 2 t).neg.exp).neg
    refine h.congr_deriv ?_
    simp
    ring
  have ht : Tendsto (fun t : ℝ => -exp (-t ^ 2)) atTop (𝓝 0) := by
    have h : Tendsto (fun t : ℝ => t ^ 2) atTop atTop := tendsto_pow_atTop (by norm_num)
    simpa using (tendsto_exp_neg_atTop_nhds_zero.comp h).neg
  have hi : IntegrableOn (fun t : ℝ => 2 * t * exp (-t ^ 2)) (Ioi x) :=
    integrableOn_Ioi_deriv_of_nonneg' (fun t _ => hd t)
      (fun t ht => by have : 0 < t := hx.trans ht; positivity) ht
  have h2 : ∫ t in Ioi x, 2 * t * exp (-t ^ 2) = exp (-x ^ 2) := by
    rw [integral_Ioi_of_hasDerivAt_of_tendsto' (fun t _ => hd t) hi ht]
    ring
  rw [h1, ← h2]
  refine setIntegral_mono_on ((gaussian_integrable x).const_mul (2 * x)) hi measurableSet_Ioi fun t ht => ?_
  have : x < t := ht
  exact mul_le_mul_of_nonneg_right (by linarith) (exp_pos _).le

theorem erf_continuous : Continuous erf := by
  have h : Continuous fun t : ℝ => exp (-t ^ 2) := by fun_prop
  exact continuous_const.mul (intervalIntegral.continuous_primitive (fun a b => h.intervalIntegrable a b) 0)

theorem erf_zero : erf 0 = 0 := by simp [erf]

/-! ### Kelbg and Deutsch potentials -/

section
variable (P : Pair) (hl : 0 < P.lam)
include hl

/-- The factor in front of the Coulomb potential is between zero and one, and tends to one as fast as a
Gaussian. -/
theorem kelbg_factor {r : ℝ} (hr : 0 < r) : ∃ c, kelbgR u P r = coulombR u P r * c ∧
    0 ≤ c ∧ 1 - exp (-r ^ 2 / P.lam ^ 2) ≤ c ∧ c ≤ 1 := by
  have hx : 0 < r / P.lam := div_pos hr hl
  have h1 := erfc_bound hx
  have h2 := erf_le_one (r / P.lam)
  have e : -(r / P.lam) ^ 2 = -r ^ 2 / P.lam ^ 2 := by
    rw [div_pow]
    ring
  rw [e] at h1
  have e2 : sqrt π * (r / P.lam) = sqrt π * r / P.lam := by ring
  rw [e2] at h1
  have h3 : exp (-r ^ 2 / P.lam ^ 2) ≤ 1 := by
    refine exp_le_one_iff.2 ?_
    rw [neg_div]
    have : 0 ≤ r ^ 2 / P.lam ^ 2 := by positivity
    linarith
  have h4 : 0 ≤ sqrt π * r / P.lam * (1 - erf (r / P.lam)) := mul_nonneg (by positivity) h2
  exact ⟨_, rfl, by linarith, by linarith, by linarith⟩

/-- The Kelbg potential is never stronger than the Coulomb potential, and differs from it by less than a
Gaussian times the Coulomb potential. -/
theorem kelbg_bounds {r : ℝ} (hr : 0 < r) :
    |kelbgR u P r| ≤ |coulombR u P r| ∧
      |coulombR u P r - kelbgR u P r| ≤ |coulombR u P r| * exp (-r ^ 2 / P.lam ^ 2) := by
  obtain ⟨c, h1, h2, h3, h4⟩ := kelbg_factor u P hl hr
  rw [h1]
  refine ⟨?_, ?_⟩
  · rw [abs_mul, abs_of_nonneg h2]
    exact mul_le_of_le_one_right (abs_nonneg _) h4
  · have e : coulombR u P r - coulombR u P r * c = coulombR u P r * (1 - c) := by ring
    rw [e, abs_mul, abs_of_nonneg (sub_nonneg.2 h4)]
    exact mul_le_mul_of_nonneg_left (by linarith) (abs_nonneg _)

/-- The documented limit at the origin. -/
theorem kelbg_origin :
    Tendsto (kelbgR u P) (𝓝[>] 0) (𝓝 (P.q2 * sqrt π / (4 * π * u.eps0 * P.lam))) := by
  have hp := pi_pos
  have he := u.eps0_pos
  have h1 : Tendsto (fun r : ℝ => (1 - exp (-r ^ 2 / P.lam ^ 2)) / r) (𝓝[>] 0) (𝓝 0) := by
    have hb : Tendsto (fun r : ℝ => r / P.lam ^ 2) (𝓝[>] 0) (𝓝 0) := by
      have : Tendsto (fun r : ℝ => r / P.lam ^ 2) (𝓝 0) (𝓝 (0 / P.lam ^ 2)) := tendsto_id.div_const _
      rw [zero_div] at this
      exact this.mono_left nhdsWithin_le_nhds
    refine squeeze_zero' ?_ ?_ hb
    · filter_upwards [self_mem_nhdsWithin] with r hr
      have hr' : 0 < r := hr
      refine div_nonneg ?_ hr'.le
      have : exp (-r ^ 2 / P.lam ^ 2) ≤ 1 := by
        refine exp_le_one_iff.2 ?_
        rw [neg_div]
        have : 0 ≤ r ^ 2 / P.lam ^ 2 := by positivity
        linarith
      linarith
    · filter_upwards [self_mem_nhdsWithin] with r hr
      have hr' : 0 < r := hr
      rw [div_le_iff₀ hr']
      have := add_one_le_exp (-r ^ 2 / P.lam ^ 2)
      have e : r / P.lam ^ 2 * r = -(-r ^ 2 / P.lam ^ 2) := by ring
      rw [e]
      linarith
  have h2 : Tendsto (fun r : ℝ => sqrt π / P.lam * (1 - erf (r / P.lam))) (𝓝[>] 0) (𝓝 (sqrt π / P.lam)) := by
    have hc : Continuous fun r : ℝ => sqrt π / P.lam * (1 - erf (r / P.lam)) := by
      have := erf_continuous
      fun_prop
    have := (hc.tendsto 0).mono_left (nhdsWithin_le_nhds (s := Ioi 0))
    simpa [erf_zero] using this
  have h3 := (h1.add h2).const_mul (P.q2 / (4 * π * u.eps0))
  have e : P.q2 / (4 * π * u.eps0) * (0 + sqrt π / P.lam) = P.q2 * sqrt π / (4 * π * u.eps0 * P.lam) := by
    field_simp
    ring
  rw [e] at h3
  refine h3.congr' ?_
  filter_upwards [self_mem_nhdsWithin] with r hr
  have hr' : 0 < r := hr
  simp only [kelbgR]
  field_simp

/-- The Deutsch potential has the same limit. -/
theorem deutsch_origin :
    Tendsto (deutschR u P) (𝓝[>] 0) (𝓝 (P.q2 * sqrt π / (4 * π * u.eps0 * P.lam))) := by
  have hp := pi_pos
  have he := u.eps0_pos
  have hs : 0 < sqrt π := sqrt_pos.2 hp
  have hd : HasDerivAt (fun r : ℝ => 1 - exp (-r / (P.lam / sqrt π))) (1 / (P.lam / sqrt π)) 0 := by
    have h := (((hasDerivAt_id (0 : ℝ)).neg.div_const (P.lam / sqrt π)).exp).const_sub 1
    refine h.congr_deriv ?_
    simp
    field_simp
  have h1 : Tendsto (fun r : ℝ => r⁻¹ * (1 - exp (-r / (P.lam / sqrt π)))) (𝓝[>] 0) (𝓝 (1 / (P.lam / sqrt π))) := by
    have h := (hasDerivAt_iff_tendsto_slope_zero.1 hd).mono_left
      (nhdsWithin_mono 0 (show Ioi (0 : ℝ) ⊆ {0}ᶜ from fun x hx => ne_of_gt hx))
    simpa using h
  have h3 := h1.const_mul (P.q2 / (4 * π * u.eps0))
  have e : P.q2 / (4 * π * u.eps0) * (1 / (P.lam / sqrt π)) = P.q2 * sqrt π / (4 * π * u.eps0 * P.lam) := by
    field_simp
  rw [e] at h3
  refine h3.congr' ?_
  filter_upwards [self_mem_nhdsWithin] with r hr
  have hr' : 0 < r := hr
  simp only [deutschR]
  field_simp

/-- The Deutsch potential is never stronger than the Coulomb potential either. -/
theorem deutsch_bounds {r : ℝ} (hr : 0 < r) :
    |deutschR u P r| ≤ |coulombR u P r| ∧
      |coulombR u P r - deutschR u P r| = |coulombR u P r| * exp (-(sqrt π * r / P.lam)) := by
  have hs : 0 < sqrt π := sqrt_pos.2 pi_pos
  have e : -r / (P.lam / sqrt π) = -(sqrt π * r / P.lam) := by
    rw [div_div_eq_mul_div]
    ring
  have h1 : deutschR u P r = coulombR u P r * (1 - exp (-(sqrt π * r / P.lam))) := by
    rw [deutschR, coulombR, e]
  have h2 : exp (-(sqrt π * r / P.lam)) ≤ 1 := by
    refine exp_le_one_iff.2 ?_
    have : 0 ≤ sqrt π * r / P.lam := by positivity
    linarith
  have h3 := exp_pos (-(sqrt π * r / P.lam))
  rw [h1]
  refine ⟨?_, ?_⟩
  · rw [abs_mul, abs_of_nonneg (by linarith : (0 : ℝ) ≤ 1 - exp (-(sqrt π * r / P.lam)))]
    exact mul_le_of_le_one_right (abs_nonneg _) (by linarith)
  · have e2 : coulombR u P r - coulombR u P r * (1 - exp (-(sqrt π * r / P.lam))) =
        coulombR u P r * exp (-(sqrt π * r / P.lam)) := by ring
    rw [e2, abs_mul, abs_of_pos h3]

/-- The potential of Klimontovich and Kraeft: finite at the origin, attractive everywhere and never stronger
than the attraction of two opposite charges, which it approaches at large distances. -/
theorem klimontovichKraeft_shape (hT : 0 < P.T) (hq : P.q2 ≠ 0) :
    kkR u P 0 = -(P.q2 ^ 2 / (16 * (4 * π * u.eps0) ^ 2 * P.lam ^ 2 * (u.kB * P.T))) ∧
    (∀ r > 0, -(|P.q2| / (4 * π * u.eps0 * r)) < kkR u P r ∧ kkR u P r < 0) ∧
    Tendsto (fun r => r * kkR u P r) atTop (𝓝 (-(|P.q2| / (4 * π * u.eps0)))) := by
  have hp := pi_pos
  have he := u.eps0_pos
  have hk := u.kB_pos
  have hq' : 0 < |P.q2| := abs_pos.2 hq
  have hq2 : P.q2 ^ 2 = |P.q2| ^ 2 := (sq_abs _).symm
  -- the depth at the origin and the slope
  have h1 : ∀ r, kkR u P r = -(P.q2 ^ 2 / (16 * (4 * π * u.eps0) ^ 2 * P.lam ^ 2 * (u.kB * P.T))) *
      (1 + |P.q2| / (16 * (4 * π * u.eps0) * P.lam ^ 2 * (u.kB * P.T)) * r)⁻¹ := by
    intro r
    have e1 : u.kB * P.T * (P.q2 * (1 / (u.kB * P.T)) / (4 * π * u.eps0 * P.lam)) ^ 2 =
        P.q2 ^ 2 / ((4 * π * u.eps0) ^ 2 * P.lam ^ 2 * (u.kB * P.T)) := by
      field_simp
    have e2 : P.q2 ^ 2 / ((4 * π * u.eps0) ^ 2 * P.lam ^ 2 * (u.kB * P.T)) / (16 * |P.q2| / (4 * π * u.eps0)) =
        |P.q2| / (16 * (4 * π * u.eps0) * P.lam ^ 2 * (u.kB * P.T)) := by
      rw [hq2]
      field_simp
    simp only [kkR, e1, e2]
    congr 2
    field_simp
  have hA : 0 < P.q2 ^ 2 / (16 * (4 * π * u.eps0) ^ 2 * P.lam ^ 2 * (u.kB * P.T)) := by positivity
  have hB : 0 < |P.q2| / (16 * (4 * π * u.eps0) * P.lam ^ 2 * (u.kB * P.T)) := by positivity
  have hAB : P.q2 ^ 2 / (16 * (4 * π * u.eps0) ^ 2 * P.lam ^ 2 * (u.kB * P.T)) =
      |P.q2| / (4 * π * u.eps0) * (|P.q2| / (16 * (4 * π * u.eps0) * P.lam ^ 2 * (u.kB * P.T))) := by
    rw [hq2]
    field_simp
  generalize P.q2 ^ 2 / (16 * (4 * π * u.eps0) ^ 2 * P.lam ^ 2 * (u.kB * P.T)) = A at *
  generalize |P.q2| / (16 * (4 * π * u.eps0) * P.lam ^ 2 * (u.kB * P.T)) = B at *
  have hC : 0 < |P.q2| / (4 * π * u.eps0) := by positivity
  have hCr : ∀ r, |P.q2| / (4 * π * u.eps0 * r) = |P.q2| / (4 * π * u.eps0) / r := by
    intro r
    rw [div_div]
  generalize |P.q2| / (4 * π * u.eps0) = C at *
  subst hAB
  refine ⟨by rw [h1]; simp, fun r hr => ?_, ?_⟩
  · rw [h1, hCr]
    have hD : 0 < 1 + B * r := by positivity
    constructor
    · rw [neg_mul, neg_lt_neg_iff, ← div_eq_mul_inv, div_lt_div_iff₀ hD hr]
      nlinarith
    · have : 0 < C * B * (1 + B * r)⁻¹ := by positivity
      linarith
  · have h2 : Tendsto (fun r : ℝ => -C * (1 - (1 + B * r)⁻¹)) atTop (𝓝 (-C * (1 - 0))) := by
      refine Tendsto.const_mul _ (Tendsto.const_sub _ ?_)
      exact tendsto_inv_atTop_zero.comp (tendsto_atTop_add_const_left _ _ (tendsto_id.const_mul_atTop hB))
    have e : -C * (1 - 0) = -C := by ring
    rw [e] at h2
    refine h2.congr' ?_
    filter_upwards [eventually_gt_atTop 0] with r hr
    have hD : 1 + B * r ≠ 0 := by positivity
    rw [h1]
    field_simp
    ring

end

/-! ### Exchange of electrons -/

section
variable (P : Pair) (hl : 0 < P.lam) (hT : 0 < P.T)
include hl hT

/-- The Boltzmann factor of the exchange of electrons with equal spin vanishes at the origin, and tends to
one. -/
theorem exchange_boltzmann (hee : P.ee = true) {r : ℝ} (hr : 0 < r) :
    exp (-(exchangeSeparatedR u P r / (u.kB * P.T))) = 1 - exp (-(r ^ 2 / P.lam ^ 2)) := by
  have hk := u.kB_pos
  have h1 : exp (-(r ^ 2 / P.lam ^ 2)) < 1 := by
    refine exp_lt_one_iff.2 ?_
    have : 0 < r ^ 2 / P.lam ^ 2 := by positivity
    linarith
  rw [exchangeSeparatedR, if_pos hee]
  have e : -(-1 * u.kB * P.T * log (1 - exp (-(r ^ 2 / P.lam ^ 2))) / (u.kB * P.T)) =
      log (1 - exp (-(r ^ 2 / P.lam ^ 2))) := by
    field_simp
  rw [e, exp_log (by linarith)]

omit hl in
/-- For electrons of both spins the Boltzmann factor at the origin is one half. -/
theorem exchange_averaged_origin (hee : P.ee = true) :
    exp (-(exchangeAveragedR u P 0 / (u.kB * P.T))) = 1 / 2 := by
  have hk := u.kB_pos
  rw [exchangeAveragedR, if_pos hee]
  have e : -(u.kB * P.T * log 2 * exp (-1 / (π * log 2) * (0 / (P.lam / sqrt π)) ^ 2) / (u.kB * P.T)) = -log 2 := by
    rw [zero_div]
    norm_num
    field_simp
  rw [e, exp_neg, exp_log (by norm_num)]
  norm_num

/-- Electrons with equal spin repel each other more than electrons of both spins on average, at every
distance, and both potentials are repulsive: the documented expectation. -/
theorem exchange_order (hee : P.ee = true) {r : ℝ} (hr : 0 < r) :
    0 < exchangeAveragedR u P r ∧ exchangeAveragedR u P r < exchangeSeparatedR u P r := by
  have hk := u.kB_pos
  have hl2 : 0 < log 2 := log_pos (by norm_num)
  have hl2' : log 2 < 1 := by
    have := log_two_lt_d9
    linarith
  have hp := pi_pos
  have hs : sqrt π ^ 2 = π := sq_sqrt hp.le
  rw [exchangeAveragedR, if_pos hee, exchangeSeparatedR, if_pos hee]
  have e : -1 / (π * log 2) * (r / (P.lam / sqrt π)) ^ 2 = -(r ^ 2 / P.lam ^ 2) / log 2 := by
    rw [div_div_eq_mul_div, div_pow, mul_pow, hs]
    field_simp
  rw [e]
  have hx : 0 < r ^ 2 / P.lam ^ 2 := by positivity
  generalize r ^ 2 / P.lam ^ 2 = x at *
  refine ⟨by positivity, ?_⟩
  have hE : exp (-x) < 1 := exp_lt_one_iff.2 (by linarith)
  have hE0 := exp_pos (-x)
  -- the logarithm is at least the exponential
  have h1 : exp (-x) ≤ -log (1 - exp (-x)) := by
    have := log_le_sub_one_of_pos (by linarith : 0 < 1 - exp (-x))
    linarith
  have h2 : exp (-x / log 2) ≤ exp (-x) := by
    refine exp_le_exp.2 ?_
    rw [div_le_iff₀ hl2]
    nlinarith
  have h3 : log 2 * exp (-x / log 2) < exp (-x) :=
    lt_of_lt_of_le (mul_lt_of_lt_one_left (exp_pos _) hl2') h2
  have h4 : log 2 * exp (-x / log 2) < -log (1 - exp (-x)) := lt_of_lt_of_le h3 h1
  have hkT : 0 < u.kB * P.T := by positivity
  nlinarith [mul_lt_mul_of_pos_left h4 hkT]

end

/-- Before a model sets `include_electrons`, `SpinAveragedEEExchange` takes the temperature and the mass of
the ion for the entry of the electrons if there is one ion, and fails if there are more. -/
theorem exchange_without_electrons (p : Plasma) (r : ℝ) :
    (p.Z.length = 1 → exchangeAveragedAt u p .off 1 1 r =
      some (u.kB * p.T u .off 0 0 * log 2 * exp (-1 / (π * log 2) * (r / (p.lam u .off 0 0 / sqrt π)) ^ 2))) ∧
    (2 ≤ p.Z.length → ∀ a b, exchangeAveragedAt u p .off a b r = none) := by
  have s1 : p.size .off = p.Z.length := rfl
  refine ⟨fun h => ?_, fun h a b => ?_⟩
  · simp [exchangeAveragedAt, s1, h]
  · rw [exchangeAveragedAt, if_neg (by omega), if_neg (by omega)]

/-- Afterwards the entry is that of the electrons, and the other entries vanish. -/
theorem exchange_with_electrons (p : Plasma) (a b : ℕ) (r : ℝ) :
    exchangeAveragedAt u p .averaged a b r = some (exchangeAveragedR u (p.pair u .averaged a b) r) := by
  have s1 : p.size .averaged = p.Z.length + 1 := by simp [Plasma.size, withElectrons]
  simp only [exchangeAveragedAt, s1, if_true, exchangeAveragedR, Plasma.pair, decide_eq_true_eq]

/-- So the first is not the second: with a hot ion beside cold electrons the exchange is as strong as the
ion is hot. -/
theorem exchange_depends_on_mode : ∃ p : Plasma, p.Z.length = 1 ∧ p.Te = 1 ∧
    ∀ u : Consts, exchangeAveragedAt u p .off 1 1 0 = some (u.kB * 5 * log 2) ∧
      exchangeAveragedAt u p .averaged 1 1 0 = some (u.kB * 1 * log 2) := by
  refine ⟨⟨[1], [1], [1], [5], [0], 1, 1, fun _ _ => 1⟩, rfl, rfl, fun u => ⟨?_, ?_⟩⟩
  · rw [(exchange_without_electrons u _ 0).1 rfl]
    simp [Plasma.T, withElectrons, arr]
    left
    norm_num
  · rw [exchange_with_electrons]
    have hm := u.me_pos
    simp [exchangeAveragedR, Plasma.pair, Plasma.T, withElectrons, arr]
    left
    field_simp

/-! ### The soft core -/

/-- C31: the potential with a soft core is weaker than that of point charges, has no singularity, and is that of point
charges at large distances; without core it is that of point charges. -/
theorem softCore_spec (u : Consts) (P : Pair) {beta : ℝ} (hb : 0 < beta) :
    (P.rcut = 0 → softCoreR u beta P = coulombR u P) ∧
      (0 < P.rcut → (∀ r, 0 < r → |softCoreR u beta P r| ≤ |coulombR u P r|) ∧
        Tendsto (fun r => r * softCoreR u beta P r) (𝓝[>] 0) (𝓝 0) ∧
        Tendsto (fun r => r * softCoreR u beta P r) atTop (𝓝 (P.q2 / (4 * π * u.eps0)))) := by
  have he := u.eps0_pos
  have hmul : ∀ r, r ≠ 0 → r * softCoreR u beta P r = P.q2 / (4 * π * u.eps0) * (1 - softCoreExp beta P.rcut r) := by
    intro r hr
    unfold softCoreR
    field_simp
  refine ⟨fun h0 => ?_, fun hr => ⟨fun r h => ?_, ?_, ?_⟩⟩
  · funext r
    unfold softCoreR softCoreExp coulombR
    rw [if_pos h0]
    ring
  · unfold softCoreR coulombR softCoreExp
    rw [if_neg hr.ne', abs_mul]
    refine mul_le_of_le_one_right (abs_nonneg _) ?_
    have h1 := exp_pos (-(r / P.rcut) ^ beta)
    have h2 : exp (-(r / P.rcut) ^ beta) ≤ 1 := exp_le_one_iff.2 (by
      have := rpow_nonneg (div_pos h hr).le beta
      linarith)
    rw [abs_of_nonneg (by linarith)]
    linarith
  · have hx : Tendsto (fun r : ℝ => (r / P.rcut) ^ beta) (𝓝[>] 0) (𝓝 0) := by
      have h1 : Tendsto (fun r : ℝ => r / P.rcut) (𝓝[>] 0) (𝓝 0) := by
        have : Tendsto (fun r : ℝ => r / P.rcut) (𝓝 0) (𝓝 (0 / P.rcut)) := (continuous_id.div_const _).tendsto 0
        rw [zero_div] at this
        exact this.mono_left nhdsWithin_le_nhds
      have h2 := (continuousAt_rpow_const 0 beta (Or.inr hb.le)).tendsto
      rw [zero_rpow hb.ne'] at h2
      exact h2.comp h1
    have h3 : Tendsto (fun r : ℝ => P.q2 / (4 * π * u.eps0) * (1 - exp (-(r / P.rcut) ^ beta))) (𝓝[>] 0)
        (𝓝 (P.q2 / (4 * π * u.eps0) * (1 - exp (-0)))) :=
      (tendsto_const_nhds.sub ((continuous_exp.tendsto _).comp hx.neg)).const_mul _
    rw [neg_zero, exp_zero, sub_self, mul_zero] at h3
    refine h3.congr' ?_
    filter_upwards [self_mem_nhdsWithin] with r h
    rw [hmul r (ne_of_gt h)]
    unfold softCoreExp
    rw [if_neg hr.ne']
  · have hx : Tendsto (fun r : ℝ => (r / P.rcut) ^ beta) atTop atTop :=
      (tendsto_rpow_atTop hb).comp (tendsto_id.atTop_div_const hr)
    have h3 : Tendsto (fun r : ℝ => P.q2 / (4 * π * u.eps0) * (1 - exp (-(r / P.rcut) ^ beta))) atTop
        (𝓝 (P.q2 / (4 * π * u.eps0) * (1 - 0))) :=
      (tendsto_const_nhds.sub (tendsto_exp_neg_atTop_nhds_zero.comp hx)).const_mul _
    rw [sub_zero, mul_one] at h3
    refine h3.congr' ?_
    filter_upwards [eventually_gt_atTop 0] with r h
    rw [hmul r h.ne']
    unfold softCoreExp
    rw [if_neg hr.ne']

/-- C32: in k space the potential with a soft core is that of point charges less the transform of what the core takes
away in r space. -/
theorem softCore_pair (u : Consts) (g : Grid) (P : Pair) (beta k : ℝ) :
    softCoreK u g beta P k =
      P.q2 / (u.eps0 * k ^ 2) - transform g (fun r => coulombR u P r - softCoreR u beta P r) k := by
  have e : (fun r => coulombR u P r - softCoreR u beta P r) =
      fun r => P.q2 / (4 * π * u.eps0 * r) * softCoreExp beta P.rcut r := by
    funext r
    unfold coulombR softCoreR
    ring
  rw [e]
  unfold softCoreK coulombK
  rw [div_div]

end Verif.Pot
