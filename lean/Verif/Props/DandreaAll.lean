/-
C79, C80: consequences of the accuracy of the inverse for the dielectric function.
-/
import Verif.Props.Dandrea
import Verif.Props.InverseAll

set_option autoImplicit false

namespace Verif.Resp

open Real Verif.Expt Verif.FermiInt Verif.RatPoly Filter Topology

variable (u : Consts)


/-- C79.  At all temperatures the chemical potential of the dielectric function gives the density it is
computed for, to five digits: the integral of the occupation over the states of the electron gas. -/
theorem gasDensity_danEta {T n : ℝ} (hT : 0 < T) (hn : 0 < n) :
    |gasDensity u T (danEta (T * u.kB / fermiEnergy u n) * (u.kB * T)) - n| ≤ 5 / 10 ^ 6 * n := by
  have hE := fermiEnergy_pos u hn
  have hkB := u.kB_pos
  have hh := u.hbar_pos
  have hm := u.me_pos
  have hτ : 0 < u.kB * T := by positivity
  have hd := dandrea_density (T * u.kB / fermiEnergy u n) (by positivity)
  change |(∫ t in Set.Ioi (0 : ℝ), t ^ (1 / 2 : ℝ) /
      (exp (t - danEta (T * u.kB / fermiEnergy u n)) + 1)) - _| ≤ _ at hd
  have key : n = dosFactor u * ((u.kB * T) ^ (1 / 2 + 1 : ℝ) *
      (2 / 3 * (T * u.kB / fermiEnergy u n) ^ (-3 / 2 : ℝ))) := by
    have hkF := fermiWavenumber_pos hn
    have h3 : fermiWavenumber n ^ 3 = 3 * π ^ 2 * n := by
      unfold fermiWavenumber
      rw [← rpow_natCast, ← rpow_mul (by positivity)]
      norm_num
    have hs : sqrt (fermiEnergy u n) * sqrt (2 * u.me) = u.hbar * fermiWavenumber n := by
      rw [← sqrt_mul hE.le, ← kinEnergy_fermiWavenumber u hn]
      unfold kinEnergy
      rw [div_mul_cancel₀ _ (by positivity), ← mul_pow, sqrt_sq (by positivity)]
    rw [show T * u.kB = u.kB * T by ring, show (1 / 2 + 1 : ℝ) = 3 / 2 by norm_num, neg_div,
      rpow_neg (by positivity), div_rpow hτ.le hE.le, rpow_three_half hτ.le, rpow_three_half hE.le]
    unfold dosFactor
    rw [rpow_three_half (by positivity)]
    have hs1 := sqrt_pos.2 hE
    have hs2 : 0 < sqrt (2 * u.me) := sqrt_pos.2 (by positivity)
    have hs3 := sqrt_pos.2 hτ
    have hEE : fermiEnergy u n = sqrt (fermiEnergy u n) ^ 2 := (sq_sqrt hE.le).symm
    have hMM : 2 * u.me = sqrt (2 * u.me) ^ 2 := by rw [sq_sqrt (by positivity)]
    have hnn : n = fermiWavenumber n ^ 3 / (3 * π ^ 2) := by rw [h3]; field_simp
    generalize sqrt (u.kB * T) = b at *
    generalize u.kB * T = τ at *
    generalize hme : sqrt (2 * u.me) = m at *
    generalize hef : sqrt (fermiEnergy u n) = f at *
    generalize fermiWavenumber n = q at *
    have hq : q = f * m / u.hbar := by rw [eq_div_iff hh.ne']; linarith
    rw [hEE, hMM, hnn, hq]
    field_simp
  unfold gasDensity
  rw [scale_integral _ _ _ hτ]
  have hdf : 0 < dosFactor u * (u.kB * T) ^ (1 / 2 + 1 : ℝ) := by unfold dosFactor; positivity
  generalize ∫ t in Set.Ioi (0 : ℝ), t ^ (1 / 2 : ℝ) / (exp (t - danEta (T * u.kB / fermiEnergy u n)) + 1) = I at *
  generalize 2 / 3 * (T * u.kB / fermiEnergy u n) ^ (-3 / 2 : ℝ) = J at *
  generalize (u.kB * T) ^ (1 / 2 + 1 : ℝ) = c at *
  have h' := scaled_error hdf hd
  rw [key, ← mul_assoc, ← mul_assoc (dosFactor u) c J]
  exact h'

/-- At a fifth of the Fermi temperature, for example. -/
example {n : ℝ} (hn : 0 < n) :
    |gasDensity u (fermiEnergy u n / (5 * u.kB)) (danEta (fermiEnergy u n / (5 * u.kB) * u.kB / fermiEnergy u n) *
      (u.kB * (fermiEnergy u n / (5 * u.kB)))) - n| ≤ 5 / 10 ^ 6 * n :=
  gasDensity_danEta u (by have := fermiEnergy_pos u hn; have := u.kB_pos; positivity) hn

/-- Below 0.41 Fermi energies the reduced chemical potential is at least two. -/
theorem danEta_cold {θ : ℝ} (hθ : 0 < θ) (h : θ ≤ 0.41) : 2 ≤ danEta θ := by
  have s1 : sqrt θ ≤ 0.6404 := by
    apply Real.sqrt_le_iff.2; norm_num at h ⊢; linarith
  have s0 := sqrt_pos.2 hθ
  have hm : θ * sqrt θ ≤ 0.41 * 0.6404 := mul_le_mul h s1 s0.le (by norm_num)
  have x1 : (2.53 : ℝ) ≤ 2 / 3 * (1 / (θ * sqrt θ)) := by
    rw [mul_one_div, le_div_iff₀ (by positivity)]
    norm_num at hm ⊢; linarith
  rw [danEta_eq hθ]
  have a := scaled_mono.monotoneOn (Set.mem_Ioi.2 (by norm_num : (0 : ℝ) < 2.53))
    (Set.mem_Ioi.2 (by positivity : (0 : ℝ) < 2 / 3 * (1 / (θ * sqrt θ)))) x1
  refine le_trans ?_ a
  rw [scaled1 _ (by norm_num) (by norm_num)]
  unfold fukushimaPiece1
  rw [rational_ev]
  simp only [ev]
  norm_num

/-- C80: below 0.41 and above three Fermi energies the third moment is right to five digits, with the kinetic
energy of the electron gas.  (Partial: it is false around half of the Fermi temperature,
`epsDandrea_third_wrong`, and not proved between.) -/
theorem epsDandrea_third_right_partial {k T n : ℝ} (hk : 0 < k) (hT : 0 < T) (hn : 0 < n)
    (h : T * u.kB / fermiEnergy u n ≤ 0.41 ∨ 3 ≤ T * u.kB / fermiEnergy u n) :
    ∃ M, |M - gasKinetic u T (danEta (T * u.kB / fermiEnergy u n) * (u.kB * T)) / n| ≤
        2 / 10 ^ 6 * (gasKinetic u T (danEta (T * u.kB / fermiEnergy u n) * (u.kB * T)) / n) ∧
      |gasDensity u T (danEta (T * u.kB / fermiEnergy u n) * (u.kB * T)) - n| ≤ 5 / 10 ^ 6 * n ∧
      Tendsto (fun E : ℝ => E ^ 2 * (E ^ 2 * ((epsDandrea u danFits k E T n).re - 1) +
        u.hbar ^ 2 * (n * u.e ^ 2 / (u.me * u.eps0)))) atTop (𝓝 (thirdMoment u k n M)) := by
  have hE := fermiEnergy_pos u hn
  have hkB := u.kB_pos
  have hθ : 0 < T * u.kB / fermiEnergy u n := by positivity
  refine ⟨_, ?_, gasDensity_danEta u hT hn, epsDandrea_third u hk hT hn⟩
  have h : |fermi32 (danEta (T * u.kB / fermiEnergy u n)) - fermiIntegral (danEta (T * u.kB / fermiEnergy u n)) (3 / 2)| ≤
      2 / 10 ^ 6 * fermiIntegral (danEta (T * u.kB / fermiEnergy u n)) (3 / 2) := by
    rcases h with h | h
    · have a := (fermi_accurate_above _ (danEta_cold hθ h)).2.2.2
      have := fermiIntegral_pos (3 / 2) (by norm_num) (danEta (T * u.kB / fermiEnergy u n))
      linarith
    · exact fermi32_accurate_small _ (danEta_classical h)
  have hG : 0 < Gamma (3 / 2 + 1) := Gamma_pos_of_pos (by norm_num)
  rw [← gasKinetic_eq u hT hn]
  have hc : 0 < 3 / 2 * fermiEnergy u n * (T * u.kB / fermiEnergy u n) ^ (5 / 2 : ℝ) * Gamma (3 / 2 + 1) := by
    positivity
  generalize (T * u.kB / fermiEnergy u n) ^ (5 / 2 : ℝ) = a at *
  generalize Gamma (3 / 2 + 1) = g at *
  have h' := scaled_error hc h
  rw [show ∀ b : ℝ, 3 / 2 * fermiEnergy u n * a * (b * g) = 3 / 2 * fermiEnergy u n * a * g * b from
    fun b => by ring, show ∀ b : ℝ, 3 / 2 * fermiEnergy u n * a * (b * g) = 3 / 2 * fermiEnergy u n * a * g * b from
    fun b => by ring]
  exact h'

/-- The condition holds at a fifth of the Fermi temperature. -/
example {n : ℝ} (hn : 0 < n) : fermiEnergy u n / (5 * u.kB) * u.kB / fermiEnergy u n ≤ 0.41 := by
  have := fermiEnergy_pos u hn
  have := u.kB_pos
  rw [show fermiEnergy u n / (5 * u.kB) * u.kB / fermiEnergy u n = 1 / 5 by field_simp]
  norm_num

end Verif.Resp
