/-
Property C80: limits of the fitted dielectric function of Dandrea et al.
-/
import Verif.Model.Dandrea
import Verif.Model.Ipd
import Verif.Model.Fermi
import Verif.Props.Response
import Verif.Props.FermiInverse
import Verif.Props.ElectronScreening

set_option autoImplicit false

namespace Verif.Resp

open Real Verif.Expt Verif.FermiInt Verif.RatPoly Filter Topology

/-! ### Expansion of the fit for large arguments -/

/-- The remainder of the expansion, a function of `v = x ^ (-2)`. -/
noncomputable def phiRest (co : DandreaCoeffs) (v : ℝ) : ℝ :=
  let g0 := co.a8 / co.b10
  let g1 := (co.a6 - g0 * co.b8) / co.b10
  ((co.a4 - g0 * co.b6 - g1 * co.b8) + (co.a2 - g0 * co.b4 - g1 * co.b6) * v +
    (1 - g0 * co.b2 - g1 * co.b4) * v ^ 2 + (-g0 - g1 * co.b2) * v ^ 3 - g1 * v ^ 4) /
  (co.b10 + co.b8 * v + co.b6 * v ^ 2 + co.b4 * v ^ 3 + co.b2 * v ^ 4 + v ^ 5)

theorem phiRest_continuousAt (co : DandreaCoeffs) (h : co.b10 ≠ 0) : ContinuousAt (phiRest co) 0 := by
  unfold phiRest
  apply ContinuousAt.div
  · fun_prop
  · fun_prop
  · simpa using h

theorem phi_expand (co : DandreaCoeffs) (θ w : ℝ) (h : co.b10 ≠ 0) (hw : w ≠ 0)
    (hd : co.b10 + co.b8 * w ^ 2 + co.b6 * (w ^ 2) ^ 2 + co.b4 * (w ^ 2) ^ 3 + co.b2 * (w ^ 2) ^ 4 +
      (w ^ 2) ^ 5 ≠ 0) :
    phiDandrea co w⁻¹ θ = sqrt θ * co.i0 * (co.a8 / co.b10 * w +
      (co.a6 - co.a8 / co.b10 * co.b8) / co.b10 * w ^ 3 + phiRest co (w ^ 2) * w ^ 5) := by
  simp only [phiDandrea, phiRest]
  generalize sqrt θ = s
  have e : 1 + co.b2 * w⁻¹ ^ 2 + co.b4 * w⁻¹ ^ 4 + co.b6 * w⁻¹ ^ 6 + co.b8 * w⁻¹ ^ 8 + co.b10 * w⁻¹ ^ 10 =
      (co.b10 + co.b8 * w ^ 2 + co.b6 * (w ^ 2) ^ 2 + co.b4 * (w ^ 2) ^ 3 + co.b2 * (w ^ 2) ^ 4 +
        (w ^ 2) ^ 5) / w ^ 10 := by
    field_simp; ring
  rw [e]
  generalize hD : co.b10 + co.b8 * w ^ 2 + co.b6 * (w ^ 2) ^ 2 + co.b4 * (w ^ 2) ^ 3 + co.b2 * (w ^ 2) ^ 4 +
        (w ^ 2) ^ 5 = D at *
  have h10 := h
  field_simp
  rw [← hD]
  ring

/-- The difference of the two values in the real part, in terms of `w = 1 / z`. -/
noncomputable def secondOrder (co : DandreaCoeffs) (Q w : ℝ) : ℝ :=
  co.a8 / co.b10 * (-2 * Q ^ 7 / (1 - Q ^ 4 * w ^ 2)) +
    (co.a6 - co.a8 / co.b10 * co.b8) / co.b10 * (-Q ^ 5 * (6 + 2 * Q ^ 4 * w ^ 2) / (1 - Q ^ 4 * w ^ 2) ^ 3) +
    w * Q ^ 5 * (phiRest co ((Q * w / (1 + Q ^ 2 * w)) ^ 2) / (1 + Q ^ 2 * w) ^ 5 -
      phiRest co ((Q * w / (1 - Q ^ 2 * w)) ^ 2) / (1 - Q ^ 2 * w) ^ 5)

theorem secondOrder_tendsto (co : DandreaCoeffs) (Q : ℝ) (h : co.b10 ≠ 0) :
    Tendsto (secondOrder co Q) (𝓝 0) (𝓝 (co.a8 / co.b10 * (-2 * Q ^ 7) +
      (co.a6 - co.a8 / co.b10 * co.b8) / co.b10 * (-6 * Q ^ 5))) := by
  have hc : ContinuousAt (secondOrder co Q) 0 := by
    have h1 : ∀ s : ℝ, ContinuousAt (fun w => phiRest co ((Q * w / (1 + s * w)) ^ 2)) 0 := by
      intro s
      have : ContinuousAt (fun w : ℝ => (Q * w / (1 + s * w)) ^ 2) 0 := by
        apply ContinuousAt.pow
        exact ContinuousAt.div (by fun_prop) (by fun_prop) (by simp)
      apply ContinuousAt.comp (g := phiRest co) _ this
      simpa using phiRest_continuousAt co h
    have h2 := h1 (Q ^ 2)
    have h3 := h1 (-Q ^ 2)
    simp only [neg_mul, ← sub_eq_add_neg] at h3
    unfold secondOrder
    refine ((ContinuousAt.mul (by fun_prop) (ContinuousAt.div (by fun_prop) (by fun_prop) (by simp))).add
      (ContinuousAt.mul (by fun_prop) (ContinuousAt.div (by fun_prop) (by fun_prop) (by simp)))).add ?_
    exact ContinuousAt.mul (by fun_prop) ((h2.div (by fun_prop) (by simp)).sub
      (h3.div (by fun_prop) (by simp)))
  have := hc.tendsto
  convert this using 2
  unfold secondOrder
  simp only [mul_zero, zero_mul, ne_eq, OfNat.ofNat_ne_zero, not_false_eq_true, zero_pow, sub_zero, div_one,
    one_pow, add_zero]
  ring

theorem real_expand (co : DandreaCoeffs) (θ Q : ℝ) (hQ : 0 < Q) (h : co.b10 ≠ 0) :
    ∀ᶠ z : ℝ in atTop,
      z ^ 2 * (z ^ 2 * (phiDandrea co (z / Q + Q) θ - phiDandrea co (z / Q - Q) θ) +
        2 * Q ^ 3 * (sqrt θ * co.i0 * (co.a8 / co.b10))) = sqrt θ * co.i0 * secondOrder co Q z⁻¹ := by
  have hden : ∀ᶠ w : ℝ in 𝓝 0, co.b10 + co.b8 * w ^ 2 + co.b6 * (w ^ 2) ^ 2 + co.b4 * (w ^ 2) ^ 3 +
      co.b2 * (w ^ 2) ^ 4 + (w ^ 2) ^ 5 ≠ 0 := by
    have : ContinuousAt (fun w : ℝ => co.b10 + co.b8 * w ^ 2 + co.b6 * (w ^ 2) ^ 2 + co.b4 * (w ^ 2) ^ 3 +
      co.b2 * (w ^ 2) ^ 4 + (w ^ 2) ^ 5) 0 := by fun_prop
    apply this.eventually_ne
    simpa using h
  have t1 : Tendsto (fun z : ℝ => (z / Q + Q)⁻¹) atTop (𝓝 0) :=
    tendsto_inv_atTop_zero.comp (tendsto_atTop_add_const_right _ _ (tendsto_id.atTop_div_const hQ))
  have t2 : Tendsto (fun z : ℝ => (z / Q - Q)⁻¹) atTop (𝓝 0) :=
    tendsto_inv_atTop_zero.comp (tendsto_atTop_add_const_right _ _ (tendsto_id.atTop_div_const hQ))
  filter_upwards [t1.eventually hden, t2.eventually hden, eventually_gt_atTop (Q ^ 2), eventually_gt_atTop 0]
    with z d1 d2 hz hz0
  have hp : z / Q + Q ≠ 0 := by positivity
  have hm : z / Q - Q ≠ 0 := by
    have : Q < z / Q := by rw [lt_div_iff₀ hQ]; nlinarith
    linarith
  have e1 := phi_expand co θ (z / Q + Q)⁻¹ h (inv_ne_zero hp) d1
  have e2 := phi_expand co θ (z / Q - Q)⁻¹ h (inv_ne_zero hm) d2
  rw [inv_inv] at e1 e2
  rw [e1, e2]
  have hzp : z + Q ^ 2 ≠ 0 := by positivity
  have hzm : z - Q ^ 2 ≠ 0 := by linarith
  have u1 : (z / Q + Q)⁻¹ = Q / (z + Q ^ 2) := by field_simp
  have u2 : (z / Q - Q)⁻¹ = Q / (z - Q ^ 2) := by
    rw [inv_eq_one_div, div_eq_div_iff hm hzm]; field_simp
  have v1 : Q * z⁻¹ / (1 + Q ^ 2 * z⁻¹) = Q / (z + Q ^ 2) := by field_simp
  have v2 : Q * z⁻¹ / (1 - Q ^ 2 * z⁻¹) = Q / (z - Q ^ 2) := by
    have : 1 - Q ^ 2 * z⁻¹ = (z - Q ^ 2) / z := by field_simp
    rw [this]; field_simp
  unfold secondOrder
  rw [u1, u2, v1, v2]
  generalize phiRest co ((Q / (z + Q ^ 2)) ^ 2) = R1
  generalize phiRest co ((Q / (z - Q ^ 2)) ^ 2) = R2
  generalize co.a8 / co.b10 = g0
  generalize (co.a6 - g0 * co.b8) / co.b10 = g1
  have w1 : 1 + Q ^ 2 * z⁻¹ = (z + Q ^ 2) / z := by field_simp
  have w2 : 1 - Q ^ 2 * z⁻¹ = (z - Q ^ 2) / z := by field_simp
  have w3 : 1 - Q ^ 4 * z⁻¹ ^ 2 = (z - Q ^ 2) * (z + Q ^ 2) / z ^ 2 := by field_simp; ring
  rw [w1, w2, w3]
  have i1 : z ^ 2 * (z ^ 2 * (Q / (z + Q ^ 2) - Q / (z - Q ^ 2)) + 2 * Q ^ 3) =
      -2 * Q ^ 7 / ((z - Q ^ 2) * (z + Q ^ 2) / z ^ 2) := by field_simp; ring
  have i2 : z ^ 4 * ((Q / (z + Q ^ 2)) ^ 3 - (Q / (z - Q ^ 2)) ^ 3) =
      -Q ^ 5 * (6 + 2 * Q ^ 4 * z⁻¹ ^ 2) / ((z - Q ^ 2) * (z + Q ^ 2) / z ^ 2) ^ 3 := by field_simp; ring
  have i3 : z ^ 4 * (Q / (z + Q ^ 2)) ^ 5 = z⁻¹ * Q ^ 5 / ((z + Q ^ 2) / z) ^ 5 := by field_simp
  have i4 : z ^ 4 * (Q / (z - Q ^ 2)) ^ 5 = z⁻¹ * Q ^ 5 / ((z - Q ^ 2) / z) ^ 5 := by field_simp
  have i5 : z⁻¹ * Q ^ 5 * (R1 / ((z + Q ^ 2) / z) ^ 5 - R2 / ((z - Q ^ 2) / z) ^ 5) =
      z ^ 4 * (Q / (z + Q ^ 2)) ^ 5 * R1 - z ^ 4 * (Q / (z - Q ^ 2)) ^ 5 * R2 := by rw [i3, i4]; ring
  rw [← i1, ← i2, i5]
  ring

/-- The real part for large energies, in the units of the fit. -/
theorem realDandrea_large (co : DandreaCoeffs) (θ Q rs alpha : ℝ) (hQ : 0 < Q) (h : co.b10 ≠ 0) :
    Tendsto (fun z : ℝ => z ^ 2 * (z ^ 2 * realDandrea co θ Q rs z alpha -
        alpha * rs / (2 * π) * (sqrt θ * co.i0 * (co.a8 / co.b10)))) atTop
      (𝓝 (alpha * rs / (2 * π) * (sqrt θ * co.i0) * (co.a8 / co.b10 * Q ^ 4 +
        3 * ((co.a6 - co.a8 / co.b10 * co.b8) / co.b10) * Q ^ 2))) := by
  have h1 := ((secondOrder_tendsto co Q h).comp tendsto_inv_atTop_zero).const_mul
    (-alpha * rs / (4 * π * Q ^ 3) * (sqrt θ * co.i0))
  have hπ := pi_pos
  have e : -alpha * rs / (4 * π * Q ^ 3) * (sqrt θ * co.i0) * (co.a8 / co.b10 * (-2 * Q ^ 7) +
      (co.a6 - co.a8 / co.b10 * co.b8) / co.b10 * (-6 * Q ^ 5)) =
      alpha * rs / (2 * π) * (sqrt θ * co.i0) * (co.a8 / co.b10 * Q ^ 4 +
        3 * ((co.a6 - co.a8 / co.b10 * co.b8) / co.b10) * Q ^ 2) := by
    generalize co.a8 / co.b10 = g0
    generalize (co.a6 - g0 * co.b8) / co.b10 = g1
    field_simp
    ring
  rw [e] at h1
  refine h1.congr' ?_
  filter_upwards [real_expand co θ Q hQ h] with z hz
  rw [Function.comp_apply, mul_assoc, ← hz]
  simp only [realDandrea]
  generalize phiDandrea co (z / Q + Q) θ = p
  generalize phiDandrea co (z / Q - Q) θ = q
  generalize sqrt θ * co.i0 * (co.a8 / co.b10) = g
  field_simp
  ring

/-! ### The coefficients -/

/-- The denominator of `a8` is positive. -/
theorem a8_pos (θ : ℝ) (h : 0 < θ) : 0 < danA8 θ := by
  have hn : 0 < 0.91 - 6.4453 * θ + 12.2324 * θ ^ 2 := by norm_num; nlinarith [sq_nonneg (θ - 0.26345)]
  have hd : 0 < ev [1, -7.1316, 22.725, 58.092, -436.02, -826.51, 4912.9] θ := by
    rcases lt_or_ge θ 1 with h1 | h1
    · exact ev_pos 101 (3 ^ 60) 102 (by norm_num) _ (by decide +kernel) θ h.le (by push_cast; linarith)
    · have h5 : θ ^ 5 ≤ θ ^ 6 := pow_le_pow_right₀ h1 (by norm_num)
      have h4 : θ ^ 4 ≤ θ ^ 6 := pow_le_pow_right₀ h1 (by norm_num)
      have h3 : 0 < θ ^ 3 := by positivity
      have h6 : 0 < θ ^ 6 := by positivity
      simp only [ev]
      norm_num
      nlinarith
  unfold danA8
  apply div_pos hn
  simp only [ev] at hd
  push_cast at hd
  norm_num at hd ⊢
  linarith

theorem danI0_pos (η : ℝ) : 0 < danI0 η :=
  mul_pos (fermi_pos η).2.1 (Gamma_pos_of_pos (by norm_num))

/-- The coefficients are chosen such that the expansion starts with `2 / (3 x)`, and goes on with the
mean kinetic energy. -/
theorem danCoeffs_orders (θ η : ℝ) (h : 0 < θ) :
    (danCoeffs θ η).b10 ≠ 0 ∧
    sqrt θ * (danCoeffs θ η).i0 * ((danCoeffs θ η).a8 / (danCoeffs θ η).b10) = 2 / 3 ∧
    sqrt θ * (danCoeffs θ η).i0 * (((danCoeffs θ η).a6 - (danCoeffs θ η).a8 / (danCoeffs θ η).b10 *
      (danCoeffs θ η).b8) / (danCoeffs θ η).b10) = 1 / 3 * θ ^ (5 / 2 : ℝ) * danI15 η := by
  have ha := a8_pos θ h
  have hI := danI0_pos η
  have hs := sqrt_pos.2 h
  simp only [danCoeffs]
  generalize danA8 θ = a8 at *
  generalize danA6 θ = a6 at *
  generalize danI0 η = I0 at *
  generalize sqrt θ = s at *
  generalize θ ^ (5 / 2 : ℝ) = t
  refine ⟨by positivity, by field_simp, ?_⟩
  field_simp
  ring

/-! ### High energies -/

variable (u : Consts)

/-- The real part of the dielectric function in the units of the fit. -/
theorem epsDandrea_re (d : DandreaFits) {k T n : ℝ} (E : ℝ) (hk : 0 < k) :
    (epsDandrea u d k E T n).re =
      1 - realDandrea (d.coeffs (T * u.kB / fermiEnergy u n) (d.etaFit (T * u.kB / fermiEnergy u n)))
        (T * u.kB / fermiEnergy u n) (k / (2 * fermiWavenumber n)) (wignerSeitz n / bohr u)
        (E / (4 * fermiEnergy u n)) ((4 / (9 * π)) ^ (1 / 3 : ℝ)) := by
  have hV := vee_ne u hk.ne'
  simp only [epsDandrea, xiDandrea]
  rw [← mul_assoc, mul_one_div_cancel hV, one_mul]
  simp

/-- The squared plasma energy in the units of the fit. -/
theorem plasma_units {n : ℝ} (hn : 0 < n) :
    16 * fermiEnergy u n ^ 2 * ((4 / (9 * π)) ^ (1 / 3 : ℝ) * (wignerSeitz n / bohr u) / (3 * π)) =
      u.hbar ^ 2 * plasmaFreqSq u n := by
  have hkF := fermiWavenumber_pos hn
  have hh := u.hbar_pos
  have hm := u.me_pos
  have he := u.e_pos
  have h0 := u.eps0_pos
  have hab := alpha_eq hn
  have h3 : fermiWavenumber n ^ 3 = 3 * π ^ 2 * n := by
    unfold fermiWavenumber
    rw [← rpow_natCast, ← rpow_mul (by positivity)]
    norm_num
  have hws : (4 / (9 * π)) ^ (1 / 3 : ℝ) * wignerSeitz n = 1 / fermiWavenumber n := by
    rw [eq_div_iff hkF.ne']; linarith
  rw [← mul_div_assoc ((4 / (9 * π)) ^ (1 / 3 : ℝ)), hws, ← kinEnergy_fermiWavenumber u hn]
  have hn' : n = fermiWavenumber n ^ 3 / (3 * π ^ 2) := by rw [h3]; field_simp
  unfold kinEnergy plasmaFreqSq bohr
  generalize fermiWavenumber n = q at *
  rw [hn']
  field_simp
  ring

/-- C80: the expansion of the fitted dielectric function for large energies. The first coefficient is
the squared plasma energy (the f-sum rule), the second one contains the kinetic energy of the momentum
transfer and the integral of order 3/2. -/
theorem epsDandrea_high {k T n : ℝ} (hk : 0 < k) (hT : 0 < T) (hn : 0 < n) :
    Tendsto (fun E : ℝ => E ^ 2 * (E ^ 2 * ((epsDandrea u danFits k E T n).re - 1) +
        u.hbar ^ 2 * plasmaFreqSq u n)) atTop
      (𝓝 (-(u.hbar ^ 2 * plasmaFreqSq u n) * (kinEnergy u k ^ 2 +
        6 * (fermiEnergy u n * (T * u.kB / fermiEnergy u n) ^ (5 / 2 : ℝ) *
          danI15 (danEta (T * u.kB / fermiEnergy u n))) * kinEnergy u k))) := by
  have hkF := fermiWavenumber_pos hn
  have hEF := fermiEnergy_pos u hn
  have hkB := u.kB_pos
  set θ := T * u.kB / fermiEnergy u n with hθ
  have hθ0 : 0 < θ := by positivity
  obtain ⟨hb, o1, o2⟩ := danCoeffs_orders θ (danEta θ) hθ0
  set Q := k / (2 * fermiWavenumber n) with hQd
  have hQ : 0 < Q := by positivity
  set al := (4 / (9 * π) : ℝ) ^ (1 / 3 : ℝ) with hal
  have hW := plasma_units u hn
  rw [← hal] at hW
  have hkin : kinEnergy u k = 4 * fermiEnergy u n * Q ^ 2 := by
    rw [← kinEnergy_fermiWavenumber u hn, hQd]
    have hm := u.me_pos
    unfold kinEnergy
    field_simp
    norm_num
  have h1 := ((realDandrea_large (danCoeffs θ (danEta θ)) θ Q (wignerSeitz n / bohr u) al hQ hb).comp
    (tendsto_id.atTop_div_const (r := 4 * fermiEnergy u n) (by positivity))).const_mul
    (-(16 * fermiEnergy u n ^ 2) ^ 2)
  have hl : -(16 * fermiEnergy u n ^ 2) ^ 2 * (al * (wignerSeitz n / bohr u) / (2 * π) *
      (sqrt θ * (danCoeffs θ (danEta θ)).i0) *
      ((danCoeffs θ (danEta θ)).a8 / (danCoeffs θ (danEta θ)).b10 * Q ^ 4 +
        3 * (((danCoeffs θ (danEta θ)).a6 - (danCoeffs θ (danEta θ)).a8 / (danCoeffs θ (danEta θ)).b10 *
          (danCoeffs θ (danEta θ)).b8) / (danCoeffs θ (danEta θ)).b10) * Q ^ 2)) =
      -(u.hbar ^ 2 * plasmaFreqSq u n) * (kinEnergy u k ^ 2 +
        6 * (fermiEnergy u n * θ ^ (5 / 2 : ℝ) * danI15 (danEta θ)) * kinEnergy u k) := by
    rw [mul_assoc (al * (wignerSeitz n / bohr u) / (2 * π)), mul_add, ← mul_assoc (sqrt θ * _) _ (Q ^ 4), o1,
      show ∀ a b c : ℝ, a * (3 * b * c) = 3 * (a * b) * c from fun a b c => by ring, o2, hkin, ← hW]
    ring
  rw [hl] at h1
  refine h1.congr (fun E => ?_)
  simp only [Function.comp_apply, id]
  rw [epsDandrea_re u danFits E hk, ← hW]
  simp only [danFits]
  rw [← hθ, ← hal, ← hQd, o1]
  generalize realDandrea _ _ _ _ _ _ = r
  field_simp
  ring

/-- C80: the f-sum rule. For large energies the dielectric function is that of free electrons, whatever
the momentum transfer and the temperature. -/
theorem epsDandrea_fsum {k T n : ℝ} (hk : 0 < k) (hT : 0 < T) (hn : 0 < n) :
    Tendsto (fun E : ℝ => E ^ 2 * ((epsDandrea u danFits k E T n).re - 1)) atTop
      (𝓝 (-(u.hbar ^ 2 * (n * u.e ^ 2 / (u.me * u.eps0))))) := by
  have h1 := epsDandrea_high u hk hT hn
  have h2 : Tendsto (fun E : ℝ => (E ^ 2)⁻¹) atTop (𝓝 0) :=
    tendsto_inv_atTop_zero.comp (tendsto_pow_atTop two_ne_zero)
  have h3 := (h2.mul h1).add_const (-(u.hbar ^ 2 * plasmaFreqSq u n))
  rw [zero_mul, zero_add] at h3
  refine h3.congr' ?_
  filter_upwards [eventually_ne_atTop 0] with E hE
  rw [inv_mul_cancel_left₀ (pow_ne_zero 2 hE)]
  ring

/-! ### The kinetic energy in the second coefficient -/

/-- The order 3/2 in terms of the kinetic energy of free electrons. -/
theorem gasKinetic_eq {T n : ℝ} (hT : 0 < T) (hn : 0 < n) (η : ℝ) :
    3 / 2 * fermiEnergy u n * (T * u.kB / fermiEnergy u n) ^ (5 / 2 : ℝ) *
      (fermiIntegral η (3 / 2) * Gamma (3 / 2 + 1)) = gasKinetic u T (η * (u.kB * T)) / n := by
  have hh := u.hbar_pos
  have hm := u.me_pos
  have hkB := u.kB_pos
  have hπ := pi_pos
  have hτ : 0 < u.kB * T := by positivity
  have hE := fermiEnergy_pos u hn
  have hG : 0 < Gamma (3 / 2 + 1) := Gamma_pos_of_pos (by norm_num)
  have hkF := fermiWavenumber_pos hn
  have h3 : fermiWavenumber n ^ 3 = 3 * π ^ 2 * n := by
    unfold fermiWavenumber
    rw [← rpow_natCast, ← rpow_mul (by positivity)]
    norm_num
  have hs : sqrt (fermiEnergy u n) * sqrt (2 * u.me) = u.hbar * fermiWavenumber n := by
    rw [← sqrt_mul hE.le, ← kinEnergy_fermiWavenumber u hn]
    unfold kinEnergy
    rw [div_mul_cancel₀ _ (by positivity), ← mul_pow, sqrt_sq (by positivity)]
  unfold gasKinetic
  rw [scale_integral _ _ _ hτ, show (3 / 2 + 1 : ℝ) = 5 / 2 by norm_num, show T * u.kB = u.kB * T by ring,
    div_rpow hτ.le hE.le, rpow_five_half hτ.le, rpow_five_half hE.le]
  unfold fermiIntegral dosFactor
  rw [show (3 / 2 + 1 : ℝ) = 5 / 2 by norm_num] at hG ⊢
  rw [div_mul_cancel₀ _ hG.ne', rpow_three_half (by positivity)]
  generalize ∫ t in Set.Ioi (0 : ℝ), t ^ (3 / 2 : ℝ) / (exp (t - η) + 1) = I
  have hs1 := sqrt_pos.2 hE
  have hs2 : 0 < sqrt (2 * u.me) := sqrt_pos.2 (by positivity)
  have hEE : fermiEnergy u n = sqrt (fermiEnergy u n) ^ 2 := (sq_sqrt hE.le).symm
  have hMM : u.me = sqrt (2 * u.me) ^ 2 / 2 := by rw [sq_sqrt (by positivity)]; ring
  have hnn : n = fermiWavenumber n ^ 3 / (3 * π ^ 2) := by rw [h3]; field_simp
  generalize sqrt (u.kB * T) = b
  generalize u.kB * T = τ at *
  generalize hme : sqrt (2 * u.me) = m at *
  generalize hef : sqrt (fermiEnergy u n) = f at *
  generalize fermiWavenumber n = q at *
  have hq : q = f * m / u.hbar := by rw [eq_div_iff hh.ne']; linarith
  rw [hEE, hMM, hnn, hq]
  field_simp

/-- Specification: the exact second coefficient, for a mean kinetic energy `M` of the electrons: the
third moment of the response in random phase approximation. -/
noncomputable def thirdMoment (k n M : ℝ) : ℝ :=
  -(u.hbar ^ 2 * (n * u.e ^ 2 / (u.me * u.eps0))) * (kinEnergy u k ^ 2 + 4 * M * kinEnergy u k)

theorem epsDandrea_third {k T n : ℝ} (hk : 0 < k) (hT : 0 < T) (hn : 0 < n) :
    Tendsto (fun E : ℝ => E ^ 2 * (E ^ 2 * ((epsDandrea u danFits k E T n).re - 1) +
        u.hbar ^ 2 * (n * u.e ^ 2 / (u.me * u.eps0)))) atTop
      (𝓝 (thirdMoment u k n (3 / 2 * fermiEnergy u n * (T * u.kB / fermiEnergy u n) ^ (5 / 2 : ℝ) *
        (fermi32 (danEta (T * u.kB / fermiEnergy u n)) * Gamma (3 / 2 + 1))))) := by
  have h := epsDandrea_high u hk hT hn
  have e : thirdMoment u k n (3 / 2 * fermiEnergy u n * (T * u.kB / fermiEnergy u n) ^ (5 / 2 : ℝ) *
      (fermi32 (danEta (T * u.kB / fermiEnergy u n)) * Gamma (3 / 2 + 1))) =
      -(u.hbar ^ 2 * plasmaFreqSq u n) * (kinEnergy u k ^ 2 +
        6 * (fermiEnergy u n * (T * u.kB / fermiEnergy u n) ^ (5 / 2 : ℝ) *
          danI15 (danEta (T * u.kB / fermiEnergy u n))) * kinEnergy u k) := by
    unfold thirdMoment plasmaFreqSq danI15
    ring
  rw [e]
  exact h

/-- The reduced chemical potential is between 1 and 2 for these temperatures. -/
theorem danEta_mem {θ : ℝ} (h1 : 0.4225 ≤ θ) (h2 : θ ≤ 0.6) : 1 ≤ danEta θ ∧ danEta θ < 2 := by
  have hθ : 0 < θ := by norm_num at h1; linarith
  have hG := norm_pos
  have hp : θ ^ (-3 / 2 : ℝ) = 1 / (θ * sqrt θ) := by
    rw [neg_div, rpow_neg hθ.le, rpow_three_half hθ.le, one_div]
  have s1 : 0.65 ≤ sqrt θ := by
    apply le_sqrt_of_sq_le; norm_num at h1 ⊢; exact h1
  have s2 : sqrt θ ≤ 0.775 := by
    rw [sqrt_le_left (by norm_num)]; norm_num at h2 ⊢; linarith
  have hs : 0 < sqrt θ := sqrt_pos.2 hθ
  have m1 : (0.274625 : ℝ) ≤ θ * sqrt θ := by
    calc (0.274625 : ℝ) = 0.4225 * 0.65 := by norm_num
      _ ≤ _ := mul_le_mul h1 s1 (by norm_num) hθ.le
  have m2 : θ * sqrt θ ≤ 0.465 := by
    calc θ * sqrt θ ≤ 0.6 * 0.775 := mul_le_mul h2 s2 hs.le (by norm_num)
      _ = _ := by norm_num
  have x1 : (1.43 : ℝ) ≤ 2 / 3 * (1 / (θ * sqrt θ)) := by
    rw [mul_one_div, le_div_iff₀ (by positivity)]; norm_num at m2 ⊢; linarith
  have x2 : 2 / 3 * (1 / (θ * sqrt θ)) ≤ (2.43 : ℝ) := by
    rw [mul_one_div, div_le_iff₀ (by positivity)]; norm_num at m1 ⊢; linarith
  have e : danEta θ = scaledInverse (2 / 3 * (1 / (θ * sqrt θ))) := by
    unfold danEta
    rw [inverse_eq, div_mul_cancel₀ _ hG.ne', hp]
  rw [e]
  generalize 2 / 3 * (1 / (θ * sqrt θ)) = x at *
  have hx : (1.22 : ℝ) ≤ x := le_trans (by norm_num) x1
  have hx' : x < 3.43 := lt_of_le_of_lt x2 (by norm_num)
  rw [scaled1 x hx hx']
  have mono := piece1_mono.monotoneOn
  constructor
  · refine le_trans ?_ (mono ⟨by norm_num, by norm_num⟩ ⟨hx, hx'.le⟩ x1)
    unfold fukushimaPiece1
    rw [rational_ev]
    simp only [ev]
    norm_num
  · refine lt_of_le_of_lt (mono ⟨hx, hx'.le⟩ ⟨by norm_num, by norm_num⟩ x2) ?_
    unfold fukushimaPiece1
    rw [rational_ev]
    simp only [ev]
    norm_num

/-- C80 is false for the third moment: around half of the Fermi temperature the mean kinetic energy which
enters the dielectric function is less than nine tenths of that of free electrons with the same temperature
and chemical potential, at every density and momentum transfer. -/
theorem epsDandrea_third_wrong {k T n : ℝ} (hk : 0 < k) (hT : 0 < T) (hn : 0 < n)
    (h1 : 0.4225 ≤ T * u.kB / fermiEnergy u n) (h2 : T * u.kB / fermiEnergy u n ≤ 0.6) :
    ∃ M, M < 9 / 10 * (gasKinetic u T (danEta (T * u.kB / fermiEnergy u n) * (u.kB * T)) / n) ∧
      Tendsto (fun E : ℝ => E ^ 2 * (E ^ 2 * ((epsDandrea u danFits k E T n).re - 1) +
        u.hbar ^ 2 * (n * u.e ^ 2 / (u.me * u.eps0)))) atTop (𝓝 (thirdMoment u k n M)) := by
  refine ⟨_, ?_, epsDandrea_third u hk hT hn⟩
  obtain ⟨a, b⟩ := danEta_mem h1 h2
  have h := (fermi32_too_small _ b).1 a
  have hE := fermiEnergy_pos u hn
  have hkB := u.kB_pos
  have hG : 0 < Gamma (3 / 2 + 1) := Gamma_pos_of_pos (by norm_num)
  rw [← gasKinetic_eq u hT hn]
  have hc : 0 < 3 / 2 * fermiEnergy u n * (T * u.kB / fermiEnergy u n) ^ (5 / 2 : ℝ) * Gamma (3 / 2 + 1) := by
    positivity
  have := mul_lt_mul_of_pos_left h hc
  generalize (T * u.kB / fermiEnergy u n) ^ (5 / 2 : ℝ) = a at *
  generalize Gamma (3 / 2 + 1) = g at *
  linarith

/-- The order 3/2 is accurate for small activities, in spite of the wrong coefficient. -/
theorem fermi32_accurate_small (x : ℝ) (hx : exp x ≤ 1 / 5) :
    |fermi32 x - fermiIntegral x (3 / 2)| ≤ 2 / 10 ^ 6 * fermiIntegral x (3 / 2) := by
  have hx2 : x < 2 := by
    have : exp x < exp 2 := lt_of_le_of_lt hx (by have := one_lt_exp_iff.2 (by norm_num : (0 : ℝ) < 2); linarith)
    exact exp_lt_exp.1 this
  have hF := fermiIntegral_pos (3 / 2) (by norm_num) x
  have hacc := fermi32_repaired x hx2
  obtain ⟨pa, pb, pr⟩ := b32_pos (exp x) (exp_pos x).le
  have hG : 0 < Gamma (3 / 2 + 1) := Gamma_pos_of_pos (by norm_num)
  have e : fermi32 x * ev c32.b (exp x) = fermi32Repaired x * ev b32Repaired (exp x) := by
    unfold fermi32 fermi32Repaired fermiF
    rw [if_pos hx2, if_pos hx2, rational_ev, rational_ev]
    field_simp
  have hup : 0 < ev (add (scale (1 + 1 / 10 ^ 7) b32Repaired) (scale (-1) c32.b)) (exp x) :=
    ev_pos 101 (3 ^ 60) 21 (by norm_num) _ (by decide +kernel) (exp x) (exp_pos x).le (by push_cast; linarith)
  have hlo : 0 ≤ ev (add c32.b (scale (-1) b32Repaired)) (exp x) := by
    have : ev (add c32.b (scale (-1) b32Repaired)) (exp x) =
        exp x ^ 7 * (1.99507945223266e02 - 1.99507945223266e-2) := by
      simp only [c32, b32Repaired, ev_add, ev_scale, List.dropLast, List.cons_append, List.nil_append, ev]
      push_cast; ring
    rw [this]
    have := exp_pos x
    have : (0 : ℝ) ≤ 1.99507945223266e02 - 1.99507945223266e-2 := by norm_num
    positivity
  simp only [ev_add, ev_scale] at hup hlo
  push_cast at hup hlo
  generalize ev c32.b (exp x) = B at *
  generalize ev b32Repaired (exp x) = R at *
  generalize fermi32 x = f at *
  generalize fermi32Repaired x = r at *
  generalize fermiIntegral x (3 / 2) = F at *
  obtain ⟨a1, a2⟩ := abs_le.1 hacc
  have r0 : 0 < r := by norm_num at a1; linarith
  have f1 : f ≤ r := by
    by_contra h
    push Not at h
    nlinarith
  have f2 : r * (1 - 1 / 10 ^ 7) ≤ f := by
    by_contra h
    push Not at h
    have h1 := mul_lt_mul_of_pos_right h pb
    have h2 : B < (1 + 1 / 10 ^ 7) * R := by linarith
    have h3 := mul_lt_mul_of_pos_left h2 r0
    nlinarith
  rw [abs_le]
  constructor <;> nlinarith

theorem scaled_error {c x y e : ℝ} (hc : 0 < c) (h : |x - y| ≤ e * y) : |c * x - c * y| ≤ e * (c * y) := by
  rw [← mul_sub, abs_mul, abs_of_pos hc]
  calc c * |x - y| ≤ c * (e * y) := mul_le_mul_of_nonneg_left h hc.le
    _ = _ := by ring

theorem danEta_eq {θ : ℝ} (hθ : 0 < θ) : danEta θ = scaledInverse (2 / 3 * (1 / (θ * sqrt θ))) := by
  have hG := norm_pos
  unfold danEta
  rw [inverse_eq, div_mul_cancel₀ _ hG.ne', neg_div, rpow_neg hθ.le, rpow_three_half hθ.le, one_div]

/-- At three Fermi energies the activity is below a fifth. -/
theorem danEta_classical {θ : ℝ} (h : 3 ≤ θ) : exp (danEta θ) ≤ 1 / 5 := by
  have hθ : 0 < θ := by linarith
  have s1 : 1.73 ≤ sqrt θ := by
    apply le_sqrt_of_sq_le; norm_num; linarith
  have hm : (5.19 : ℝ) ≤ θ * sqrt θ := by
    calc (5.19 : ℝ) = 3 * 1.73 := by norm_num
      _ ≤ _ := mul_le_mul h s1 (by norm_num) hθ.le
  have x2 : 2 / 3 * (1 / (θ * sqrt θ)) ≤ (0.129 : ℝ) := by
    rw [mul_one_div, div_le_iff₀ (by positivity)]; norm_num at hm ⊢; linarith
  have x0 : 0 < 2 / 3 * (1 / (θ * sqrt θ)) := by positivity
  rw [danEta_eq hθ]
  generalize 2 / 3 * (1 / (θ * sqrt θ)) = x at *
  have hx : x < 1.22 := lt_of_le_of_lt x2 (by norm_num)
  rw [scaled0 x hx]
  have hle := piece0_mono.monotoneOn ⟨x0, hx.le⟩ (⟨by norm_num, by norm_num⟩ : (0.129 : ℝ) ∈ Set.Ioc 0 1.22) x2
  refine (exp_le_exp.2 hle).trans ?_
  unfold fukushimaPiece0
  rw [rational_ev, exp_log (by simp only [ev]; norm_num)]
  simp only [ev]
  norm_num

/-- C80: above three Fermi energies the third moment is right to five digits.  (Partial: it is false around
half of the Fermi temperature, and not proved between.) -/
theorem epsDandrea_third_partial {k T n : ℝ} (hk : 0 < k) (hT : 0 < T) (hn : 0 < n)
    (h : 3 ≤ T * u.kB / fermiEnergy u n) :
    ∃ M, |M - gasKinetic u T (danEta (T * u.kB / fermiEnergy u n) * (u.kB * T)) / n| ≤
        2 / 10 ^ 6 * (gasKinetic u T (danEta (T * u.kB / fermiEnergy u n) * (u.kB * T)) / n) ∧
      |gasDensity u T (danEta (T * u.kB / fermiEnergy u n) * (u.kB * T)) - n| ≤ 2 / 10 ^ 6 * n ∧
      Tendsto (fun E : ℝ => E ^ 2 * (E ^ 2 * ((epsDandrea u danFits k E T n).re - 1) +
        u.hbar ^ 2 * (n * u.e ^ 2 / (u.me * u.eps0)))) atTop (𝓝 (thirdMoment u k n M)) := by
  have hE := fermiEnergy_pos u hn
  have hkB := u.kB_pos
  have hh := u.hbar_pos
  have hm := u.me_pos
  have hτ : 0 < u.kB * T := by positivity
  refine ⟨_, ?_, ?_, epsDandrea_third u hk hT hn⟩
  · have h := fermi32_accurate_small _ (danEta_classical h)
    have hG : 0 < Gamma (3 / 2 + 1) := Gamma_pos_of_pos (by norm_num)
    rw [← gasKinetic_eq u hT hn]
    have hc : 0 < 3 / 2 * fermiEnergy u n * (T * u.kB / fermiEnergy u n) ^ (5 / 2 : ℝ) * Gamma (3 / 2 + 1) := by
      positivity
    generalize (T * u.kB / fermiEnergy u n) ^ (5 / 2 : ℝ) = a at *
    generalize Gamma (3 / 2 + 1) = g at *
    have h' := scaled_error hc h
    rw [show ∀ b : ℝ, 3 / 2 * fermiEnergy u n * a * (b * g) = 3 / 2 * fermiEnergy u n * a * g * b from
      fun b => by ring, show ∀ b : ℝ, 3 / 2 * fermiEnergy u n * a * (b * g) = 3 / 2 * fermiEnergy u n * a * g * b from
      fun b => by ring]
    exact h'
  · have hd := dandrea_density_warm (T * u.kB / fermiEnergy u n) (le_trans (by norm_num) h)
    change |(∫ t in Set.Ioi (0 : ℝ), t ^ (1 / 2 : ℝ) /
        (exp (t - danEta (T * u.kB / fermiEnergy u n)) + 1)) - _| ≤ _ at hd
    have key : n = dosFactor u * ((u.kB * T) ^ (1 / 2 + 1 : ℝ) *
        (2 / 3 * (T * u.kB / fermiEnergy u n) ^ (-3 / 2 : ℝ))) := by
      have hkF := fermiWavenumber_pos hn
      have h3 : fermiWavenumber n ^ 3 = 3 * π ^ 2 * n := by
        unfold fermiWavenumber
        rw [← rpow_natCast, ← rpow_mul (by positivity)]
        norm_num
      have hs : sqrt (fermiEnergy u n) * sqrt (2 * u.me) = u.hbar * fermiWavenumber n := by
        rw [← sqrt_mul hE.le, ← kinEnergy_fermiWavenumber u hn]
        unfold kinEnergy
        rw [div_mul_cancel₀ _ (by positivity), ← mul_pow, sqrt_sq (by positivity)]
      rw [show T * u.kB = u.kB * T by ring, show (1 / 2 + 1 : ℝ) = 3 / 2 by norm_num, neg_div,
        rpow_neg (by positivity), div_rpow hτ.le hE.le, rpow_three_half hτ.le, rpow_three_half hE.le]
      unfold dosFactor
      rw [rpow_three_half (by positivity)]
      have hs1 := sqrt_pos.2 hE
      have hs2 : 0 < sqrt (2 * u.me) := sqrt_pos.2 (by positivity)
      have hs3 := sqrt_pos.2 hτ
      have hEE : fermiEnergy u n = sqrt (fermiEnergy u n) ^ 2 := (sq_sqrt hE.le).symm
      have hMM : 2 * u.me = sqrt (2 * u.me) ^ 2 := by rw [sq_sqrt (by positivity)]
      have hnn : n = fermiWavenumber n ^ 3 / (3 * π ^ 2) := by rw [h3]; field_simp
      generalize sqrt (u.kB * T) = b at *
      generalize u.kB * T = τ at *
      generalize hme : sqrt (2 * u.me) = m at *
      generalize hef : sqrt (fermiEnergy u n) = f at *
      generalize fermiWavenumber n = q at *
      have hq : q = f * m / u.hbar := by rw [eq_div_iff hh.ne']; linarith
      rw [hEE, hMM, hnn, hq]
      field_simp
    unfold gasDensity
    rw [scale_integral _ _ _ hτ]
    have hdf : 0 < dosFactor u * (u.kB * T) ^ (1 / 2 + 1 : ℝ) := by unfold dosFactor; positivity
    generalize ∫ t in Set.Ioi (0 : ℝ), t ^ (1 / 2 : ℝ) / (exp (t - danEta (T * u.kB / fermiEnergy u n)) + 1) = I at *
    generalize 2 / 3 * (T * u.kB / fermiEnergy u n) ^ (-3 / 2 : ℝ) = J at *
    generalize (u.kB * T) ^ (1 / 2 + 1 : ℝ) = c at *
    have h' := scaled_error hdf hd
    rw [key, ← mul_assoc, ← mul_assoc (dosFactor u) c J]
    exact h'

/-! ### The static limit -/

/-- The prefactor of the static limit. -/
theorem static_units (mu : ℝ → ℝ → ℝ) {T n : ℝ} (hT : 0 < T) (hn : 0 < n)
    (hmu : mu T n = danEta (T * u.kB / fermiEnergy u n) * (u.kB * T)) :
    4 * fermiWavenumber n ^ 2 * ((4 / (9 * π)) ^ (1 / 3 : ℝ) * (wignerSeitz n / bohr u) / (2 * π)) *
      (sqrt (T * u.kB / fermiEnergy u n) * danI0 (danEta (T * u.kB / fermiEnergy u n))) =
      Verif.Ipd.inverseScreeningE u fermiNeg12 mu n T ^ 2 := by
  have hh := u.hbar_pos
  have hm := u.me_pos
  have he := u.e_pos
  have h0 := u.eps0_pos
  have hkB := u.kB_pos
  have hπ := pi_pos
  have hτ : 0 < u.kB * T := by positivity
  have hE := fermiEnergy_pos u hn
  have hkF := fermiWavenumber_pos hn
  have hab := alpha_eq hn
  have hws : (4 / (9 * π)) ^ (1 / 3 : ℝ) * wignerSeitz n = 1 / fermiWavenumber n := by
    rw [eq_div_iff hkF.ne']; linarith
  have hs : sqrt (fermiEnergy u n) = u.hbar * fermiWavenumber n / sqrt (2 * u.me) := by
    rw [← kinEnergy_fermiWavenumber u hn]
    unfold kinEnergy
    rw [sqrt_div (by positivity), ← mul_pow, sqrt_sq (by positivity)]
  rw [← mul_div_assoc ((4 / (9 * π)) ^ (1 / 3 : ℝ)), hws]
  simp only [Verif.Ipd.inverseScreeningE]
  have hF := (fermi_pos (danEta (T * u.kB / fermiEnergy u n))).2.1
  have hwl : 0 < sqrt (2 * π * 1 * u.hbar ^ 2 / (1 * u.me * 1 * u.kB * T)) := by
    apply sqrt_pos.2; positivity
  rw [hmu, show danEta (T * u.kB / fermiEnergy u n) * (u.kB * T) * (1 / (1 * u.kB * T)) =
    danEta (T * u.kB / fermiEnergy u n) by field_simp, sq_sqrt (by positivity), wl_cube u hT]
  unfold danI0
  rw [show (-1 / 2 + 1 : ℝ) = 1 / 2 by norm_num, Gamma_one_half_eq]
  generalize fermiNeg12 (danEta (T * u.kB / fermiEnergy u n)) = F
  rw [show T * u.kB = u.kB * T by ring, sqrt_div hτ.le, hs, sqrt_mul hm.le (u.kB * T), sqrt_mul (by norm_num) u.me,
    sqrt_mul (by norm_num) π]
  unfold bohr
  have h2 : sqrt 2 * sqrt 2 = 2 := mul_self_sqrt (by norm_num)
  have h2' : 0 < sqrt 2 := by positivity
  have h3 : sqrt π * sqrt π = π := mul_self_sqrt hπ.le
  have h3' : 0 < sqrt π := by positivity
  have h4' : 0 < sqrt u.me := sqrt_pos.2 hm
  have h5 : sqrt (u.kB * T) * sqrt (u.kB * T) = u.kB * T := mul_self_sqrt hτ.le
  have h5' : 0 < sqrt (u.kB * T) := sqrt_pos.2 hτ
  have hTe : T = u.kB * T / u.kB := by field_simp
  generalize u.kB * T = τ at *
  generalize fermiWavenumber n = q at *
  rw [show u.eps0 * u.kB * T = u.eps0 * τ by rw [hTe]; field_simp]
  generalize sqrt u.me = a at *
  generalize sqrt τ = b at *
  generalize sqrt 2 = c at *
  generalize sqrt π = d at *
  rw [← h3]
  field_simp
  rw [show c ^ 2 = 2 by rw [sq, h2]]

/-- C80 (and C20): without energy transfer and for small momentum transfers, the dielectric function is that
of a static screening with the inverse length which `inverse_screening_length_e` returns for the same chemical
potential: the two parts of the code which know about degenerate electrons agree. -/
theorem epsDandrea_static (mu : ℝ → ℝ → ℝ) {T n : ℝ} (hT : 0 < T) (hn : 0 < n)
    (hmu : mu T n = danEta (T * u.kB / fermiEnergy u n) * (u.kB * T)) :
    Tendsto (fun k : ℝ => k ^ 2 * ((epsDandrea u danFits k 0 T n).re - 1)) (𝓝[>] 0)
      (𝓝 (Verif.Ipd.inverseScreeningE u fermiNeg12 mu n T ^ 2)) := by
  have hkF := fermiWavenumber_pos hn
  rw [← static_units u mu hT hn hmu]
  set θ := T * u.kB / fermiEnergy u n with hθ
  set co := danCoeffs θ (danEta θ) with hco
  have hi0 : co.i0 = danI0 (danEta θ) := rfl
  rw [← hi0]
  set al := (4 / (9 * π) : ℝ) ^ (1 / 3 : ℝ) with hal
  have hc : ContinuousAt (fun k : ℝ => 4 * fermiWavenumber n ^ 2 * (al * (wignerSeitz n / bohr u) / (2 * π)) *
      (sqrt θ * co.i0 * ((1 + co.a2 * (k / (2 * fermiWavenumber n)) ^ 2 +
        co.a4 * (k / (2 * fermiWavenumber n)) ^ 4 + co.a6 * (k / (2 * fermiWavenumber n)) ^ 6 +
        co.a8 * (k / (2 * fermiWavenumber n)) ^ 8) / (1 + co.b2 * (k / (2 * fermiWavenumber n)) ^ 2 +
        co.b4 * (k / (2 * fermiWavenumber n)) ^ 4 + co.b6 * (k / (2 * fermiWavenumber n)) ^ 6 +
        co.b8 * (k / (2 * fermiWavenumber n)) ^ 8 + co.b10 * (k / (2 * fermiWavenumber n)) ^ 10)))) 0 := by
    refine ContinuousAt.mul (by fun_prop) (ContinuousAt.mul (by fun_prop) (ContinuousAt.div (by fun_prop)
      (by fun_prop) (by simp)))
  have h := hc.tendsto.mono_left (nhdsWithin_le_nhds (s := Set.Ioi 0))
  simp only [zero_div, ne_eq, OfNat.ofNat_ne_zero, not_false_eq_true, zero_pow, mul_zero, add_zero, div_one,
    mul_one] at h
  refine h.congr' ?_
  filter_upwards [self_mem_nhdsWithin] with k hk
  have hk' : (0 : ℝ) < k := hk
  rw [epsDandrea_re u danFits 0 hk']
  simp only [danFits, realDandrea]
  rw [← hθ, ← hal, ← hco]
  have hQ : 0 < k / (2 * fermiWavenumber n) := by positivity
  have hkk : k = k / (2 * fermiWavenumber n) * (2 * fermiWavenumber n) := by field_simp
  generalize hQd : k / (2 * fermiWavenumber n) = Q at *
  have hodd : phiDandrea co (0 / (4 * fermiEnergy u n) / Q - Q) θ = -phiDandrea co Q θ := by
    simp only [phiDandrea]
    rw [show 0 / (4 * fermiEnergy u n) / Q - Q = -Q by ring]
    rw [Even.neg_pow (by decide), Even.neg_pow (by decide), Even.neg_pow (by decide), Even.neg_pow (by decide),
      Even.neg_pow (by decide)]
    ring
  have heven : phiDandrea co (0 / (4 * fermiEnergy u n) / Q + Q) θ = phiDandrea co Q θ := by
    rw [show 0 / (4 * fermiEnergy u n) / Q + Q = Q by ring]
  rw [hodd, heven, hkk]
  simp only [phiDandrea]
  generalize (1 + co.a2 * Q ^ 2 + co.a4 * Q ^ 4 + co.a6 * Q ^ 6 + co.a8 * Q ^ 8) /
    (1 + co.b2 * Q ^ 2 + co.b4 * Q ^ 4 + co.b6 * Q ^ 6 + co.b8 * Q ^ 8 + co.b10 * Q ^ 10) = r
  generalize wignerSeitz n / bohr u = p
  have hπ := pi_pos
  field_simp
  ring

/-! ### Cases which meet the hypotheses -/

example : Tendsto (fun E : ℝ => E ^ 2 * ((epsDandrea unitConsts danFits 1 E 1 1).re - 1)) atTop
    (𝓝 (-(unitConsts.hbar ^ 2 * (1 * unitConsts.e ^ 2 / (unitConsts.me * unitConsts.eps0))))) :=
  epsDandrea_fsum unitConsts one_pos one_pos one_pos

/-- Half of the Fermi temperature. -/
example : ∃ T : ℝ, 0 < T ∧ 0.4225 ≤ T * u.kB / fermiEnergy u 1 ∧ T * u.kB / fermiEnergy u 1 ≤ 0.6 := by
  have hE := fermiEnergy_pos u one_pos
  have hkB := u.kB_pos
  refine ⟨fermiEnergy u 1 / (2 * u.kB), by positivity, ?_, ?_⟩
  all_goals
    rw [show fermiEnergy u 1 / (2 * u.kB) * u.kB / fermiEnergy u 1 = 1 / 2 by field_simp]
    norm_num

/-- Four Fermi temperatures. -/
example : ∃ T : ℝ, 0 < T ∧ 3 ≤ T * u.kB / fermiEnergy u 1 := by
  have hE := fermiEnergy_pos u one_pos
  have hkB := u.kB_pos
  refine ⟨4 * fermiEnergy u 1 / u.kB, by positivity, ?_⟩
  rw [show 4 * fermiEnergy u 1 / u.kB * u.kB / fermiEnergy u 1 = 4 by field_simp]
  norm_num

example : ∃ mu : ℝ → ℝ → ℝ, mu 1 1 = danEta (1 * u.kB / fermiEnergy u 1) * (u.kB * 1) :=
  ⟨fun T n => danEta (T * u.kB / fermiEnergy u n) * (u.kB * T), rfl⟩

end Verif.Resp
