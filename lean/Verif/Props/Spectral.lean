/-
The implementations of the dielectric function in random phase approximation agree, and the
Born-Mermin structure factors are positive.
-/
import Verif.Lemmas.Spectral
import Verif.Props.Mermin

set_option autoImplicit false

namespace Verif.Resp

open Real Verif.Expt MeasureTheory Set ComplexConjugate Verif.Lindhard

variable (u : Consts)

/-! ### Reduced units -/

/-- Thermal momentum. -/
noncomputable def pTh (T : ℝ) : ℝ := sqrt (2 * u.me * u.kB * T)

theorem pTh_pos {T : ℝ} (hT : 0 < T) : 0 < pTh u T := by
  have := u.me_pos
  have := u.kB_pos
  exact sqrt_pos.2 (by positivity)

theorem pTh_sq {T : ℝ} (hT : 0 < T) : pTh u T ^ 2 = 2 * u.me * u.kB * T := by
  have := u.me_pos
  have := u.kB_pos
  exact sq_sqrt (by positivity)

theorem thermalUnit_eq {T : ℝ} (hT : 0 < T) : thermalUnit u T = u.hbar / pTh u T := by
  have := u.me_pos
  have := u.kB_pos
  have hh := u.hbar_pos
  have hp := pTh_pos u hT
  have hs := pTh_sq u hT
  unfold thermalUnit
  have e : u.hbar ^ 2 / (2 * u.me) / (u.kB * T) = (u.hbar / pTh u T) ^ 2 := by
    rw [div_pow, hs]
    field_simp
  rw [e, sqrt_sq (by positivity)]

theorem thermalUnit_pos {T : ℝ} (hT : 0 < T) : 0 < thermalUnit u T := by
  rw [thermalUnit_eq u hT]
  exact div_pos u.hbar_pos (pTh_pos u hT)

theorem sqrt2_velocity {T : ℝ} (hT : 0 < T) : sqrt 2 * thermalVelocity u T = pTh u T / u.me := by
  have hm := u.me_pos
  have := u.kB_pos
  have hp := pTh_pos u hT
  unfold thermalVelocity
  rw [← sqrt_mul (by norm_num)]
  have e : 2 * (u.kB * T / u.me) = (pTh u T / u.me) ^ 2 := by
    rw [div_pow, pTh_sq u hT]
    field_simp
  rw [e, sqrt_sq (by positivity)]

theorem redW_eq (k : ℝ) (E : ℂ) {T : ℝ} (hT : 0 < T) :
    redW u k E T = E * ((u.me / (u.hbar * k * pTh u T) : ℝ) : ℂ) := by
  have hm : (u.me : ℂ) ≠ 0 := Complex.ofReal_ne_zero.2 u.me_pos.ne'
  have hp : (pTh u T : ℂ) ≠ 0 := Complex.ofReal_ne_zero.2 (pTh_pos u hT).ne'
  have hh : (u.hbar : ℂ) ≠ 0 := Complex.ofReal_ne_zero.2 u.hbar_pos.ne'
  unfold redW
  rw [sqrt2_velocity u hT]
  push_cast
  by_cases hk : (k : ℂ) = 0
  · simp [hk]
  · field_simp

theorem redW_re (k : ℝ) (E : ℂ) {T : ℝ} (hT : 0 < T) :
    (redW u k E T).re = E.re / u.hbar * u.me / (u.hbar * k) * thermalUnit u T := by
  have hh := u.hbar_pos.ne'
  have hp := (pTh_pos u hT).ne'
  rw [redW_eq u k E hT, Complex.re_mul_ofReal, thermalUnit_eq u hT]
  by_cases hk : k = 0
  · simp [hk]
  · field_simp

theorem redW_im (k : ℝ) (E : ℂ) {T : ℝ} (hT : 0 < T) :
    (redW u k E T).im = E.im / u.hbar * u.me / (u.hbar * k) * thermalUnit u T := by
  have hh := u.hbar_pos.ne'
  have hp := (pTh_pos u hT).ne'
  rw [redW_eq u k E hT, Complex.im_mul_ofReal, thermalUnit_eq u hT]
  by_cases hk : k = 0
  · simp [hk]
  · field_simp

theorem kapRewrite_eq (k : ℝ) {T : ℝ} (hT : 0 < T) :
    kapRewrite u k T = k / 2 * thermalUnit u T := by
  rw [thermalUnit_eq u hT]
  unfold kapRewrite pTh
  ring

theorem kapRewrite_pos {k T : ℝ} (hk : 0 < k) (hT : 0 < T) : 0 < kapRewrite u k T := by
  rw [kapRewrite_eq u k hT]
  have := thermalUnit_pos u hT
  positivity

/-- The factor in front of the integrals. -/
noncomputable def cst (k T : ℝ) : ℝ :=
  u.e ^ 2 * u.me / (4 * π ^ 2 * u.eps0 * u.hbar ^ 2 * k ^ 3) * (1 / thermalUnit u T ^ 2)

theorem cst_pos {k T : ℝ} (hk : 0 < k) (hT : 0 < T) : 0 < cst u k T := by
  have := u.me_pos
  have := u.e_pos
  have := u.eps0_pos
  have := u.hbar_pos
  have := thermalUnit_pos u hT
  unfold cst
  positivity

theorem prefRewrite_vee {k T : ℝ} (hk : 0 < k) (hT : 0 < T) :
    prefRewrite u k T * vee u k = cst u k T := by
  have hm := u.me_pos
  have he := u.e_pos
  have h0 := u.eps0_pos
  have hh := u.hbar_pos
  have hB := u.kB_pos
  have hp := pTh_pos u hT
  have hs := pTh_sq u hT
  have hpi := pi_pos
  have hr : 0 < sqrt π := sqrt_pos.2 hpi
  have hrr : sqrt π ^ 2 = π := sq_sqrt hpi.le
  have hX : u.me * u.kB * T / (2 * π * u.hbar ^ 2) = (pTh u T / (2 * sqrt π * u.hbar)) ^ (2 : ℝ) := by
    rw [rpow_two, div_pow, hs, mul_pow, mul_pow, hrr]
    field_simp
  have hX3 : (u.me * u.kB * T / (2 * π * u.hbar ^ 2)) ^ (3 / 2 : ℝ) =
      (pTh u T / (2 * sqrt π * u.hbar)) ^ 3 := by
    rw [hX, ← rpow_mul (by positivity), ← rpow_natCast]
    norm_num
  have hkT : u.kB * T = pTh u T ^ 2 / (2 * u.me) := by
    rw [hs]
    field_simp
  unfold prefRewrite
  rw [hX3, vee_eq, kapRewrite_eq u k hT, hkT]
  unfold cst
  rw [thermalUnit_eq u hT]
  generalize sqrt π = r at *
  rw [← hrr]
  generalize pTh u T = p at *
  field_simp
  ring

theorem fermiDirac_red (mu t : ℝ) {T : ℝ} (hT : 0 < T) :
    fermiDirac u (t / thermalUnit u T) mu T = 1 / (exp (t ^ 2 - mu / (u.kB * T)) + 1) := by
  have hm := u.me_pos
  have hh := u.hbar_pos
  have hB := u.kB_pos
  have hp := pTh_pos u hT
  have hs := pTh_sq u hT
  unfold fermiDirac kinEnergy
  rw [thermalUnit_eq u hT]
  congr 3
  have e : u.hbar ^ 2 * (t / (u.hbar / pTh u T)) ^ 2 = t ^ 2 * pTh u T ^ 2 := by
    field_simp
  rw [e, hs]
  field_simp

/-- The factor common to the integrands of `dielectric_function_RPA`. -/
theorem fermi_phi (mu t : ℝ) {T : ℝ} (hT : 0 < T) :
    t / thermalUnit u T * fermiDirac u (t / thermalUnit u T) mu T * thermalUnit u T =
      phi (mu / (u.kB * T)) t / 2 := by
  have := (thermalUnit_pos u hT).ne'
  rw [fermiDirac_red u mu t hT]
  unfold phi
  field_simp

/-! ### C60: the implementations of the random phase approximation agree -/

/-- The rewritten implementation evaluates the spectral representation. -/
theorem epsRPARewrite_eq {k T : ℝ} (hk : 0 < k) (hT : 0 < T) {E : ℂ} (hre : E.re ≠ 0)
    (him : E.im ≠ 0) (mu : ℝ) :
    epsRPARewrite u k E mu T =
      1 + (cst u k T : ℂ) * polar (mu / (u.kB * T)) (kapRewrite u k T) (redW u k E T) := by
  have hkap := kapRewrite_pos u hk hT
  have hf : 0 < u.me / (u.hbar * k * pTh u T) := by
    have := u.me_pos
    have := u.hbar_pos
    have := pTh_pos u hT
    positivity
  have hb : (redW u k E T).im ≠ 0 := by
    rw [redW_eq u k E hT, Complex.im_mul_ofReal]
    exact mul_ne_zero him hf.ne'
  have ha : (redW u k E T).re ≠ 0 := by
    rw [redW_eq u k E hT, Complex.re_mul_ofReal]
    exact mul_ne_zero hre hf.ne'
  have ha' : 0 < |(redW u k E T).re| := abs_pos.2 ha
  set eta := mu / (u.kB * T) with heta
  apply Complex.ext
  · have h := split_scale (wgt_reK_integrable eta hkap.le hb) ha'
    simp only [epsRPARewrite, Complex.add_re, Complex.one_re, Complex.re_ofReal_mul,
      polar_re eta hkap.le hb, ← h, realRPARewrite, ← prefRewrite_vee u hk hT, ← heta]
    have e : ∀ t : ℝ, ((t / (1 / |(redW u k E T).re|) - (redW u k E T).re) /
          ((t / (1 / |(redW u k E T).re|) - (redW u k E T).re) ^ 2 + (redW u k E T).im ^ 2) +
        (t / (1 / |(redW u k E T).re|) + (redW u k E T).re) /
          ((t / (1 / |(redW u k E T).re|) + (redW u k E T).re) ^ 2 + (redW u k E T).im ^ 2)) *
        (log (1 + exp (eta - (t / (1 / |(redW u k E T).re|) + kapRewrite u k T) ^ 2)) -
          log (1 + exp (eta - (t / (1 / |(redW u k E T).re|) - kapRewrite u k T) ^ 2))) =
        -(wgt eta (kapRewrite u k T) (t * |(redW u k E T).re|) *
          reK (redW u k E T).re (redW u k E T).im (t * |(redW u k E T).re|)) := by
      intro t
      have e1 : t / (1 / |(redW u k E T).re|) = t * |(redW u k E T).re| := by
        rw [div_div_eq_mul_div, div_one]
      rw [e1]
      unfold wgt reK psi
      ring
    simp only [e, integral_neg, one_div_one_div]
    ring
  · have h := split_scale (wgt_imK_integrable eta hkap.le hb) ha'
    simp only [epsRPARewrite, Complex.add_im, Complex.one_im, Complex.im_ofReal_mul,
      polar_im eta hkap.le hb, ← h, imagRPARewrite, ← prefRewrite_vee u hk hT, ← heta]
    have e : ∀ t : ℝ, (1 / ((t / (1 / |(redW u k E T).re|) - (redW u k E T).re) ^ 2 +
          (redW u k E T).im ^ 2) -
        1 / ((t / (1 / |(redW u k E T).re|) + (redW u k E T).re) ^ 2 + (redW u k E T).im ^ 2)) *
        ((redW u k E T).im * log ((1 + exp (eta - (t / (1 / |(redW u k E T).re|) +
          kapRewrite u k T) ^ 2)) /
          (1 + exp (eta - (t / (1 / |(redW u k E T).re|) - kapRewrite u k T) ^ 2)))) =
        -(wgt eta (kapRewrite u k T) (t * |(redW u k E T).re|) *
          imK (redW u k E T).re (redW u k E T).im (t * |(redW u k E T).re|)) := by
      intro t
      have e1 : t / (1 / |(redW u k E T).re|) = t * |(redW u k E T).re| := by
        rw [div_div_eq_mul_div, div_one]
      rw [e1, log_div (by positivity) (by positivity)]
      unfold wgt imK psi
      ring
    simp only [e, integral_neg, one_div_one_div]
    ring

/-- So does the implementation after Schoerner et al., which integrates over the Fermi function. -/
theorem epsRPA_eq {k T : ℝ} (hk : 0 < k) (hT : 0 < T) {E : ℂ} (him : E.im ≠ 0) (mu : ℝ) :
    epsRPA u k E mu T =
      1 + (cst u k T : ℂ) * polar (mu / (u.kB * T)) (kapRewrite u k T) (redW u k E T) := by
  have hkap := kapRewrite_pos u hk hT
  have hU := thermalUnit_pos u hT
  have hdel : E.im / u.hbar * u.me / (u.hbar * k) ≠ 0 := by
    have := u.me_pos
    have := u.hbar_pos
    positivity
  have hb : (redW u k E T).im ≠ 0 := by
    rw [redW_im u k E hT]
    exact mul_ne_zero hdel hU.ne'
  set eta := mu / (u.kB * T) with heta
  have e2 := kapRewrite_eq u k hT
  have e3 := redW_re u k E hT
  have e4 := redW_im u k E hT
  set U := thermalUnit u T with hUdef
  set ka := E.re / u.hbar * u.me / (u.hbar * k) with hka
  set de := E.im / u.hbar * u.me / (u.hbar * k) with hde
  apply Complex.ext
  · have h := wgt_swap eta hkap (reK_continuous (redW u k E T).re hb).measurable
      (wgt_reK_integrable eta hkap.le hb)
    simp only [epsRPA, Complex.add_re, Complex.one_re, Complex.re_ofReal_mul,
      polar_re eta hkap.le hb, h, realRPA, cst, ← hUdef]
    rw [← hka, ← hde]
    have e : ∀ t : ℝ, t / U * fermiDirac u (t / U) mu T *
        log ((de ^ 2 + (ka - k / 2 - t / U) ^ 2) * (de ^ 2 + (ka + k / 2 + t / U) ^ 2) /
          ((de ^ 2 + (ka - k / 2 + t / U) ^ 2) * (de ^ 2 + (ka + k / 2 - t / U) ^ 2))) * U =
        phi eta t * ∫ x in |t - kapRewrite u k T|..(t + kapRewrite u k T),
          reK (redW u k E T).re (redW u k E T).im x := by
      intro t
      have hf := fermi_phi u mu t hT
      rw [← hUdef, ← heta] at hf
      rw [integral_reK_abs _ hb, e2, e3, e4]
      have ea : ∀ x y : ℝ, (y * U) ^ 2 + (x * U) ^ 2 = U ^ 2 * (y ^ 2 + x ^ 2) := fun x y => by ring
      have e5 : ka * U - k / 2 * U - t = (ka - k / 2 - t / U) * U := by field_simp
      have e6 : ka * U + k / 2 * U + t = (ka + k / 2 + t / U) * U := by field_simp
      have e7 : ka * U - k / 2 * U + t = (ka - k / 2 + t / U) * U := by field_simp
      have e8 : ka * U + k / 2 * U - t = (ka + k / 2 - t / U) * U := by field_simp
      rw [e5, e6, e7, e8, ea, ea, ea, ea]
      have e9 : ∀ A B C D : ℝ, U ^ 2 * A * (U ^ 2 * B) / (U ^ 2 * C * (U ^ 2 * D)) =
          A * B / (C * D) := by
        intro A B C D
        have : U ^ 2 * A * (U ^ 2 * B) / (U ^ 2 * C * (U ^ 2 * D)) =
            (U ^ 4 * (A * B)) / (U ^ 4 * (C * D)) := by ring
        rw [this, mul_div_mul_left _ _ (by positivity)]
      rw [e9]
      linear_combination (log ((de ^ 2 + (ka - k / 2 - t / U) ^ 2) *
        (de ^ 2 + (ka + k / 2 + t / U) ^ 2) / ((de ^ 2 + (ka - k / 2 + t / U) ^ 2) *
        (de ^ 2 + (ka + k / 2 - t / U) ^ 2)))) * hf
    simp only [e]
    ring
  · have h := wgt_swap eta hkap (imK_continuous (redW u k E T).re hb).measurable
      (wgt_imK_integrable eta hkap.le hb)
    simp only [epsRPA, Complex.add_im, Complex.one_im, Complex.im_ofReal_mul,
      polar_im eta hkap.le hb, h, imagRPA, cst, ← hUdef]
    rw [← hka, ← hde, if_neg hdel]
    have e : ∀ t : ℝ, t / U * fermiDirac u (t / U) mu T *
        (arctan ((ka - k / 2 - t / U) / de) + arctan ((ka + k / 2 + t / U) / de) -
          arctan ((ka - k / 2 + t / U) / de) - arctan ((ka + k / 2 - t / U) / de)) * U =
        -(1 / 2) * (phi eta t * ∫ x in |t - kapRewrite u k T|..(t + kapRewrite u k T),
          imK (redW u k E T).re (redW u k E T).im x) := by
      intro t
      have hf := fermi_phi u mu t hT
      rw [← hUdef, ← heta] at hf
      rw [integral_imK_abs _ hb, e2, e3, e4]
      have e5 : (ka * U - k / 2 * U - t) / (de * U) = (ka - k / 2 - t / U) / de := by field_simp
      have e6 : (ka * U + k / 2 * U + t) / (de * U) = (ka + k / 2 + t / U) / de := by field_simp
      have e7 : (ka * U - k / 2 * U + t) / (de * U) = (ka - k / 2 + t / U) / de := by field_simp
      have e8 : (ka * U + k / 2 * U - t) / (de * U) = (ka + k / 2 - t / U) / de := by field_simp
      rw [e5, e6, e7, e8]
      linear_combination (arctan ((ka - k / 2 - t / U) / de) + arctan ((ka + k / 2 + t / U) / de) -
          arctan ((ka - k / 2 + t / U) / de) - arctan ((ka + k / 2 - t / U) / de)) * hf
    simp only [e, integral_const_mul]
    ring

/-- C60: `dielectric_function_RPA` and `dielectric_function_RPA_rewrite` are the same function at
every complex energy off the axes. -/
theorem epsRPA_eq_rewrite {k T : ℝ} (hk : 0 < k) (hT : 0 < T) {E : ℂ} (hre : E.re ≠ 0)
    (him : E.im ≠ 0) (mu : ℝ) : epsRPA u k E mu T = epsRPARewrite u k E mu T := by
  rw [epsRPA_eq u hk hT him, epsRPARewrite_eq u hk hT hre him]

/-! ### C60: the undamped real part does not depend on the unit of integration -/

/-- The integrand of the undamped real part in the original variable. -/
noncomputable def rpaJ (k kap mu T Q : ℝ) : ℝ := Q * fermiDirac u Q mu T * log (lnArgRPA k kap Q)

/-- One of the two logarithms. -/
noncomputable def ell (c y : ℝ) : ℝ := log (|y + c| / |y - c|)

theorem ell_neg (c y : ℝ) : ell (-c) y = -ell c y := by
  unfold ell
  rw [← log_inv, inv_div]
  congr 2
  congr 1
  ring

theorem ell_integrable (eta c : ℝ) : IntegrableOn (fun y => phi eta y * ell c y) (Ioi 0) := by
  have hpos : ∀ c : ℝ, 0 < c → IntegrableOn (fun y => phi eta y * ell c y) (Ioi 0) := by
    intro c hc
    refine (phi_log_integrable eta hc).congr ?_
    rw [Filter.EventuallyEq, ae_restrict_iff' measurableSet_Ioi]
    refine Filter.Eventually.of_forall fun y hy => ?_
    have hy' : 0 < y := hy
    unfold ell
    rw [abs_of_pos (by linarith : 0 < y + c)]
  rcases lt_trichotomy c 0 with h | h | h
  · refine (hpos (-c) (by linarith)).neg.congr (Filter.Eventually.of_forall fun y => ?_)
    simp only [Pi.neg_apply]
    rw [ell_neg]
    ring
  · have e : (fun y => phi eta y * ell c y) = fun _ => 0 := by
      funext y
      unfold ell
      subst h
      rw [add_zero, sub_zero]
      by_cases hy : y = 0
      · simp [hy]
      · rw [div_self (abs_ne_zero.2 hy)]
        simp
    rw [e]
    exact integrableOn_zero
  · exact hpos c h

theorem log_lnArgRPA {k kap Q : ℝ} (h1 : Q ≠ k / 2 - kap) (h2 : Q ≠ k / 2 + kap)
    (h3 : Q ≠ kap - k / 2) (h4 : Q ≠ -kap - k / 2) :
    log (lnArgRPA k kap Q) = ell (k / 2 - kap) Q + ell (k / 2 + kap) Q := by
  have g1 : Q - (k / 2 - kap) ≠ 0 := sub_ne_zero.2 h1
  have g2 : Q - (k / 2 + kap) ≠ 0 := sub_ne_zero.2 h2
  have g3 : Q + (k / 2 - kap) ≠ 0 := fun h => h3 (by linarith)
  have g4 : Q + (k / 2 + kap) ≠ 0 := fun h => h4 (by linarith)
  unfold ell lnArgRPA
  rw [← log_mul (div_ne_zero (abs_ne_zero.2 g3) (abs_ne_zero.2 g1))
    (div_ne_zero (abs_ne_zero.2 g4) (abs_ne_zero.2 g2)), div_mul_div_comm]
  congr 2
  · rw [← abs_neg (kap - k / 2 - Q)]
    congr 2 <;> ring
  · rw [← abs_neg (kap + k / 2 - Q)]
    congr 2 <;> ring

/-- In reduced units the integrand is, up to single points, a sum of two integrable functions. -/
theorem rpaJ_red_ae (k kap mu : ℝ) {T : ℝ} (hT : 0 < T) :
    ∀ᵐ t : ℝ, rpaJ u k kap mu T (t / thermalUnit u T) * thermalUnit u T =
      phi (mu / (u.kB * T)) t / 2 * (ell ((k / 2 - kap) * thermalUnit u T) t +
        ell ((k / 2 + kap) * thermalUnit u T) t) := by
  have hU := thermalUnit_pos u hT
  have hne : ∀ c : ℝ, ∀ᵐ y : ℝ, y ≠ c * thermalUnit u T := fun c => by simp [ae_iff]
  filter_upwards [hne (k / 2 - kap), hne (k / 2 + kap), hne (kap - k / 2), hne (-kap - k / 2)] with
    t h1 h2 h3 h4
  have hf := fermi_phi u mu t hT
  set U := thermalUnit u T
  have key : ∀ c : ℝ, t ≠ c * U → t / U ≠ c := by
    intro c h h'
    exact h (by rw [← h']; field_simp)
  unfold rpaJ
  rw [log_lnArgRPA (key _ h1) (key _ h2) (key _ h3) (key _ h4)]
  have e : ∀ c : ℝ, ell c (t / U) = ell (c * U) t := by
    intro c
    unfold ell
    have a1 : t + c * U = (t / U + c) * U := by field_simp
    have a2 : t - c * U = (t / U - c) * U := by field_simp
    rw [a1, a2, abs_mul, abs_mul, mul_div_mul_right _ _ (abs_ne_zero.2 hU.ne')]
  rw [e, e]
  linear_combination (ell ((k / 2 - kap) * U) t + ell ((k / 2 + kap) * U) t) * hf

theorem rpaJ_integrable (k kap mu : ℝ) {T : ℝ} (hT : 0 < T) :
    IntegrableOn (rpaJ u k kap mu T) (Ioi 0) := by
  have hU := thermalUnit_pos u hT
  have h1 : IntegrableOn (fun t => rpaJ u k kap mu T (t / thermalUnit u T) * thermalUnit u T)
      (Ioi 0) := by
    have h := ((ell_integrable (mu / (u.kB * T)) ((k / 2 - kap) * thermalUnit u T)).add
      (ell_integrable (mu / (u.kB * T)) ((k / 2 + kap) * thermalUnit u T))).const_mul (1 / 2)
    refine h.congr (ae_restrict_of_ae ?_)
    filter_upwards [rpaJ_red_ae u k kap mu hT] with t ht
    rw [ht]
    simp only [Pi.add_apply]
    ring
  have h2 := h1.mul_const (thermalUnit u T)⁻¹
  have h3 : IntegrableOn (fun t => rpaJ u k kap mu T (t * (thermalUnit u T)⁻¹)) (Ioi 0) := by
    refine h2.congr (Filter.Eventually.of_forall fun t => ?_)
    simp only
    rw [mul_assoc, mul_inv_cancel₀ hU.ne', mul_one, div_eq_mul_inv]
  rw [integrableOn_Ioi_comp_mul_right_iff _ 0 (inv_pos.2 hU), zero_mul] at h3
  exact h3

/-- The value does not depend on the unit. -/
theorem rpa_unit (k kap mu : ℝ) {T : ℝ} (hT : 0 < T) {unit : ℝ} (hu : 0 < unit) :
    ((∫ t in Ioc (0 : ℝ) 1, integrandRPANoDamping u k kap mu T unit t) +
      ∫ t in Ioi (1 : ℝ), integrandRPANoDamping u k kap mu T unit t) * (1 / unit ^ 2) =
      ∫ Q in Ioi (0 : ℝ), rpaJ u k kap mu T Q := by
  have h := split_scale (rpaJ_integrable u k kap mu hT) (inv_pos.2 hu)
  have e : ∀ t, integrandRPANoDamping u k kap mu T unit t = rpaJ u k kap mu T (t * unit⁻¹) * unit :=
    fun t => rfl
  simp only [e, integral_mul_const]
  rw [← h]
  field_simp

theorem rpa_unit_whole (k kap mu T : ℝ) {unit : ℝ} (hu : 0 < unit) :
    (∫ t in Ioi (0 : ℝ), integrandRPANoDamping u k kap mu T unit t) * (1 / unit ^ 2) =
      ∫ Q in Ioi (0 : ℝ), rpaJ u k kap mu T Q := by
  have e : ∀ t, integrandRPANoDamping u k kap mu T unit t = rpaJ u k kap mu T (t * unit⁻¹) * unit :=
    fun t => rfl
  simp only [e, integral_mul_const]
  rw [integral_comp_mul_right_Ioi _ 0 (inv_pos.2 hu), zero_mul, smul_eq_mul]
  field_simp

/-- C60: the flag `unsave` of `dielectric_function_RPA_no_damping` changes the way of integration,
not the value. -/
theorem epsRPANoDamping_unsave {k T : ℝ} (hk : 0 < k) (hT : 0 < T) (E mu : ℝ) :
    epsRPANoDamping u k E mu T true = epsRPANoDamping u k E mu T false := by
  apply Complex.ext
  · have hm : min (kappaRPA u k E - k / 2) (-kappaRPA u k E - k / 2) < 0 := by
      rw [min_lt_iff]
      by_contra h
      push Not at h
      linarith [h.1, h.2]
    have hu : 0 < 1 / |min (kappaRPA u k E - k / 2) (-kappaRPA u k E - k / 2)| :=
      one_div_pos.2 (abs_pos.2 hm.ne)
    simp only [epsRPANoDamping, cond_true, cond_false, realRPANoDampingUnsave, realRPANoDamping]
    rw [rpa_unit_whole u _ _ _ _ (thermalUnit_pos u hT), rpa_unit u k _ mu hT hu]
  · rfl

/-- The static limit of the random phase approximation. -/
theorem epsRPANoDamping_static {k T : ℝ} (hk : 0 < k) (hT : 0 < T) (mu : ℝ) :
    epsRPANoDamping u k 0 mu T true =
      ((1 + cst u k T * (2 * mass (mu / (u.kB * T)) (kapRewrite u k T)) : ℝ) : ℂ) := by
  have hU := thermalUnit_pos u hT
  have hkap := kapRewrite_pos u hk hT
  have h0 : kappaRPA u k 0 = 0 := by simp [kappaRPA]
  apply Complex.ext
  · simp only [epsRPANoDamping, cond_true, realRPANoDampingUnsave, Complex.ofReal_re]
    have e : ∫ t in Ioi (0 : ℝ), integrandRPANoDamping u k (kappaRPA u k 0) mu T (thermalUnit u T) t =
        mass (mu / (u.kB * T)) (kapRewrite u k T) := by
      rw [mass_eq _ hkap]
      refine integral_congr_ae ?_
      rw [Filter.EventuallyEq, ae_restrict_iff' measurableSet_Ioi]
      filter_upwards [rpaJ_red_ae u k (kappaRPA u k 0) mu hT] with t ht hpos
      have hpos' : 0 < t := hpos
      have e1 : integrandRPANoDamping u k (kappaRPA u k 0) mu T (thermalUnit u T) t =
          rpaJ u k (kappaRPA u k 0) mu T (t / thermalUnit u T) * thermalUnit u T := rfl
      rw [e1, ht, h0, sub_zero, add_zero, ← kapRewrite_eq u k hT]
      have e2 : ell (kapRewrite u k T) t =
          log ((t + kapRewrite u k T) / |t - kapRewrite u k T|) := by
        unfold ell
        rw [abs_of_pos (by linarith : 0 < t + kapRewrite u k T)]
      rw [e2]
      ring
    rw [e]
    unfold cst
    ring
  · simp only [Complex.ofReal_im]
    have h := epsRPANoDamping_static_real u k mu T true
    rwa [Complex.conj_eq_iff_im] at h

/-! ### C59: structure factors with collisions are positive -/

/-- Mermin's construction keeps the sign of the dissipation, for a static value that is not below the
exact one. -/
theorem mermin_pos (eta : ℝ) {kap : ℝ} (hk : 0 < kap) {w : ℝ} (hw : w ≠ 0) {nu : ℂ} (hnu : 0 < nu.re)
    {s : ℝ} (hs : 0 < s) {C : ℝ} (hC : 0 < C) {p0 : ℝ} (h0 : C * (2 * mass eta kap) ≤ p0) :
    0 < (merminFit w nu ((C : ℂ) * polar eta kap ((w + Complex.I * nu) * s)) p0).im * w := by
  have hM := mass_pos eta hk
  set Z : ℂ := w + Complex.I * nu with hZ
  have hZim : 0 < Z.im := by simpa [hZ] using hnu
  have hzim : 0 < (Z * (s : ℂ)).im := by
    rw [Complex.im_mul_ofReal]
    positivity
  have hmain := resolvent_im_pos eta hk hzim
  have hpol := polar_eq eta hk.le hzim.ne'
  set f := polar eta kap (Z * (s : ℂ)) with hf
  set G := resolvent eta kap (Z * (s : ℂ)) with hG
  set M := mass eta kap with hMd
  -- the static value, the damped value and the complex frequency
  have key : Complex.normSq f * Z.im < 2 * M * (Z * f).im := by
    have e1 : (Z * (s : ℂ)) * ((Z * (s : ℂ)) * G) = f / 2 - M := by
      rw [hpol]
      ring
    have e2 : conj (Z * (s : ℂ)) * ((Z * (s : ℂ)) * ((Z * (s : ℂ)) * G * conj f)) =
        conj (Z * (s : ℂ)) * ((f / 2 - M) * conj f) := by
      rw [← e1]
      ring
    have e3 : conj (Z * (s : ℂ)) * ((Z * (s : ℂ)) * ((Z * (s : ℂ)) * G * conj f)) =
        ((Complex.normSq (Z * (s : ℂ)) : ℝ) : ℂ) * ((Z * (s : ℂ)) * G * conj f) := by
      rw [Complex.normSq_eq_conj_mul_self]
      ring
    have hn : 0 < Complex.normSq (Z * (s : ℂ)) := Complex.normSq_pos.2 fun h => by
      rw [h] at hzim
      simp at hzim
    have e4 := congrArg Complex.im (e3.symm.trans e2)
    rw [Complex.im_ofReal_mul] at e4
    have hpos : 0 < (conj (Z * (s : ℂ)) * ((f / 2 - M) * conj f)).im := by
      rw [← e4]
      exact mul_pos hn hmain
    have e5 : (conj (Z * (s : ℂ)) * ((f / 2 - M) * conj f)).im =
        s / 2 * (2 * M * (Z * f).im - Complex.normSq f * Z.im) := by
      have hhalf : f / 2 = ((1 / 2 : ℝ) : ℂ) * f := by
        push_cast
        ring
      rw [hhalf]
      simp only [map_mul, Complex.conj_ofReal, Complex.mul_im, Complex.mul_re, Complex.sub_re,
        Complex.sub_im, Complex.conj_re, Complex.conj_im, Complex.ofReal_re, Complex.ofReal_im,
        Complex.normSq_apply]
      ring
    rw [e5] at hpos
    have := pos_of_mul_pos_right hpos (by positivity : (0 : ℝ) ≤ s / 2)
    linarith
  have hfn : 0 ≤ Complex.normSq f := Complex.normSq_nonneg f
  have hZf : 0 < (Z * f).im := by
    have : 0 < 2 * M * (Z * f).im := lt_of_le_of_lt (by positivity) key
    exact pos_of_mul_pos_right this (by positivity)
  have hp0 : 0 < p0 := lt_of_lt_of_le (by positivity) h0
  set pn : ℂ := (C : ℂ) * f with hpn
  have key2 : Complex.normSq pn * Z.im < p0 * (Z * pn).im := by
    have e1 : Complex.normSq pn = C ^ 2 * Complex.normSq f := by
      rw [hpn, Complex.normSq_mul, Complex.normSq_ofReal]
      ring
    have e2 : (Z * pn).im = C * (Z * f).im := by
      rw [hpn, mul_left_comm, Complex.im_ofReal_mul]
    rw [e1, e2]
    have h1 : C ^ 2 * (Complex.normSq f * Z.im) < C ^ 2 * (2 * M * (Z * f).im) :=
      mul_lt_mul_of_pos_left key (by positivity)
    have h2 : C * (2 * M) * (C * (Z * f).im) ≤ p0 * (C * (Z * f).im) :=
      mul_le_mul_of_nonneg_right h0 (by positivity)
    nlinarith
  -- the quotient
  have hI : Complex.I * nu = Z - w := by
    rw [hZ]
    ring
  set D : ℂ := p0 * w + Complex.I * nu * pn with hD
  have him : ((Z * p0 * pn) * conj D).im = w * (p0 * (p0 * (Z * pn).im - Complex.normSq pn * Z.im)) := by
    rw [hD, hI]
    simp only [map_add, map_sub, map_mul, Complex.conj_ofReal, Complex.mul_im, Complex.mul_re,
      Complex.sub_re, Complex.sub_im, Complex.add_re, Complex.add_im, Complex.conj_re,
      Complex.conj_im, Complex.ofReal_re, Complex.ofReal_im, Complex.normSq_apply]
    ring
  have hpos : 0 < p0 * (p0 * (Z * pn).im - Complex.normSq pn * Z.im) :=
    mul_pos hp0 (by linarith)
  have hDne : D ≠ 0 := by
    intro h
    rw [h] at him
    simp only [map_zero, mul_zero, Complex.zero_im] at him
    rcases mul_eq_zero.1 him.symm with h' | h'
    · exact hw h'
    · exact hpos.ne' h'
  have hval : merminFit w nu pn p0 = 1 + Z * p0 * pn / D := rfl
  rw [hval, Complex.add_im, Complex.one_im, zero_add, div_eq_mul_inv, Complex.inv_def, ← mul_assoc,
    Complex.im_mul_ofReal, him]
  have hDn : 0 < Complex.normSq D := Complex.normSq_pos.2 hDne
  have hw2 : 0 < w ^ 2 := sq_pos_of_ne_zero hw
  have e : w * (p0 * (p0 * (Z * pn).im - Complex.normSq pn * Z.im)) * (Complex.normSq D)⁻¹ * w =
      w ^ 2 * (p0 * (p0 * (Z * pn).im - Complex.normSq pn * Z.im)) * (Complex.normSq D)⁻¹ := by ring
  rw [e]
  have := inv_pos.2 hDn
  exact mul_pos (mul_pos hw2 hpos) this

theorem redW_damped (k E : ℝ) (nu : ℂ) {T : ℝ} (hT : 0 < T) :
    redW u k (dampedEnergy u E nu) T =
      (((E / u.hbar : ℝ) : ℂ) + Complex.I * nu) * ((u.me / (k * pTh u T) : ℝ) : ℂ) := by
  have hh : (u.hbar : ℂ) ≠ 0 := Complex.ofReal_ne_zero.2 u.hbar_pos.ne'
  have hp : (pTh u T : ℂ) ≠ 0 := Complex.ofReal_ne_zero.2 (pTh_pos u hT).ne'
  rw [redW_eq u k _ hT]
  unfold dampedEnergy
  push_cast
  by_cases hk : (k : ℂ) = 0
  · simp [hk]
  · field_simp

theorem dampedEnergy_im (E : ℝ) (nu : ℂ) : (dampedEnergy u E nu).im = u.hbar * nu.re := by
  simp [dampedEnergy]

theorem dampedEnergy_re (E : ℝ) (nu : ℂ) : (dampedEnergy u E nu).re = E - u.hbar * nu.im := by
  simp [dampedEnergy]
  ring

theorem epsDamped_eq (rewrite : Bool) {k T : ℝ} (hk : 0 < k) (hT : 0 < T) {E : ℂ}
    (hre : rewrite = true → E.re ≠ 0) (him : E.im ≠ 0) (mu : ℝ) :
    epsDamped u rewrite k E mu T =
      1 + (cst u k T : ℂ) * polar (mu / (u.kB * T)) (kapRewrite u k T) (redW u k E T) := by
  cases rewrite with
  | true => exact epsRPARewrite_eq u hk hT (hre rfl) him mu
  | false => exact epsRPA_eq u hk hT him mu

/-- Dissipation of the Mermin dielectric function with a static value not below that of the random
phase approximation. -/
theorem mermin_dissipative (rewrite : Bool) {k T E : ℝ} (hk : 0 < k) (hT : 0 < T) (hE : E ≠ 0) (mu : ℝ)
    {nu : ℂ} (hnu : 0 < nu.re) (hre : rewrite = true → E ≠ u.hbar * nu.im) {p0 : ℝ}
    (h0 : (epsRPANoDamping u k 0 mu T true).re - 1 ≤ p0) :
    0 < (merminFit (E / u.hbar) nu (epsDamped u rewrite k (dampedEnergy u E nu) mu T - 1) p0).im *
      E := by
  have hh := u.hbar_pos
  have hkap := kapRewrite_pos u hk hT
  have hs : 0 < u.me / (k * pTh u T) := by
    have := u.me_pos
    have := pTh_pos u hT
    positivity
  rw [epsDamped_eq u rewrite hk hT
    (fun h => by rw [dampedEnergy_re]; exact sub_ne_zero.2 (hre h))
    (by rw [dampedEnergy_im]; positivity), add_sub_cancel_left, redW_damped u k E nu hT]
  rw [epsRPANoDamping_static u hk hT, Complex.ofReal_re, add_sub_cancel_left] at h0
  have h := mermin_pos (mu / (u.kB * T)) hkap (div_ne_zero hE hh.ne') hnu hs (cst_pos u hk hT) h0
  set X := (merminFit (E / u.hbar) nu ((cst u k T : ℂ) * polar (mu / (u.kB * T)) (kapRewrite u k T)
    ((((E / u.hbar : ℝ) : ℂ) + Complex.I * nu) * ((u.me / (k * pTh u T) : ℝ) : ℂ))) (p0 : ℂ)).im
  have e : X * E = X * (E / u.hbar) * u.hbar := by field_simp
  rw [e]
  exact mul_pos h hh

/-- The static value of the random phase approximation is a real number. -/
theorem epsRPANoDamping_static_sub (k mu T : ℝ) (b : Bool) :
    epsRPANoDamping u k 0 mu T b - 1 = (((epsRPANoDamping u k 0 mu T b).re - 1 : ℝ) : ℂ) := by
  have h := Complex.conj_eq_iff_im.1 (epsRPANoDamping_static_real u k mu T b)
  apply Complex.ext
  · simp
  · simp [h]

/-- C59: `S0_ee_BMA_chapman_interp` is positive wherever the collision frequency damps, for both damped
dielectric functions, every potential, static structure factor, chemical potential and local field
correction.  The rewritten dielectric function divides by the real part of the complex energy, which
is excluded. -/
theorem s0eeBMAInterp_pos (b : BornArgs) (hT : 0 < b.T) (hn : 0 < b.n) {k E : ℝ} (hk : 0 < k)
    (hE : E ≠ 0) (lfc : ℝ) (hnu : 0 < (nuInterp u b (-E)).re)
    (hre : b.rewrite = true → -E ≠ u.hbar * (nuInterp u b (-E)).im) :
    0 < s0eeBMAInterp u b k E lfc := by
  simp only [s0eeBMAInterp]
  apply chain_pos u hk.ne' hT hn
  simp only [epsBMAInterp, merminInterp_eq_merminFit]
  rw [epsRPANoDamping_static_sub]
  exact mermin_dissipative u b.rewrite hk hT (neg_ne_zero.2 hE) b.mu hnu hre le_rfl

/-- C59: the same for `S0_ee_BMA`. -/
theorem s0eeBMA_pos (b : BornArgs) (hT : 0 < b.T) (hn : 0 < b.n) {k E : ℝ} (hk : 0 < k)
    (hE : E ≠ 0) (Es : List ℝ) (lfc : ℝ)
    (hnu : 0 < (fullNu (bornNu u (bornEpsRPA u b.mu b.T) b.V b.S b.Zf) (Es.map fun x => -x) (-E)).re)
    (hre : b.rewrite = true → -E ≠ u.hbar *
      (fullNu (bornNu u (bornEpsRPA u b.mu b.T) b.V b.S b.Zf) (Es.map fun x => -x) (-E)).im) :
    0 < s0eeBMA u b k Es E lfc := by
  simp only [s0eeBMA]
  apply chain_pos u hk.ne' hT hn
  simp only [epsBMAFull]
  have hne : epsRPANoDamping u k 0 b.mu b.T true - 1 ≠ 0 := by
    rw [epsRPANoDamping_static u hk hT]
    have h1 := mass_pos (b.mu / (u.kB * b.T)) (kapRewrite_pos u hk hT)
    have h2 := cst_pos u hk hT
    intro h
    have := congrArg Complex.re h
    simp only [Complex.sub_re, Complex.ofReal_re, Complex.one_re, Complex.zero_re] at this
    have h3 : 0 < cst u k b.T * (2 * mass (b.mu / (u.kB * b.T)) (kapRewrite u k b.T)) := by positivity
    linarith
  rw [merminFull_eq_merminFit (div_ne_zero (neg_ne_zero.2 hE) u.hbar_pos.ne') _ _ hne,
    epsRPANoDamping_static_sub]
  exact mermin_dissipative u b.rewrite hk hT (neg_ne_zero.2 hE) b.mu hnu hre le_rfl

/-- C59: `S0_ee_BMA_chapman_interpFit` is positive where in addition the fitted static value is not
below the exact one. -/
theorem s0eeBMAFit_pos_partial (d : DandreaFits) (b : BornArgs) (hT : 0 < b.T) (hn : 0 < b.n)
    {k E : ℝ} (hk : 0 < k) (hE : E ≠ 0) (lfc : ℝ) (hnu : 0 < (nuInterpFit u d b (-E)).re)
    (hre : b.rewrite = true → -E ≠ u.hbar * (nuInterpFit u d b (-E)).im)
    (hfit : (epsRPANoDamping u k 0 b.mu b.T true).re ≤ (epsDandrea u d k 0 b.T b.n).re) :
    0 < s0eeBMAFit u d b k E lfc := by
  simp only [s0eeBMAFit]
  apply chain_pos u hk.ne' hT hn
  simp only [epsBMAFit]
  have him : (epsDandrea u d k 0 b.T b.n).im = 0 := by
    have := epsDandrea_hermitian u d k b.T b.n 0
    rw [neg_zero] at this
    exact Complex.conj_eq_iff_im.1 this.symm
  have e : epsDandrea u d k 0 b.T b.n - 1 = (((epsDandrea u d k 0 b.T b.n).re - 1 : ℝ) : ℂ) := by
    apply Complex.ext
    · simp
    · simp [him]
  rw [e]
  exact mermin_dissipative u b.rewrite hk hT (neg_ne_zero.2 hE) b.mu hnu hre (by linarith)

/-! ### The collision frequency is positive -/

theorem bornIntegrand_rpa_re (mu T : ℝ) (V S : ℝ → ℝ) (E q : ℝ) :
    (bornIntegrand u (bornEpsRPA u mu T) V S E q).re =
      q ^ 6 * V q ^ 2 * S q * (imagRPANoDamping u q E mu T * (1 / (E / u.hbar))) := by
  have h0 : (bornEpsRPA u mu T q 0).im = 0 := imagRPANoDamping_zero u q mu T
  have h1 : (bornEpsRPA u mu T q E).im = imagRPANoDamping u q E mu T := rfl
  simp only [bornIntegrand]
  rw [mul_assoc, mul_assoc, mul_assoc, Complex.re_ofReal_mul]
  congr 1
  rw [mul_comm ((1 / (E / u.hbar) : ℝ) : ℂ), ← mul_assoc, Complex.re_mul_ofReal]
  simp [h0, h1]

/-- C57: the collision frequency is strictly positive if potential and structure factor do not vanish
on a set of positive measure (and the integral exists). -/
theorem bornNu_rpa_re_pos (mu : ℝ) {E T Zf : ℝ} (hT : 0 < T) (hZ : 0 < Zf) (hE : E ≠ 0) (V : ℝ → ℝ)
    {S : ℝ → ℝ} (hS : ∀ q, 0 ≤ S q)
    (hint : IntegrableOn (fun q => (bornIntegrand u (bornEpsRPA u mu T) V S E q).re) (Ioi 0))
    (hsupp : 0 < volume ({q | V q ≠ 0 ∧ S q ≠ 0} ∩ Ioi 0)) :
    0 < (bornNu u (bornEpsRPA u mu T) V S Zf E).re := by
  have hp : 0 < bornPref u Zf := by
    have := u.eps0_pos
    have := u.e_pos
    have := u.me_pos
    unfold bornPref
    positivity
  have hh := u.hbar_pos
  have hE2 : 0 < E ^ 2 := sq_pos_of_ne_zero hE
  have hsign : ∀ q, 0 < q → 0 < imagRPANoDamping u q E mu T * (1 / (E / u.hbar)) := by
    intro q hq
    have := imagRPANoDamping_sign u mu hq hT hE
    have e : imagRPANoDamping u q E mu T * (1 / (E / u.hbar)) =
        imagRPANoDamping u q E mu T * E * (u.hbar / E ^ 2) := by
      field_simp
    rw [e]
    positivity
  simp only [bornNu]
  refine mul_pos ?_ hp
  rw [setIntegral_pos_iff_support_of_nonneg_ae _ hint]
  · refine lt_of_lt_of_le hsupp (measure_mono ?_)
    rintro q ⟨⟨hV, hS0⟩, hq⟩
    have hq' : 0 < q := hq
    refine ⟨?_, hq⟩
    rw [Function.mem_support, bornIntegrand_rpa_re]
    have h1 := hsign q hq'
    have h2 : 0 < S q := lt_of_le_of_ne (hS q) (Ne.symm hS0)
    have h3 : 0 < V q ^ 2 := sq_pos_of_ne_zero hV
    positivity
  · rw [Filter.EventuallyLE, ae_restrict_iff' measurableSet_Ioi]
    refine Filter.Eventually.of_forall fun q hq => ?_
    have hq' : 0 < q := hq
    simp only [Pi.zero_apply]
    rw [bornIntegrand_rpa_re]
    have h1 := (hsign q hq').le
    have h2 := hS q
    positivity

/-- Interpolation does not go below the smallest node. -/
theorem chapmanNu_re_ge {nu : ℝ → ℂ} {m Emin Emax : ℝ} {N : ℕ} (h0 : 0 < Emin) (h1 : Emin < Emax)
    (hN : 0 < N) (hnu : ∀ x ∈ linspace Emin Emax N, m ≤ (nu x).re) (E : ℝ) :
    m ≤ (chapmanNu nu Emin Emax N E).re := by
  have hinc := Verif.Resp.mirror_increasing (linspace_pairwise h1 N) (linspace_pos h0 h1 N)
  have hlen : (mirror (-1) (linspace Emin Emax N)).length = 2 * N := by
    rw [mirror_length, linspace_length]
  have hlen' : ∀ f : ℝ → ℝ, (mirror 1 ((linspace Emin Emax N).map f)).length = 2 * N := by
    intro f
    rw [mirror_length, List.length_map, linspace_length]
  simp only [chapmanNu, Verif.Interp.interpL]
  have hmem : ∀ i, i < 2 * N →
      m ≤ Verif.Interp.arr (mirror 1 ((linspace Emin Emax N).map fun x => (nu x).re)) i := by
    intro i hi
    unfold Verif.Interp.arr
    rw [List.getD_eq_getElem _ _ (by rw [hlen']; exact hi)]
    have hall : ∀ x ∈ mirror 1 ((linspace Emin Emax N).map fun x => (nu x).re), m ≤ x := by
      intro x hx
      simp only [mirror, List.mem_append, List.mem_map, List.mem_reverse, one_mul] at hx
      rcases hx with ⟨a, ⟨b, hb, rfl⟩, rfl⟩ | ⟨b, hb, rfl⟩
      · exact hnu b hb
      · exact hnu b hb
    exact hall _ (List.getElem_mem _)
  obtain ⟨M, hM⟩ : ∃ M, ∀ i, i < 2 * N →
      Verif.Interp.arr (mirror 1 ((linspace Emin Emax N).map fun x => (nu x).re)) i ≤ M := by
    refine ⟨((Finset.range (2 * N)).image
      (Verif.Interp.arr (mirror 1 ((linspace Emin Emax N).map fun x => (nu x).re)))).max' ?_, ?_⟩
    · exact ⟨_, Finset.mem_image_of_mem _ (Finset.mem_range.2 (by omega : 0 < 2 * N))⟩
    · intro i hi
      exact Finset.le_max' _ _ (Finset.mem_image_of_mem _ (Finset.mem_range.2 hi))
  rw [hlen] at hinc ⊢
  exact (Verif.Interp.interp_in_range (2 * N) _ _ hinc (by omega) m M
    (fun i hi => ⟨hmem i hi, hM i hi⟩) E).1

/-- C57: so the interpolated collision frequency is strictly positive if it is at the nodes. -/
theorem chapmanNu_re_pos {nu : ℝ → ℂ} {Emin Emax : ℝ} {N : ℕ} (h0 : 0 < Emin) (h1 : Emin < Emax)
    (hN : 0 < N) (hnu : ∀ E, 0 < E → 0 < (nu E).re) (E : ℝ) :
    0 < (chapmanNu nu Emin Emax N E).re := by
  have hl : 0 < (linspace Emin Emax N).length := by rw [linspace_length]; exact hN
  obtain ⟨x0, hx0⟩ := List.exists_mem_of_length_pos hl
  obtain ⟨m, hm, hle⟩ : ∃ m, 0 < m ∧ ∀ x ∈ linspace Emin Emax N, m ≤ (nu x).re := by
    obtain ⟨x, hx, hmin⟩ := (linspace Emin Emax N).toFinset.exists_min_image (fun x => (nu x).re)
      ⟨x0, List.mem_toFinset.2 hx0⟩
    exact ⟨(nu x).re, hnu x (linspace_pos h0 h1 N x (List.mem_toFinset.1 hx)),
      fun y hy => hmin y (List.mem_toFinset.2 hy)⟩
  exact lt_of_lt_of_le hm (chapmanNu_re_ge h0 h1 hN hle E)

theorem imagRPANoDamping_continuousOn (E mu T : ℝ) :
    ContinuousOn (fun q => imagRPANoDamping u q E mu T) (Ioi 0) := by
  have hh := u.hbar_pos.ne'
  have hpi := pi_pos.ne'
  have h0 := u.eps0_pos.ne'
  simp only [imagRPANoDamping, logaddexp0, kinEnergy, kappaRPA]
  have hq : ∀ q ∈ Ioi (0 : ℝ), u.hbar * q ≠ 0 := fun q hq => mul_ne_zero hh (mem_Ioi.1 hq).ne'
  have hq3 : ∀ q ∈ Ioi (0 : ℝ), 2 * π * u.eps0 * u.hbar ^ 4 * q ^ 3 ≠ 0 := fun q hq => by
    have := (mem_Ioi.1 hq).ne'
    positivity
  have hc : ContinuousOn (fun q : ℝ => E / u.hbar * u.me / (u.hbar * q)) (Ioi 0) :=
    ContinuousOn.div (by fun_prop) (by fun_prop) hq
  refine ContinuousOn.mul (ContinuousOn.neg (ContinuousOn.div (by fun_prop) (by fun_prop) hq3)) ?_
  refine ContinuousOn.sub (ContinuousOn.log ?_ fun q _ => by positivity)
    (ContinuousOn.log ?_ fun q _ => by positivity)
  · fun_prop
  · fun_prop

/-- Arguments with a structure factor on a finite range. -/
noncomputable def windowArgs : BornArgs where
  mu := 1
  T := 1
  n := 1
  S := (Icc (1 : ℝ) 2).indicator fun _ => 1
  V := fun _ => -1
  Zf := 1
  Emin := 1 / 2
  Emax := 10
  rewrite := false

theorem windowArgs_nu_pos (E : ℝ) : 0 < (nuInterp u windowArgs E).re := by
  have hS : ∀ q, 0 ≤ windowArgs.S q := fun q => indicator_nonneg (fun _ _ => zero_le_one) q
  refine chapmanNu_re_pos (by norm_num [windowArgs]) (by norm_num [windowArgs])
    (by norm_num [windowArgs]) (fun E hE => ?_) E
  refine bornNu_rpa_re_pos u _ (by norm_num [windowArgs]) (by norm_num [windowArgs]) hE.ne' _ hS ?_ ?_
  · have hc : IntegrableOn (fun q : ℝ => q ^ 6 * (-1) ^ 2 * 1 *
        (imagRPANoDamping u q E 1 1 * (1 / (E / u.hbar)))) (Icc 1 2) := by
      apply ContinuousOn.integrableOn_Icc
      refine ContinuousOn.mul (by fun_prop) (ContinuousOn.mul ?_ continuousOn_const)
      exact (imagRPANoDamping_continuousOn u E 1 1).mono fun q hq => lt_of_lt_of_le one_pos hq.1
    have hi := (integrable_indicator_iff measurableSet_Icc).2 hc
    refine Integrable.integrableOn (hi.congr (Filter.Eventually.of_forall fun q => ?_))
    simp only [bornIntegrand_rpa_re, windowArgs]
    by_cases hq : q ∈ Icc (1 : ℝ) 2
    · rw [indicator_of_mem hq, indicator_of_mem hq]
    · rw [indicator_of_notMem hq, indicator_of_notMem hq]
      ring
  · have hsub : Icc (1 : ℝ) 2 ⊆ {q | windowArgs.V q ≠ 0 ∧ windowArgs.S q ≠ 0} ∩ Ioi 0 := by
      intro q hq
      refine ⟨⟨?_, ?_⟩, lt_of_lt_of_le one_pos hq.1⟩
      · simp [windowArgs]
      · simp only [windowArgs, indicator_of_mem hq]
        exact one_ne_zero
    refine lt_of_lt_of_le ?_ (measure_mono hsub)
    rw [Real.volume_Icc]
    norm_num

/-- The hypotheses of `s0eeBMAInterp_pos` can be met. -/
example : 0 < s0eeBMAInterp u windowArgs 1 3 0 :=
  s0eeBMAInterp_pos u windowArgs (by norm_num [windowArgs]) (by norm_num [windowArgs]) one_pos
    (by norm_num) 0 (windowArgs_nu_pos u _) (by simp [windowArgs])

end Verif.Resp
