/-
The f-sum rule of the structure factor of interacting electrons, by Cauchy's theorem.
-/
import Verif.Lemmas.Contour
import Verif.Props.FSum

set_option autoImplicit false

namespace Verif.Resp

open Real Verif.Expt MeasureTheory Set Filter Topology Verif.Lindhard

variable (u : Consts)

/-- The undamped dielectric function on the real axis, in reduced units. -/
theorem eps_polarB {k T : ℝ} (hk : 0 < k) (hT : 0 < T) (E mu : ℝ) (unsave : Bool) :
    epsRPANoDamping u k E mu T unsave = 1 + (cst u k T : ℂ) * polarB (mu / (u.kB * T))
      (kapRewrite u k T) ((E * (u.me / (u.hbar * k * pTh u T)) : ℝ) : ℂ) := by
  have hus : epsRPANoDamping u k E mu T unsave = epsRPANoDamping u k E mu T true := by
    cases unsave
    · exact (epsRPANoDamping_unsave u hk hT E mu).symm
    · rfl
  rw [hus]
  have hr : (epsRPANoDamping u k E mu T true).re = realRPA u k (E : ℂ) mu T :=
    (realRPA_real u k E mu T).symm
  have him : (redW u k (E : ℂ) T).im = 0 := by
    rw [redW_im u k _ hT]
    simp
  apply Complex.ext
  · rw [hr, realRPA_logInt u k mu hT, him, redW_real u hT, Complex.add_re, Complex.one_re,
      Complex.re_ofReal_mul]
    simp only [polarB, Complex.ofReal_re, Complex.ofReal_im]
    ring
  · rw [Complex.add_im, Complex.one_im, Complex.im_ofReal_mul, polarB_real_im, ← redW_real u hT]
    simp only [epsRPANoDamping]
    rw [imagRPANoDamping_wgt u hk hT, zero_add]

/-- The response with a local field correction, times the potential. -/
theorem xiLfc_eps (k : ℝ) (hk : 0 < k) (eps : ℂ) (G : ℝ) :
    xiLfc (noninteractingFromEps u eps k) (vee u k) G * (vee u k : ℂ) =
      -((eps - 1) / (1 + (1 - G) * (eps - 1))) := by
  have hv := vee_pos u hk.ne'
  have hvc : (vee u k : ℂ) ≠ 0 := Complex.ofReal_ne_zero.2 hv.ne'
  unfold xiLfc noninteractingFromEps
  have e : 1 - (vee u k : ℂ) * (1 - (G : ℂ)) * ((1 - eps) / (vee u k : ℂ)) = 1 + (1 - G) * (eps - 1) := by
    field_simp
    ring
  rw [e]
  field_simp
  ring

/-- The first moment of the imaginary part of the response of interacting electrons is that of the
dielectric function. -/
theorem response_fsum {k T : ℝ} (hk : 0 < k) (hT : 0 < T) (mu : ℝ) (unsave : Bool) {G : ℝ} (hG : G ≤ 1) :
    ∫ E in Ioi (0 : ℝ), E * ((epsRPANoDamping u k E mu T unsave - 1) /
        (1 + (1 - G) * (epsRPANoDamping u k E mu T unsave - 1))).im =
      ∫ E in Ioi (0 : ℝ), E * (epsRPANoDamping u k E mu T unsave).im := by
  have hm := u.me_pos
  have hh := u.hbar_pos
  have hp := pTh_pos u hT
  have hf : 0 < u.me / (u.hbar * k * pTh u T) := by positivity
  have hA := cst_pos u hk hT
  have hkap := kapRewrite_pos u hk hT
  have hc : 0 ≤ (1 - G) * cst u k T := mul_nonneg (by linarith) hA.le
  have h1 := polarB_first (mu / (u.kB * T)) hkap hc (wgt_id_integrable _ hkap)
  simp only [eps_polarB u hk hT]
  set f := u.me / (u.hbar * k * pTh u T) with hfd
  set P : ℝ → ℂ := fun x => polarB (mu / (u.kB * T)) (kapRewrite u k T) (x : ℂ) with hP
  have s1 := integral_comp_mul_right_Ioi (fun x => x * (P x /
    (1 + (((1 - G) * cst u k T : ℝ) : ℂ) * P x)).im) 0 hf
  have s2 := integral_comp_mul_right_Ioi (fun x => π * (wgt (mu / (u.kB * T)) (kapRewrite u k T) x * x)) 0 hf
  rw [zero_mul] at s1 s2
  have e1 : ∀ E : ℝ, E * ((1 + (cst u k T : ℂ) * P (E * f) - 1) /
      (1 + (1 - G) * (1 + (cst u k T : ℂ) * P (E * f) - 1))).im =
      cst u k T / f * (E * f * (P (E * f) / (1 + (((1 - G) * cst u k T : ℝ) : ℂ) * P (E * f))).im) := by
    intro E
    have e : (1 + (cst u k T : ℂ) * P (E * f) - 1) / (1 + (1 - G) * (1 + (cst u k T : ℂ) * P (E * f) - 1)) =
        (cst u k T : ℂ) * (P (E * f) / (1 + (((1 - G) * cst u k T : ℝ) : ℂ) * P (E * f))) := by
      push_cast
      rw [add_sub_cancel_left, mul_div_assoc]
      congr 3
      ring
    rw [e, Complex.im_ofReal_mul]
    field_simp
  have e2 : ∀ E : ℝ, E * (1 + (cst u k T : ℂ) * P (E * f)).im =
      cst u k T / f * (π * (wgt (mu / (u.kB * T)) (kapRewrite u k T) (E * f) * (E * f))) := by
    intro E
    rw [Complex.add_im, Complex.one_im, Complex.im_ofReal_mul]
    simp only [hP]
    rw [polarB_real_im]
    field_simp
    ring
  have g1 : ∫ E in Ioi (0 : ℝ), E * ((1 + (cst u k T : ℂ) * P (E * f) - 1) /
      (1 + (1 - G) * (1 + (cst u k T : ℂ) * P (E * f) - 1))).im = _ :=
    (integral_congr_ae (Eventually.of_forall e1)).trans (integral_const_mul _ _)
  have g2 : ∫ E in Ioi (0 : ℝ), E * (1 + (cst u k T : ℂ) * P (E * f)).im = _ :=
    (integral_congr_ae (Eventually.of_forall e2)).trans (integral_const_mul _ _)
  rw [g1, g2, s1, s2, h1]

/-- What the structure factor is made of. -/
noncomputable def loss (k T mu G E : ℝ) (unsave : Bool) : ℝ :=
  ((epsRPANoDamping u k E mu T unsave - 1) / (1 + (1 - G) * (epsRPANoDamping u k E mu T unsave - 1))).im

theorem eps_neg {k T : ℝ} (hk : 0 < k) (hT : 0 < T) (E mu : ℝ) (unsave : Bool) :
    epsRPANoDamping u k (-E) mu T unsave = (starRingEnd ℂ) (epsRPANoDamping u k E mu T unsave) := by
  rw [eps_polarB u hk hT, eps_polarB u hk hT, neg_mul, Complex.ofReal_neg, polarB_neg]
  simp

theorem loss_neg {k T : ℝ} (hk : 0 < k) (hT : 0 < T) (mu G E : ℝ) (unsave : Bool) :
    loss u k T mu G (-E) unsave = -loss u k T mu G E unsave := by
  unfold loss
  rw [eps_neg u hk hT, ← Complex.conj_im]
  congr 1
  simp

theorem s0ee_loss {k T : ℝ} (hk : 0 < k) (hT : 0 < T) (n mu G E : ℝ) (unsave : Bool) :
    s0eeRPANoDamping u k T n E mu G unsave =
      -(u.hbar / (π * n * vee u k) / (1 - exp (E / (u.kB * T))) * loss u k T mu G E unsave) := by
  simp only [s0eeRPANoDamping, s0eeSusceptibility]
  rw [xiLfc_eps u k hk, Complex.neg_im]
  have : ((epsRPANoDamping u k (-E) mu T unsave - 1) /
      (1 + (1 - (G : ℂ)) * (epsRPANoDamping u k (-E) mu T unsave - 1))).im = loss u k T mu G (-E) unsave := rfl
  rw [this, loss_neg u hk hT, neg_neg, neg_div, neg_neg]

/-- C109: the f-sum rule of the structure factor of interacting electrons, in random phase
approximation and with any local field correction up to one: the gain at an energy and the loss at its
opposite add up to a first moment of minus the kinetic energy of the momentum transfer, if the density
is that of the chemical potential. -/
theorem s0eeRPANoDamping_fsum_lfc {k T : ℝ} (hk : 0 < k) (hT : 0 < T) (mu : ℝ) (unsave : Bool) {G : ℝ}
    (hG : G ≤ 1) :
    ∫ E in Ioi (0 : ℝ), (E * s0eeRPANoDamping u k T (gasDensity u T mu) E mu G unsave +
        -E * s0eeRPANoDamping u k T (gasDensity u T mu) (-E) mu G unsave) =
      -(u.hbar * (u.hbar ^ 2 * k ^ 2 / (2 * u.me))) := by
  have hm := u.me_pos
  have hh := u.hbar_pos
  have he := u.e_pos
  have h0 := u.eps0_pos
  have hB := u.kB_pos
  have hn := gasDensity_pos u hT mu
  set n := gasDensity u T mu with hnd
  have hi : ∀ E ∈ Ioi (0 : ℝ), E * s0eeRPANoDamping u k T n E mu G unsave +
      -E * s0eeRPANoDamping u k T n (-E) mu G unsave =
      -(u.hbar / (π * n * vee u k)) * (E * loss u k T mu G E unsave) := by
    intro E hE
    have hx : E / (u.kB * T) ≠ 0 := (div_pos hE (by positivity)).ne'
    have hb := bose_sum hx
    rw [s0ee_loss u hk hT, s0ee_loss u hk hT, loss_neg u hk hT, neg_div]
    linear_combination (-(u.hbar / (π * n * vee u k)) * E * loss u k T mu G E unsave) * hb
  rw [setIntegral_congr_fun measurableSet_Ioi hi, integral_const_mul]
  unfold loss
  rw [response_fsum u hk hT mu unsave hG, imagRPA_fsum u hk hT, ← hnd, vee_eq]
  have := pi_pos
  field_simp

/-- The density response of interacting electrons, as the code makes it of the dielectric function
without damping. -/
noncomputable abbrev chiee (k T mu G : ℝ) (unsave : Bool) (E : ℝ) : ℂ :=
  xiLfc (noninteractingFromEps u (epsRPANoDamping u k E mu T unsave) k) (vee u k) G

theorem chiee_respB {k T : ℝ} (hk : 0 < k) (hT : 0 < T) (mu G : ℝ) (unsave : Bool) (E : ℝ) :
    chiee u k T mu G unsave E = ((-(cst u k T / vee u k) : ℝ) : ℂ) * respB (mu / (u.kB * T))
      (kapRewrite u k T) ((1 - G) * cst u k T) ((E * (u.me / (u.hbar * k * pTh u T)) : ℝ) : ℂ) := by
  have hv := vee_pos u hk.ne'
  have hvc : (vee u k : ℂ) ≠ 0 := Complex.ofReal_ne_zero.2 hv.ne'
  have h := xiLfc_eps u k hk (epsRPANoDamping u k E mu T unsave) G
  unfold chiee
  rw [eq_div_of_mul_eq hvc h, eps_polarB u hk hT]
  unfold respB
  generalize polarB _ _ _ = p
  have e : (1 : ℂ) + (1 - G) * (1 + (cst u k T : ℂ) * p - 1) =
      1 + (((1 - G) * cst u k T : ℝ) : ℂ) * p := by
    push_cast
    ring
  rw [e]
  push_cast
  ring

/-- C109: real and imaginary part of the density response of interacting electrons are transforms of
Kramers and Kronig of each other, at every energy. -/
theorem chiee_kk {k T : ℝ} (hk : 0 < k) (hT : 0 < T) (mu : ℝ) (unsave : Bool) {G : ℝ} (hG : G ≤ 1)
    (E : ℝ) :
    Tendsto (fun d : ℝ => 1 / π * ∫ x : ℝ, (chiee u k T mu G unsave x).im *
      ((x - E) / ((x - E) ^ 2 + d ^ 2))) (𝓝[>] 0) (𝓝 (chiee u k T mu G unsave E).re) ∧
    Tendsto (fun d : ℝ => -(1 / π * ∫ x : ℝ, (chiee u k T mu G unsave x).re *
      ((x - E) / ((x - E) ^ 2 + d ^ 2)))) (𝓝[>] 0) (𝓝 (chiee u k T mu G unsave E).im) := by
  have hm := u.me_pos
  have hh := u.hbar_pos
  have hp := pTh_pos u hT
  have hv := vee_pos u hk.ne'
  have hf : 0 < u.me / (u.hbar * k * pTh u T) := by positivity
  have hA := cst_pos u hk hT
  have hkap := kapRewrite_pos u hk hT
  have hc : 0 ≤ (1 - G) * cst u k T := mul_nonneg (by linarith) hA.le
  simp only [chiee_respB u hk hT]
  set f := u.me / (u.hbar * k * pTh u T) with hfd
  set q := -(cst u k T / vee u k) with hq
  set eta := mu / (u.kB * T)
  obtain ⟨R0, K, hR0, hK0, hK⟩ := respB_far eta hkap hc
  have him : ∀ z : ℂ, (z * f).im = z.im * f := fun z => by simp
  have h := kk (F := fun z : ℂ => (q : ℂ) * respB eta (kapRewrite u k T) ((1 - G) * cst u k T) (z * f))
    (R0 := R0 / f) (K := |q| * (K / f)) ?_ ?_ (by positivity) (by positivity) ?_ E
  · simpa only [Complex.ofReal_mul] using h
  · refine ContinuousOn.mul continuousOn_const ((respB_continuousOn eta hkap hc).comp (by fun_prop) ?_)
    intro z hz
    have hz' : 0 ≤ z.im := hz
    show 0 ≤ (z * f).im
    rw [him]
    positivity
  · intro z hz
    have h1 : DifferentiableAt ℂ (respB eta (kapRewrite u k T) ((1 - G) * cst u k T)) (z * f) :=
      respB_differentiableAt eta hkap hc (by rw [him]; positivity)
    exact (DifferentiableAt.comp z (f := fun z : ℂ => z * f) h1 (by fun_prop)).const_mul _
  · intro z hz hzR
    have hn : ‖z * (f : ℂ)‖ = ‖z‖ * f := by
      rw [norm_mul, Complex.norm_real, norm_eq_abs, abs_of_pos hf]
    have h1 := (hK (z * f) (by rw [him]; positivity) (by rw [hn]; exact (div_le_iff₀ hf).1 hzR)).2
    rw [hn] at h1
    rw [norm_mul, Complex.norm_real, norm_eq_abs, mul_div_assoc]
    refine (mul_le_mul_of_nonneg_left h1 (abs_nonneg q)).trans (le_of_eq ?_)
    rw [div_div, mul_comm f]

/-- C109: the static response of interacting electrons is the inverse moment of the imaginary part. -/
theorem chiee_static {k T : ℝ} (hk : 0 < k) (hT : 0 < T) (mu : ℝ) (unsave : Bool) {G : ℝ} (hG : G ≤ 1) :
    (chiee u k T mu G unsave 0).im = 0 ∧
    ∫ E in Ioi (0 : ℝ), (chiee u k T mu G unsave E).im / E = π / 2 * (chiee u k T mu G unsave 0).re := by
  have hm := u.me_pos
  have hh := u.hbar_pos
  have hp := pTh_pos u hT
  have hf : 0 < u.me / (u.hbar * k * pTh u T) := by positivity
  have hA := cst_pos u hk hT
  have hkap := kapRewrite_pos u hk hT
  have hc : 0 ≤ (1 - G) * cst u k T := mul_nonneg (by linarith) hA.le
  have h1 := respB_static (mu / (u.kB * T)) hkap hc
  simp only [chiee_respB u hk hT]
  set f := u.me / (u.hbar * k * pTh u T) with hfd
  set q := -(cst u k T / vee u k) with hq
  set F : ℝ → ℂ := fun x => respB (mu / (u.kB * T)) (kapRewrite u k T) ((1 - G) * cst u k T) (x : ℂ) with hF
  constructor
  · rw [Complex.im_ofReal_mul, zero_mul, respB_real_im _ hkap hc]
    have : wgt (mu / (u.kB * T)) (kapRewrite u k T) 0 = 0 := by
      have := wgt_neg (mu / (u.kB * T)) (kapRewrite u k T) 0
      rw [neg_zero] at this
      linarith
    rw [this]
    ring
  · have s1 := integral_comp_mul_right_Ioi (fun x => (F x).im / x) 0 hf
    rw [zero_mul] at s1
    have e1 : ∀ E : ℝ, ((q : ℂ) * F (E * f)).im / E = q * f * ((F (E * f)).im / (E * f)) := by
      intro E
      rw [Complex.im_ofReal_mul]
      field_simp
    have g1 : ∫ E in Ioi (0 : ℝ), ((q : ℂ) * F (E * f)).im / E = _ :=
      (integral_congr_ae (Eventually.of_forall e1)).trans (integral_const_mul _ _)
    rw [Complex.re_ofReal_mul, zero_mul, g1, s1, h1, smul_eq_mul, Complex.ofReal_zero]
    field_simp

/-- C109: the relations hold for the dielectric function itself. -/
theorem epsRPANoDamping_kk {k T : ℝ} (hk : 0 < k) (hT : 0 < T) (mu : ℝ) (unsave : Bool) (E : ℝ) :
    Tendsto (fun d : ℝ => 1 / π * ∫ x : ℝ, (epsRPANoDamping u k x mu T unsave).im *
      ((x - E) / ((x - E) ^ 2 + d ^ 2))) (𝓝[>] 0) (𝓝 ((epsRPANoDamping u k E mu T unsave).re - 1)) ∧
    Tendsto (fun d : ℝ => -(1 / π * ∫ x : ℝ, ((epsRPANoDamping u k x mu T unsave).re - 1) *
      ((x - E) / ((x - E) ^ 2 + d ^ 2)))) (𝓝[>] 0) (𝓝 (epsRPANoDamping u k E mu T unsave).im) := by
  have hv := vee_pos u hk.ne'
  obtain ⟨h1, h2⟩ := chiee_kk u hk hT mu unsave (le_refl (1 : ℝ)) E
  have hre : ∀ x : ℝ, (chiee u k T mu 1 unsave x).re = -(1 / vee u k) *
      ((epsRPANoDamping u k x mu T unsave).re - 1) := by
    intro x
    unfold chiee xiLfc noninteractingFromEps
    rw [Complex.ofReal_one, sub_self, mul_zero, zero_mul, sub_zero, div_one, Complex.div_ofReal_re]
    simp
    ring
  have him : ∀ x : ℝ, (chiee u k T mu 1 unsave x).im = -(1 / vee u k) *
      (epsRPANoDamping u k x mu T unsave).im := by
    intro x
    unfold chiee xiLfc noninteractingFromEps
    rw [Complex.ofReal_one, sub_self, mul_zero, zero_mul, sub_zero, div_one, Complex.div_ofReal_im]
    simp
    ring
  simp only [hre, him, mul_assoc, integral_const_mul] at h1 h2
  have h1' := h1.const_mul (-vee u k)
  have h2' := h2.const_mul (-vee u k)
  have e : -vee u k * (-(1 / vee u k)) = 1 := by field_simp
  constructor
  · rw [← mul_assoc, e, one_mul] at h1'
    refine h1'.congr fun d => ?_
    field_simp
  · rw [← mul_assoc, e, one_mul] at h2'
    refine h2'.congr fun d => ?_
    field_simp

theorem bose_abs_le {a x : ℝ} (ha : 0 < a) : |x / (1 - exp (x / a))| ≤ a + |x| := by
  rcases lt_trichotomy x 0 with h | h | h
  · have h1 : exp (x / a) < 1 := by
      rw [exp_lt_one_iff]
      exact div_neg_of_neg_of_pos h ha
    have h2 := add_one_le_exp (-(x / a))
    have h3 : exp (x / a) * exp (-(x / a)) = 1 := by rw [← exp_add]; simp
    have h4 := exp_pos (x / a)
    rw [abs_div, abs_of_neg h, abs_of_pos (by linarith), div_le_iff₀ (by linarith)]
    have h5 : exp (x / a) * (a - x) ≤ a := by
      have : a - x = a * (-(x / a) + 1) := by field_simp; ring
      rw [this]
      have h6 := mul_le_mul_of_nonneg_left h2 h4.le
      rw [h3] at h6
      nlinarith
    nlinarith
  · subst h
    simp
    exact ha.le
  · have h2 := add_one_le_exp (x / a)
    have h1 : 0 < x / a := div_pos h ha
    rw [abs_div, abs_of_pos h, abs_of_neg (by linarith), div_le_iff₀ (by linarith)]
    have : a * (x / a) = x := by field_simp
    nlinarith

theorem loss_respB {k T : ℝ} (hk : 0 < k) (hT : 0 < T) (mu G E : ℝ) (unsave : Bool) :
    loss u k T mu G E unsave = cst u k T * (respB (mu / (u.kB * T))
      (kapRewrite u k T) ((1 - G) * cst u k T) ((E * (u.me / (u.hbar * k * pTh u T)) : ℝ) : ℂ)).im := by
  unfold loss
  rw [eps_polarB u hk hT]
  unfold respB
  generalize polarB _ _ _ = p
  have e : (1 : ℂ) + (1 - G) * (1 + (cst u k T : ℂ) * p - 1) =
      1 + (((1 - G) * cst u k T : ℝ) : ℂ) * p := by
    push_cast
    ring
  rw [e, add_sub_cancel_left, mul_div_assoc, Complex.im_ofReal_mul]

theorem first_moment_integrable {k T : ℝ} (hk : 0 < k) (hT : 0 < T) (n mu : ℝ) (unsave : Bool) {G : ℝ}
    (hG : G ≤ 1) : Integrable fun E => E * s0eeRPANoDamping u k T n E mu G unsave := by
  have hm := u.me_pos
  have hh := u.hbar_pos
  have hB := u.kB_pos
  have hp := pTh_pos u hT
  have hf : 0 < u.me / (u.hbar * k * pTh u T) := by positivity
  have hA := cst_pos u hk hT
  have hkap := kapRewrite_pos u hk hT
  have hc : 0 ≤ (1 - G) * cst u k T := mul_nonneg (by linarith) hA.le
  have ha : 0 < u.kB * T := by positivity
  obtain ⟨B, hB0, hBd⟩ := respB_im_le (mu / (u.kB * T)) hkap hc
  have hcr := Complex.continuous_im.comp (respB_real_continuous (mu / (u.kB * T)) hkap hc)
  simp only [s0ee_loss u hk hT, loss_respB u hk hT]
  set f := u.me / (u.hbar * k * pTh u T) with hfd
  set q := u.hbar / (π * n * vee u k) with hq
  set F : ℝ → ℝ := fun x => (respB (mu / (u.kB * T)) (kapRewrite u k T) ((1 - G) * cst u k T) (x : ℂ)).im
    with hF
  have e : ∀ E, E * -(q / (1 - exp (E / (u.kB * T))) * (cst u k T * F (E * f))) =
      -(q * cst u k T) * (E / (1 - exp (E / (u.kB * T))) * F (E * f)) := by
    intro E
    ring
  show Integrable fun E => E * -(q / (1 - exp (E / (u.kB * T))) * (cst u k T * F (E * f)))
  simp only [e]
  refine Integrable.const_mul ?_ _
  have i1 := (((wgt_integrable (mu / (u.kB * T)) (kapRewrite u k T)).norm.comp_mul_right' hf.ne').const_mul
    (u.kB * T * B))
  have i2 := (((wgt_id_integrable' (mu / (u.kB * T)) (kapRewrite u k T)).comp_mul_right' hf.ne').const_mul
    (B / f))
  refine (i1.add i2).mono' ?_ (Eventually.of_forall fun E => ?_)
  · have m1 : Measurable fun E : ℝ => E / (1 - exp (E / (u.kB * T))) := by fun_prop
    have m2 : Measurable fun E : ℝ => F (E * f) := hcr.measurable.comp (by fun_prop)
    exact (m1.mul m2).aestronglyMeasurable
  · have h1 := bose_abs_le (x := E) ha
    have h2 := hBd (E * f)
    simp only [Pi.add_apply]
    rw [norm_mul, norm_eq_abs, norm_eq_abs, norm_eq_abs, abs_mul E f, abs_of_pos hf]
    set w := |wgt (mu / (u.kB * T)) (kapRewrite u k T) (E * f)|
    calc _ ≤ (u.kB * T + |E|) * (B * w) := mul_le_mul h1 h2 (abs_nonneg _) (by positivity)
      _ = _ := by field_simp

/-- C109: the f-sum rule over all energies. -/
theorem s0eeRPANoDamping_fsum_line {k T : ℝ} (hk : 0 < k) (hT : 0 < T) (mu : ℝ) (unsave : Bool) {G : ℝ}
    (hG : G ≤ 1) :
    Integrable (fun E => E * s0eeRPANoDamping u k T (gasDensity u T mu) E mu G unsave) ∧
    ∫ E : ℝ, E * s0eeRPANoDamping u k T (gasDensity u T mu) E mu G unsave =
      -(u.hbar * (u.hbar ^ 2 * k ^ 2 / (2 * u.me))) := by
  have hi := first_moment_integrable u hk hT (gasDensity u T mu) mu unsave hG
  refine ⟨hi, ?_⟩
  rw [← s0eeRPANoDamping_fsum_lfc u hk hT mu unsave hG, integral_add hi.integrableOn hi.comp_neg.integrableOn,
    integral_comp_neg_Ioi (c := (0 : ℝ)) (fun E => E * s0eeRPANoDamping u k T (gasDensity u T mu) E mu G unsave),
    neg_zero, add_comm]
  exact (intervalIntegral.integral_Iic_add_Ioi (b := (0 : ℝ)) hi.integrableOn hi.integrableOn).symm

/-- The response is not trivial: it takes up energy. -/
theorem chiee_im_neg {k T : ℝ} (hk : 0 < k) (hT : 0 < T) (mu : ℝ) (unsave : Bool) {G : ℝ} (hG : G ≤ 1)
    {E : ℝ} (hE : 0 < E) : (chiee u k T mu G unsave E).im < 0 := by
  have hm := u.me_pos
  have hh := u.hbar_pos
  have hp := pTh_pos u hT
  have hv := vee_pos u hk.ne'
  have hf : 0 < u.me / (u.hbar * k * pTh u T) := by positivity
  have hA := cst_pos u hk hT
  have hkap := kapRewrite_pos u hk hT
  have hc : 0 ≤ (1 - G) * cst u k T := mul_nonneg (by linarith) hA.le
  rw [chiee_respB u hk hT, Complex.im_ofReal_mul, respB_real_im _ hkap hc]
  have hw := wgt_pos (eta := mu / (u.kB * T)) hkap (mul_pos hE hf)
  have hne := denB_ne (mu / (u.kB * T)) hkap hc
    (z := ((E * (u.me / (u.hbar * k * pTh u T)) : ℝ) : ℂ)) (Complex.ofReal_im _).ge
  have hn := norm_pos_iff.2 (inv_ne_zero hne)
  have := pi_pos
  rw [neg_mul, neg_lt_zero]
  positivity

theorem gauss_shift_tendsto (c : ℝ) : Tendsto (fun x : ℝ => exp (-((x - c) ^ 2 / 2))) atTop (𝓝 0) := by
  have h1 : Tendsto (fun x : ℝ => (x - c) ^ 2 / 2) atTop atTop := by
    refine Tendsto.atTop_div_const two_pos ((tendsto_pow_atTop two_ne_zero).comp ?_)
    exact tendsto_atTop_add_const_right _ (-c) tendsto_id
  exact tendsto_exp_neg_atTop_nhds_zero.comp h1

theorem wgt2_tendsto (eta kap : ℝ) : Tendsto (wgt2 eta kap) atTop (𝓝 0) := by
  have h := ((gauss_shift_tendsto kap).add (gauss_shift_tendsto (-kap))).const_mul
    (exp eta * (4 + 2 * kap ^ 2))
  rw [add_zero, mul_zero] at h
  refine squeeze_zero_norm (fun x => ?_) h
  rw [norm_eq_abs]
  refine (wgt2_le eta kap x).trans (le_of_eq ?_)
  rw [sub_neg_eq_add]

/-- C109: at high energies the dielectric function is that of a plasma without correlations. -/
theorem epsRPA_highC {k T : ℝ} (hk : 0 < k) (hT : 0 < T) (mu : ℝ) (unsave : Bool) :
    Tendsto (fun E : ℝ => (E : ℂ) ^ 2 * (epsRPANoDamping u k E mu T unsave - 1)) atTop
      (𝓝 ((-(u.hbar ^ 2 * (gasDensity u T mu * u.e ^ 2 / (u.me * u.eps0))) : ℝ) : ℂ)) := by
  have hm := u.me_pos
  have hh := u.hbar_pos
  have hp := pTh_pos u hT
  have hf : 0 < u.me / (u.hbar * k * pTh u T) := by positivity
  have hre := epsRPA_high u hk hT mu unsave
  have him : Tendsto (fun E : ℝ => E ^ 2 * (epsRPANoDamping u k E mu T unsave).im) atTop (𝓝 0) := by
    set f := u.me / (u.hbar * k * pTh u T) with hfd
    have h := ((wgt2_tendsto (mu / (u.kB * T)) (kapRewrite u k T)).comp
      (tendsto_id.atTop_mul_const hf)).const_mul (cst u k T * π / f ^ 2)
    rw [mul_zero] at h
    refine h.congr fun E => ?_
    rw [eps_polarB u hk hT, Complex.add_im, Complex.one_im, Complex.im_ofReal_mul, polarB_real_im, ← hfd]
    simp only [Function.comp_apply, id, wgt2]
    field_simp
    ring
  have h2 := ((Complex.continuous_ofReal.tendsto _).comp hre).add
    (((Complex.continuous_ofReal.tendsto _).comp him).mul_const Complex.I)
  rw [Complex.ofReal_zero, zero_mul, add_zero] at h2
  refine h2.congr fun E => ?_
  apply Complex.ext
  · simp [← Complex.ofReal_pow]
  · simp [← Complex.ofReal_pow]

/-- C109: the density response of interacting electrons at high energies does not depend on the
interaction, and is that of free particles. -/
theorem chiee_high {k T : ℝ} (hk : 0 < k) (hT : 0 < T) (mu : ℝ) (unsave : Bool) (G : ℝ) :
    Tendsto (fun E : ℝ => (E : ℂ) ^ 2 * chiee u k T mu G unsave E) atTop
      (𝓝 ((gasDensity u T mu * (u.hbar ^ 2 * k ^ 2 / u.me) : ℝ) : ℂ)) := by
  have hm := u.me_pos
  have hh := u.hbar_pos
  have he := u.e_pos
  have h0 := u.eps0_pos
  have hv := vee_pos u hk.ne'
  have hvc : (vee u k : ℂ) ≠ 0 := Complex.ofReal_ne_zero.2 hv.ne'
  have h1 := epsRPA_highC u hk hT mu unsave
  have h2 : Tendsto (fun E : ℝ => epsRPANoDamping u k E mu T unsave - 1) atTop (𝓝 0) := by
    have h3 : Tendsto (fun E : ℝ => (((E ^ 2)⁻¹ : ℝ) : ℂ)) atTop (𝓝 0) := by
      have := (Complex.continuous_ofReal.tendsto 0).comp
        ((tendsto_inv_atTop_zero (𝕜 := ℝ)).comp (tendsto_pow_atTop (α := ℝ) two_ne_zero))
      rwa [Complex.ofReal_zero] at this
    have h4 := h3.mul h1
    rw [zero_mul] at h4
    refine h4.congr' ?_
    filter_upwards [eventually_gt_atTop 0] with E hE
    have : (E : ℂ) ≠ 0 := Complex.ofReal_ne_zero.2 hE.ne'
    push_cast
    field_simp
  have h5 : Tendsto (fun E : ℝ => 1 + (1 - (G : ℂ)) * (epsRPANoDamping u k E mu T unsave - 1)) atTop
      (𝓝 1) := by
    have := (h2.const_mul (1 - (G : ℂ))).const_add 1
    rwa [mul_zero, add_zero] at this
  have h6 := ((h1.div h5 one_ne_zero).neg).div_const (vee u k : ℂ)
  have e : -(((-(u.hbar ^ 2 * (gasDensity u T mu * u.e ^ 2 / (u.me * u.eps0))) : ℝ) : ℂ) / 1) /
      (vee u k : ℂ) = ((gasDensity u T mu * (u.hbar ^ 2 * k ^ 2 / u.me) : ℝ) : ℂ) := by
    rw [div_one, ← Complex.ofReal_neg, ← Complex.ofReal_div, vee_eq]
    congr 1
    field_simp
  rw [e] at h6
  refine h6.congr fun E => ?_
  have h := xiLfc_eps u k hk (epsRPANoDamping u k E mu T unsave) G
  unfold chiee
  rw [eq_div_of_mul_eq hvc h]
  simp only [Pi.div_apply]
  ring

-- The hypotheses are met with and without a local field correction, and the values are not zero.
example : (chiee u 1 1 0 0 true 1).im < 0 ∧ (chiee u 1 1 0 (1 / 2) false 1).im < 0 :=
  ⟨chiee_im_neg u one_pos one_pos 0 true (by norm_num) one_pos,
    chiee_im_neg u one_pos one_pos 0 false (by norm_num) one_pos⟩

example : ∫ E : ℝ, E * s0eeRPANoDamping u 1 1 (gasDensity u 1 0) E 0 (1 / 2) false < 0 := by
  rw [(s0eeRPANoDamping_fsum_line u one_pos one_pos 0 false (by norm_num)).2]
  have := u.me_pos
  have := u.hbar_pos
  have : 0 < u.hbar * (u.hbar ^ 2 * 1 ^ 2 / (2 * u.me)) := by positivity
  linarith

end Verif.Resp
