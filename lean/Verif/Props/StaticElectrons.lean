/-
Property C110: the integral of the structure factor of the electrons over all energies.
-/
import Verif.Props.FSumInteract
import Verif.Props.ScreeningLength
import Mathlib.Analysis.SpecialFunctions.Trigonometric.DerivHyp

set_option autoImplicit false

namespace Verif.Resp

open Real Verif.Expt MeasureTheory Set Filter Topology Verif.Lindhard

variable (u : Consts)

/-! ### The hyperbolic cotangent -/

theorem sinh_le_mul_cosh {t : ℝ} (ht : 0 ≤ t) : sinh t ≤ t * cosh t := by
  have hm : MonotoneOn (fun t : ℝ => t * cosh t - sinh t) (Ici 0) := by
    refine monotoneOn_of_hasDerivWithinAt_nonneg (f' := fun t => t * sinh t) (convex_Ici 0) (by fun_prop)
      (fun t _ => ?_) fun t ht => ?_
    · have h := (((hasDerivAt_id t).mul (hasDerivAt_cosh t)).sub (hasDerivAt_sinh t)).hasDerivWithinAt
        (s := interior (Ici 0))
      have e : 1 * cosh t + id t * sinh t - cosh t = t * sinh t := by simp
      rw [e] at h
      exact h
    · rw [interior_Ici] at ht
      have h1 : 0 < t := ht
      have := sinh_pos_iff.2 h1
      positivity
  have := hm (self_mem_Ici) (show t ∈ Ici (0 : ℝ) from ht) ht
  simp at this
  linarith

theorem mul_cosh_le {t : ℝ} (ht : 0 ≤ t) : t * cosh t ≤ (1 + t ^ 2 / 3) * sinh t := by
  have hm : MonotoneOn (fun t : ℝ => (1 + t ^ 2 / 3) * sinh t - t * cosh t) (Ici 0) := by
    refine monotoneOn_of_hasDerivWithinAt_nonneg (f' := fun t => t / 3 * (t * cosh t - sinh t))
      (convex_Ici 0) (by fun_prop) (fun t _ => ?_) fun t ht => ?_
    · have h0 : HasDerivAt (fun t : ℝ => 1 + t ^ 2 / 3) (2 * t / 3) t := by
        have := (((hasDerivAt_id t).pow 2).div_const 3).const_add 1
        simpa using this
      have h := ((h0.mul (hasDerivAt_sinh t)).sub
        ((hasDerivAt_id t).mul (hasDerivAt_cosh t))).hasDerivWithinAt (s := interior (Ici 0))
      have e : 2 * t / 3 * sinh t + (1 + t ^ 2 / 3) * cosh t - (1 * cosh t + id t * sinh t) =
          t / 3 * (t * cosh t - sinh t) := by
        simp only [id]
        ring
      rw [e] at h
      exact h
    · rw [interior_Ici] at ht
      have h1 : 0 < t := ht
      have := sinh_le_mul_cosh h1.le
      exact mul_nonneg (by positivity) (by linarith)
  have := hm (self_mem_Ici) (show t ∈ Ici (0 : ℝ) from ht) ht
  simp at this
  linarith

theorem coth_bounds {x : ℝ} (hx : 0 < x) :
    2 / x ≤ 1 / (exp x - 1) + 1 / (1 - exp (-x)) ∧
      1 / (exp x - 1) + 1 / (1 - exp (-x)) ≤ 2 / x + x / 6 := by
  have h1 := sinh_le_mul_cosh (t := x / 2) (by positivity)
  have h2 := mul_cosh_le (t := x / 2) (by positivity)
  have hs : 0 < sinh (x / 2) := sinh_pos_iff.2 (by positivity)
  have he : 1 < exp x := one_lt_exp_iff.2 hx
  have hq : exp x = exp (x / 2) * exp (x / 2) := by rw [← exp_add]; congr 1; ring
  have e : 1 / (exp x - 1) + 1 / (1 - exp (-x)) = cosh (x / 2) / sinh (x / 2) := by
    have hne : exp x - 1 ≠ 0 := by linarith
    have hp := exp_pos (x / 2)
    rw [exp_neg, cosh_eq, sinh_eq, exp_neg]
    rw [hq] at hne ⊢
    generalize exp (x / 2) = w at *
    have h3 : w - w⁻¹ = (w * w - 1) / w := by field_simp
    have h4 : 1 - (w * w)⁻¹ = (w * w - 1) / (w * w) := by field_simp
    rw [h3, h4]
    field_simp
    ring
  rw [e]
  constructor
  · rw [div_le_div_iff₀ hx hs]
    linarith
  · rw [div_le_iff₀ hs]
    have : (2 / x + x / 6) * sinh (x / 2) = 2 / x * ((1 + (x / 2) ^ 2 / 3) * sinh (x / 2)) := by
      field_simp
      ring
    rw [this]
    have h5 := mul_le_mul_of_nonneg_left h2 (by positivity : 0 ≤ 2 / x)
    have h6 : 2 / x * (x / 2 * cosh (x / 2)) = cosh (x / 2) := by field_simp
    linarith

/-! ### Moments of the loss function -/

theorem loss_integrable {k T : ℝ} (hk : 0 < k) (hT : 0 < T) (mu : ℝ) (unsave : Bool) {G : ℝ} (hG : G ≤ 1) :
    Integrable (fun E => loss u k T mu G E unsave) ∧
    Integrable (fun E => loss u k T mu G E unsave / E) ∧
    Integrable (fun E => E * loss u k T mu G E unsave) := by
  have hm := u.me_pos
  have hh := u.hbar_pos
  have hp := pTh_pos u hT
  have hf : 0 < u.me / (u.hbar * k * pTh u T) := by positivity
  have hA := cst_pos u hk hT
  have hkap := kapRewrite_pos u hk hT
  have hc : 0 ≤ (1 - G) * cst u k T := mul_nonneg (by linarith) hA.le
  obtain ⟨B, hB0, hBd⟩ := respB_im_le (mu / (u.kB * T)) hkap hc
  have hcr := Complex.continuous_im.comp (respB_real_continuous (mu / (u.kB * T)) hkap hc)
  have i0 : Integrable fun x : ℝ => (respB (mu / (u.kB * T)) (kapRewrite u k T) ((1 - G) * cst u k T) x).im :=
    ((wgt_integrable (mu / (u.kB * T)) (kapRewrite u k T)).norm.const_mul B).mono'
      hcr.aestronglyMeasurable (Eventually.of_forall fun x => hBd x)
  have i1 := respB_div_integrable (mu / (u.kB * T)) hkap hc
  have i2 : Integrable fun x : ℝ =>
      x * (respB (mu / (u.kB * T)) (kapRewrite u k T) ((1 - G) * cst u k T) x).im := by
    refine ((wgt_id_integrable' (mu / (u.kB * T)) (kapRewrite u k T)).const_mul B).mono'
      (continuous_id.mul hcr).aestronglyMeasurable (Eventually.of_forall fun x => ?_)
    rw [norm_mul, norm_eq_abs, norm_eq_abs]
    have := mul_le_mul_of_nonneg_left (hBd x) (abs_nonneg x)
    linarith
  simp only [loss_respB u hk hT]
  set f := u.me / (u.hbar * k * pTh u T) with hfd
  refine ⟨(i0.comp_mul_right' hf.ne').const_mul _, ?_, ?_⟩
  · refine ((i1.comp_mul_right' hf.ne').const_mul (cst u k T * f)).congr (Eventually.of_forall fun E => ?_)
    simp only
    field_simp
  · refine ((i2.comp_mul_right' hf.ne').const_mul (cst u k T / f)).congr (Eventually.of_forall fun E => ?_)
    simp only
    field_simp

theorem loss_chiee {k T : ℝ} (hk : 0 < k) (mu : ℝ) (unsave : Bool) (G E : ℝ) :
    loss u k T mu G E unsave = -(vee u k) * (chiee u k T mu G unsave E).im := by
  have h := congrArg Complex.im (xiLfc_eps u k hk (epsRPANoDamping u k E mu T unsave) G)
  rw [Complex.im_mul_ofReal, Complex.neg_im] at h
  unfold loss chiee
  linarith

theorem loss_pos {k T : ℝ} (hk : 0 < k) (hT : 0 < T) (mu : ℝ) (unsave : Bool) {G : ℝ} (hG : G ≤ 1)
    {E : ℝ} (hE : 0 < E) : 0 < loss u k T mu G E unsave := by
  rw [loss_chiee u hk]
  have := vee_pos u hk.ne'
  have := chiee_im_neg u hk hT mu unsave hG hE
  nlinarith

theorem s0ee_integrable {k T : ℝ} (hk : 0 < k) (hT : 0 < T) (n mu : ℝ) (unsave : Bool) {G : ℝ}
    (hG : G ≤ 1) : Integrable fun E => s0eeRPANoDamping u k T n E mu G unsave := by
  have hB := u.kB_pos
  have ha : 0 < u.kB * T := by positivity
  obtain ⟨i0, i1, _⟩ := loss_integrable u hk hT mu unsave hG
  simp only [s0ee_loss u hk hT]
  have e : ∀ E, -(u.hbar / (π * n * vee u k) / (1 - exp (E / (u.kB * T))) * loss u k T mu G E unsave) =
      -(u.hbar / (π * n * vee u k)) * (1 / (1 - exp (E / (u.kB * T))) * loss u k T mu G E unsave) := by
    intro E
    ring
  simp only [e]
  refine Integrable.const_mul ?_ _
  refine ((i1.norm.const_mul (u.kB * T)).add i0.norm).mono' ?_ (Eventually.of_forall fun E => ?_)
  · have m1 : Measurable fun E : ℝ => 1 / (1 - exp (E / (u.kB * T))) := by fun_prop
    exact m1.aestronglyMeasurable.mul i0.aestronglyMeasurable
  · simp only [Pi.add_apply]
    rcases eq_or_ne E 0 with h | h
    · subst h
      simp
    · have h1 := bose_abs_le (x := E) ha
      have hE : 0 < |E| := abs_pos.2 h
      rw [norm_mul]
      simp only [norm_eq_abs]
      rw [abs_div (loss u k T mu G E unsave) E]
      have h2 : |1 / (1 - exp (E / (u.kB * T)))| ≤ (u.kB * T + |E|) / |E| := by
        rw [le_div_iff₀ hE, ← abs_mul]
        refine le_trans (le_of_eq ?_) h1
        congr 1
        ring
      calc _ ≤ (u.kB * T + |E|) / |E| * |loss u k T mu G E unsave| :=
            mul_le_mul_of_nonneg_right h2 (abs_nonneg _)
        _ = u.kB * T * (|loss u k T mu G E unsave| / |E|) + |loss u k T mu G E unsave| := by
            field_simp

theorem loss_moments {k T : ℝ} (hk : 0 < k) (hT : 0 < T) (mu : ℝ) (unsave : Bool) {G : ℝ} (hG : G ≤ 1) :
    ∫ E in Ioi (0 : ℝ), loss u k T mu G E unsave / E =
        π / 2 * (-(vee u k) * (chiee u k T mu G unsave 0).re) ∧
    ∫ E in Ioi (0 : ℝ), E * loss u k T mu G E unsave =
        π / 2 * (u.hbar ^ 2 * (gasDensity u T mu * u.e ^ 2 / (u.me * u.eps0))) := by
  constructor
  · have h := (chiee_static u hk hT mu unsave hG).2
    have e : ∀ E, loss u k T mu G E unsave / E = -(vee u k) * ((chiee u k T mu G unsave E).im / E) := by
      intro E
      rw [loss_chiee u hk]
      ring
    simp only [e]
    rw [integral_const_mul, h]
    ring
  · rw [← imagRPA_fsum u hk hT mu unsave, ← response_fsum u hk hT mu unsave hG]
    rfl

/-- C110: the structure factor of the electrons, integrated over all energies, lies between the
classical value that belongs to the static response, and this value plus a sixth of the ratio of recoil
energy and thermal energy. -/
theorem s0ee_static_bounds {k T : ℝ} (hk : 0 < k) (hT : 0 < T) (mu : ℝ) (unsave : Bool) {G : ℝ}
    (hG : G ≤ 1) :
    u.kB * T * -(chiee u k T mu G unsave 0).re / gasDensity u T mu ≤
      1 / u.hbar * ∫ E : ℝ, s0eeRPANoDamping u k T (gasDensity u T mu) E mu G unsave ∧
    1 / u.hbar * ∫ E : ℝ, s0eeRPANoDamping u k T (gasDensity u T mu) E mu G unsave ≤
      u.kB * T * -(chiee u k T mu G unsave 0).re / gasDensity u T mu +
        1 / 6 * (u.hbar ^ 2 * k ^ 2 / (2 * u.me)) / (u.kB * T) := by
  have hm := u.me_pos
  have hh := u.hbar_pos
  have he := u.e_pos
  have h0 := u.eps0_pos
  have hB := u.kB_pos
  have hpi := pi_pos
  have ha : 0 < u.kB * T := by positivity
  have hn := gasDensity_pos u hT mu
  have hv := vee_pos u hk.ne'
  have hi := s0ee_integrable u hk hT (gasDensity u T mu) mu unsave hG
  obtain ⟨i0, i1, i2⟩ := loss_integrable u hk hT mu unsave hG
  obtain ⟨m1, m2⟩ := loss_moments u hk hT mu unsave hG
  set n := gasDensity u T mu with hnd
  set q := u.hbar / (π * n * vee u k) with hq
  have hq0 : 0 < q := by positivity
  set S : ℝ → ℝ := fun E => s0eeRPANoDamping u k T n E mu G unsave with hS
  have hsplit : ∫ E : ℝ, S E = ∫ E in Ioi (0 : ℝ), (S E + S (-E)) := by
    rw [integral_add hi.integrableOn hi.comp_neg.integrableOn,
      integral_comp_neg_Ioi (c := (0 : ℝ)) S, neg_zero, add_comm]
    exact (intervalIntegral.integral_Iic_add_Ioi (b := (0 : ℝ)) hi.integrableOn hi.integrableOn).symm
  have hsum : ∀ E ∈ Ioi (0 : ℝ), S E + S (-E) = q * loss u k T mu G E unsave *
      (1 / (exp (E / (u.kB * T)) - 1) + 1 / (1 - exp (-(E / (u.kB * T))))) := by
    intro E hE
    have hx : 0 < E / (u.kB * T) := div_pos hE ha
    have h1 : 1 < exp (E / (u.kB * T)) := one_lt_exp_iff.2 hx
    simp only [hS]
    rw [s0ee_loss u hk hT, s0ee_loss u hk hT, loss_neg u hk hT, neg_div, ← hq,
      ← neg_sub (exp (E / (u.kB * T))) 1, div_neg]
    ring
  have hbd := fun E (hE : E ∈ Ioi (0 : ℝ)) => coth_bounds (x := E / (u.kB * T)) (div_pos hE ha)
  have hii : IntegrableOn (fun E => S E + S (-E)) (Ioi 0) := (hi.add hi.comp_neg).integrableOn
  have L : ∫ E in Ioi (0 : ℝ), q * (2 * (u.kB * T)) * (loss u k T mu G E unsave / E) ≤
      ∫ E in Ioi (0 : ℝ), (S E + S (-E)) := by
    refine setIntegral_mono_on (i1.integrableOn.const_mul _) hii measurableSet_Ioi fun E hE => ?_
    rw [hsum E hE]
    have hE' : 0 < E := hE
    have hl := loss_pos u hk hT mu unsave hG hE'
    have := mul_le_mul_of_nonneg_left (hbd E hE).1 (mul_pos hq0 hl).le
    refine le_trans (le_of_eq ?_) this
    field_simp
  have U : ∫ E in Ioi (0 : ℝ), (S E + S (-E)) ≤
      ∫ E in Ioi (0 : ℝ), (q * (2 * (u.kB * T)) * (loss u k T mu G E unsave / E) +
        q / (6 * (u.kB * T)) * (E * loss u k T mu G E unsave)) := by
    refine setIntegral_mono_on hii ((i1.integrableOn.const_mul _).add (i2.integrableOn.const_mul _))
      measurableSet_Ioi fun E hE => ?_
    rw [hsum E hE]
    have hE' : 0 < E := hE
    have hl := loss_pos u hk hT mu unsave hG hE'
    have := mul_le_mul_of_nonneg_left (hbd E hE).2 (mul_pos hq0 hl).le
    refine this.trans (le_of_eq ?_)
    field_simp
  rw [integral_add (i1.integrableOn.const_mul _) (i2.integrableOn.const_mul _), integral_const_mul,
    integral_const_mul, m1, m2] at U
  rw [integral_const_mul, m1] at L
  rw [hsplit]
  have e1 : u.kB * T * -(chiee u k T mu G unsave 0).re / n =
      1 / u.hbar * (q * (2 * (u.kB * T)) * (π / 2 * (-(vee u k) * (chiee u k T mu G unsave 0).re))) := by
    rw [hq]
    field_simp
  have e2 : 1 / 6 * (u.hbar ^ 2 * k ^ 2 / (2 * u.me)) / (u.kB * T) =
      1 / u.hbar * (q / (6 * (u.kB * T)) * (π / 2 * (u.hbar ^ 2 * (n * u.e ^ 2 / (u.me * u.eps0))))) := by
    rw [hq, vee_eq]
    field_simp
  have hh' : 0 ≤ 1 / u.hbar := by positivity
  rw [e1, e2, ← mul_add]
  exact ⟨mul_le_mul_of_nonneg_left L hh', mul_le_mul_of_nonneg_left U hh'⟩

theorem chiee_zero {k T : ℝ} (hk : 0 < k) (hT : 0 < T) (mu : ℝ) (unsave : Bool) (G : ℝ) :
    ∃ x : ℝ, 0 < x ∧ epsRPANoDamping u k 0 mu T unsave = ((1 + x : ℝ) : ℂ) ∧
      -(chiee u k T mu G unsave 0).re = x / (1 + (1 - G) * x) / vee u k := by
  have hv := vee_pos u hk.ne'
  have hvc : (vee u k : ℂ) ≠ 0 := Complex.ofReal_ne_zero.2 hv.ne'
  have hus : epsRPANoDamping u k 0 mu T unsave = epsRPANoDamping u k 0 mu T true := by
    cases unsave
    · exact (epsRPANoDamping_unsave u hk hT 0 mu).symm
    · rfl
  have h1 := cst_pos u hk hT
  have h2 := mass_pos (mu / (u.kB * T)) (kapRewrite_pos u hk hT)
  refine ⟨cst u k T * (2 * mass (mu / (u.kB * T)) (kapRewrite u k T)), by positivity, ?_, ?_⟩
  · rw [hus, epsRPANoDamping_static u hk hT]
  · have h := xiLfc_eps u k hk (epsRPANoDamping u k 0 mu T unsave) G
    unfold chiee
    rw [eq_div_of_mul_eq hvc h, hus, epsRPANoDamping_static u hk hT]
    generalize cst u k T * (2 * mass (mu / (u.kB * T)) (kapRewrite u k T)) = x
    have e : -((((1 + x : ℝ) : ℂ) - 1) / (1 + (1 - (G : ℂ)) * (((1 + x : ℝ) : ℂ) - 1))) / (vee u k : ℂ) =
        ((-(x / (1 + (1 - G) * x)) / vee u k : ℝ) : ℂ) := by
      push_cast
      rw [add_sub_cancel_left]
    rw [e, Complex.ofReal_re]
    ring

/-- C110: interacting electrons screen each other: the integral of their structure factor is at most
the square of wave number times Debye length over one minus the local field correction, plus the
contribution of the recoil. -/
theorem s0ee_static_screened {k T : ℝ} (hk : 0 < k) (hT : 0 < T) (mu : ℝ) (unsave : Bool) {G : ℝ}
    (hG : G < 1) :
    1 / u.hbar * ∫ E : ℝ, s0eeRPANoDamping u k T (gasDensity u T mu) E mu G unsave ≤
      k ^ 2 * slDebye u T (gasDensity u T mu) ^ 2 / (1 - G) +
        1 / 6 * (u.hbar ^ 2 * k ^ 2 / (2 * u.me)) / (u.kB * T) := by
  have he := u.e_pos
  have h0 := u.eps0_pos
  have hB := u.kB_pos
  have hn := gasDensity_pos u hT mu
  refine (s0ee_static_bounds u hk hT mu unsave hG.le).2.trans ?_
  obtain ⟨x, hx, _, hc⟩ := chiee_zero u hk hT mu unsave G
  rw [hc, slDebye_sq u hT.le hn.le, vee_eq]
  have h1 : 0 < 1 - G := by linarith
  have h2 : x / (1 + (1 - G) * x) ≤ 1 / (1 - G) := by
    rw [div_le_div_iff₀ (by positivity) h1]
    nlinarith
  refine add_le_add ?_ le_rfl
  have e1 : k ^ 2 * (u.eps0 * u.kB * T / (gasDensity u T mu * u.e ^ 2)) / (1 - G) =
      u.kB * T * (1 / (1 - G) / (u.e ^ 2 / u.eps0 / k ^ 2)) / gasDensity u T mu := by
    field_simp
  rw [e1]
  gcongr

/-- C110: so it vanishes at long wave lengths. -/
theorem s0ee_static_longWave {T : ℝ} (hT : 0 < T) (mu : ℝ) (unsave : Bool) {G : ℝ} (hG : G < 1) :
    Tendsto (fun k : ℝ => 1 / u.hbar * ∫ E : ℝ, s0eeRPANoDamping u k T (gasDensity u T mu) E mu G unsave)
      (𝓝[>] 0) (𝓝 0) := by
  have hc : Continuous fun k : ℝ => k ^ 2 * slDebye u T (gasDensity u T mu) ^ 2 / (1 - G) +
      1 / 6 * (u.hbar ^ 2 * k ^ 2 / (2 * u.me)) / (u.kB * T) := by fun_prop
  have ht := (hc.tendsto 0).mono_left (nhdsWithin_le_nhds (s := Ioi (0 : ℝ)))
  have e : (0 : ℝ) ^ 2 * slDebye u T (gasDensity u T mu) ^ 2 / (1 - G) +
      1 / 6 * (u.hbar ^ 2 * 0 ^ 2 / (2 * u.me)) / (u.kB * T) = 0 := by ring
  rw [e] at ht
  refine tendsto_of_tendsto_of_tendsto_of_le_of_le' tendsto_const_nhds ht ?_ ?_
  · filter_upwards [self_mem_nhdsWithin] with k hk
    have hk' : 0 < k := hk
    have hB := u.kB_pos
    have hn := gasDensity_pos u hT mu
    have hv := vee_pos u hk'.ne'
    refine le_trans ?_ (s0ee_static_bounds u hk' hT mu unsave hG.le).1
    obtain ⟨x, hx, _, hc⟩ := chiee_zero u hk' hT mu unsave G
    have h1 : 0 < 1 - G := by linarith
    rw [hc]
    positivity
  · filter_upwards [self_mem_nhdsWithin] with k hk
    exact s0ee_static_screened u hk hT mu unsave hG

/-- The lower bound is not trivial. -/
theorem s0ee_static_pos {k T : ℝ} (hk : 0 < k) (hT : 0 < T) (mu : ℝ) (unsave : Bool) {G : ℝ} (hG : G ≤ 1) :
    0 < ∫ E : ℝ, s0eeRPANoDamping u k T (gasDensity u T mu) E mu G unsave := by
  have hB := u.kB_pos
  have hh := u.hbar_pos
  have hn := gasDensity_pos u hT mu
  have hv := vee_pos u hk.ne'
  have h := (s0ee_static_bounds u hk hT mu unsave hG).1
  obtain ⟨x, hx, _, hc⟩ := chiee_zero u hk hT mu unsave G
  have h1 : 0 ≤ 1 - G := by linarith
  have h2 : 0 < u.kB * T * -(chiee u k T mu G unsave 0).re / gasDensity u T mu := by
    rw [hc]
    have : 0 < 1 + (1 - G) * x := by positivity
    positivity
  have h3 := h2.trans_le h
  rw [one_div_mul_eq_div] at h3
  exact (div_pos_iff_of_pos_right hh).1 h3

-- The hypotheses are met with and without interaction.
example : 0 < ∫ E : ℝ, s0eeRPANoDamping u 1 1 (gasDensity u 1 0) E 0 1 true :=
  s0ee_static_pos u one_pos one_pos 0 true le_rfl

example : 0 < ∫ E : ℝ, s0eeRPANoDamping u 1 1 (gasDensity u 1 2) E 2 (-3) false :=
  s0ee_static_pos u one_pos one_pos 2 false (by norm_num)

end Verif.Resp
