/-
Sum rules of the dielectric function in random phase approximation: the first moment of the
imaginary part gives the density of the electrons, the inverse moment gives the static value.
-/
import Verif.Props.DampLimit
import Verif.Props.DandreaAll
import Verif.Lemmas.HighFreq

set_option autoImplicit false

namespace Verif.Resp

open Real Verif.Expt MeasureTheory Set Filter Topology Verif.Lindhard

variable (u : Consts)

theorem wgt_id_integrable (eta : ℝ) {kap : ℝ} (hk : 0 < kap) :
    IntegrableOn (fun x => wgt eta kap x * x) (Ioi 0) := by
  have hg : Integrable fun x : ℝ =>
      4 * kap * exp eta * (4 + 2 * kap ^ 2) * exp (-(1 / 2) * (x - kap) ^ 2) :=
    ((integrable_exp_neg_mul_sq (by norm_num : (0 : ℝ) < 1 / 2)).comp_sub_right kap).const_mul _
  refine Integrable.mono' hg.integrableOn ?_ ?_
  · exact ((wgt_continuous eta kap).mul continuous_id).aestronglyMeasurable
  · rw [ae_restrict_iff' measurableSet_Ioi]
    refine Eventually.of_forall fun x hx => ?_
    have hx' : 0 < x := hx
    have h0 := wgt_nonneg (eta := eta) hk.le hx'.le
    rw [norm_eq_abs, abs_of_nonneg (mul_nonneg h0 hx'.le)]
    have h1 := wgt_le (eta := eta) hk.le hx'.le
    set f := exp (-(1 / 2) * (x - kap) ^ 2) with hf
    have hf0 : 0 < f := exp_pos _
    have hf1 : f ≤ 1 := by
      rw [hf, exp_le_one_iff]
      nlinarith [sq_nonneg (x - kap)]
    have e1 : exp (eta - (x - kap) ^ 2) = exp eta * (f * f) := by
      rw [hf, ← exp_add, ← exp_add]
      congr 1
      ring
    have e2 : (x - kap) ^ 2 * f ≤ 2 := by
      have h2 := add_one_le_exp (1 / 2 * (x - kap) ^ 2)
      have h3 : exp (1 / 2 * (x - kap) ^ 2) * f = 1 := by
        rw [hf, ← exp_add]
        norm_num
      nlinarith [sq_nonneg (x - kap)]
    have e3 : x ^ 2 * (f * f) ≤ (4 + 2 * kap ^ 2) * f := by
      have : x ^ 2 ≤ 2 * (x - kap) ^ 2 + 2 * kap ^ 2 := by nlinarith [sq_nonneg (x - 2 * kap)]
      have h4 : x ^ 2 * f ≤ 4 + 2 * kap ^ 2 := by nlinarith [sq_nonneg kap]
      nlinarith
    rw [e1] at h1
    have hE := exp_pos eta
    calc wgt eta kap x * x ≤ 4 * kap * x * (exp eta * (f * f)) * x :=
          mul_le_mul_of_nonneg_right h1 hx'.le
      _ = 4 * kap * exp eta * (x ^ 2 * (f * f)) := by ring
      _ ≤ 4 * kap * exp eta * ((4 + 2 * kap ^ 2) * f) :=
          mul_le_mul_of_nonneg_left e3 (by positivity)
      _ = _ := by ring

/-- The first moment of the weight is an integral over the Fermi function. -/
theorem wgt_first (eta : ℝ) {kap : ℝ} (hk : 0 < kap) :
    ∫ x in Ioi (0 : ℝ), wgt eta kap x * x =
      4 * kap * ∫ y in Ioi (0 : ℝ), y ^ 2 / (exp (y ^ 2 - eta) + 1) := by
  rw [wgt_swap eta hk (K := fun x => x) measurable_id (wgt_id_integrable eta hk),
    ← integral_const_mul]
  refine setIntegral_congr_fun measurableSet_Ioi fun y _ => ?_
  simp only [integral_id, sq_abs]
  unfold phi
  ring

/-- The density of the electrons in reduced units. -/
theorem gasDensity_red {T : ℝ} (hT : 0 < T) (mu : ℝ) :
    gasDensity u T mu = pTh u T ^ 3 / (π ^ 2 * u.hbar ^ 3) *
      ∫ y in Ioi (0 : ℝ), y ^ 2 / (exp (y ^ 2 - mu / (u.kB * T)) + 1) := by
  have hm := u.me_pos
  have hB := u.kB_pos
  have hh := u.hbar_pos
  have hτ : 0 < u.kB * T := by positivity
  have hp := pTh_pos u hT
  have h1 := integral_comp_rpow_Ioi_of_pos (p := 2) (g := fun ε : ℝ =>
    ε ^ (1 / 2 : ℝ) / (exp (ε - mu / (u.kB * T)) + 1)) (by norm_num)
  have h2 := integral_comp_mul_left_Ioi (fun ε : ℝ =>
    ε ^ (1 / 2 : ℝ) / (exp ((ε - mu) / (u.kB * T)) + 1)) 0 hτ
  rw [mul_zero, smul_eq_mul] at h2
  have e1 : ∫ x in Ioi (0 : ℝ), (u.kB * T * x) ^ (1 / 2 : ℝ) /
      (exp ((u.kB * T * x - mu) / (u.kB * T)) + 1) =
      (u.kB * T) ^ (1 / 2 : ℝ) * ∫ ε in Ioi (0 : ℝ),
        ε ^ (1 / 2 : ℝ) / (exp (ε - mu / (u.kB * T)) + 1) := by
    rw [← integral_const_mul]
    refine setIntegral_congr_fun measurableSet_Ioi fun x hx => ?_
    have hx' : 0 < x := hx
    rw [mul_rpow hτ.le hx'.le]
    have : (u.kB * T * x - mu) / (u.kB * T) = x - mu / (u.kB * T) := by field_simp
    rw [this]
    ring
  have e2 : ∫ x in Ioi (0 : ℝ), (2 * x ^ ((2 : ℝ) - 1)) • ((x ^ (2 : ℝ)) ^ (1 / 2 : ℝ) /
      (exp (x ^ (2 : ℝ) - mu / (u.kB * T)) + 1)) =
      2 * ∫ y in Ioi (0 : ℝ), y ^ 2 / (exp (y ^ 2 - mu / (u.kB * T)) + 1) := by
    rw [← integral_const_mul]
    refine setIntegral_congr_fun measurableSet_Ioi fun x hx => ?_
    have hx' : 0 < x := hx
    simp only [smul_eq_mul]
    rw [← rpow_mul hx'.le]
    norm_num
    ring
  have e3 : (u.kB * T) * (u.kB * T) ^ (1 / 2 : ℝ) * (2 * u.me) ^ (3 / 2 : ℝ) = pTh u T ^ 3 := by
    have a1 : (u.kB * T) * (u.kB * T) ^ (1 / 2 : ℝ) = (u.kB * T) ^ (3 / 2 : ℝ) := by
      rw [show (3 / 2 : ℝ) = 1 + 1 / 2 by norm_num, rpow_add hτ, rpow_one]
    rw [a1, ← mul_rpow hτ.le (by positivity)]
    have a2 : u.kB * T * (2 * u.me) = pTh u T ^ (2 : ℝ) := by
      rw [rpow_two, pTh_sq u hT]
      ring
    rw [a2, ← rpow_mul hp.le]
    norm_num
  unfold gasDensity dosFactor
  rw [e1, ← h1, e2] at h2
  generalize (∫ y in Ioi (0 : ℝ), y ^ 2 / (exp (y ^ 2 - mu / (u.kB * T)) + 1)) = I at *
  generalize (∫ ε in Ioi (0 : ℝ), ε ^ (1 / 2 : ℝ) / (exp ((ε - mu) / (u.kB * T)) + 1)) = J at *
  have hJ : J = u.kB * T * ((u.kB * T) ^ (1 / 2 : ℝ) * (2 * I)) := by
    rw [h2]
    field_simp
  rw [hJ, ← e3]
  generalize (2 * u.me) ^ (3 / 2 : ℝ) = a at *
  generalize (u.kB * T) ^ (1 / 2 : ℝ) = b at *
  field_simp

theorem redW_real {k T : ℝ} (hT : 0 < T) (E : ℝ) :
    (redW u k (E : ℂ) T).re = E * (u.me / (u.hbar * k * pTh u T)) := by
  rw [redW_eq u k _ hT, Complex.re_mul_ofReal, Complex.ofReal_re]

/-- C109: the f-sum rule.  The first moment of the imaginary part of the dielectric function is given
by the density of electrons with the chemical potential it is evaluated for, at each momentum
transfer. -/
theorem imagRPA_fsum {k T : ℝ} (hk : 0 < k) (hT : 0 < T) (mu : ℝ) (unsave : Bool) :
    ∫ E in Ioi (0 : ℝ), E * (epsRPANoDamping u k E mu T unsave).im =
      π / 2 * (u.hbar ^ 2 * (gasDensity u T mu * u.e ^ 2 / (u.me * u.eps0))) := by
  have hm := u.me_pos
  have hh := u.hbar_pos
  have h0 := u.eps0_pos
  have hp := pTh_pos u hT
  have hf : 0 < u.me / (u.hbar * k * pTh u T) := by positivity
  set f := u.me / (u.hbar * k * pTh u T) with hfd
  have h := integral_comp_mul_right_Ioi (fun x => wgt (mu / (u.kB * T)) (kapRewrite u k T) x * x) 0 hf
  rw [zero_mul, smul_eq_mul, wgt_first _ (kapRewrite_pos u hk hT)] at h
  have e : ∀ E : ℝ, E * (epsRPANoDamping u k E mu T unsave).im = cst u k T * π / f *
      (wgt (mu / (u.kB * T)) (kapRewrite u k T) (E * f) * (E * f)) := by
    intro E
    simp only [epsRPANoDamping]
    rw [imagRPANoDamping_wgt u hk hT, redW_real u hT, ← hfd]
    field_simp
  simp only [e, integral_const_mul]
  rw [h, gasDensity_red u hT]
  generalize (∫ y in Ioi (0 : ℝ), y ^ 2 / (exp (y ^ 2 - mu / (u.kB * T)) + 1)) = I
  rw [kapRewrite_eq u k hT]
  unfold cst
  rw [thermalUnit_eq u hT, hfd]
  generalize pTh u T = p at *
  have := pi_pos
  field_simp

/-- C109: the static value is the inverse moment of the imaginary part, as the relations of Kramers
and Kronig require. -/
theorem epsRPA_static_kk {k T : ℝ} (hk : 0 < k) (hT : 0 < T) (mu : ℝ) (unsave : Bool) :
    epsRPANoDamping u k 0 mu T unsave =
      ((1 + 2 / π * ∫ E in Ioi (0 : ℝ), (epsRPANoDamping u k E mu T unsave).im / E : ℝ) : ℂ) := by
  have hm := u.me_pos
  have hh := u.hbar_pos
  have hp := pTh_pos u hT
  have hf : 0 < u.me / (u.hbar * k * pTh u T) := by positivity
  set f := u.me / (u.hbar * k * pTh u T) with hfd
  have h := integral_comp_mul_right_Ioi (fun x => wgt (mu / (u.kB * T)) (kapRewrite u k T) x / x) 0 hf
  rw [zero_mul, smul_eq_mul] at h
  have e : ∀ E : ℝ, (epsRPANoDamping u k E mu T unsave).im / E = cst u k T * π * f *
      (wgt (mu / (u.kB * T)) (kapRewrite u k T) (E * f) / (E * f)) := by
    intro E
    simp only [epsRPANoDamping]
    rw [imagRPANoDamping_wgt u hk hT, redW_real u hT, ← hfd]
    by_cases hE : E = 0
    · simp [hE]
    · field_simp
  simp only [e, integral_const_mul]
  have hus : epsRPANoDamping u k 0 mu T unsave = epsRPANoDamping u k 0 mu T true := by
    cases unsave
    · exact (epsRPANoDamping_unsave u hk hT 0 mu).symm
    · rfl
  rw [hus, epsRPANoDamping_static u hk hT, h]
  congr 2
  unfold mass dens
  have := pi_pos
  field_simp

/-- C109: the fitted dielectric function of Dandrea et al. fulfils the f-sum rule for the density it
is called with, to five digits, at all temperatures. -/
theorem epsDandrea_im_fsum {k T n : ℝ} (hk : 0 < k) (hT : 0 < T) (hn : 0 < n) :
    |(∫ E in Ioi (0 : ℝ), E * (epsDandrea u danFits k E T n).im) -
        π / 2 * (u.hbar ^ 2 * (n * u.e ^ 2 / (u.me * u.eps0)))| ≤
      5 / 10 ^ 6 * (π / 2 * (u.hbar ^ 2 * (n * u.e ^ 2 / (u.me * u.eps0)))) := by
  have hm := u.me_pos
  have hh := u.hbar_pos
  have he := u.e_pos
  have h0 := u.eps0_pos
  have hpi := pi_pos
  have hg := gasDensity_danEta u hT hn
  have h := imagRPA_fsum u hk hT (danEta (T * u.kB / fermiEnergy u n) * (u.kB * T)) false
  have e : ∀ E : ℝ, (epsDandrea u danFits k E T n).im =
      (epsRPANoDamping u k E (danEta (T * u.kB / fermiEnergy u n) * (u.kB * T)) T false).im :=
    fun E => epsDandrea_im u danFits E hk hT hn
  simp only [e]
  rw [h]
  generalize gasDensity u T (danEta (T * u.kB / fermiEnergy u n) * (u.kB * T)) = g at *
  have hc : 0 < π / 2 * (u.hbar ^ 2 * (u.e ^ 2 / (u.me * u.eps0))) := by positivity
  have e1 : ∀ x : ℝ, π / 2 * (u.hbar ^ 2 * (x * u.e ^ 2 / (u.me * u.eps0))) =
      π / 2 * (u.hbar ^ 2 * (u.e ^ 2 / (u.me * u.eps0))) * x := fun x => by ring
  rw [e1, e1, ← mul_sub, abs_mul, abs_of_pos hc]
  calc _ ≤ π / 2 * (u.hbar ^ 2 * (u.e ^ 2 / (u.me * u.eps0))) * (5 / 10 ^ 6 * n) :=
        mul_le_mul_of_nonneg_left hg hc.le
    _ = _ := by ring

/-- There are electrons for every chemical potential. -/
theorem gasDensity_pos {T : ℝ} (hT : 0 < T) (mu : ℝ) : 0 < gasDensity u T mu := by
  have hh := u.hbar_pos
  have hp := pTh_pos u hT
  rw [gasDensity_red u hT]
  refine mul_pos (by have := pi_pos; positivity) ?_
  have h := wgt_first (mu / (u.kB * T)) one_pos
  have hpos : 0 < ∫ x in Ioi (0 : ℝ), wgt (mu / (u.kB * T)) 1 x * x := by
    rw [setIntegral_pos_iff_support_of_nonneg_ae]
    · have hsub : Ioi (0 : ℝ) ⊆
          Function.support (fun x => wgt (mu / (u.kB * T)) 1 x * x) ∩ Ioi 0 :=
        fun x hx => ⟨(mul_pos (wgt_pos one_pos hx) hx).ne', hx⟩
      refine lt_of_lt_of_le ?_ (measure_mono hsub)
      simp
    · rw [EventuallyLE, ae_restrict_iff' measurableSet_Ioi]
      exact Eventually.of_forall fun x hx =>
        (mul_pos (wgt_pos one_pos hx) hx).le
    · exact wgt_id_integrable _ one_pos
  rw [h] at hpos
  linarith

theorem bose_sum {x : ℝ} (hx : x ≠ 0) : 1 / (1 - exp x) + 1 / (1 - exp (-x)) = 1 := by
  have h1 : 1 - exp x ≠ 0 := by
    rw [sub_ne_zero]
    intro h
    exact hx (by rwa [eq_comm, exp_eq_one_iff] at h)
  have h2 : exp x ≠ 0 := (exp_pos x).ne'
  rw [exp_neg]
  have h3 : 1 - (exp x)⁻¹ ≠ 0 := by
    intro h
    apply h1
    field_simp at h
    linarith
  field_simp
  have h4 : exp x - 1 ≠ 0 := fun h => h1 (by linarith)
  field_simp
  ring

/-- C109: the f-sum rule of the structure factor.  For electrons that do not interact (a local field
correction of one), the gain at an energy and the loss at its opposite add up to a first moment of
minus the kinetic energy of the momentum transfer, if the density is that of the chemical potential. -/
theorem s0eeRPANoDamping_fsum {k T : ℝ} (hk : 0 < k) (hT : 0 < T) (mu : ℝ) (unsave : Bool) :
    ∫ E in Ioi (0 : ℝ), (E * s0eeRPANoDamping u k T (gasDensity u T mu) E mu 1 unsave +
        -E * s0eeRPANoDamping u k T (gasDensity u T mu) (-E) mu 1 unsave) =
      -(u.hbar * (u.hbar ^ 2 * k ^ 2 / (2 * u.me))) := by
  have hm := u.me_pos
  have hh := u.hbar_pos
  have he := u.e_pos
  have h0 := u.eps0_pos
  have hB := u.kB_pos
  have hv := vee_pos u hk.ne'
  have hvc : (vee u k : ℂ) ≠ 0 := Complex.ofReal_ne_zero.2 hv.ne'
  have hn := gasDensity_pos u hT mu
  set n := gasDensity u T mu with hnd
  have hodd : ∀ E : ℝ, imagRPANoDamping u k (-E) mu T = -imagRPANoDamping u k E mu T := by
    intro E
    rw [imagRPANoDamping_wgt u hk hT, imagRPANoDamping_wgt u hk hT, redW_real u hT, redW_real u hT,
      neg_mul, wgt_neg]
    ring
  have hS : ∀ E : ℝ, s0eeRPANoDamping u k T n E mu 1 unsave =
      -(u.hbar / (π * n * vee u k) / (1 - exp (E / (u.kB * T))) * imagRPANoDamping u k E mu T) := by
    intro E
    simp only [s0eeRPANoDamping, s0eeSusceptibility, xiLfc, noninteractingFromEps]
    have e1 : ((1 - epsRPANoDamping u k (-E) mu T unsave) / (vee u k : ℂ) /
        (1 - (vee u k : ℂ) * (1 - ((1 : ℝ) : ℂ)) *
          ((1 - epsRPANoDamping u k (-E) mu T unsave) / (vee u k : ℂ))) * (vee u k : ℂ)).im =
        imagRPANoDamping u k E mu T := by
      have : (1 - epsRPANoDamping u k (-E) mu T unsave) / (vee u k : ℂ) /
        (1 - (vee u k : ℂ) * (1 - ((1 : ℝ) : ℂ)) *
          ((1 - epsRPANoDamping u k (-E) mu T unsave) / (vee u k : ℂ))) * (vee u k : ℂ) =
          1 - epsRPANoDamping u k (-E) mu T unsave := by
        simp only [Complex.ofReal_one, sub_self, mul_zero, zero_mul, sub_zero, div_one]
        field_simp
      rw [this, Complex.sub_im, Complex.one_im]
      simp only [epsRPANoDamping]
      rw [hodd]
      ring
    rw [e1]
    congr 6
    ring
  have hi : ∀ E ∈ Ioi (0 : ℝ), E * s0eeRPANoDamping u k T n E mu 1 unsave +
      -E * s0eeRPANoDamping u k T n (-E) mu 1 unsave =
      -(u.hbar / (π * n * vee u k)) * (E * (epsRPANoDamping u k E mu T unsave).im) := by
    intro E hE
    have hx : E / (u.kB * T) ≠ 0 := (div_pos hE (by positivity)).ne'
    have hb := bose_sum hx
    rw [hS, hS, hodd, neg_div]
    simp only [epsRPANoDamping]
    linear_combination (-(u.hbar / (π * n * vee u k)) * E * imagRPANoDamping u k E mu T) * hb
  rw [setIntegral_congr_fun measurableSet_Ioi hi, integral_const_mul, imagRPA_fsum u hk hT, ← hnd,
    vee_eq]
  have := pi_pos
  field_simp

/-- C109: for large energies the dielectric function is that of free electrons of the same density, at
each momentum transfer and temperature. -/
theorem epsRPA_high {k T : ℝ} (hk : 0 < k) (hT : 0 < T) (mu : ℝ) (unsave : Bool) :
    Tendsto (fun E : ℝ => E ^ 2 * ((epsRPANoDamping u k E mu T unsave).re - 1)) atTop
      (𝓝 (-(u.hbar ^ 2 * (gasDensity u T mu * u.e ^ 2 / (u.me * u.eps0))))) := by
  have hm := u.me_pos
  have hh := u.hbar_pos
  have h0 := u.eps0_pos
  have hp := pTh_pos u hT
  have hf : 0 < u.me / (u.hbar * k * pTh u T) := by positivity
  set f := u.me / (u.hbar * k * pTh u T) with hfd
  have h := ((fourLog_tendsto (mu / (u.kB * T)) (kapRewrite_pos u hk hT)).comp
    (tendsto_id.atTop_mul_const hf)).const_mul (cst u k T / 2 / f ^ 2)
  have hc : cst u k T / 2 / f ^ 2 * (-(16 * kapRewrite u k T) *
      ∫ t in Ioi (0 : ℝ), t ^ 2 / (exp (t ^ 2 - mu / (u.kB * T)) + 1)) =
      -(u.hbar ^ 2 * (gasDensity u T mu * u.e ^ 2 / (u.me * u.eps0))) := by
    rw [gasDensity_red u hT]
    generalize (∫ y in Ioi (0 : ℝ), y ^ 2 / (exp (y ^ 2 - mu / (u.kB * T)) + 1)) = I
    rw [kapRewrite_eq u k hT]
    unfold cst
    rw [thermalUnit_eq u hT, hfd]
    generalize pTh u T = p at *
    have := pi_pos
    field_simp
    ring
  rw [hc] at h
  refine h.congr fun E => ?_
  have hus : (epsRPANoDamping u k E mu T unsave).re = (epsRPANoDamping u k E mu T true).re := by
    cases unsave
    · rw [epsRPANoDamping_unsave u hk hT E mu]
    · rfl
  rw [hus]
  have hr : (epsRPANoDamping u k E mu T true).re = realRPA u k (E : ℂ) mu T :=
    (realRPA_real u k E mu T).symm
  have him : (redW u k (E : ℂ) T).im = 0 := by
    rw [redW_im u k _ hT]
    simp
  rw [hr, realRPA_logInt u k mu hT, him, redW_real u hT, ← hfd]
  simp only [Function.comp, id]
  field_simp
  ring

/-- The limit is not zero. -/
example (mu : ℝ) : -(u.hbar ^ 2 * (gasDensity u 1 mu * u.e ^ 2 / (u.me * u.eps0))) < 0 := by
  have := gasDensity_pos u one_pos mu
  have := u.me_pos
  have := u.hbar_pos
  have := u.e_pos
  have := u.eps0_pos
  have : 0 < u.hbar ^ 2 * (gasDensity u 1 mu * u.e ^ 2 / (u.me * u.eps0)) := by positivity
  linarith

end Verif.Resp
