/-
Property C59 for the Born-Mermin structure factor whose static value is a fit: where that fit is below the random phase
approximation, the structure factor becomes negative.
-/
import Verif.Props.Spectral
import Verif.Props.DandreaPole

set_option autoImplicit false

namespace Verif.Lindhard

open Real MeasureTheory Set

theorem wgt_joint : Continuous fun p : (ℝ × ℝ) × ℝ => wgt p.1.1 p.1.2 p.2 := by
  unfold wgt psi
  refine Continuous.sub (Continuous.log (by fun_prop) fun p => by positivity)
    (Continuous.log (by fun_prop) fun p => by positivity)

/-- A part of the weight of the spectral representation. -/
noncomputable def part (eta kap : ℝ) : ℝ := ∫ x in (1 : ℝ)..2, wgt eta kap x

theorem part_continuous : Continuous fun p : ℝ × ℝ => part p.1 p.2 :=
  intervalIntegral.continuous_parametric_intervalIntegral_of_continuous' (f := fun (p : ℝ × ℝ) (x : ℝ) => wgt p.1 p.2 x)
    wgt_joint 1 2

theorem part_pos (eta : ℝ) {kap : ℝ} (hk : 0 < kap) : 0 < part eta kap :=
  intervalIntegral.intervalIntegral_pos_of_pos_on ((wgt_continuous eta kap).intervalIntegrable _ _)
    (fun x hx => wgt_pos hk (by have := hx.1; linarith)) (by norm_num)

/-- A lower bound of the polarisability at small complex frequencies. -/
theorem polar_ge (eta : ℝ) {kap : ℝ} (hk : 0 < kap) {z : ℂ} (hz : 0 < z.im) (h1 : ‖z‖ ≤ 1) :
    z.im * (part eta kap / 2) ≤ (z * polar eta kap z).im := by
  have hz' := hz.ne'
  have hi := dens_mul_integrableC eta hk.le (den_continuous hz') _ (inv_den_le hz')
  have h0 : IntegrableOn (fun x => (dens eta kap x : ℂ)) (Ioi 0) := (wgt_div_integrable eta hk.le).integrable.ofReal
  have e : ∀ x : ℝ, z * ((dens eta kap x : ℂ) * (2 * (x : ℂ) ^ 2 * ((x : ℂ) ^ 2 - z ^ 2)⁻¹)) =
      2 * z * (dens eta kap x) + 2 * z ^ 3 * ((dens eta kap x : ℂ) * ((x : ℂ) ^ 2 - z ^ 2)⁻¹) := by
    intro x
    have := den_ne hz' x
    field_simp
    ring
  have hint : IntegrableOn (fun x : ℝ => z * ((dens eta kap x : ℂ) * (2 * (x : ℂ) ^ 2 * ((x : ℂ) ^ 2 - z ^ 2)⁻¹))) (Ioi 0) := by
    simp only [e]
    exact (h0.const_mul _).add (hi.const_mul _)
  have him : (z * polar eta kap z).im = ∫ x in Ioi (0 : ℝ), dens eta kap x * (2 * x ^ 2 *
      (z.im * (x ^ 2 + Complex.normSq z) * ‖((x : ℂ) ^ 2 - z ^ 2)⁻¹‖ ^ 2)) := by
    unfold polar
    rw [← integral_const_mul, integral_cim hint]
    congr 1
    funext x
    have e2 : z * ((dens eta kap x : ℂ) * (2 * (x : ℂ) ^ 2 * ((x : ℂ) ^ 2 - z ^ 2)⁻¹)) =
        ((dens eta kap x * (2 * x ^ 2) : ℝ) : ℂ) * (z * ((x : ℂ) ^ 2 - z ^ 2)⁻¹) := by
      push_cast
      ring
    rw [e2, Complex.im_ofReal_mul, im_mul_inv]
    ring
  have hintR : IntegrableOn (fun x : ℝ => dens eta kap x * (2 * x ^ 2 *
      (z.im * (x ^ 2 + Complex.normSq z) * ‖((x : ℂ) ^ 2 - z ^ 2)⁻¹‖ ^ 2))) (Ioi 0) := by
    refine (Complex.imCLM.integrable_comp hint).congr (Filter.Eventually.of_forall fun x => ?_)
    have e2 : z * ((dens eta kap x : ℂ) * (2 * (x : ℂ) ^ 2 * ((x : ℂ) ^ 2 - z ^ 2)⁻¹)) =
        ((dens eta kap x * (2 * x ^ 2) : ℝ) : ℂ) * (z * ((x : ℂ) ^ 2 - z ^ 2)⁻¹) := by
      push_cast
      ring
    simp only [Complex.imCLM_apply]
    rw [e2, Complex.im_ofReal_mul, im_mul_inv]
    ring
  have hsub : Ioc (1 : ℝ) 2 ⊆ Ioi 0 := fun x hx => lt_trans one_pos hx.1
  rw [him]
  refine le_trans ?_ (setIntegral_mono_set hintR ?_ (Filter.Eventually.of_forall hsub))
  · unfold part
    rw [intervalIntegral.integral_of_le (by norm_num), ← integral_div, ← integral_const_mul]
    refine setIntegral_mono_on ?_ (hintR.mono_set hsub) measurableSet_Ioc fun x hx => ?_
    · exact (((wgt_continuous eta kap).div_const 2).const_mul z.im).integrableOn_Ioc
    · have hx1 : 1 < x := hx.1
      have hx2 : x ≤ 2 := hx.2
      have hw := wgt_pos (eta := eta) hk (lt_trans one_pos hx1)
      have hden := den_ne hz' x
      have hnz : Complex.normSq z ≤ 1 := by
        rw [Complex.normSq_eq_norm_sq]
        exact pow_le_one₀ (norm_nonneg _) h1
      have hnz0 := Complex.normSq_nonneg z
      have hbound : ‖(x : ℂ) ^ 2 - z ^ 2‖ ≤ x ^ 2 + Complex.normSq z := by
        refine (norm_sub_le _ _).trans ?_
        rw [norm_pow, norm_pow, Complex.norm_real, norm_eq_abs, sq_abs, Complex.normSq_eq_norm_sq]
      have hpos : 0 < ‖(x : ℂ) ^ 2 - z ^ 2‖ := norm_pos_iff.2 hden
      have h3 : (x ^ 2 + Complex.normSq z)⁻¹ ≤ (x ^ 2 + Complex.normSq z) * ‖((x : ℂ) ^ 2 - z ^ 2)⁻¹‖ ^ 2 := by
        rw [norm_inv, inv_pow]
        rw [← div_eq_mul_inv, le_div_iff₀ (by positivity), inv_mul_le_iff₀ (by positivity), ← sq]
        exact pow_le_pow_left₀ hpos.le hbound 2
      have h4 : (1 : ℝ) ≤ 2 * x ^ 2 * (x ^ 2 + Complex.normSq z)⁻¹ := by
        rw [← div_eq_mul_inv, le_div_iff₀ (by positivity)]
        nlinarith
      have h5 : (1 : ℝ) ≤ 2 * x ^ 2 * ((x ^ 2 + Complex.normSq z) * ‖((x : ℂ) ^ 2 - z ^ 2)⁻¹‖ ^ 2) :=
        h4.trans (mul_le_mul_of_nonneg_left h3 (by positivity))
      have h6 : wgt eta kap x / 2 ≤ dens eta kap x := by
        unfold dens
        exact div_le_div_of_nonneg_left hw.le (by linarith) hx2
      have h7 : 0 ≤ dens eta kap x := dens_nonneg hk.le (by linarith)
      calc z.im * (wgt eta kap x / 2) ≤ z.im * (dens eta kap x * 1) := by
            rw [mul_one]; exact mul_le_mul_of_nonneg_left h6 hz.le
        _ ≤ z.im * (dens eta kap x * (2 * x ^ 2 * ((x ^ 2 + Complex.normSq z) * ‖((x : ℂ) ^ 2 - z ^ 2)⁻¹‖ ^ 2))) :=
            mul_le_mul_of_nonneg_left (mul_le_mul_of_nonneg_left h5 h7) hz.le
        _ = _ := by ring
  · rw [Filter.EventuallyLE, ae_restrict_iff' measurableSet_Ioi]
    refine Filter.Eventually.of_forall fun x hx => ?_
    have h7 : 0 ≤ dens eta kap x := dens_nonneg hk.le (le_of_lt hx)
    have hnz0 := Complex.normSq_nonneg z
    simp only [Pi.zero_apply]
    positivity

end Verif.Lindhard

namespace Verif.Resp

open Real Verif.Expt MeasureTheory Set ComplexConjugate Verif.Lindhard Verif.Interp Filter Topology

variable (u : Consts)

/-- Mermin's construction with too small a static value has the wrong sign of the dissipation. -/
theorem mermin_neg {w : ℝ} (hw : w ≠ 0) {nu pn : ℂ} {p0 : ℝ} (h0 : 0 < p0)
    (h : p0 * ‖(w : ℂ) + Complex.I * nu‖ < ‖pn‖ * nu.re) : (merminFit w nu pn p0).im * w < 0 := by
  set Z : ℂ := w + Complex.I * nu with hZ
  have hZim : Z.im = nu.re := by simp [hZ]
  have hI : Complex.I * nu = Z - w := by rw [hZ]; ring
  set D : ℂ := p0 * w + Complex.I * nu * pn with hD
  have him : ((Z * p0 * pn) * conj D).im = w * (p0 * (p0 * (Z * pn).im - Complex.normSq pn * Z.im)) := by
    rw [hD, hI]
    simp only [map_add, map_sub, map_mul, Complex.conj_ofReal, Complex.mul_im, Complex.mul_re,
      Complex.sub_re, Complex.sub_im, Complex.add_re, Complex.add_im, Complex.conj_re,
      Complex.conj_im, Complex.ofReal_re, Complex.ofReal_im, Complex.normSq_apply]
    ring
  have hpn : 0 < ‖pn‖ := by
    rcases (norm_nonneg pn).lt_or_eq with h1 | h1
    · exact h1
    · rw [← h1, zero_mul] at h
      exact absurd h (not_lt.2 (by positivity))
  have hneg : p0 * (p0 * (Z * pn).im - Complex.normSq pn * Z.im) < 0 := by
    have h1 : (Z * pn).im ≤ ‖Z‖ * ‖pn‖ := by
      rw [← norm_mul]
      exact (le_abs_self _).trans (Complex.abs_im_le_norm _)
    rw [Complex.normSq_eq_norm_sq, hZim]
    have h2 : p0 * (Z * pn).im ≤ p0 * (‖Z‖ * ‖pn‖) := mul_le_mul_of_nonneg_left h1 h0.le
    have h3 : p0 * ‖Z‖ * ‖pn‖ < ‖pn‖ * nu.re * ‖pn‖ := mul_lt_mul_of_pos_right h hpn
    exact mul_neg_of_pos_of_neg h0 (by nlinarith)
  have hDne : D ≠ 0 := by
    intro hD0
    rw [hD0] at him
    simp only [map_zero, mul_zero, Complex.zero_im] at him
    rcases mul_eq_zero.1 him.symm with h' | h'
    · exact hw h'
    · exact hneg.ne h'
  have hval : merminFit w nu pn p0 = 1 + Z * p0 * pn / D := rfl
  rw [hval, Complex.add_im, Complex.one_im, zero_add, div_eq_mul_inv, Complex.inv_def, ← mul_assoc,
    Complex.im_mul_ofReal, him]
  have hDn : 0 < (Complex.normSq D)⁻¹ := inv_pos.2 (Complex.normSq_pos.2 hDne)
  have hw2 : 0 < w ^ 2 := sq_pos_of_ne_zero hw
  have e : w * (p0 * (p0 * (Z * pn).im - Complex.normSq pn * Z.im)) * (Complex.normSq D)⁻¹ * w =
      w ^ 2 * (Complex.normSq D)⁻¹ * (p0 * (p0 * (Z * pn).im - Complex.normSq pn * Z.im)) := by ring
  rw [e]
  exact mul_neg_of_pos_of_neg (by positivity) hneg

/-- A dielectric function that gains energy gives a negative structure factor. -/
theorem chain_neg {k T n E : ℝ} (hk : k ≠ 0) (hT : 0 < T) (hn : 0 < n) {eps : ℂ} (v lfc : ℝ) (h : eps.im * E < 0) :
    s0eeSusceptibility u k T n E (xiLfc (noninteractingFromEps u eps k) v lfc) < 0 := by
  have h1 : 0 < (conj eps).im * E := by
    rw [Complex.conj_im]
    linarith
  have h2 := chain_pos u hk hT hn v lfc h1
  rw [noninteractingFromEps_conj, xiLfc_conj] at h2
  have e : ∀ xi : ℂ, s0eeSusceptibility u k T n E (conj xi) = -s0eeSusceptibility u k T n E xi := by
    intro xi
    simp only [s0eeSusceptibility, Complex.im_mul_ofReal, Complex.conj_im]
    ring
  rw [e] at h2
  linarith

/-- Between the two nodes next to zero the interpolated collision frequency has a constant real part, and its imaginary part
grows linearly. -/
theorem chapmanNu_centre (nu : ℝ → ℂ) {Emin Emax : ℝ} (h0 : 0 < Emin) (h1 : Emin < Emax) {N : ℕ} (hN : 0 < N) {E : ℝ}
    (hE : |E| ≤ Emin) : chapmanNu nu Emin Emax N E = ⟨(nu Emin).re, E / Emin * (nu Emin).im⟩ := by
  have hlin : (linspace Emin Emax N).length = N := linspace_length Emin Emax N
  have hinc := mirror_increasing (linspace_pairwise h1 N) (linspace_pos h0 h1 N)
  have hlen : (mirror (-1) (linspace Emin Emax N)).length = 2 * N := by rw [mirror_length, hlin]
  rw [hlen] at hinc
  have hfirst : (linspace Emin Emax N)[0]'(by rw [hlin]; exact hN) = Emin := by
    simp [linspace]
  have hright : ∀ (s : ℝ) (l : List ℝ) (hl : 0 < l.length), arr (mirror s l) l.length = l[0] := by
    intro s l hl
    unfold arr
    rw [List.getD_eq_getElem _ _ (by rw [mirror_length]; omega)]
    simp only [mirror]
    rw [List.getElem_append_right (by simp)]
    simp
  have hleft : ∀ (s : ℝ) (l : List ℝ) (hl : 0 < l.length), arr (mirror s l) (l.length - 1) = s * l[0] := by
    intro s l hl
    unfold arr
    rw [List.getD_eq_getElem _ _ (by rw [mirror_length]; omega)]
    simp only [mirror]
    rw [List.getElem_append_left (by simp; omega), List.getElem_map, List.getElem_reverse]
    congr 2
    omega
  obtain ⟨a1, a2⟩ := abs_le.1 hE
  have key : ∀ (s : ℝ) (f : ℝ → ℝ),
      interpL (mirror (-1) (linspace Emin Emax N)) (mirror s ((linspace Emin Emax N).map f)) E =
        s * f Emin + (E - -Emin) / (Emin - -Emin) * (f Emin - s * f Emin) := by
    intro s f
    have hl : 0 < (linspace Emin Emax N).length := by rw [hlin]; exact hN
    have hm : 0 < ((linspace Emin Emax N).map f).length := by rw [List.length_map, hlin]; exact hN
    have e1 : arr (mirror (-1) (linspace Emin Emax N)) N = Emin := by
      have := hright (-1) (linspace Emin Emax N) hl
      rwa [hfirst, congrArg (arr (mirror (-1) (linspace Emin Emax N))) hlin] at this
    have e2 : arr (mirror (-1) (linspace Emin Emax N)) (N - 1) = -1 * Emin := by
      have := hleft (-1) (linspace Emin Emax N) hl
      rwa [hfirst, congrArg (fun i => arr (mirror (-1) (linspace Emin Emax N)) (i - 1)) hlin] at this
    have hmlen : ((linspace Emin Emax N).map f).length = N := by rw [List.length_map, hlin]
    have e3 : arr (mirror s ((linspace Emin Emax N).map f)) N = f Emin := by
      have := hright s ((linspace Emin Emax N).map f) hm
      rwa [List.getElem_map, hfirst, congrArg (arr (mirror s ((linspace Emin Emax N).map f))) hmlen] at this
    have e4 : arr (mirror s ((linspace Emin Emax N).map f)) (N - 1) = s * f Emin := by
      have := hleft s ((linspace Emin Emax N).map f) hm
      rwa [List.getElem_map, hfirst,
        congrArg (fun i => arr (mirror s ((linspace Emin Emax N).map f)) (i - 1)) hmlen] at this
    unfold interpL interp
    rw [hlen]
    have hN1 : N - 1 + 1 = N := by omega
    rw [interpLR_on_interval (2 * N) _ _ _ _ E hinc (N - 1) (by omega) (by rw [e2]; linarith)
      (by rw [hN1, e1]; exact a2), hN1, e1, e2, e3, e4]
    ring
  unfold chapmanNu
  simp only
  rw [key 1 fun x => (nu x).re, key (-1) fun x => (nu x).im]
  congr 1
  · ring
  · field_simp
    ring

/-- The collision frequency is proportional to the structure factor. -/
theorem bornNu_scale (eps : ℝ → ℝ → ℂ) (V S : ℝ → ℝ) (Zf E c : ℝ) :
    bornNu u eps V (fun q => c * S q) Zf E = (c : ℂ) * bornNu u eps V S Zf E := by
  have e : ∀ q, bornIntegrand u eps V (fun q => c * S q) E q = ((c : ℝ) : ℂ) * bornIntegrand u eps V S E q := by
    intro q
    simp only [bornIntegrand]
    push_cast
    ring
  apply Complex.ext
  · simp only [bornNu, e, Complex.re_ofReal_mul, integral_const_mul]
    ring
  · simp only [bornNu, e, Complex.im_ofReal_mul, integral_const_mul]
    ring

/-- With a structure factor on a finite range the collision frequency with the fitted dielectric function is positive. -/
theorem bornNu_window_pos {T n Zf E : ℝ} (hT : 0 < T) (hn : 0 < n) (hZ : 0 < Zf) (hE : E ≠ 0) (d : DandreaFits) :
    0 < (bornNu u (fun q E => epsDandrea u d q E T n) (fun _ => 1) ((Icc (1 : ℝ) 2).indicator fun _ => 1) Zf E).re := by
  set mu := d.etaFit (T * u.kB / fermiEnergy u n) * (u.kB * T) with hmu
  set S := (Icc (1 : ℝ) 2).indicator fun _ => (1 : ℝ) with hSd
  have hS : ∀ q, 0 ≤ S q := fun q => indicator_nonneg (fun _ _ => zero_le_one) q
  have hint : IntegrableOn (fun q => (bornIntegrand u (bornEpsRPA u mu T) (fun _ => 1) S E q).re) (Ioi 0) := by
    have hc : IntegrableOn (fun q : ℝ => q ^ 6 * 1 ^ 2 * 1 *
        (imagRPANoDamping u q E mu T * (1 / (E / u.hbar)))) (Icc 1 2) := by
      apply ContinuousOn.integrableOn_Icc
      refine ContinuousOn.mul (by fun_prop) (ContinuousOn.mul ?_ continuousOn_const)
      exact (imagRPANoDamping_continuousOn u E mu T).mono fun q hq => lt_of_lt_of_le one_pos hq.1
    have hi := (integrable_indicator_iff measurableSet_Icc).2 hc
    refine Integrable.integrableOn (hi.congr (Filter.Eventually.of_forall fun q => ?_))
    simp only [bornIntegrand_rpa_re, hSd]
    by_cases hq : q ∈ Icc (1 : ℝ) 2
    · rw [indicator_of_mem hq, indicator_of_mem hq]
    · rw [indicator_of_notMem hq, indicator_of_notMem hq]
      ring
  have h := bornNu_rpa_re_pos u mu hT hZ hE (fun _ => 1) hS hint (by
    have hsub : Icc (1 : ℝ) 2 ⊆ {q | (fun _ : ℝ => (1 : ℝ)) q ≠ 0 ∧ S q ≠ 0} ∩ Ioi 0 := by
      intro q hq
      refine ⟨⟨one_ne_zero, ?_⟩, lt_of_lt_of_le one_pos hq.1⟩
      simp only [hSd, indicator_of_mem hq]
      exact one_ne_zero
    refine lt_of_lt_of_le ?_ (measure_mono hsub)
    rw [Real.volume_Icc]
    norm_num)
  refine lt_of_lt_of_eq h ?_
  simp only [bornNu]
  congr 1
  refine setIntegral_congr_fun measurableSet_Ioi fun q hq => ?_
  have hq' : 0 < q := hq
  simp only [bornIntegrand_rpa_re]
  have i0 : (epsDandrea u d q 0 T n).im = 0 := by
    rw [epsDandrea_im u d 0 hq' hT hn]
    exact imagRPANoDamping_zero u q _ T
  have i1 := epsDandrea_im u d E hq' hT hn
  rw [← hmu] at i1
  have e : bornIntegrand u (fun q E => epsDandrea u d q E T n) (fun _ => 1) S E q =
      ((q ^ 6 * 1 ^ 2 * S q * (1 / (E / u.hbar)) : ℝ) : ℂ) *
        (-Complex.I * (epsDandrea u d q E T n - epsDandrea u d q 0 T n)) := by
    simp only [bornIntegrand]
    push_cast
    ring
  rw [e, Complex.re_ofReal_mul]
  have e2 : (-Complex.I * (epsDandrea u d q E T n - epsDandrea u d q 0 T n)).re = imagRPANoDamping u q E mu T := by
    simp [i0, i1]
  rw [e2]
  ring

/-- The continuity of the part as a function of the temperature. -/
theorem part_continuousAt {f g : ℝ → ℝ} {x : ℝ} (hf : ContinuousAt f x) (hg : ContinuousAt g x) :
    ContinuousAt (fun t => part (f t) (g t)) x := by
  have h1 := (part_continuous.tendsto (f x, g x)).comp (hf.tendsto.prodMk_nhds hg.tendsto)
  exact h1

/-- The factor in front of the dielectric function as a function of the temperature. -/
theorem cst_continuousAt (k : ℝ) {T₀ : ℝ} (hT0 : 0 < T₀) : ContinuousAt (fun T : ℝ => cst u k T) T₀ := by
  have e : (fun T : ℝ => cst u k T) =ᶠ[𝓝 T₀] fun T => u.e ^ 2 * u.me / (4 * π ^ 2 * u.eps0 * u.hbar ^ 2 * k ^ 3) *
      ((2 * u.me * u.kB * T) / u.hbar ^ 2) := by
    filter_upwards [lt_mem_nhds hT0] with T hT
    unfold cst
    rw [thermalUnit_eq u hT, div_pow, pTh_sq u hT, one_div_div]
  refine ContinuousAt.congr ?_ e.symm
  fun_prop

/-- Close to a quarter of the Fermi temperature the fitted static value is positive and as small as one likes; in particular
smaller than a fixed fraction of the damped value. -/
theorem fit_near_pole {n k : ℝ} (hn : 0 < n) (hk : 0 < k) :
    ∃ T : ℝ, 0.2515 * fermiTemperature u n < T ∧ T < 0.252 * fermiTemperature u n ∧
      1 < (epsDandrea u danFits k 0 T n).re ∧ (epsDandrea u danFits k 0 T n).re - 1 <
        cst u k T * part (danEta (T * u.kB / fermiEnergy u n)) (kapRewrite u k T) / 8 := by
  obtain ⟨T₀, t1, t2, hpole⟩ := epsDandrea_pole u hn
  have hkin : 0 < kinEnergy u k := by
    have := u.hbar_pos; have := u.me_pos
    unfold kinEnergy
    positivity
  obtain ⟨hlim, hpos⟩ := hpole k 0 hk hkin.ne (by linarith)
  have hpos := hpos rfl
  have hEF := fermiEnergy_pos u hn
  have hkB := u.kB_pos
  have hTF : 0 < fermiTemperature u n := div_pos hEF hkB
  have hT0 : 0 < T₀ := lt_trans (by positivity) t1
  -- the damped value stays away from zero
  have hth : ContinuousAt (fun T : ℝ => T * u.kB / fermiEnergy u n) T₀ := by fun_prop
  have hfrac : ∀ T, T * u.kB / fermiEnergy u n = T / fermiTemperature u n := by
    intro T
    unfold fermiTemperature
    field_simp
  have hθ1 : 0.2515 < T₀ * u.kB / fermiEnergy u n := by
    rw [hfrac, lt_div_iff₀ hTF]; exact t1
  have hθ2 : T₀ * u.kB / fermiEnergy u n < 0.252 := by
    rw [hfrac, div_lt_iff₀ hTF]; exact t2
  have heta : ContinuousAt (fun T : ℝ => danEta (T * u.kB / fermiEnergy u n)) T₀ :=
    ContinuousAt.comp (g := danEta) (eta_above hθ1 hθ2).1 hth
  have hkap : ContinuousAt (fun T : ℝ => kapRewrite u k T) T₀ := by
    unfold kapRewrite
    refine ContinuousAt.div continuousAt_const (by fun_prop) ?_
    have := u.me_pos
    exact (sqrt_pos.2 (by positivity)).ne'
  have hpart : ContinuousAt (fun T : ℝ => part (danEta (T * u.kB / fermiEnergy u n)) (kapRewrite u k T)) T₀ :=
    part_continuousAt heta hkap
  have hcst := cst_continuousAt u k hT0
  have hbound := (hcst.mul hpart).div_const 8
  have hb0 : 0 < cst u k T₀ * part (danEta (T₀ * u.kB / fermiEnergy u n)) (kapRewrite u k T₀) / 8 := by
    have := cst_pos u hk hT0
    have := part_pos (danEta (T₀ * u.kB / fermiEnergy u n)) (kapRewrite_pos u hk hT0)
    positivity
  have hle : 𝓝[≠] T₀ ≤ 𝓝 T₀ := nhdsWithin_le_nhds
  have hcmp : ∀ᶠ T in 𝓝[≠] T₀, (epsDandrea u danFits k 0 T n).re - 1 <
      cst u k T * part (danEta (T * u.kB / fermiEnergy u n)) (kapRewrite u k T) / 8 := by
    have l1 : Tendsto (fun T => (epsDandrea u danFits k 0 T n).re - 1) (𝓝[≠] T₀) (𝓝 0) := by
      have := hlim.sub_const 1
      rwa [sub_self] at this
    exact l1.eventually_lt (hbound.tendsto.mono_left hle) hb0
  obtain ⟨T, ⟨⟨⟨hp1, hp2⟩, hT1⟩, hT2⟩⟩ := (((hpos.and hcmp).and (hle (lt_mem_nhds t1))).and (hle (gt_mem_nhds t2))).exists
  exact ⟨T, hT1, hT2, hp1, hp2⟩

/-- The dielectric function with too small a fitted static value, for a small energy and a small collision frequency. -/
theorem epsBMAFit_neg {k E : ℝ} (b : BornArgs) (hT : 0 < b.T) (hk : 0 < k) (hE : E ≠ 0)
    (hp1 : 1 < (epsDandrea u danFits k 0 b.T b.n).re)
    (hp2 : (epsDandrea u danFits k 0 b.T b.n).re - 1 < cst u k b.T * part (b.mu / (u.kB * b.T)) (kapRewrite u k b.T) / 8)
    (hrepos : 0 < (nuInterpFit u danFits b E).re)
    (hsmall : |E / u.hbar - (nuInterpFit u danFits b E).im| ≤ (nuInterpFit u danFits b E).re)
    (hne : E ≠ u.hbar * (nuInterpFit u danFits b E).im)
    (hz : 2 * (nuInterpFit u danFits b E).re * (u.me / (k * pTh u b.T)) ≤ 1) :
    (epsBMAFit u danFits b k E).im * E < 0 := by
  have hh := u.hbar_pos
  set s := u.me / (k * pTh u b.T) with hs
  have hspos : 0 < s := by
    have := u.me_pos; have := pTh_pos u hT
    positivity
  set p0 := (epsDandrea u danFits k 0 b.T b.n).re - 1 with hp0
  have hp0pos : 0 < p0 := by linarith
  simp only [epsBMAFit]
  have himfit : (epsDandrea u danFits k 0 b.T b.n).im = 0 := by
    have := epsDandrea_hermitian u danFits k b.T b.n 0
    rw [neg_zero] at this
    exact Complex.conj_eq_iff_im.1 this.symm
  have e0 : epsDandrea u danFits k 0 b.T b.n - 1 = ((p0 : ℝ) : ℂ) := by
    apply Complex.ext
    · simp [hp0]
    · simp [himfit]
  set nu := nuInterpFit u danFits b E with hnud
  rw [e0, epsDamped_eq u b.rewrite hk hT (fun _ => by rw [dampedEnergy_re]; exact sub_ne_zero.2 hne)
    (by rw [dampedEnergy_im]; positivity), add_sub_cancel_left, redW_damped u k E nu hT]
  set Z : ℂ := ((E / u.hbar : ℝ) : ℂ) + Complex.I * nu with hZd
  have hZre : Z.re = E / u.hbar - nu.im := by simp [hZd]; ring
  have hZim : Z.im = nu.re := by simp [hZd]
  have hZn : ‖Z‖ ≤ 2 * nu.re := by
    refine (Complex.norm_le_abs_re_add_abs_im Z).trans ?_
    rw [hZre, hZim, abs_of_pos hrepos]
    linarith
  rw [← hs]
  set f := polar (b.mu / (u.kB * b.T)) (kapRewrite u k b.T) (Z * ((s : ℝ) : ℂ)) with hf
  have hz1 : ‖Z * ((s : ℝ) : ℂ)‖ ≤ 1 := by
    rw [norm_mul, Complex.norm_real, norm_eq_abs, abs_of_pos hspos]
    have := mul_le_mul_of_nonneg_right hZn hspos.le
    linarith
  have hzim : (Z * ((s : ℝ) : ℂ)).im = nu.re * s := by
    rw [Complex.im_mul_ofReal, hZim]
  have hge := polar_ge (b.mu / (u.kB * b.T)) (kapRewrite_pos u hk hT) (z := Z * ((s : ℝ) : ℂ))
    (by rw [hzim]; positivity) hz1
  have hge2 : part (b.mu / (u.kB * b.T)) (kapRewrite u k b.T) / 4 ≤ ‖f‖ := by
    have h2 : (Z * ((s : ℝ) : ℂ) * f).im ≤ ‖Z‖ * s * ‖f‖ := by
      refine ((le_abs_self _).trans (Complex.abs_im_le_norm _)).trans (le_of_eq ?_)
      rw [norm_mul, norm_mul, Complex.norm_real, norm_eq_abs, abs_of_pos hspos]
    rw [hzim] at hge
    have h3 : ‖Z‖ * s * ‖f‖ ≤ 2 * nu.re * s * ‖f‖ := by gcongr
    have h4 : nu.re * s * (part (b.mu / (u.kB * b.T)) (kapRewrite u k b.T) / 2) ≤ nu.re * s * (2 * ‖f‖) :=
      (hge.trans (h2.trans h3)).trans (le_of_eq (by ring))
    have := le_of_mul_le_mul_left h4 (by positivity)
    linarith
  have hw : E / u.hbar ≠ 0 := div_ne_zero hE hh.ne'
  have hC := cst_pos u hk hT
  have hfin : p0 * ‖Z‖ < ‖((cst u k b.T : ℝ) : ℂ) * f‖ * nu.re := by
    rw [norm_mul, Complex.norm_real, norm_eq_abs, abs_of_pos hC]
    have h5 : p0 < cst u k b.T * ‖f‖ / 2 := by
      refine lt_of_lt_of_le hp2 ?_
      have := mul_le_mul_of_nonneg_left hge2 hC.le
      linarith
    calc p0 * ‖Z‖ ≤ p0 * (2 * nu.re) := mul_le_mul_of_nonneg_left hZn hp0pos.le
      _ < cst u k b.T * ‖f‖ / 2 * (2 * nu.re) := mul_lt_mul_of_pos_right h5 (by positivity)
      _ = _ := by ring
  have h := mermin_neg hw hp0pos hfin
  have e : (merminFit (E / u.hbar) nu (((cst u k b.T : ℝ) : ℂ) * f) (p0 : ℂ)).im * E =
      (merminFit (E / u.hbar) nu (((cst u k b.T : ℝ) : ℂ) * f) (p0 : ℂ)).im * (E / u.hbar) * u.hbar := by
    field_simp
  rw [e]
  exact mul_neg_of_neg_of_pos h hh

/-- C59 is false for `S0_ee_BMA_chapman_interpFit`: at every density, wave number, local field correction, charge and for
every grid of the collision frequency there are a temperature close to a quarter of the Fermi temperature (where the fitted
static value is close to zero), a potential, a non-negative structure factor and an energy, such that the collision
frequency damps and yet the structure factor is negative.  The chemical potential is the one used in the fit itself. -/
theorem s0eeBMAFit_negative {n k Emin Emax Zf : ℝ} (hn : 0 < n) (hk : 0 < k) (h0 : 0 < Emin) (h1 : Emin < Emax) (hZ : 0 < Zf)
    {N : ℕ} (hN : 0 < N) (lfc : ℝ) (rewrite : Bool) :
    ∃ (T E : ℝ) (V S : ℝ → ℝ), 0.2515 * fermiTemperature u n < T ∧ T < 0.252 * fermiTemperature u n ∧ E ≠ 0 ∧
      (∀ q, 0 ≤ S q) ∧
      let b : BornArgs := ⟨danEta (T * u.kB / fermiEnergy u n) * (u.kB * T), T, n, S, V, Zf, Emin, Emax, N, rewrite⟩
      0 < (nuInterpFit u danFits b (-E)).re ∧ s0eeBMAFit u danFits b k E lfc < 0 := by
  obtain ⟨T, hT1, hT2, hp1, hp2⟩ := fit_near_pole u hn hk
  have hTF : 0 < fermiTemperature u n := div_pos (fermiEnergy_pos u hn) u.kB_pos
  have hT : 0 < T := lt_trans (by positivity) hT1
  -- the collision frequency
  set W := (Icc (1 : ℝ) 2).indicator fun _ => (1 : ℝ) with hW
  set nu1 := bornNu u (fun q E => epsDandrea u danFits q E T n) (fun _ => 1) W Zf Emin with hnu1
  have hnu1pos : 0 < nu1.re := bornNu_window_pos u hT hn hZ h0.ne' danFits
  have hh := u.hbar_pos
  set s := u.me / (k * pTh u T) with hs
  have hspos : 0 < s := by
    have := u.me_pos; have := pTh_pos u hT
    positivity
  set c := min (1 / (2 * s * nu1.re)) (Emin / (2 * u.hbar * (|nu1.im| + 1))) with hc
  have hcpos : 0 < c := lt_min (by positivity) (by positivity)
  have hc1 : c * nu1.re * s ≤ 1 / 2 := by
    have := min_le_left (1 / (2 * s * nu1.re)) (Emin / (2 * u.hbar * (|nu1.im| + 1)))
    rw [← hc, le_div_iff₀ (by positivity)] at this
    linarith
  have hc2 : c * |nu1.im| ≤ Emin / u.hbar / 2 := by
    have := min_le_right (1 / (2 * s * nu1.re)) (Emin / (2 * u.hbar * (|nu1.im| + 1)))
    rw [← hc, le_div_iff₀ (by positivity)] at this
    rw [div_div, le_div_iff₀ (by positivity)]
    nlinarith
  set E := min Emin (u.hbar * (c * nu1.re) / 2) with hE
  have hEpos : 0 < E := lt_min h0 (by positivity)
  have hE1 : E ≤ Emin := min_le_left _ _
  have hE2 : E / u.hbar ≤ c * nu1.re / 2 := by
    have := min_le_right Emin (u.hbar * (c * nu1.re) / 2)
    rw [← hE] at this
    rw [div_le_iff₀ hh]
    linarith
  refine ⟨T, E, fun _ => 1, fun q => c * W q, hT1, hT2, hEpos.ne', fun q =>
    mul_nonneg hcpos.le (indicator_nonneg (fun _ _ => zero_le_one) q), ?_⟩
  intro b
  have hnu : nuInterpFit u danFits b (-E) = ⟨c * nu1.re, -E / Emin * (c * nu1.im)⟩ := by
    have e := chapmanNu_centre (bornNu u (fun q E => epsDandrea u danFits q E T n) (fun _ => 1) (fun q => c * W q) Zf)
      h0 h1 hN (E := -E) (by rw [abs_neg, abs_of_pos hEpos]; exact hE1)
    show chapmanNu (bornNu u (fun q E => epsDandrea u danFits q E T n) (fun _ => 1) (fun q => c * W q) Zf) Emin Emax N (-E) = _
    rw [e, bornNu_scale, ← hnu1, Complex.re_ofReal_mul, Complex.im_ofReal_mul]
  have hre : (nuInterpFit u danFits b (-E)).re = c * nu1.re := by rw [hnu]
  have him : (nuInterpFit u danFits b (-E)).im = -E / Emin * (c * nu1.im) := by rw [hnu]
  have hrepos : 0 < (nuInterpFit u danFits b (-E)).re := by rw [hre]; positivity
  refine ⟨hrepos, ?_⟩
  have hsmall : |(-E) / u.hbar - (nuInterpFit u danFits b (-E)).im| ≤ (nuInterpFit u danFits b (-E)).re := by
    rw [him, hre]
    have e1 : (-E) / u.hbar - -E / Emin * (c * nu1.im) = -(E / u.hbar) + E / Emin * (c * nu1.im) := by ring
    have h2 : |E / Emin * (c * nu1.im)| ≤ E / u.hbar / 2 := by
      rw [abs_mul, abs_mul, abs_of_pos hcpos, abs_of_pos (by positivity : 0 < E / Emin)]
      calc E / Emin * (c * |nu1.im|) ≤ E / Emin * (Emin / u.hbar / 2) := mul_le_mul_of_nonneg_left hc2 (by positivity)
        _ = _ := by field_simp
    have h3 : |-(E / u.hbar)| = E / u.hbar := by rw [abs_neg, abs_of_pos (by positivity)]
    rw [e1]
    have := abs_add_le (-(E / u.hbar)) (E / Emin * (c * nu1.im))
    have : 0 < c * nu1.re := by positivity
    linarith
  have hne : -E ≠ u.hbar * (nuInterpFit u danFits b (-E)).im := by
    rw [him]
    intro hc'
    have h2 : |u.hbar * (-E / Emin * (c * nu1.im))| ≤ E / 2 := by
      rw [abs_mul, abs_mul, abs_mul, abs_of_pos hcpos, abs_of_pos hh, abs_div, abs_neg, abs_of_pos hEpos, abs_of_pos h0]
      calc u.hbar * (E / Emin * (c * |nu1.im|)) ≤ u.hbar * (E / Emin * (Emin / u.hbar / 2)) := by gcongr
        _ = _ := by field_simp
    rw [← hc', abs_neg, abs_of_pos hEpos] at h2
    linarith
  have hmu : b.mu / (u.kB * b.T) = danEta (T * u.kB / fermiEnergy u n) := by
    have := u.kB_pos
    show danEta (T * u.kB / fermiEnergy u n) * (u.kB * T) / (u.kB * T) = _
    field_simp
  simp only [s0eeBMAFit]
  apply chain_neg u hk.ne' (show 0 < b.T from hT) (show 0 < b.n from hn)
  refine epsBMAFit_neg u b hT hk (neg_ne_zero.2 hEpos.ne') hp1 ?_ hrepos hsmall hne ?_
  · rw [hmu]
    exact hp2
  · rw [hre]
    show 2 * (c * nu1.re) * s ≤ 1
    linarith

end Verif.Resp
