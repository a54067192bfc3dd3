/-
Properties of the screening charges.
-/
import Verif.Props.StaticSf
import Verif.Props.Response
import Mathlib.Analysis.SpecialFunctions.Integrals.Basic

set_option autoImplicit false

namespace Verif.Ssf

open Real Filter Topology MeasureTheory Verif.Expt Verif.Resp

variable {u : Consts}

/-! ### Debye-Hückel screening and linear response -/

/-- C66: the Debye-Hückel screening charge lies between zero and the charge of the ion, decreases with
the wave number, and screens the ion completely on large scales. -/
theorem dhScreening_spec {kappa Z : ℝ} (hkap : 0 < kappa) (hZ : 0 < Z) :
    (∀ k, 0 < k → 0 < dhScreening k kappa Z ∧ dhScreening k kappa Z < Z) ∧
      (∀ k k', 0 < k → k < k' → dhScreening k' kappa Z < dhScreening k kappa Z) ∧
      Tendsto (fun k => dhScreening k kappa Z) (𝓝[≠] 0) (𝓝 Z) ∧
      Tendsto (fun k => dhScreening k kappa Z) atTop (𝓝 0) := by
  have e : ∀ k, dhScreening k kappa Z = Z * kappa ^ 2 / (k ^ 2 + kappa ^ 2) := fun k => by
    simp [dhScreening, qDebyeHueckel, hZ.ne']
  simp only [e]
  refine ⟨fun k hk => ⟨by positivity, ?_⟩, fun k k' hk hkk => ?_, ?_, ?_⟩
  · rw [div_lt_iff₀ (by positivity)]
    nlinarith [mul_pos hZ (pow_pos hk 2)]
  · apply div_lt_div_of_pos_left (by positivity) (by positivity)
    nlinarith
  · have hc : ContinuousAt (fun x : ℝ => Z * kappa ^ 2 / (x + kappa ^ 2)) 0 :=
      continuousAt_const.div (by fun_prop) (by simp [hkap.ne'])
    exact tendsto_at_sq hc (by field_simp; simp) fun k _ => rfl
  · refine Tendsto.div_atTop tendsto_const_nhds ?_
    exact tendsto_atTop_add_const_right _ _ (tendsto_pow_atTop two_ne_zero)

/-- C66: in all models a neutral atom collects no screening cloud. -/
theorem neutral_unscreened (k kappa chi0 lfc mi ne Te V : ℝ) :
    dhScreening k kappa 0 = 0 ∧ finiteWlScreening u k chi0 0 lfc = 0 ∧ gregori2004Screening u k mi ne Te 0 = 0 ∧
      qGericke2010 u k kappa lfc 0 V = 0 :=
  ⟨if_pos rfl, if_pos rfl, if_pos rfl, if_pos rfl⟩

/-- C66: finite wavelength screening with the classical susceptibility `-κ² ε₀ / e²` is Debye-Hückel
screening; a local field correction reduces the screening of the electrons by each other. -/
theorem finiteWl_classical {k kappa Z lfc : ℝ} (hk : 0 < k) (hkap : 0 < kappa) (hZ : 0 < Z) (hl : lfc ≤ 1) :
    finiteWlScreening u k (-(kappa ^ 2 * u.eps0 / u.e ^ 2)) Z lfc = Z * kappa ^ 2 / (k ^ 2 + (1 - lfc) * kappa ^ 2) ∧
      (lfc = 0 → finiteWlScreening u k (-(kappa ^ 2 * u.eps0 / u.e ^ 2)) Z lfc = dhScreening k kappa Z) := by
  have he := u.eps0_pos; have hee := u.e_pos
  have h1 : 0 ≤ 1 - lfc := by linarith
  have key : finiteWlScreening u k (-(kappa ^ 2 * u.eps0 / u.e ^ 2)) Z lfc =
      Z * kappa ^ 2 / (k ^ 2 + (1 - lfc) * kappa ^ 2) := by
    unfold finiteWlScreening qFiniteWL coulombEi q2Electron coulombFourier
    rw [if_neg hZ.ne']
    have e : 1 - 1 / u.eps0 * (-1 * -1 * u.e ^ 2) / k ^ 2 * (1 - lfc) * -(kappa ^ 2 * u.eps0 / u.e ^ 2) =
        (k ^ 2 + (1 - lfc) * kappa ^ 2) / k ^ 2 := by
      field_simp
      ring
    simp only [e]
    have : 0 < k ^ 2 + (1 - lfc) * kappa ^ 2 := by positivity
    field_simp
  refine ⟨key, fun h0 => ?_⟩
  rw [key, h0]
  simp [dhScreening, qDebyeHueckel, hZ.ne']

/-- C66: linear response screening after Gericke et al. with the Coulomb potential. -/
theorem gericke2010_eq {k kappa Z lfc Zsum : ℝ} (hk : 0 < k) (hl : lfc ≤ 1) (hs : Zsum ≠ 0) :
    qGericke2010 u k kappa lfc Zsum (coulombEi u k Z) = -(Z * kappa ^ 2 / (k ^ 2 + (1 - lfc) * kappa ^ 2)) := by
  have he := u.eps0_pos; have hee := u.e_pos
  have h1 : 0 ≤ 1 - lfc := by linarith
  unfold qGericke2010 freeElectronSusc coulombEi q2Electron coulombFourier
  rw [if_neg hs]
  have e : 1 - -1 * (1 / u.eps0 * (-1 * -1 * u.e ^ 2) / k ^ 2) * (1 - lfc) * (kappa ^ 2 * u.eps0 / u.e ^ 2) =
      (k ^ 2 + (1 - lfc) * kappa ^ 2) / k ^ 2 := by
    field_simp
    ring
  simp only [e]
  have : 0 < k ^ 2 + (1 - lfc) * kappa ^ 2 := by positivity
  field_simp

/-- C66: the documentation promises that linear response screening after Gericke et al. reduces to
Debye-Hückel screening for the Coulomb potential without local field correction.  It is the negative of
that for every plasma: the two never agree. -/
theorem gericke2010_ne_dh {k kappa Z Zsum : ℝ} (hk : 0 < k) (hkap : 0 < kappa) (hZ : 0 < Z) (hs : Zsum ≠ 0) :
    qGericke2010 u k kappa 0 Zsum (coulombEi u k Z) = -dhScreening k kappa Z ∧
      qGericke2010 u k kappa 0 Zsum (coulombEi u k Z) ≠ dhScreening k kappa Z := by
  have e : qGericke2010 u k kappa 0 Zsum (coulombEi u k Z) = -dhScreening k kappa Z := by
    rw [gericke2010_eq hk zero_le_one hs]
    simp [dhScreening, qDebyeHueckel, hZ.ne']
  refine ⟨e, ?_⟩
  rw [e]
  have := ((dhScreening_spec hkap hZ).1 k hk).1
  intro h
  linarith

/-! ### Screening from structure factors -/

/-- The function `e^{-x²} / x ∫₀ˣ e^{t²} dt` of Dawson. -/
noncomputable def dawsonRatio (x : ℝ) : ℝ := exp (-x ^ 2) * (∫ t in (0 : ℝ)..x, exp (t ^ 2)) / x

theorem dawsonRatio_bounds {x : ℝ} (hx : 0 < x) : exp (-x ^ 2) ≤ dawsonRatio x ∧ dawsonRatio x ≤ 1 := by
  have hi : IntervalIntegrable (fun t : ℝ => exp (t ^ 2)) volume 0 x :=
    (by fun_prop : Continuous fun t : ℝ => exp (t ^ 2)).intervalIntegrable _ _
  have lo : x ≤ ∫ t in (0 : ℝ)..x, exp (t ^ 2) := by
    have : ∫ _ in (0 : ℝ)..x, (1 : ℝ) = x := by simp
    rw [← this]
    refine (intervalIntegral.integral_mono_on hx.le (by simp) hi fun t _ => one_le_exp (by positivity)).trans_eq ?_
    rw [this]
  have up : (∫ t in (0 : ℝ)..x, exp (t ^ 2)) ≤ x * exp (x ^ 2) := by
    have : ∫ _ in (0 : ℝ)..x, exp (x ^ 2) = x * exp (x ^ 2) := by simp
    rw [← this]
    refine intervalIntegral.integral_mono_on hx.le hi (by simp) fun t ht => exp_le_exp.2 ?_
    exact pow_le_pow_left₀ ht.1 ht.2 2
  unfold dawsonRatio
  constructor
  · rw [le_div_iff₀ hx]
    exact mul_le_mul_of_nonneg_left lo (exp_pos _).le
  · rw [div_le_one hx]
    calc exp (-x ^ 2) * (∫ t in (0 : ℝ)..x, exp (t ^ 2)) ≤ exp (-x ^ 2) * (x * exp (x ^ 2)) :=
          mul_le_mul_of_nonneg_left up (exp_pos _).le
      _ = x := by rw [mul_left_comm, ← exp_add]; simp

/-- Salpeter's dielectric function at zero energy. -/
theorem epsSalpeter_static {k T n : ℝ} (hk : 0 < k) (hT : 0 < T) (hn : 0 < n) :
    epsSalpeter u k T n 0 = ((1 + kDAD u T n ^ 2 / k ^ 2 * dawsonRatio (kappaSalpeter u k T) : ℝ) : ℂ) := by
  have he := u.eps0_pos; have hB := u.kB_pos; have hme := u.me_pos
  have hkap := kappaSalpeter_pos (u := u) hk hT
  have hx : xSalpeter u k T 0 = 0 := by simp [xSalpeter]
  have hv : thermalVelocity u T ^ 2 = u.kB * T / u.me := by
    unfold thermalVelocity; exact sq_sqrt (by positivity)
  unfold epsSalpeter
  simp only []
  rw [hx, zero_add, zero_sub, wSalpeter_neg, kDAD_sq hT hn one_pos, hv]
  generalize kappaSalpeter u k T = x at *
  apply Complex.ext
  · simp only [Complex.add_re, Complex.one_re, Complex.re_ofReal_mul, Complex.sub_re, Complex.ofReal_re,
      Complex.div_ofReal_re, Complex.conj_re]
    unfold wSalpeter dawsonRatio plasmaFreqSq
    simp only []
    field_simp
    ring
  · simp only [Complex.add_im, Complex.one_im, Complex.im_ofReal_mul, Complex.sub_im, Complex.ofReal_im,
      Complex.div_ofReal_im, Complex.conj_im]
    field_simp
    ring

section

variable {k T ne mi Zf : ℝ}

/-- C66: the screening charge of Gregori et al. in closed form. -/
theorem qGregori2004_eq (h : Phys T T ne mi Zf) (hk : 0 < k) :
    qGregori2004 u k mi ne T T Zf =
      ((Zf * kDAD u T ne ^ 2 / ((1 + k ^ 2 * lam2 u T u.me mi) *
        (k ^ 2 + kDAD u T ne ^ 2 * dawsonRatio (kappaSalpeter u k T))) : ℝ) : ℂ) := by
  have he := u.eps0_pos; have hB := u.kB_pos; have hee := u.e_pos; have hme := u.me_pos
  have hT := h.te; have hn := h.ne; have hm := h.mi; have hz := h.zf
  have hD := rpaDet_pos (u := u) h hk.ne'
  have hd := dawsonRatio_bounds (kappaSalpeter_pos (u := u) hk hT)
  have hd0 : 0 < dawsonRatio (kappaSalpeter u k T) := (exp_pos _).trans_le hd.1
  have hl := lam2_pos (u := u) hT hme hm
  have hsq : sqrt (ne / Zf * ne) = ne / sqrt Zf := by
    rw [show ne / Zf * ne = ne ^ 2 / Zf by ring, sqrt_div (by positivity), sqrt_sq hn.le]
  have hsz : 0 < sqrt Zf := sqrt_pos.2 hz
  have hsz2 : sqrt Zf ^ 2 = Zf := sq_sqrt hz.le
  have hC : sqrt Zf * sEiAD u k T T ne mi Zf /
      (sEeAD u k T T ne mi Zf * sIiAD u k T T ne mi Zf - sEiAD u k T T ne mi Zf ^ 2) =
      Zf * kDAD u T ne ^ 2 / (k ^ 2 * (1 + k ^ 2 * lam2 u T u.me mi)) := by
    have hU : sqrt Zf * -uEi u k T ne mi Zf = Zf * kDAD u T ne ^ 2 / (k ^ 2 * (1 + k ^ 2 * lam2 u T u.me mi)) := by
      unfold uEi pseudo
      rw [hsq, kDAD_sq hT hn one_pos]
      generalize lam2 u T u.me mi = l at *
      generalize sqrt Zf = z at *
      field_simp
    rw [← hU, sEiAD_self h hk.ne', sEeAD_self h hk.ne', sIiAD_eq h hk.ne' hD.ne']
    have hDd : rpaDet u k T T ne mi Zf =
        (1 + uEe u k T ne) * (1 + uIi u k T ne mi Zf) - uEi u k T ne mi Zf ^ 2 := by
      unfold rpaDet; rw [uEi2_self h]
    generalize rpaDet u k T T ne mi Zf = D at *
    have : (1 + uIi u k T ne mi Zf) / D * ((1 + uEe u k T ne) / D) - (-uEi u k T ne mi Zf / D) ^ 2 = 1 / D := by
      field_simp; rw [hDd]; ring
    rw [this]
    field_simp
  unfold qGregori2004
  simp only []
  rw [hC, epsSalpeter_static hk hT hn, ← Complex.ofReal_div]
  congr 1
  generalize lam2 u T u.me mi = l at *
  generalize dawsonRatio _ = d at *
  have : 0 < kDAD u T ne ^ 2 := by rw [kDAD_sq hT hn one_pos]; positivity
  generalize kDAD u T ne ^ 2 = a at *
  field_simp

theorem kappaSalpeter_sq (hT : 0 < T) (k : ℝ) :
    kappaSalpeter u k T ^ 2 = k ^ 2 * (u.hbar ^ 2 / (8 * u.me * u.kB * T)) := by
  have hB := u.kB_pos; have hme := u.me_pos
  have hv : thermalVelocity u T ^ 2 = u.kB * T / u.me := by
    unfold thermalVelocity; exact sq_sqrt (by positivity)
  unfold kappaSalpeter
  rw [div_pow, mul_pow, mul_pow, mul_pow, mul_pow, hv, sq_sqrt (by norm_num)]
  field_simp
  ring

theorem tendsto_dawson (hT : 0 < T) :
    Tendsto (fun k => dawsonRatio (kappaSalpeter u k T)) (𝓝[>] 0) (𝓝 1) := by
  have hl : Tendsto (fun k => exp (-(k ^ 2 * (u.hbar ^ 2 / (8 * u.me * u.kB * T))))) (𝓝[>] 0) (𝓝 1) := by
    have : Continuous fun k : ℝ => exp (-(k ^ 2 * (u.hbar ^ 2 / (8 * u.me * u.kB * T)))) := by fun_prop
    have := (this.tendsto 0).mono_left (nhdsWithin_le_nhds (s := Set.Ioi 0))
    simpa using this
  refine tendsto_of_tendsto_of_tendsto_of_le_of_le' hl tendsto_const_nhds ?_ ?_
  · filter_upwards [self_mem_nhdsWithin] with k hk
    rw [← kappaSalpeter_sq hT]
    exact (dawsonRatio_bounds (kappaSalpeter_pos (u := u) hk hT)).1
  · filter_upwards [self_mem_nhdsWithin] with k hk
    exact (dawsonRatio_bounds (kappaSalpeter_pos (u := u) hk hT)).2

/-- C66: the screening charge of Gregori et al. is real and positive and screens the ion completely on
large scales.
(Partial: it fails in cold plasmas, see `gregori2004_overscreens`, and for Gericke's screening, see `gericke2010_ne_dh`.) -/
theorem gregori2004_spec_partial (h : Phys T T ne mi Zf) :
    (∀ k, 0 < k → (qGregori2004 u k mi ne T T Zf).im = 0 ∧ 0 < gregori2004Screening u k mi ne T Zf) ∧
      Tendsto (fun k => gregori2004Screening u k mi ne T Zf) (𝓝[>] 0) (𝓝 Zf) := by
  have he := u.eps0_pos; have hB := u.kB_pos; have hee := u.e_pos; have hme := u.me_pos
  have hT := h.te; have hn := h.ne; have hm := h.mi; have hz := h.zf
  have ha : 0 < kDAD u T ne ^ 2 := by rw [kDAD_sq hT hn one_pos]; positivity
  have hl := lam2_pos (u := u) hT hme hm
  have e : ∀ k, 0 < k → gregori2004Screening u k mi ne T Zf =
      Zf * kDAD u T ne ^ 2 / ((1 + k ^ 2 * lam2 u T u.me mi) *
        (k ^ 2 + kDAD u T ne ^ 2 * dawsonRatio (kappaSalpeter u k T))) := fun k hk => by
    unfold gregori2004Screening
    rw [if_neg hz.ne', qGregori2004_eq h hk, Complex.ofReal_re]
  refine ⟨fun k hk => ⟨?_, ?_⟩, ?_⟩
  · rw [qGregori2004_eq h hk, Complex.ofReal_im]
  · rw [e k hk]
    have : 0 < dawsonRatio (kappaSalpeter u k T) :=
      (exp_pos _).trans_le (dawsonRatio_bounds (kappaSalpeter_pos (u := u) hk hT)).1
    positivity
  · have hk2 : Tendsto (fun k : ℝ => k ^ 2) (𝓝[>] 0) (𝓝 0) :=
      tendsto_sq_zero.mono_left (nhdsWithin_mono _ fun x hx => ne_of_gt hx)
    have lim : Tendsto (fun k => Zf * kDAD u T ne ^ 2 / ((1 + k ^ 2 * lam2 u T u.me mi) *
        (k ^ 2 + kDAD u T ne ^ 2 * dawsonRatio (kappaSalpeter u k T)))) (𝓝[>] 0)
        (𝓝 (Zf * kDAD u T ne ^ 2 / ((1 + 0 * lam2 u T u.me mi) * (0 + kDAD u T ne ^ 2 * 1)))) := by
      refine tendsto_const_nhds.div (((hk2.mul_const _).const_add 1).mul
        (hk2.add ((tendsto_dawson hT).const_mul _))) ?_
      simp [ha.ne']
    have hlim : Zf * kDAD u T ne ^ 2 / ((1 + 0 * lam2 u T u.me mi) * (0 + kDAD u T ne ^ 2 * 1)) = Zf := by
      field_simp; ring
    rw [hlim] at lim
    refine lim.congr' ?_
    filter_upwards [self_mem_nhdsWithin] with k hk
    exact (e k hk).symm

/-- C66: with the structure factors of Arkhipov and Davletov the formula of Glenzer and Redmer gives
complete screening, too. -/
theorem glenzer2009_small (h : Phys T T ne mi Zf) :
    Tendsto (fun k => qGlenzer2009 (sEiAD u k T T ne mi Zf) (sIiAD u k T T ne mi Zf) Zf) (𝓝[≠] 0) (𝓝 Zf) := by
  obtain ⟨S0, h0, -, hi, -, hei⟩ := sAD_small (u := u) h
  have := (hei.const_mul (sqrt Zf)).div hi h0.ne'
  have e : sqrt Zf * (sqrt Zf * S0) / S0 = Zf := by
    have := mul_self_sqrt h.zf.le
    field_simp
    linarith
  rw [e] at this
  exact this

/-! ### Cold plasmas are overscreened -/

theorem dawsonRatio_le {d x : ℝ} (hd0 : 0 < d) (hd : d < 1) (hx : 0 < x) :
    dawsonRatio x ≤ 1 / ((2 - d) * x ^ 2) + exp (-(d * x ^ 2)) := by
  have hI : exp (-x ^ 2) * (∫ t in (0 : ℝ)..x, exp (t ^ 2)) = ∫ t in (0 : ℝ)..x, exp (t ^ 2 - x ^ 2) := by
    rw [← intervalIntegral.integral_const_mul]
    congr 1
    funext t
    rw [← exp_add]; congr 1; ring
  have hpt : ∀ t ∈ Set.Icc 0 x, exp (t ^ 2 - x ^ 2) ≤ exp (-((2 - d) * x) * (x - t)) + exp (-(d * x ^ 2)) := by
    intro t ht
    rcases le_total (x - t) (d * x) with h1 | h1
    · refine le_add_of_le_of_nonneg (exp_le_exp.2 ?_) (exp_pos _).le
      have : t ^ 2 - x ^ 2 = -(x - t) * (x + t) := by ring
      nlinarith [mul_nonneg (sub_nonneg.2 ht.2) (sub_nonneg.2 h1)]
    · refine le_add_of_nonneg_of_le (exp_pos _).le (exp_le_exp.2 ?_)
      have : t ^ 2 - x ^ 2 = -(x - t) * (x + t) := by ring
      nlinarith [mul_nonneg (sub_nonneg.2 ht.2) ht.1]
  have hc1 : Continuous fun t : ℝ => exp (t ^ 2 - x ^ 2) := by fun_prop
  have hc2 : Continuous fun t : ℝ => exp (-((2 - d) * x) * (x - t)) := by fun_prop
  have hmono := intervalIntegral.integral_mono_on (μ := volume) hx.le (hc1.intervalIntegrable 0 x)
    ((hc2.add continuous_const).intervalIntegrable 0 x) hpt
  have hb : 0 < (2 - d) * x := mul_pos (by linarith) hx
  have hint : ∫ t in (0 : ℝ)..x, (exp (-((2 - d) * x) * (x - t)) + exp (-(d * x ^ 2))) ≤
      1 / ((2 - d) * x) + x * exp (-(d * x ^ 2)) := by
    rw [intervalIntegral.integral_add (hc2.intervalIntegrable _ _) (by simp)]
    have e1 : ∫ t in (0 : ℝ)..x, exp (-((2 - d) * x) * (x - t)) = (1 - exp (-((2 - d) * x) * x)) / ((2 - d) * x) := by
      have hder : ∀ t ∈ Set.uIcc 0 x, HasDerivAt (fun t => exp (-((2 - d) * x) * (x - t)) / ((2 - d) * x))
          (exp (-((2 - d) * x) * (x - t))) t := by
        intro t _
        have h1 : HasDerivAt (fun t : ℝ => -((2 - d) * x) * (x - t)) ((2 - d) * x) t := by
          have := ((hasDerivAt_id t).const_sub x).const_mul (-((2 - d) * x))
          exact this.congr_deriv (by ring)
        exact (h1.exp.div_const _).congr_deriv (mul_div_cancel_right₀ _ hb.ne')
      rw [intervalIntegral.integral_eq_sub_of_hasDerivAt hder (hc2.intervalIntegrable _ _)]
      rw [sub_self, mul_zero, exp_zero, sub_zero, ← sub_div]
    have e2 : ∫ _ in (0 : ℝ)..x, exp (-(d * x ^ 2)) = x * exp (-(d * x ^ 2)) := by simp
    rw [e1, e2]
    have : (1 - exp (-((2 - d) * x) * x)) / ((2 - d) * x) ≤ 1 / ((2 - d) * x) :=
      div_le_div_of_nonneg_right (by linarith [exp_pos (-((2 - d) * x) * x)]) hb.le
    linarith
  unfold dawsonRatio
  rw [hI, div_le_iff₀ hx]
  refine (hmono.trans hint).trans (le_of_eq ?_)
  have : 2 - d ≠ 0 := by linarith
  field_simp

/-- C66: the screening charge is not bounded by the charge of the ion: in a cold plasma the formula of
Gregori et al. screens more than the whole charge. -/
theorem gregori2004_overscreens (hn : 0 < ne) (hm : 2 * u.me ≤ mi) (hz : 0 < Zf) :
    ∃ k T, 0 < k ∧ 0 < T ∧ Zf < gregori2004Screening u k mi ne T Zf := by
  have he := u.eps0_pos; have hB := u.kB_pos; have hee := u.e_pos; have hme := u.me_pos; have hh := u.hbar_pos
  have hmi : 0 < mi := by linarith
  have hpi : (3 : ℝ) < π := pi_gt_three
  have hpi2 : (3.14 : ℝ) < π := pi_gt_d2
  set c := 4 / π * ((u.me + mi) / mi) with hcdef
  have hc0 : 0 < c := by positivity
  have hc2 : c < 1.95 := by
    have : (u.me + mi) / mi ≤ 3 / 2 := by rw [div_le_div_iff₀ hmi (by norm_num)]; linarith
    calc c ≤ 4 / π * (3 / 2) := mul_le_mul_of_nonneg_left this (by positivity)
      _ = 6 / π := by ring
      _ < 1.95 := by rw [div_lt_iff₀ pi_pos]; linarith
  -- a reduced wave number for which the numerator wins
  obtain ⟨x, hx, hxd⟩ : ∃ x, 0 < x ∧ (1 + c * x ^ 2) * dawsonRatio x < 1 := by
    have hlim : Tendsto (fun y : ℝ => (1 + c * y) * (1 / ((2 - 0.04) * y) + exp (-(0.04 * y)))) atTop
        (𝓝 (c / 1.96)) := by
      have t1 : Tendsto (fun y : ℝ => y⁻¹) atTop (𝓝 0) := tendsto_inv_atTop_zero
      have t2 : Tendsto (fun y : ℝ => exp (-(0.04 * y))) atTop (𝓝 0) := by
        refine tendsto_exp_neg_atTop_nhds_zero.comp ?_
        exact tendsto_id.const_mul_atTop (by norm_num)
      have t3 : Tendsto (fun y : ℝ => y * exp (-(0.04 * y))) atTop (𝓝 0) := by
        have h1 := (tendsto_pow_mul_exp_neg_atTop_nhds_zero 1).comp
          (tendsto_id.const_mul_atTop (by norm_num : (0 : ℝ) < 0.04))
        have h2 := h1.const_mul (1 / 0.04)
        rw [mul_zero] at h2
        refine h2.congr fun y => ?_
        simp only [Function.comp, id, pow_one]
        ring
      have t4 : Tendsto (fun y : ℝ => 1 / 1.96 * y⁻¹ + exp (-(0.04 * y)) + c / 1.96 + c * (y * exp (-(0.04 * y)))) atTop
          (𝓝 (1 / 1.96 * 0 + 0 + c / 1.96 + c * 0)) :=
        (((t1.const_mul _).add t2).add_const _).add (t3.const_mul c)
      rw [show 1 / 1.96 * 0 + 0 + c / 1.96 + c * 0 = c / 1.96 by ring] at t4
      refine t4.congr' ?_
      filter_upwards [eventually_gt_atTop 0] with y hy
      have h196 : (2 : ℝ) - 0.04 = 1.96 := by norm_num
      rw [h196]
      field_simp
      ring
    have hlt : c / 1.96 < 1 := by rw [div_lt_one (by norm_num)]; linarith
    obtain ⟨y, hy, hy0⟩ := ((hlim.eventually (gt_mem_nhds hlt)).and (eventually_gt_atTop 0)).exists
    refine ⟨sqrt y, sqrt_pos.2 hy0, lt_of_le_of_lt ?_ hy⟩
    have := dawsonRatio_le (d := 0.04) (by norm_num) (by norm_num) (sqrt_pos.2 hy0)
    rw [sq_sqrt hy0.le] at this ⊢
    exact mul_le_mul_of_nonneg_left this (by positivity)
  set g := 1 - (1 + c * x ^ 2) * dawsonRatio x with hg
  have hg0 : 0 < g := by linarith
  set P := ne * u.e ^ 2 / (u.eps0 * u.kB) with hP
  have hP0 : 0 < P := by positivity
  set Q := 8 * u.me * u.kB * x ^ 2 / u.hbar ^ 2 with hQ
  have hQ0 : 0 < Q := by positivity
  set R := P * g / ((1 + c * x ^ 2) * Q) with hR
  have hR0 : 0 < R := by positivity
  -- a low temperature
  set T := min 1 (R / 2) with hTdef
  have hT : 0 < T := lt_min one_pos (by positivity)
  have hT2 : T ^ 2 < R := by
    have h1 : T ≤ 1 := min_le_left _ _
    have h2 : T ≤ R / 2 := min_le_right _ _
    nlinarith
  have h : Phys T T ne mi Zf := ⟨hT, hT, hn, hmi, hz⟩
  set k := sqrt (Q * T) with hkdef
  have hk : 0 < k := sqrt_pos.2 (by positivity)
  have hk2 : k ^ 2 = Q * T := sq_sqrt (by positivity)
  refine ⟨k, T, hk, hT, ?_⟩
  have hkx : kappaSalpeter u k T = x := by
    have h1 : kappaSalpeter u k T ^ 2 = x ^ 2 := by
      rw [kappaSalpeter_sq hT, hk2, hQ]; field_simp
    exact (sq_eq_sq₀ (kappaSalpeter_pos (u := u) hk hT).le hx.le).1 h1
  have hkl : k ^ 2 * lam2 u T u.me mi = c * x ^ 2 := by
    rw [hk2, hQ, hcdef]
    unfold lam2
    field_simp
    ring
  have ha : kDAD u T ne ^ 2 = P / T := by rw [kDAD_sq hT hn one_pos, hP]; field_simp
  have hd0 : 0 < dawsonRatio x := (exp_pos _).trans_le (dawsonRatio_bounds hx).1
  unfold gregori2004Screening
  rw [if_neg hz.ne', qGregori2004_eq h hk, Complex.ofReal_re, hkx, hkl, ha, hk2]
  have hden : 0 < (1 + c * x ^ 2) * (Q * T + P / T * dawsonRatio x) := by positivity
  rw [lt_div_iff₀ hden]
  apply mul_lt_mul_of_pos_left _ hz
  have e : (1 + c * x ^ 2) * (Q * T + P / T * dawsonRatio x) = (1 + c * x ^ 2) * Q * T + P / T * (1 - g) := by
    rw [hg]; ring
  rw [e]
  have : (1 + c * x ^ 2) * Q * T < P / T * g := by
    rw [hR, lt_div_iff₀ (by positivity)] at hT2
    rw [div_mul_eq_mul_div, lt_div_iff₀ hT]
    nlinarith
  linarith

end

example : ∃ k T, 0 < k ∧ 0 < T ∧ 2 < gregori2004Screening unitConsts k 1800 1 T 2 :=
  gregori2004_overscreens one_pos (by simp [unitConsts]; norm_num) (by norm_num)

example : (0 : ℝ) < gregori2004Screening unitConsts 1 1800 1 1 2 :=
  ((gregori2004_spec_partial (u := unitConsts) ⟨by norm_num, by norm_num, by norm_num, by norm_num, by norm_num⟩).1 1
    (by norm_num)).2

example : dhScreening 1 1 2 = 1 := by norm_num [dhScreening, qDebyeHueckel]

end Verif.Ssf
