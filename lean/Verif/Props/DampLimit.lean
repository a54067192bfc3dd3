/-
For vanishing damping, both implementations of the damped dielectric function tend to the undamped
one, and the Born-Mermin dielectric functions tend to the random phase approximation.
-/
import Verif.Lemmas.DampLimit
import Verif.Props.Spectral

set_option autoImplicit false

namespace Verif.Resp

open Real Verif.Expt MeasureTheory Set Filter Topology Verif.Lindhard Verif.Interp

variable (u : Consts)

/-- The four logarithms of the real part. -/
theorem realRPA_logInt (k mu : ℝ) {T : ℝ} (hT : 0 < T) (E : ℂ) :
    realRPA u k E mu T = 1 + cst u k T / 2 *
      (logInt (mu / (u.kB * T)) ((redW u k E T).re - kapRewrite u k T) (redW u k E T).im +
        logInt (mu / (u.kB * T)) (-((redW u k E T).re + kapRewrite u k T)) (redW u k E T).im -
        logInt (mu / (u.kB * T)) (-((redW u k E T).re - kapRewrite u k T)) (redW u k E T).im -
        logInt (mu / (u.kB * T)) ((redW u k E T).re + kapRewrite u k T) (redW u k E T).im) := by
  have hU := thermalUnit_pos u hT
  have e2 := kapRewrite_eq u k hT
  have e3 := redW_re u k E hT
  have e4 := redW_im u k E hT
  set eta := mu / (u.kB * T) with heta
  set a := (redW u k E T).re
  set b := (redW u k E T).im
  set kap := kapRewrite u k T
  have hsplit : (logInt eta (a - kap) b + logInt eta (-(a + kap)) b - logInt eta (-(a - kap)) b -
      logInt eta (a + kap) b) = ∫ t in Ioi (0 : ℝ), (phi eta t * log (b ^ 2 + (t - (a - kap)) ^ 2) +
        phi eta t * log (b ^ 2 + (t - -(a + kap)) ^ 2) - phi eta t * log (b ^ 2 + (t - -(a - kap)) ^ 2) -
        phi eta t * log (b ^ 2 + (t - (a + kap)) ^ 2)) := by
    have i1 := logInt_integrable eta (a - kap) b
    have i2 := logInt_integrable eta (-(a + kap)) b
    have i3 := logInt_integrable eta (-(a - kap)) b
    have i4 := logInt_integrable eta (a + kap) b
    have s1 := integral_sub ((i1.add i2).sub i3) i4
    have s2 := integral_sub (i1.add i2) i3
    have s3 := integral_add i1 i2
    simp only [Pi.add_apply, Pi.sub_apply] at s1 s2 s3
    unfold logInt
    rw [s1, s2, s3]
  rw [hsplit]
  simp only [realRPA, cst]
  set U := thermalUnit u T with hUdef
  set ka := E.re / u.hbar * u.me / (u.hbar * k) with hka
  set de := E.im / u.hbar * u.me / (u.hbar * k) with hde
  have hint : ∫ t in Ioi (0 : ℝ), t / U * fermiDirac u (t / U) mu T *
        log ((de ^ 2 + (ka - k / 2 - t / U) ^ 2) * (de ^ 2 + (ka + k / 2 + t / U) ^ 2) /
          ((de ^ 2 + (ka - k / 2 + t / U) ^ 2) * (de ^ 2 + (ka + k / 2 - t / U) ^ 2))) * U =
      ∫ t in Ioi (0 : ℝ), 1 / 2 * (phi eta t * log (b ^ 2 + (t - (a - kap)) ^ 2) +
        phi eta t * log (b ^ 2 + (t - -(a + kap)) ^ 2) - phi eta t * log (b ^ 2 + (t - -(a - kap)) ^ 2) -
        phi eta t * log (b ^ 2 + (t - (a + kap)) ^ 2)) := by
    refine integral_congr_ae (ae_restrict_of_ae ?_)
    filter_upwards [ae_ne (a - kap), ae_ne (-(a + kap)), ae_ne (-(a - kap)), ae_ne (a + kap)] with
      t h1 h2 h3 h4
    have hf := fermi_phi u mu t hT
    rw [← hUdef, ← heta] at hf
    have p1 : 0 < b ^ 2 + (t - (a - kap)) ^ 2 := by have := sub_ne_zero.2 h1; positivity
    have p2 : 0 < b ^ 2 + (t - -(a + kap)) ^ 2 := by have := sub_ne_zero.2 h2; positivity
    have p3 : 0 < b ^ 2 + (t - -(a - kap)) ^ 2 := by have := sub_ne_zero.2 h3; positivity
    have p4 : 0 < b ^ 2 + (t - (a + kap)) ^ 2 := by have := sub_ne_zero.2 h4; positivity
    have q1 : de ^ 2 + (ka - k / 2 - t / U) ^ 2 = (b ^ 2 + (t - (a - kap)) ^ 2) / U ^ 2 := by
      rw [e2, e3, e4]; field_simp; ring
    have q2 : de ^ 2 + (ka + k / 2 + t / U) ^ 2 = (b ^ 2 + (t - -(a + kap)) ^ 2) / U ^ 2 := by
      rw [e2, e3, e4]; field_simp; ring
    have q3 : de ^ 2 + (ka - k / 2 + t / U) ^ 2 = (b ^ 2 + (t - -(a - kap)) ^ 2) / U ^ 2 := by
      rw [e2, e3, e4]; field_simp; ring
    have q4 : de ^ 2 + (ka + k / 2 - t / U) ^ 2 = (b ^ 2 + (t - (a + kap)) ^ 2) / U ^ 2 := by
      rw [e2, e3, e4]; field_simp; ring
    rw [q1, q2, q3, q4]
    generalize b ^ 2 + (t - (a - kap)) ^ 2 = A at *
    generalize b ^ 2 + (t - -(a + kap)) ^ 2 = B at *
    generalize b ^ 2 + (t - -(a - kap)) ^ 2 = C at *
    generalize b ^ 2 + (t - (a + kap)) ^ 2 = D at *
    have hq : A / U ^ 2 * (B / U ^ 2) / (C / U ^ 2 * (D / U ^ 2)) = A * B / (C * D) := by
      field_simp
    rw [hq, log_div (mul_pos p1 p2).ne' (mul_pos p3 p4).ne', log_mul p1.ne' p2.ne',
      log_mul p3.ne' p4.ne']
    linear_combination (log A + log B - (log C + log D)) * hf
  rw [hint, integral_const_mul]
  ring

theorem redW_continuous (k : ℝ) {T : ℝ} (hT : 0 < T) : Continuous fun E : ℂ => redW u k E T := by
  simp only [redW_eq u k _ hT]
  fun_prop

/-- The real part of `dielectric_function_RPA` is continuous in the complex energy, also at real
energies. -/
theorem realRPA_continuous (k mu : ℝ) {T : ℝ} (hT : 0 < T) :
    Continuous fun E : ℂ => realRPA u k E mu T := by
  simp only [realRPA_logInt u k mu hT]
  have hw := redW_continuous u k hT
  have hr : Continuous fun E : ℂ => (redW u k E T).re := Complex.continuous_re.comp hw
  have hi : Continuous fun E : ℂ => (redW u k E T).im := Complex.continuous_im.comp hw
  have hL := logInt_continuous (mu / (u.kB * T))
  have h : ∀ f : ℂ → ℝ, Continuous f →
      Continuous fun E : ℂ => logInt (mu / (u.kB * T)) (f E) (redW u k E T).im :=
    fun f hf => hL.comp (hf.prodMk hi)
  have h1 := h _ (hr.sub (continuous_const (y := kapRewrite u k T)))
  have h2 := h _ ((hr.add (continuous_const (y := kapRewrite u k T))).neg)
  have h3 := h _ ((hr.sub (continuous_const (y := kapRewrite u k T))).neg)
  have h4 := h _ (hr.add (continuous_const (y := kapRewrite u k T)))
  exact continuous_const.add (continuous_const.mul (((h1.add h2).sub h3).sub h4))

/-- The undamped imaginary part is the density of the spectral representation. -/
theorem imagRPANoDamping_wgt {k T : ℝ} (hk : 0 < k) (hT : 0 < T) (E mu : ℝ) :
    imagRPANoDamping u k E mu T = cst u k T *
      (π * wgt (mu / (u.kB * T)) (kapRewrite u k T) (redW u k (E : ℂ) T).re) := by
  have hm := u.me_pos
  have he := u.e_pos
  have h0 := u.eps0_pos
  have hh := u.hbar_pos
  have hB := u.kB_pos
  have hp := pTh_pos u hT
  have hs := pTh_sq u hT
  have hkap : ∀ x : ℝ, (mu - kinEnergy u x) / (u.kB * T) =
      mu / (u.kB * T) - (x * thermalUnit u T) ^ 2 := by
    intro x
    rw [thermalUnit_eq u hT]
    have : (x * (u.hbar / pTh u T)) ^ 2 = x ^ 2 * u.hbar ^ 2 / (2 * u.me * u.kB * T) := by
      rw [← hs]
      field_simp
    rw [this]
    unfold kinEnergy
    field_simp
  simp only [imagRPANoDamping, hkap, logaddexp0, exp_zero]
  rw [redW_re u k _ hT, kapRewrite_eq u k hT, Complex.ofReal_re]
  unfold wgt psi
  rw [show E / u.hbar * u.me / (u.hbar * k) = kappaRPA u k E from rfl]
  have e1 : (-k / 2 - kappaRPA u k E) * thermalUnit u T =
      -(kappaRPA u k E * thermalUnit u T + k / 2 * thermalUnit u T) := by ring
  have e2 : (k / 2 - kappaRPA u k E) * thermalUnit u T =
      -(kappaRPA u k E * thermalUnit u T - k / 2 * thermalUnit u T) := by ring
  rw [e1, e2, neg_sq, neg_sq]
  generalize log (1 + exp (mu / (u.kB * T) -
    (kappaRPA u k E * thermalUnit u T + k / 2 * thermalUnit u T) ^ 2)) = A
  generalize log (1 + exp (mu / (u.kB * T) -
    (kappaRPA u k E * thermalUnit u T - k / 2 * thermalUnit u T) ^ 2)) = B
  have hc : cst u k T * π = u.kB * T * u.me ^ 2 * u.e ^ 2 / (2 * π * u.eps0 * u.hbar ^ 4 * k ^ 3) := by
    unfold cst
    rw [thermalUnit_eq u hT, div_pow, hs]
    have := pi_pos
    field_simp
    ring
  rw [← hc]
  ring

/-- C55: for vanishing damping, both implementations of the damped dielectric function tend to the
undamped one: the zero that the default one returns at real energies is not its limit. -/
theorem epsDamped_tendsto (rewrite unsave : Bool) {k T : ℝ} (hk : 0 < k) (hT : 0 < T) {E : ℝ}
    (hE : E ≠ 0) (mu : ℝ) :
    Tendsto (fun z : ℂ => epsDamped u rewrite k z mu T) (𝓝[{z : ℂ | 0 < z.im}] (E : ℂ))
      (𝓝 (epsRPANoDamping u k E mu T unsave)) := by
  have hmem : ∀ᶠ z : ℂ in 𝓝[{z : ℂ | 0 < z.im}] (E : ℂ), 0 < z.im := self_mem_nhdsWithin
  have hre0 : ∀ᶠ z : ℂ in 𝓝[{z : ℂ | 0 < z.im}] (E : ℂ), z.re ≠ 0 := by
    refine nhdsWithin_le_nhds ?_
    exact Complex.continuous_re.continuousAt.eventually_ne (by simpa using hE)
  have hus : epsRPANoDamping u k E mu T unsave = epsRPANoDamping u k E mu T true := by
    cases unsave
    · exact (epsRPANoDamping_unsave u hk hT E mu).symm
    · rfl
  rw [hus]
  suffices h : Tendsto (fun z : ℂ => epsRPA u k z mu T) (𝓝[{z : ℂ | 0 < z.im}] (E : ℂ))
      (𝓝 (epsRPANoDamping u k E mu T true)) by
    refine h.congr' ?_
    filter_upwards [hmem, hre0] with z h1 h2
    rw [epsDamped_eq u rewrite hk hT (fun _ => h2) h1.ne', epsRPA_eq u hk hT h1.ne']
  have hreal : Tendsto (fun z : ℂ => (epsRPA u k z mu T).re) (𝓝[{z : ℂ | 0 < z.im}] (E : ℂ))
      (𝓝 (epsRPANoDamping u k E mu T true).re) := by
    have h := ((realRPA_continuous u k mu hT).tendsto (E : ℂ)).mono_left
      (nhdsWithin_le_nhds (s := {z : ℂ | 0 < z.im}))
    rw [realRPA_real] at h
    exact h
  have himag : Tendsto (fun z : ℂ => (epsRPA u k z mu T).im) (𝓝[{z : ℂ | 0 < z.im}] (E : ℂ))
      (𝓝 (epsRPANoDamping u k E mu T true).im) := by
    have hf : 0 < u.me / (u.hbar * k * pTh u T) := by
      have := u.me_pos
      have := u.hbar_pos
      have := pTh_pos u hT
      positivity
    have hw : Tendsto (fun z : ℂ => redW u k z T) (𝓝[{z : ℂ | 0 < z.im}] (E : ℂ))
        (𝓝[{z : ℂ | 0 < z.im}] ((redW u k (E : ℂ) T).re : ℂ)) := by
      refine tendsto_nhdsWithin_iff.2 ⟨?_, ?_⟩
      · have h := ((redW_continuous u k hT).tendsto (E : ℂ)).mono_left
          (nhdsWithin_le_nhds (s := {z : ℂ | 0 < z.im}))
        have e : redW u k (E : ℂ) T = ((redW u k (E : ℂ) T).re : ℂ) := by
          apply Complex.ext
          · simp
          · rw [redW_im u k _ hT]
            simp
        rwa [e] at h
      · filter_upwards [hmem] with z hz
        rw [redW_eq u k z hT, Complex.im_mul_ofReal]
        exact mul_pos hz hf
    have h := ((polar_im_tendsto (mu / (u.kB * T)) (kapRewrite_pos u hk hT).le
      (redW u k (E : ℂ) T).re).comp hw).const_mul (cst u k T)
    rw [← imagRPANoDamping_wgt u hk hT] at h
    refine h.congr' ?_
    filter_upwards [hmem] with z hz
    rw [epsRPA_eq u hk hT hz.ne']
    simp
  have h := ((Complex.continuous_ofReal.tendsto _).comp hreal).add
    (((Complex.continuous_ofReal.tendsto _).comp himag).mul_const Complex.I)
  simp only [Function.comp_def, Complex.re_add_im] at h
  exact h

theorem dampedEnergy_tendsto (E : ℝ) :
    Tendsto (fun nu : ℂ => dampedEnergy u E nu) (𝓝[{nu : ℂ | 0 < nu.re}] 0)
      (𝓝[{z : ℂ | 0 < z.im}] (E : ℂ)) := by
  refine tendsto_nhdsWithin_iff.2 ⟨?_, ?_⟩
  · have hc : Continuous fun nu : ℂ => dampedEnergy u E nu := by
      unfold dampedEnergy
      fun_prop
    have h := (hc.tendsto 0).mono_left (nhdsWithin_le_nhds (s := {nu : ℂ | 0 < nu.re}))
    have e : dampedEnergy u E 0 = (E : ℂ) := by simp [dampedEnergy]
    rwa [e] at h
  · filter_upwards [self_mem_nhdsWithin] with nu hnu
    rw [dampedEnergy_im]
    exact mul_pos u.hbar_pos hnu

/-- C29: for vanishing collisions, with either implementation of the damped dielectric function and
any static value, Mermin's formula tends to the random phase approximation. -/
theorem mermin_tendsto (rewrite unsave : Bool) {k T : ℝ} (hk : 0 < k) (hT : 0 < T) {E : ℝ}
    (hE : E ≠ 0) (mu : ℝ) {p0 : ℂ} (h0 : p0 ≠ 0) :
    Tendsto (fun nu : ℂ => merminFit (E / u.hbar) nu
        (epsDamped u rewrite k (dampedEnergy u E nu) mu T - 1) p0) (𝓝[{nu : ℂ | 0 < nu.re}] 0)
      (𝓝 (epsRPANoDamping u k E mu T unsave)) := by
  have hw : E / u.hbar ≠ 0 := div_ne_zero hE u.hbar_pos.ne'
  have h := ((epsDamped_tendsto u rewrite unsave hk hT hE mu).comp
    (dampedEnergy_tendsto u E)).sub_const 1
  have h2 := merminFit_tendsto_partial hw h0 nhdsWithin_le_nhds h
  rw [add_sub_cancel] at h2
  exact h2

/-! ### Weak collisions -/

theorem arr_map (s : ℝ) (l : List ℝ) (i : ℕ) : arr (l.map fun y => s * y) i = s * arr l i := by
  unfold arr
  rw [List.getD_eq_getElem?_getD, List.getD_eq_getElem?_getD, List.getElem?_map]
  cases l[i]? <;> simp

theorem interpL_smul (s : ℝ) (xs ys : List ℝ) (x : ℝ) :
    interpL xs (ys.map fun y => s * y) x = s * interpL xs ys x := by
  simp only [interpL, interp, interpLR, Interp.segment, arr_map]
  split_ifs <;> ring

theorem mirror_map (r s : ℝ) (l : List ℝ) :
    mirror r (l.map fun y => s * y) = (mirror r l).map fun y => s * y := by
  unfold mirror
  rw [List.map_append, ← List.map_reverse, List.map_map, List.map_map]
  congr 1
  refine List.map_congr_left fun y _ => ?_
  simp only [Function.comp]
  ring

theorem bornNu_structure (eps : ℝ → ℝ → ℂ) (V S : ℝ → ℝ) (Zf s E : ℝ) :
    bornNu u eps V (fun q => s * S q) Zf E = s * bornNu u eps V S Zf E := by
  have hi : ∀ q, bornIntegrand u eps V (fun q => s * S q) E q =
      (s : ℂ) * bornIntegrand u eps V S E q := by
    intro q
    unfold bornIntegrand
    push_cast
    ring
  apply Complex.ext
  · simp only [bornNu, hi, Complex.re_ofReal_mul, integral_const_mul]
    ring
  · simp only [bornNu, hi, Complex.im_ofReal_mul, integral_const_mul]
    ring

theorem chapmanNu_smul (nu : ℝ → ℂ) (s Emin Emax : ℝ) (N : ℕ) (E : ℝ) :
    chapmanNu (fun x => s * nu x) Emin Emax N E = s * chapmanNu nu Emin Emax N E := by
  have e1 : ∀ l : List ℝ, (l.map fun x => ((s : ℂ) * nu x).re) =
      (l.map fun x => (nu x).re).map fun y => s * y := by
    intro l
    rw [List.map_map]
    exact List.map_congr_left fun y _ => by simp
  have e2 : ∀ l : List ℝ, (l.map fun x => ((s : ℂ) * nu x).im) =
      (l.map fun x => (nu x).im).map fun y => s * y := by
    intro l
    rw [List.map_map]
    exact List.map_congr_left fun y _ => by simp
  apply Complex.ext
  · rw [Complex.re_ofReal_mul]
    simp only [chapmanNu, e1, mirror_map, interpL_smul]
  · rw [Complex.im_ofReal_mul]
    simp only [chapmanNu, e2, mirror_map, interpL_smul]

theorem fullNu_smul (nu : ℝ → ℂ) (s : ℝ) (Es : List ℝ) (E : ℝ) :
    fullNu (fun x => s * nu x) Es E = s * fullNu nu Es E := by
  have e1 : ∀ l : List ℝ, (l.map fun x => ((s : ℂ) * nu x).re) =
      (l.map fun x => (nu x).re).map fun y => s * y := by
    intro l
    rw [List.map_map]
    exact List.map_congr_left fun y _ => by simp
  have e2 : ∀ l : List ℝ, (l.map fun x => ((s : ℂ) * nu x).im) =
      (l.map fun x => (nu x).im).map fun y => s * y := by
    intro l
    rw [List.map_map]
    exact List.map_congr_left fun y _ => by simp
  apply Complex.ext
  · rw [Complex.re_ofReal_mul]
    simp only [fullNu, e1, interpL_smul]
  · rw [Complex.im_ofReal_mul]
    simp only [fullNu, e2, interpL_smul]

theorem smul_tendsto {nu : ℂ} (hnu : 0 < nu.re) :
    Tendsto (fun s : ℝ => (s : ℂ) * nu) (𝓝[>] 0) (𝓝[{nu : ℂ | 0 < nu.re}] 0) := by
  refine tendsto_nhdsWithin_iff.2 ⟨?_, ?_⟩
  · have hc : Continuous fun s : ℝ => (s : ℂ) * nu := by fun_prop
    have h := (hc.tendsto 0).mono_left (nhdsWithin_le_nhds (s := Ioi (0 : ℝ)))
    simpa using h
  · filter_upwards [self_mem_nhdsWithin] with s hs
    have : 0 < s * nu.re := mul_pos hs hnu
    simpa using this

theorem imagRPANoDamping_ne {k T E : ℝ} (hk : 0 < k) (hT : 0 < T) (hE : E ≠ 0) (mu : ℝ) :
    imagRPANoDamping u k E mu T ≠ 0 := by
  rw [imagRPANoDamping_wgt u hk hT]
  have hkap := kapRewrite_pos u hk hT
  refine mul_ne_zero (cst_pos u hk hT).ne' (mul_ne_zero pi_pos.ne' ?_)
  have ha : (redW u k (E : ℂ) T).re ≠ 0 := by
    have := u.me_pos
    have := u.hbar_pos
    have := thermalUnit_pos u hT
    rw [redW_re u k _ hT, Complex.ofReal_re]
    positivity
  rcases lt_or_gt_of_ne ha with h | h
  · have := wgt_pos (eta := mu / (u.kB * T)) hkap (neg_pos.2 h)
    rw [wgt_neg] at this
    linarith
  · exact (wgt_pos hkap h).ne'

/-- The denominator of the local field correction does not vanish for a dielectric function with an
imaginary part. -/
theorem lfcDen_ne {eps1 : ℂ} {k : ℝ} (hk : 0 < k) (lfc : ℝ) (him : eps1.im ≠ 0) :
    1 - (vee u k : ℂ) * (1 - lfc) * noninteractingFromEps u eps1 k ≠ 0 := by
  have hv : (vee u k : ℂ) ≠ 0 := by
    have := vee_pos u hk.ne'
    exact Complex.ofReal_ne_zero.2 this.ne'
  have e : 1 - (vee u k : ℂ) * (1 - lfc) * noninteractingFromEps u eps1 k =
      1 - ((1 - lfc : ℝ) : ℂ) * (1 - eps1) := by
    unfold noninteractingFromEps
    push_cast
    field_simp
  rw [e]
  intro h0
  have h1 := congrArg Complex.im h0
  have h2 := congrArg Complex.re h0
  rw [Complex.sub_im, Complex.im_ofReal_mul] at h1
  rw [Complex.sub_re, Complex.re_ofReal_mul] at h2
  simp only [Complex.one_im, Complex.sub_im, Complex.zero_im, Complex.one_re, Complex.sub_re,
    Complex.zero_re] at h1 h2
  have h3 : (1 - lfc) * eps1.im = 0 := by linarith
  rcases mul_eq_zero.1 h3 with h4 | h4
  · rw [h4] at h2
    linarith
  · exact him h4

/-- Tending dielectric functions have tending structure factors. -/
theorem chain_tendsto {α : Type*} {l : Filter α} {eps : α → ℂ} {eps1 : ℂ} {k : ℝ} (hk : 0 < k)
    (T n E lfc : ℝ) (him : eps1.im ≠ 0) (h : Tendsto eps l (𝓝 eps1)) :
    Tendsto (fun a => s0eeSusceptibility u k T n E
        (xiLfc (noninteractingFromEps u (eps a) k) (vee u k) lfc)) l
      (𝓝 (s0eeSusceptibility u k T n E (xiLfc (noninteractingFromEps u eps1 k) (vee u k) lfc))) := by
  have hx : Tendsto (fun a => noninteractingFromEps u (eps a) k) l
      (𝓝 (noninteractingFromEps u eps1 k)) := (tendsto_const_nhds.sub h).div_const _
  have hden := lfcDen_ne u hk lfc him
  have hxi : Tendsto (fun a => xiLfc (noninteractingFromEps u (eps a) k) (vee u k) lfc) l
      (𝓝 (xiLfc (noninteractingFromEps u eps1 k) (vee u k) lfc)) :=
    hx.div (tendsto_const_nhds.sub (tendsto_const_nhds.mul hx)) hden
  unfold s0eeSusceptibility
  exact (tendsto_const_nhds.mul
    ((Complex.continuous_im.tendsto _).comp (hxi.mul_const _))).neg

theorem static_ne {k T : ℝ} (hk : 0 < k) (hT : 0 < T) (mu : ℝ) :
    epsRPANoDamping u k 0 mu T true - 1 ≠ 0 := by
  rw [epsRPANoDamping_static u hk hT]
  have h1 := mass_pos (mu / (u.kB * T)) (kapRewrite_pos u hk hT)
  have h2 := cst_pos u hk hT
  intro h
  have := congrArg Complex.re h
  simp only [Complex.sub_re, Complex.ofReal_re, Complex.one_re, Complex.zero_re] at this
  have h3 : 0 < cst u k T * (2 * mass (mu / (u.kB * T)) (kapRewrite u k T)) := by positivity
  linarith

/-- C29: with an ion structure factor that vanishes, `S0_ee_BMA_chapman_interp` tends to
`S0_ee_RPA_no_damping`, with either implementation of the damped dielectric function. -/
theorem s0eeBMAInterp_weak (b : BornArgs) (hT : 0 < b.T) {k E : ℝ} (hk : 0 < k) (hE : E ≠ 0)
    (lfc : ℝ) (unsave : Bool) (hnu : 0 < (nuInterp u b (-E)).re) :
    Tendsto (fun s : ℝ => s0eeBMAInterp u { b with S := fun q => s * b.S q } k E lfc) (𝓝[>] 0)
      (𝓝 (s0eeRPANoDamping u k b.T b.n E b.mu lfc unsave)) := by
  have hE' : -E ≠ 0 := neg_ne_zero.2 hE
  have hs : ∀ s : ℝ, nuInterp u { b with S := fun q => s * b.S q } (-E) = s * nuInterp u b (-E) := by
    intro s
    simp only [nuInterp]
    rw [← chapmanNu_smul]
    congr 1
    funext x
    exact bornNu_structure u _ _ _ _ _ _
  have h := chain_tendsto u hk b.T b.n (-E) lfc (imagRPANoDamping_ne u hk hT hE' b.mu)
    ((mermin_tendsto u b.rewrite unsave hk hT hE' b.mu (static_ne u hk hT b.mu)).comp
      (smul_tendsto hnu))
  simp only [s0eeBMAInterp, epsBMAInterp, merminInterp_eq_merminFit, s0eeRPANoDamping, hs, ← vee_eq]
  exact h

/-- C29: the same for `S0_ee_BMA`. -/
theorem s0eeBMA_weak (b : BornArgs) (hT : 0 < b.T) {k E : ℝ} (hk : 0 < k) (hE : E ≠ 0)
    (Es : List ℝ) (lfc : ℝ) (unsave : Bool)
    (hnu : 0 < (fullNu (bornNu u (bornEpsRPA u b.mu b.T) b.V b.S b.Zf)
      (Es.map fun x => -x) (-E)).re) :
    Tendsto (fun s : ℝ => s0eeBMA u { b with S := fun q => s * b.S q } k Es E lfc) (𝓝[>] 0)
      (𝓝 (s0eeRPANoDamping u k b.T b.n E b.mu lfc unsave)) := by
  have hE' : -E ≠ 0 := neg_ne_zero.2 hE
  have hw : -E / u.hbar ≠ 0 := div_ne_zero hE' u.hbar_pos.ne'
  have hs : ∀ s : ℝ, fullNu (bornNu u (bornEpsRPA u b.mu b.T) b.V (fun q => s * b.S q) b.Zf)
      (Es.map fun x => -x) (-E) = s * fullNu (bornNu u (bornEpsRPA u b.mu b.T) b.V b.S b.Zf)
        (Es.map fun x => -x) (-E) := by
    intro s
    rw [← fullNu_smul]
    congr 1
    funext x
    exact bornNu_structure u _ _ _ _ _ _
  have h := chain_tendsto u hk b.T b.n (-E) lfc (imagRPANoDamping_ne u hk hT hE' b.mu)
    ((mermin_tendsto u b.rewrite unsave hk hT hE' b.mu (static_ne u hk hT b.mu)).comp
      (smul_tendsto hnu))
  simp only [s0eeBMA, epsBMAFull, s0eeRPANoDamping, hs, ← vee_eq]
  simp only [merminFull_eq_merminFit hw _ _ (static_ne u hk hT b.mu)]
  exact h

/-- C29: the same for `S0_ee_BMA_chapman_interpFit`, whose static value is fitted. -/
theorem s0eeBMAFit_weak (d : DandreaFits) (b : BornArgs) (hT : 0 < b.T) {k E : ℝ} (hk : 0 < k)
    (hE : E ≠ 0) (lfc : ℝ) (unsave : Bool) (hnu : 0 < (nuInterpFit u d b (-E)).re)
    (h0 : epsDandrea u d k 0 b.T b.n - 1 ≠ 0) :
    Tendsto (fun s : ℝ => s0eeBMAFit u d { b with S := fun q => s * b.S q } k E lfc) (𝓝[>] 0)
      (𝓝 (s0eeRPANoDamping u k b.T b.n E b.mu lfc unsave)) := by
  have hE' : -E ≠ 0 := neg_ne_zero.2 hE
  have hs : ∀ s : ℝ, nuInterpFit u d { b with S := fun q => s * b.S q } (-E) =
      s * nuInterpFit u d b (-E) := by
    intro s
    simp only [nuInterpFit]
    rw [← chapmanNu_smul]
    congr 1
    funext x
    exact bornNu_structure u _ _ _ _ _ _
  have h := chain_tendsto u hk b.T b.n (-E) lfc (imagRPANoDamping_ne u hk hT hE' b.mu)
    ((mermin_tendsto u b.rewrite unsave hk hT hE' b.mu h0).comp (smul_tendsto hnu))
  simp only [s0eeBMAFit, epsBMAFit, s0eeRPANoDamping, hs, ← vee_eq]
  exact h

/-- C29: the same for `S0_ee_BMA_Fortmann`, which applies the local field correction first. -/
theorem s0eeBMAFortmann_weak (d : DandreaFits) (b : BornArgs) (hT : 0 < b.T) {k E : ℝ} (hk : 0 < k)
    (hE : E ≠ 0) (lfc : ℝ) (unsave : Bool) (hnu : 0 < (nuInterpFit u d b (-E)).re)
    (h0 : epsDandrea u d k 0 b.T b.n - 1 ≠ 0) (hx : xiDandrea u d k 0 b.T b.n ≠ 0)
    (hs0 : 1 - (vee u k : ℂ) * (1 - lfc) * xiDandrea u d k 0 b.T b.n ≠ 0) :
    Tendsto (fun s : ℝ => s0eeBMAFortmann u d { b with S := fun q => s * b.S q } k E lfc) (𝓝[>] 0)
      (𝓝 (s0eeRPANoDamping u k b.T b.n E b.mu lfc unsave)) := by
  have hE' : -E ≠ 0 := neg_ne_zero.2 hE
  have hw : ((-E / u.hbar : ℝ) : ℂ) ≠ 0 :=
    Complex.ofReal_ne_zero.2 (div_ne_zero hE' u.hbar_pos.ne')
  have hs : ∀ s : ℝ, nuInterpFit u d { b with S := fun q => s * b.S q } (-E) =
      s * nuInterpFit u d b (-E) := by
    intro s
    simp only [nuInterpFit]
    rw [← chapmanNu_smul]
    congr 1
    funext x
    exact bornNu_structure u _ _ _ _ _ _
  have hnu0 : nuInterpFit u d b (-E) ≠ 0 := by
    intro h
    rw [h] at hnu
    simp at hnu
  have hxi : Tendsto (fun s : ℝ => noninteractingFromEps u (epsDamped u b.rewrite k
      (dampedEnergy u (-E) (s * nuInterpFit u d b (-E))) b.mu b.T) k) (𝓝[>] 0)
      (𝓝 (noninteractingFromEps u (epsRPANoDamping u k (-E) b.mu b.T unsave) k)) :=
    (tendsto_const_nhds.sub ((epsDamped_tendsto u b.rewrite unsave hk hT hE' b.mu).comp
      ((dampedEnergy_tendsto u (-E)).comp (smul_tendsto hnu)))).div_const _
  have hd : ∀ᶠ s : ℝ in 𝓝[>] 0, 1 - (vee u k : ℂ) * (1 - lfc) * noninteractingFromEps u
      (epsDamped u b.rewrite k (dampedEnergy u (-E) (s * nuInterpFit u d b (-E))) b.mu b.T) k ≠ 0 :=
    (tendsto_const_nhds.sub (tendsto_const_nhds.mul hxi)).eventually_ne
      (lfcDen_ne u hk lfc (imagRPANoDamping_ne u hk hT hE' b.mu))
  have hD : ∀ᶠ s : ℝ in 𝓝[>] 0, xiDandrea u d k 0 b.T b.n * ((-E / u.hbar : ℝ) : ℂ) +
      Complex.I * (s * nuInterpFit u d b (-E)) * noninteractingFromEps u
        (epsDamped u b.rewrite k (dampedEnergy u (-E) (s * nuInterpFit u d b (-E))) b.mu b.T) k ≠ 0 := by
    have h1 : Tendsto (fun s : ℝ => (s : ℂ) * nuInterpFit u d b (-E)) (𝓝[>] 0) (𝓝 0) :=
      (smul_tendsto hnu).mono_right nhdsWithin_le_nhds
    refine (tendsto_const_nhds.add ((tendsto_const_nhds.mul h1).mul hxi)).eventually_ne ?_
    rw [mul_zero, zero_mul, add_zero]
    exact mul_ne_zero hx hw
  refine (s0eeBMAFit_weak u d b hT hk hE lfc unsave hnu h0).congr' ?_
  filter_upwards [hd, hD, self_mem_nhdsWithin] with s h1 h2 h3
  have h4 := s0eeBMAFortmann_eq u d { b with S := fun q => s * b.S q } (k := k) E lfc hk.ne'
  rw [hs] at h4
  exact (h4 (mul_ne_zero (Complex.ofReal_ne_zero.2 (ne_of_gt h3)) hnu0) h1 hs0 h2).symm

/-- The hypotheses of `s0eeBMAInterp_weak` can be met, and the limit is positive. -/
example (unsave : Bool) :
    Tendsto (fun s : ℝ => s0eeBMAInterp u { windowArgs with S := fun q => s * windowArgs.S q } 1 3 0)
      (𝓝[>] 0) (𝓝 (s0eeRPANoDamping u 1 1 1 3 1 0 unsave)) :=
  s0eeBMAInterp_weak u windowArgs (by norm_num [windowArgs]) one_pos (by norm_num) 0 unsave
    (windowArgs_nu_pos u _)

end Verif.Resp
