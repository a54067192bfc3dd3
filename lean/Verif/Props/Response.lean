/-
Properties of the response functions of the free electrons: the dielectric function and the
susceptibility determine each other, local field corrections, positivity and detailed balance of
the dynamic structure factor.
-/
import Verif.Model.Response

set_option autoImplicit false

namespace Verif.Resp

open Real Verif.Expt MeasureTheory ComplexConjugate

variable (u : Consts)

/-! ### Coulomb potential -/

theorem vee_eq (k : ℝ) : vee u k = u.e ^ 2 / u.eps0 / k ^ 2 := by
  unfold vee coulombFourier
  ring

theorem vee_pos {k : ℝ} (hk : k ≠ 0) : 0 < vee u k := by
  rw [vee_eq]
  have := u.e_pos
  have := u.eps0_pos
  have := sq_pos_of_ne_zero hk
  positivity

theorem vee_ne {k : ℝ} (hk : k ≠ 0) : (vee u k : ℂ) ≠ 0 :=
  Complex.ofReal_ne_zero.2 (vee_pos u hk).ne'

/-- The Coulomb potential between two charges is positive exactly for charges of equal sign. -/
theorem coulombFourier_pos_iff {Z1 Z2 k : ℝ} (hk : k ≠ 0) :
    0 < coulombFourier u Z1 Z2 k ↔ 0 < Z1 * Z2 := by
  have he := u.e_pos
  have h0 := u.eps0_pos
  have hk2 := sq_pos_of_ne_zero hk
  have h : coulombFourier u Z1 Z2 k = u.e ^ 2 / (u.eps0 * k ^ 2) * (Z1 * Z2) := by
    unfold coulombFourier
    field_simp
  rw [h]
  exact mul_pos_iff_of_pos_left (by positivity)

/-! ### C30: dielectric function and susceptibility -/

/-- C30: a dielectric function is recovered from its susceptibility. -/
theorem epsilon_of_susceptibility (eps : ℂ) {k : ℝ} (hk : k ≠ 0) :
    epsilonFromSusceptibility u (susceptibilityFromEpsilon u eps k) k = eps := by
  have hv := vee_ne u hk
  unfold epsilonFromSusceptibility susceptibilityFromEpsilon
  have h : 1 + (vee u k : ℂ) * ((eps⁻¹ - 1) / (vee u k : ℂ)) = eps⁻¹ := by
    field_simp
    ring
  rw [h, inv_inv]

/-- C30: a susceptibility is recovered from its dielectric function. -/
theorem susceptibility_of_epsilon (xi : ℂ) {k : ℝ} (hk : k ≠ 0) :
    susceptibilityFromEpsilon u (epsilonFromSusceptibility u xi k) k = xi := by
  have hv := vee_ne u hk
  unfold epsilonFromSusceptibility susceptibilityFromEpsilon
  rw [inv_inv]
  field_simp
  ring

/-- C30: in random phase approximation (no local field correction), the full susceptibility built
from the noninteracting one is the one defined by the dielectric function. -/
theorem rpa_susceptibility {eps : ℂ} (he : eps ≠ 0) {k : ℝ} (hk : k ≠ 0) :
    xiLfc (noninteractingFromEps u eps k) (vee u k) 0 = susceptibilityFromEpsilon u eps k := by
  have hv := vee_ne u hk
  unfold xiLfc noninteractingFromEps susceptibilityFromEpsilon
  have h : 1 - (vee u k : ℂ) * (1 - ((0 : ℝ) : ℂ)) * ((1 - eps) / (vee u k : ℂ)) = eps := by
    push_cast
    field_simp
    ring
  rw [h]
  field_simp

/-- C30: the dielectric function of the full susceptibility in random phase approximation is the
dielectric function one starts from. -/
theorem rpa_epsilon {eps : ℂ} (he : eps ≠ 0) {k : ℝ} (hk : k ≠ 0) :
    epsilonFromSusceptibility u (xiLfc (noninteractingFromEps u eps k) (vee u k) 0) k = eps := by
  rw [rpa_susceptibility u he hk, epsilon_of_susceptibility u eps hk]

/-- C30: the inverse of the dielectric function is `1 + V ξ`. -/
theorem inv_epsilon (xi : ℂ) (k : ℝ) :
    (epsilonFromSusceptibility u xi k)⁻¹ = 1 + (vee u k : ℂ) * xi := by
  rw [epsilonFromSusceptibility, inv_inv]

/-- C30: a local field correction of one removes the interaction. -/
theorem xiLfc_one (xi : ℂ) (v : ℝ) : xiLfc xi v 1 = xi := by
  simp [xiLfc]

/-- C30: the effective interaction adds up.  Correcting twice is correcting once, where the factors
`1 - G` are added. -/
theorem xiLfc_xiLfc (xi : ℂ) (v g1 g2 : ℝ) (h1 : 1 - v * (1 - g1) * xi ≠ 0) :
    xiLfc (xiLfc xi v g1) v g2 = xiLfc xi v (g1 + g2 - 1) := by
  unfold xiLfc
  have h : 1 - (v : ℂ) * (1 - (g2 : ℂ)) * (xi / (1 - v * (1 - g1) * xi)) =
      (1 - v * (1 - ((g1 + g2 - 1 : ℝ) : ℂ)) * xi) / (1 - v * (1 - g1) * xi) := by
    push_cast
    generalize hD : 1 - (v : ℂ) * (1 - g1) * xi = D at h1
    field_simp
    rw [← hD]
    ring
  rw [h, div_div_div_cancel_right₀ h1]

example : (1 : ℂ) - ((2 : ℝ) : ℂ) * (1 - ((0 : ℝ) : ℂ)) * Complex.I ≠ 0 := by
  intro h
  have := congrArg Complex.re h
  simp at this

/-- C30: the two forms of the fluctuation dissipation theorem agree. -/
theorem fdt_forms (T n E : ℝ) (eps : ℂ) {k : ℝ} (hk : k ≠ 0) :
    s0eeDielectric u k T n E eps =
      s0eeSusceptibility u k T n E (susceptibilityFromEpsilon u eps k) := by
  have hv := vee_ne u hk
  have h : (susceptibilityFromEpsilon u eps k * (vee u k : ℂ)).im = (1 / eps).im := by
    unfold susceptibilityFromEpsilon
    rw [div_mul_cancel₀ _ hv]
    simp
  have hV : u.eps0 * k ^ 2 / (π * u.e ^ 2 * n) = 1 / (π * n * vee u k) := by
    have := u.e_pos.ne'
    have := u.eps0_pos.ne'
    rw [vee_eq]
    by_cases hn : n = 0
    · simp [hn]
    · field_simp
  unfold s0eeDielectric s0eeSusceptibility
  rw [h, hV]
  ring

/-! ### Effect of a local field correction -/

theorem xiLfc_im (xi : ℂ) (v g : ℝ) :
    (xiLfc xi v g).im = xi.im / Complex.normSq (1 - v * (1 - g) * xi) := by
  unfold xiLfc
  rw [Complex.div_im]
  have hre : ((1 : ℂ) - v * (1 - g) * xi).re = 1 - v * (1 - g) * xi.re := by simp
  have him : ((1 : ℂ) - v * (1 - g) * xi).im = -(v * (1 - g) * xi.im) := by simp
  rw [hre, him]
  ring

theorem lfc_denominator_ne {xi : ℂ} (h : xi.im ≠ 0) (v g : ℝ) :
    (1 : ℂ) - v * (1 - g) * xi ≠ 0 := by
  intro h0
  have hre := congrArg Complex.re h0
  have him := congrArg Complex.im h0
  simp at hre him
  rcases him with him | him
  · rcases him with him | him
    · rw [him] at hre
      simp at hre
    · rw [him] at hre
      simp at hre
  · exact h him

/-- A local field correction keeps the sign of the imaginary part of the susceptibility. -/
theorem xiLfc_im_sign {xi : ℂ} (v g : ℝ) (h : xi.im < 0) : (xiLfc xi v g).im < 0 := by
  rw [xiLfc_im]
  exact div_neg_of_neg_of_pos h (Complex.normSq_pos.2 (lfc_denominator_ne h.ne v g))

theorem xiLfc_im_pos {xi : ℂ} (v g : ℝ) (h : 0 < xi.im) : 0 < (xiLfc xi v g).im := by
  rw [xiLfc_im]
  exact div_pos h (Complex.normSq_pos.2 (lfc_denominator_ne h.ne' v g))

theorem xiLfc_conj (xi : ℂ) (v g : ℝ) : xiLfc (conj xi) v g = conj (xiLfc xi v g) := by
  simp [xiLfc, map_div₀]

theorem noninteractingFromEps_conj (eps : ℂ) (k : ℝ) :
    noninteractingFromEps u (conj eps) k = conj (noninteractingFromEps u eps k) := by
  simp [noninteractingFromEps, map_div₀]

theorem noninteractingFromEps_im (eps : ℂ) (k : ℝ) :
    (noninteractingFromEps u eps k).im = -eps.im / vee u k := by
  unfold noninteractingFromEps
  rw [Complex.div_ofReal_im]
  simp

/-! ### C28: the fluctuation dissipation theorem -/

/-- The response of a system in equilibrium, as a function of the energy transfer, is real in the
time domain. -/
def Hermitian (r : ℝ → ℂ) : Prop := ∀ E, r (-E) = conj (r E)

theorem fdt_pos {k T n E : ℝ} (hk : k ≠ 0) (hT : 0 < T) (hn : 0 < n) {xi : ℂ}
    (h : xi.im * E < 0) : 0 < s0eeSusceptibility u k T n E xi := by
  have hV := vee_pos u hk
  have hkT := mul_pos u.kB_pos hT
  have hpi := pi_pos
  have hh := u.hbar_pos
  have him : (xi * (vee u k : ℂ)).im = xi.im * vee u k := by simp
  unfold s0eeSusceptibility
  rw [him]
  have hC : 0 < u.hbar / (π * n * vee u k) := by positivity
  rcases lt_trichotomy E 0 with hE | hE | hE
  · have hx : 0 < xi.im := by
      by_contra hc
      push Not at hc
      nlinarith [mul_nonneg_of_nonpos_of_nonpos hc hE.le]
    have hd : 1 - exp (-(E / (u.kB * T))) < 0 := by
      have : 1 < exp (-(E / (u.kB * T))) := by
        rw [one_lt_exp_iff]
        have := div_neg_of_neg_of_pos hE hkT
        linarith
      linarith
    have := div_neg_of_pos_of_neg hC hd
    have h2 : 0 < xi.im * vee u k := mul_pos hx hV
    nlinarith [mul_neg_of_neg_of_pos this h2]
  · simp [hE] at h
  · have hx : xi.im < 0 := by
      by_contra hc
      push Not at hc
      nlinarith [mul_nonneg hc hE.le]
    have hd : 0 < 1 - exp (-(E / (u.kB * T))) := by
      have : exp (-(E / (u.kB * T))) < 1 := by
        rw [exp_lt_one_iff]
        have := div_pos hE hkT
        linarith
      linarith
    have := div_pos hC hd
    have h2 : xi.im * vee u k < 0 := mul_neg_of_neg_of_pos hx hV
    nlinarith [mul_neg_of_pos_of_neg this h2]

/-- The fluctuation dissipation theorem turns a response that is real in the time domain into a
structure factor with detailed balance. -/
theorem fdt_balance (k T n : ℝ) {E : ℝ} (hT : 0 < T) (hE : E ≠ 0) {xi xi' : ℂ}
    (h : xi' = conj xi) :
    s0eeSusceptibility u k T n (-E) xi' =
      exp (-E / (u.kB * T)) * s0eeSusceptibility u k T n E xi := by
  have hkT := (mul_pos u.kB_pos hT).ne'
  have him : ((conj xi) * (vee u k : ℂ)).im = -(xi * (vee u k : ℂ)).im := by simp
  subst h
  unfold s0eeSusceptibility
  rw [him]
  set x := E / (u.kB * T) with hx
  have hx0 : x ≠ 0 := div_ne_zero hE hkT
  have e1 : -(-E / (u.kB * T)) = x := by rw [hx]; ring
  have e2 : -E / (u.kB * T) = -x := by rw [hx]; ring
  rw [e1, e2]
  have hexp : exp x ≠ 1 := by rwa [Ne, exp_eq_one_iff]
  have hm : exp (-x) = (exp x)⁻¹ := exp_neg x
  have h0 : exp x ≠ 0 := (exp_pos x).ne'
  have h1 : 1 - exp x ≠ 0 := fun h => hexp (by linarith)
  have h2 : 1 - (exp x)⁻¹ ≠ 0 := by
    intro h
    apply hexp
    have : (exp x)⁻¹ = 1 := by linarith
    exact inv_eq_one.1 this
  have key : 1 / (1 - exp x) = -(exp (-x)) * (1 / (1 - exp (-x))) := by
    rw [hm]
    have h3 : exp x - 1 ≠ 0 := fun h => hexp (by linarith)
    field_simp
    ring
  set A := u.hbar / (π * n * vee u k)
  set B := (xi * (vee u k : ℂ)).im
  calc -(A / (1 - exp x) * -B) = A * B * (1 / (1 - exp x)) := by ring
    _ = A * B * (-(exp (-x)) * (1 / (1 - exp (-x)))) := by rw [key]
    _ = exp (-x) * -(A / (1 - exp (-x)) * B) := by ring

/-- The chain shared by all free-free structure factors, for a dielectric function that dissipates
energy: the result is positive. -/
theorem chain_pos {k T n E : ℝ} (hk : k ≠ 0) (hT : 0 < T) (hn : 0 < n) {eps : ℂ} (v lfc : ℝ)
    (h : 0 < eps.im * E) :
    0 < s0eeSusceptibility u k T n E (xiLfc (noninteractingFromEps u eps k) v lfc) := by
  apply fdt_pos u hk hT hn
  have hV := vee_pos u hk
  have him := noninteractingFromEps_im u eps k
  rcases lt_trichotomy E 0 with hE | hE | hE
  · have hx : eps.im < 0 := by
      by_contra hc
      push Not at hc
      nlinarith [mul_nonneg_iff_of_pos_right (c := -E) (b := eps.im) (by linarith)]
    have : 0 < (noninteractingFromEps u eps k).im := by
      rw [him]
      exact div_pos (by linarith) hV
    exact mul_neg_of_pos_of_neg (xiLfc_im_pos v lfc this) hE
  · simp [hE] at h
  · have hx : 0 < eps.im := pos_of_mul_pos_left h hE.le
    have : (noninteractingFromEps u eps k).im < 0 := by
      rw [him]
      exact div_neg_of_neg_of_pos (by linarith) hV
    exact mul_neg_of_neg_of_pos (xiLfc_im_sign v lfc this) hE

theorem chain_balance (k T n : ℝ) {E : ℝ} (hT : 0 < T) (hE : E ≠ 0) (v lfc : ℝ) {eps : ℝ → ℂ}
    (h : Hermitian eps) :
    s0eeSusceptibility u k T n (-E) (xiLfc (noninteractingFromEps u (eps (-E)) k) v lfc) =
      exp (-E / (u.kB * T)) *
        s0eeSusceptibility u k T n (- -E)
          (xiLfc (noninteractingFromEps u (eps (- -E)) k) v lfc) := by
  rw [neg_neg]
  apply fdt_balance u k T n hT hE
  rw [h, noninteractingFromEps_conj, xiLfc_conj]

/-! ### Salpeter -/

theorem wSalpeter_neg (x : ℝ) : wSalpeter (-x) = conj (wSalpeter x) := by
  have h : (∫ t in (0 : ℝ)..(-x), exp (t ^ 2)) = -∫ t in (0 : ℝ)..x, exp (t ^ 2) := by
    have := intervalIntegral.integral_comp_neg (a := 0) (b := -x) (fun t : ℝ => exp (t ^ 2))
    simp only [neg_sq, neg_neg, neg_zero] at this
    rw [this, intervalIntegral.integral_symm]
  apply Complex.ext
  · simp only [wSalpeter, Complex.conj_re]
    rw [h]
    ring_nf
  · simp only [wSalpeter, Complex.conj_im]
    ring_nf

theorem xSalpeter_neg (k T E : ℝ) : xSalpeter u k T (-E) = -xSalpeter u k T E := by
  unfold xSalpeter
  ring

theorem epsSalpeter_hermitian (k T n : ℝ) : Hermitian (epsSalpeter u k T n) := by
  intro E
  simp only [epsSalpeter, xSalpeter_neg]
  set x := xSalpeter u k T E
  set kap := kappaSalpeter u k T
  have h1 : -x + kap = -(x - kap) := by ring
  have h2 : -x - kap = -(x + kap) := by ring
  rw [h1, h2, wSalpeter_neg, wSalpeter_neg]
  simp only [map_add, map_one, map_mul, map_sub, map_div₀, Complex.conj_ofReal,
    Complex.ofReal_neg, div_neg]
  ring

theorem thermalVelocity_pos {T : ℝ} (hT : 0 < T) : 0 < thermalVelocity u T := by
  have := u.kB_pos
  have := u.me_pos
  unfold thermalVelocity
  positivity

theorem kappaSalpeter_pos {k T : ℝ} (hk : 0 < k) (hT : 0 < T) : 0 < kappaSalpeter u k T := by
  have := thermalVelocity_pos u hT
  have := u.hbar_pos
  have := u.me_pos
  unfold kappaSalpeter
  positivity

/-- Imaginary part of Salpeter's dielectric function.  Where one of the two arguments vanishes, the
code divides zero by zero. -/
theorem epsSalpeter_im {k T n E : ℝ} (h1 : xSalpeter u k T E + kappaSalpeter u k T ≠ 0)
    (h2 : xSalpeter u k T E - kappaSalpeter u k T ≠ 0) :
    (epsSalpeter u k T n E).im =
      plasmaFreqSq u n / (k ^ 2 * thermalVelocity u T ^ 2) * (1 / (4 * kappaSalpeter u k T)) *
        (sqrt π * (exp (-(xSalpeter u k T E - kappaSalpeter u k T) ^ 2) -
          exp (-(xSalpeter u k T E + kappaSalpeter u k T) ^ 2))) := by
  simp only [epsSalpeter]
  set x := xSalpeter u k T E
  set kap := kappaSalpeter u k T
  rw [Complex.add_im, Complex.one_im, zero_add, Complex.im_ofReal_mul,
    Complex.sub_im, Complex.div_ofReal_im, Complex.div_ofReal_im]
  have e1 : ((1 : ℂ) - wSalpeter (x + kap)).im / (x + kap) = -(sqrt π * exp (-(x + kap) ^ 2)) := by
    simp only [wSalpeter, Complex.sub_im, Complex.one_im, zero_sub]
    field_simp
  have e2 : ((1 : ℂ) - wSalpeter (x - kap)).im / (x - kap) = -(sqrt π * exp (-(x - kap) ^ 2)) := by
    simp only [wSalpeter, Complex.sub_im, Complex.one_im, zero_sub]
    field_simp
  rw [e1, e2]
  ring

theorem gauss_diff_sign {x kap : ℝ} (hk : 0 < kap) (hx : x ≠ 0) :
    0 < (exp (-(x - kap) ^ 2) - exp (-(x + kap) ^ 2)) * x := by
  rcases lt_or_gt_of_ne hx with h | h
  · apply mul_pos_of_neg_of_neg _ h
    rw [sub_neg, exp_lt_exp]
    nlinarith
  · apply mul_pos _ h
    rw [sub_pos, exp_lt_exp]
    nlinarith

/-- Salpeter's dielectric function dissipates energy. -/
theorem epsSalpeter_dissipative {k T n E : ℝ} (hk : 0 < k) (hT : 0 < T) (hn : 0 < n) (hE : E ≠ 0)
    (h1 : xSalpeter u k T E + kappaSalpeter u k T ≠ 0)
    (h2 : xSalpeter u k T E - kappaSalpeter u k T ≠ 0) :
    0 < (epsSalpeter u k T n E).im * E := by
  have hv := thermalVelocity_pos u hT
  have hkap := kappaSalpeter_pos u hk hT
  have hh := u.hbar_pos
  have he := u.e_pos
  have hm := u.me_pos
  have h0 := u.eps0_pos
  rw [epsSalpeter_im u h1 h2]
  have hD : 0 < sqrt 2 * k * thermalVelocity u T := by positivity
  have hxE : E = xSalpeter u k T E * (u.hbar * (sqrt 2 * k * thermalVelocity u T)) := by
    unfold xSalpeter
    field_simp
  have hx : xSalpeter u k T E ≠ 0 := by
    intro h
    rw [h, zero_mul] at hxE
    exact hE hxE
  have hg := gauss_diff_sign hkap hx
  have hC : 0 < plasmaFreqSq u n / (k ^ 2 * thermalVelocity u T ^ 2) *
      (1 / (4 * kappaSalpeter u k T)) * sqrt π * (u.hbar * (sqrt 2 * k * thermalVelocity u T)) := by
    have : 0 < plasmaFreqSq u n := by
      unfold plasmaFreqSq
      positivity
    positivity
  have := mul_pos hC hg
  calc (0 : ℝ) < _ := this
    _ = plasmaFreqSq u n / (k ^ 2 * thermalVelocity u T ^ 2) * (1 / (4 * kappaSalpeter u k T)) *
        (sqrt π * (exp (-(xSalpeter u k T E - kappaSalpeter u k T) ^ 2) -
          exp (-(xSalpeter u k T E + kappaSalpeter u k T) ^ 2))) *
        (xSalpeter u k T E * (u.hbar * (sqrt 2 * k * thermalVelocity u T))) := by ring
    _ = _ := by rw [← hxE]

/-- `S0_ee_Salpeter` writes the Coulomb potential out; it is the same. -/
theorem s0eeSalpeter_eq (k T n E lfc : ℝ) :
    s0eeSalpeter u k T n E lfc = s0eeSusceptibility u k T n (-E)
      (xiLfc (noninteractingFromEps u (epsSalpeter u k T n (-E)) k) (vee u k) lfc) := by
  simp only [s0eeSalpeter, vee_eq]

/-- The energy (in units of the reduced frequency) at which the code divides by zero is the recoil
energy. -/
theorem salpeter_recoil {k T E : ℝ} (hk : 0 < k) (hT : 0 < T) :
    xSalpeter u k T E - kappaSalpeter u k T = 0 ↔ E = kinEnergy u k := by
  have hv := thermalVelocity_pos u hT
  have hh := u.hbar_pos
  have hm := u.me_pos
  have hs : (0 : ℝ) < sqrt 2 := by positivity
  have e1 : xSalpeter u k T E - kappaSalpeter u k T =
      (E - kinEnergy u k) / (u.hbar * (sqrt 2 * k * thermalVelocity u T)) := by
    unfold xSalpeter kappaSalpeter kinEnergy
    field_simp
  have hD : u.hbar * (sqrt 2 * k * thermalVelocity u T) ≠ 0 := by positivity
  rw [e1, div_eq_zero_iff]
  constructor
  · rintro (h | h)
    · linarith
    · exact absurd h hD
  · intro h
    left
    linarith

theorem salpeter_recoil_neg {k T E : ℝ} (hk : 0 < k) (hT : 0 < T) :
    xSalpeter u k T E + kappaSalpeter u k T = 0 ↔ E = -kinEnergy u k := by
  have h := salpeter_recoil u (E := -E) hk hT
  rw [xSalpeter_neg] at h
  constructor
  · intro h'
    have := h.1 (by linarith)
    linarith
  · intro h'
    have := h.2 (by linarith)
    linarith

/-- C28: `S0_ee_Salpeter` is positive, at all energies but zero and the recoil energy of a free
electron (where the code divides zero by zero), for every local field correction.
(Partial: the recoil energy, where the code evaluates 0/0, is missing, see `salpeter_recoil`.) -/
theorem s0eeSalpeter_pos_partial {k T n E : ℝ} (hk : 0 < k) (hT : 0 < T) (hn : 0 < n) (hE : E ≠ 0)
    (h1 : E ≠ kinEnergy u k) (h2 : E ≠ -kinEnergy u k) (lfc : ℝ) :
    0 < s0eeSalpeter u k T n E lfc := by
  rw [s0eeSalpeter_eq]
  apply chain_pos u hk.ne' hT hn
  apply epsSalpeter_dissipative u hk hT hn (neg_ne_zero.2 hE)
  · rw [Ne, salpeter_recoil_neg u hk hT]
    intro h
    exact h1 (by linarith)
  · rw [Ne, salpeter_recoil u hk hT]
    intro h
    exact h2 (by linarith)

/-- C28: `S0_ee_Salpeter` fulfils detailed balance, for every local field correction. -/
theorem s0eeSalpeter_balance (k n lfc : ℝ) {T E : ℝ} (hT : 0 < T) (hE : E ≠ 0) :
    s0eeSalpeter u k T n E lfc =
      exp (-E / (u.kB * T)) * s0eeSalpeter u k T n (-E) lfc := by
  rw [s0eeSalpeter_eq, s0eeSalpeter_eq]
  exact chain_balance u k T n hT hE (vee u k) lfc (epsSalpeter_hermitian u k T n)

/-! ### Random phase approximation without damping -/

theorem kappaRPA_neg (k E : ℝ) : kappaRPA u k (-E) = -kappaRPA u k E := by
  unfold kappaRPA
  ring

theorem kinEnergy_neg (k : ℝ) : kinEnergy u (-k) = kinEnergy u k := by
  unfold kinEnergy
  ring

theorem kinEnergy_lt {k k' : ℝ} : kinEnergy u k < kinEnergy u k' ↔ |k| < |k'| := by
  have := u.hbar_pos
  have := u.me_pos
  rw [← sq_lt_sq]
  unfold kinEnergy
  rw [div_lt_div_iff_of_pos_right (by positivity), mul_lt_mul_iff_right₀ (by positivity)]

theorem imagRPANoDamping_neg (k E mu T : ℝ) :
    imagRPANoDamping u k (-E) mu T = -imagRPANoDamping u k E mu T := by
  simp only [imagRPANoDamping, kappaRPA_neg]
  have h1 : kinEnergy u (-k / 2 - -kappaRPA u k E) = kinEnergy u (k / 2 - kappaRPA u k E) := by
    rw [← kinEnergy_neg]
    congr 1
    ring
  have h2 : kinEnergy u (k / 2 - -kappaRPA u k E) = kinEnergy u (-k / 2 - kappaRPA u k E) := by
    rw [← kinEnergy_neg]
    congr 1
    ring
  rw [h1, h2]
  ring

theorem logaddexp0_lt {x y : ℝ} (h : x < y) : logaddexp0 x < logaddexp0 y := by
  unfold logaddexp0
  apply log_lt_log
  · positivity
  · have := exp_lt_exp.2 h
    linarith

/-- Without damping, energy is dissipated at every energy. -/
theorem imagRPANoDamping_sign {k T E : ℝ} (mu : ℝ) (hk : 0 < k) (hT : 0 < T) (hE : E ≠ 0) :
    0 < imagRPANoDamping u k E mu T * E := by
  have key : ∀ E : ℝ, 0 < E → 0 < imagRPANoDamping u k E mu T := by
    intro E hE
    have hh := u.hbar_pos
    have hm := u.me_pos
    have he := u.e_pos
    have h0 := u.eps0_pos
    have hkB := u.kB_pos
    have hkap : 0 < kappaRPA u k E := by
      unfold kappaRPA
      positivity
    have hlt : kinEnergy u (k / 2 - kappaRPA u k E) < kinEnergy u (-k / 2 - kappaRPA u k E) := by
      rw [kinEnergy_lt]
      have : |-k / 2 - kappaRPA u k E| = k / 2 + kappaRPA u k E := by
        rw [abs_of_neg (by linarith)]
        ring
      rw [this, abs_lt]
      constructor <;> linarith
    have hl : logaddexp0 ((mu - kinEnergy u (-k / 2 - kappaRPA u k E)) / (u.kB * T)) <
        logaddexp0 ((mu - kinEnergy u (k / 2 - kappaRPA u k E)) / (u.kB * T)) := by
      apply logaddexp0_lt
      apply div_lt_div_of_pos_right _ (by positivity)
      linarith
    have hp : 0 < u.kB * T * u.me ^ 2 * u.e ^ 2 / (2 * π * u.eps0 * u.hbar ^ 4 * k ^ 3) := by
      positivity
    simp only [imagRPANoDamping]
    nlinarith
  rcases lt_or_gt_of_ne hE with h | h
  · have := key (-E) (by linarith)
    rw [imagRPANoDamping_neg] at this
    nlinarith
  · exact mul_pos (key E h) h

theorem lnArgRPA_neg (k kap Q : ℝ) : lnArgRPA k (-kap) Q = lnArgRPA k kap Q := by
  unfold lnArgRPA
  have h1 : |-kap - k / 2 - Q| = |kap + k / 2 + Q| := by rw [← abs_neg]; congr 1; ring
  have h2 : |-kap + k / 2 + Q| = |kap - k / 2 - Q| := by rw [← abs_neg]; congr 1; ring
  have h3 : |-kap - k / 2 + Q| = |kap + k / 2 - Q| := by rw [← abs_neg]; congr 1; ring
  have h4 : |-kap + k / 2 - Q| = |kap - k / 2 + Q| := by rw [← abs_neg]; congr 1; ring
  rw [h1, h2, h3, h4]
  ring

theorem realRPANoDamping_neg (k E mu T : ℝ) :
    realRPANoDamping u k (-E) mu T = realRPANoDamping u k E mu T := by
  simp only [realRPANoDamping, kappaRPA_neg, integrandRPANoDamping, lnArgRPA_neg, neg_neg]
  rw [min_comm]

theorem realRPANoDampingUnsave_neg (k E mu T : ℝ) :
    realRPANoDampingUnsave u k (-E) mu T = realRPANoDampingUnsave u k E mu T := by
  simp only [realRPANoDampingUnsave, kappaRPA_neg, integrandRPANoDamping, lnArgRPA_neg]

theorem epsRPANoDamping_hermitian (k mu T : ℝ) (unsave : Bool) :
    Hermitian fun E => epsRPANoDamping u k E mu T unsave := by
  intro E
  apply Complex.ext
  · cases unsave <;> simp [epsRPANoDamping, realRPANoDamping_neg, realRPANoDampingUnsave_neg]
  · simp [epsRPANoDamping, imagRPANoDamping_neg]

/-- C28: `S0_ee_RPA_no_damping` is positive at every energy transfer but zero, for every chemical
potential and every local field correction. -/
theorem s0eeRPANoDamping_pos {k T n E : ℝ} (hk : 0 < k) (hT : 0 < T) (hn : 0 < n) (hE : E ≠ 0)
    (mu lfc : ℝ) (unsave : Bool) : 0 < s0eeRPANoDamping u k T n E mu lfc unsave := by
  simp only [s0eeRPANoDamping]
  apply chain_pos u hk.ne' hT hn
  exact imagRPANoDamping_sign u mu hk hT (neg_ne_zero.2 hE)

/-- C28: `S0_ee_RPA_no_damping` fulfils detailed balance. -/
theorem s0eeRPANoDamping_balance (k n mu lfc : ℝ) {T E : ℝ} (hT : 0 < T) (hE : E ≠ 0)
    (unsave : Bool) :
    s0eeRPANoDamping u k T n E mu lfc unsave =
      exp (-E / (u.kB * T)) * s0eeRPANoDamping u k T n (-E) mu lfc unsave := by
  simp only [s0eeRPANoDamping]
  exact chain_balance u k T n hT hE (vee u k) lfc (eps := fun E => epsRPANoDamping u k E mu T unsave)
    (epsRPANoDamping_hermitian u k mu T unsave)

/-! ### The fits of Dandrea et al. -/

theorem phiDandrea_neg (co : DandreaCoeffs) (x theta : ℝ) :
    phiDandrea co (-x) theta = -phiDandrea co x theta := by
  simp only [phiDandrea]
  have h2 : (-x) ^ 2 = x ^ 2 := by ring
  have h4 : (-x) ^ 4 = x ^ 4 := by ring
  have h6 : (-x) ^ 6 = x ^ 6 := by ring
  have h8 : (-x) ^ 8 = x ^ 8 := by ring
  have h10 : (-x) ^ 10 = x ^ 10 := by ring
  rw [h2, h4, h6, h8, h10]
  ring

theorem realDandrea_neg (co : DandreaCoeffs) (theta Q rs z alpha : ℝ) :
    realDandrea co theta Q rs (-z) alpha = realDandrea co theta Q rs z alpha := by
  simp only [realDandrea]
  have h1 : -z / Q + Q = -(z / Q - Q) := by ring
  have h2 : -z / Q - Q = -(z / Q + Q) := by ring
  rw [h1, h2, phiDandrea_neg, phiDandrea_neg]
  ring

theorem imagDandrea_eq (theta Q rs z eta0 alpha : ℝ) :
    imagDandrea theta Q rs z eta0 alpha = -alpha * rs * theta / (8 * Q ^ 3) *
      (log (1 + exp (eta0 - 1 / theta * (z / Q - Q) ^ 2)) -
        log (1 + exp (eta0 - 1 / theta * (z / Q + Q) ^ 2))) := by
  simp only [imagDandrea]
  rw [log_div (by positivity) (by positivity)]

theorem imagDandrea_neg (theta Q rs z eta0 alpha : ℝ) :
    imagDandrea theta Q rs (-z) eta0 alpha = -imagDandrea theta Q rs z eta0 alpha := by
  rw [imagDandrea_eq, imagDandrea_eq]
  have h1 : (-z / Q + Q) ^ 2 = (z / Q - Q) ^ 2 := by ring
  have h2 : (-z / Q - Q) ^ 2 = (z / Q + Q) ^ 2 := by ring
  rw [h1, h2]
  ring

theorem xiDandrea_hermitian (d : DandreaFits) (k T n : ℝ) :
    Hermitian fun E => xiDandrea u d k E T n := by
  intro E
  simp only [xiDandrea]
  have hz : -E / (4 * fermiEnergy u n) = -(E / (4 * fermiEnergy u n)) := by ring
  rw [hz, realDandrea_neg, imagDandrea_neg]
  simp only [map_mul, map_div₀, map_one, Complex.conj_ofReal]
  congr 1

theorem fermiWavenumber_pos {n : ℝ} (hn : 0 < n) : 0 < fermiWavenumber n := by
  unfold fermiWavenumber
  positivity

theorem fermiEnergy_pos {n : ℝ} (hn : 0 < n) : 0 < fermiEnergy u n := by
  have := u.hbar_pos
  have := u.me_pos
  unfold fermiEnergy
  positivity

theorem wignerSeitz_pos {n : ℝ} (hn : 0 < n) : 0 < wignerSeitz n := by
  unfold wignerSeitz
  positivity

theorem bohr_pos : 0 < bohr u := by
  have := u.hbar_pos
  have := u.me_pos
  have := u.e_pos
  have := u.eps0_pos
  unfold bohr
  positivity

/-- The Fermi energy is the kinetic energy at the Fermi wave number. -/
theorem kinEnergy_fermiWavenumber {n : ℝ} (hn : 0 < n) :
    kinEnergy u (fermiWavenumber n) = fermiEnergy u n := by
  have hb : (0 : ℝ) ≤ 3 * π ^ 2 * n := by positivity
  have h : (3 * π ^ 2 * n) ^ (2 / 3 : ℝ) = fermiWavenumber n ^ 2 := by
    unfold fermiWavenumber
    rw [← rpow_natCast ((3 * π ^ 2 * n) ^ (1 / 3 : ℝ)), ← rpow_mul hb]
    norm_num
  unfold kinEnergy fermiEnergy
  rw [h]
  ring

/-- The number `alpha` of the code is the inverse of the Fermi wave number in units of the
Wigner-Seitz radius. -/
theorem alpha_eq {n : ℝ} (hn : 0 < n) :
    (4 / (9 * π) : ℝ) ^ (1 / 3 : ℝ) * (fermiWavenumber n * wignerSeitz n) = 1 := by
  unfold fermiWavenumber wignerSeitz
  rw [← mul_rpow (by positivity) (by positivity), ← mul_rpow (by positivity) (by positivity)]
  have : 4 / (9 * π) * (3 * π ^ 2 * n * (3 / (4 * π * n))) = 1 := by
    field_simp
    norm_num
  rw [this, one_rpow]

/-- The imaginary part of the fit is exact: for the chemical potential `eta0 k_B T` it is the
imaginary part of the dielectric function in random phase approximation. -/
theorem epsDandrea_im (d : DandreaFits) {k T n : ℝ} (E : ℝ) (hk : 0 < k) (hT : 0 < T)
    (hn : 0 < n) :
    (epsDandrea u d k E T n).im =
      imagRPANoDamping u k E (d.etaFit (T * u.kB / fermiEnergy u n) * (u.kB * T)) T := by
  have hkF := fermiWavenumber_pos hn
  have hEF := fermiEnergy_pos u hn
  have hws := wignerSeitz_pos hn
  have hV := vee_ne u hk.ne'
  have hh := u.hbar_pos
  have hm := u.me_pos
  have he := u.e_pos
  have h0 := u.eps0_pos
  have hkB := u.kB_pos
  have hab := alpha_eq hn
  set al := (4 / (9 * π) : ℝ) ^ (1 / 3 : ℝ) with hal
  have hEFk : fermiEnergy u n = u.hbar ^ 2 * fermiWavenumber n ^ 2 / (2 * u.me) := by
    rw [← kinEnergy_fermiWavenumber u hn]
    rfl
  have him : (epsDandrea u d k E T n).im =
      -imagDandrea (T * u.kB / fermiEnergy u n) (k / (2 * fermiWavenumber n))
        (wignerSeitz n / bohr u) (E / (4 * fermiEnergy u n))
        (d.etaFit (T * u.kB / fermiEnergy u n)) al := by
    simp only [epsDandrea, xiDandrea]
    rw [← mul_assoc, mul_one_div_cancel hV, one_mul]
    simp [hal]
  rw [him, imagDandrea_eq]
  simp only [imagRPANoDamping, logaddexp0, exp_zero]
  set eta := d.etaFit (T * u.kB / fermiEnergy u n)
  set kF := fermiWavenumber n
  have hx : ∀ s : ℝ, s = 1 ∨ s = -1 →
      eta - 1 / (T * u.kB / fermiEnergy u n) *
        (E / (4 * fermiEnergy u n) / (k / (2 * kF)) + s * (k / (2 * kF))) ^ 2 =
      (eta * (u.kB * T) - kinEnergy u (-s * k / 2 - kappaRPA u k E)) / (u.kB * T) := by
    intro s _
    rw [hEFk]
    unfold kinEnergy kappaRPA
    field_simp
    ring
  have hxm := hx (-1) (Or.inr rfl)
  have hxp := hx 1 (Or.inl rfl)
  rw [show E / (4 * fermiEnergy u n) / (k / (2 * kF)) + -1 * (k / (2 * kF)) =
    E / (4 * fermiEnergy u n) / (k / (2 * kF)) - k / (2 * kF) by ring,
    show - -1 * k / 2 = k / 2 by ring] at hxm
  rw [one_mul, show -1 * k / 2 = -k / 2 by ring] at hxp
  rw [hxm, hxp]
  have hpre : al * (wignerSeitz n / bohr u) * (T * u.kB / fermiEnergy u n) / (8 * (k / (2 * kF)) ^ 3)
      = u.kB * T * u.me ^ 2 * u.e ^ 2 / (2 * π * u.eps0 * u.hbar ^ 4 * k ^ 3) := by
    have hws' : al * wignerSeitz n = 1 / kF := by
      field_simp
      linarith
    rw [hEFk]
    unfold bohr
    calc al * (wignerSeitz n / (4 * π * u.eps0 * u.hbar ^ 2 / (u.me * u.e ^ 2))) *
          (T * u.kB / (u.hbar ^ 2 * kF ^ 2 / (2 * u.me))) / (8 * (k / (2 * kF)) ^ 3)
        = (al * wignerSeitz n) / (4 * π * u.eps0 * u.hbar ^ 2 / (u.me * u.e ^ 2)) *
          (T * u.kB / (u.hbar ^ 2 * kF ^ 2 / (2 * u.me))) / (8 * (k / (2 * kF)) ^ 3) := by ring
      _ = _ := by
        rw [hws']
        field_simp
        norm_num
  rw [← hpre]
  ring

/-- C28: `S0_ee_RPA_Dandrea` is positive at every energy transfer but zero, whatever the values of
the fits. -/
theorem s0eeDandrea_pos (d : DandreaFits) {k T n E : ℝ} (hk : 0 < k) (hT : 0 < T) (hn : 0 < n)
    (hE : E ≠ 0) (lfc : ℝ) : 0 < s0eeDandrea u d k T n E lfc := by
  have hV := vee_ne u hk.ne'
  have hxi : xiDandrea u d k (-E) T n = noninteractingFromEps u (epsDandrea u d k (-E) T n) k := by
    unfold noninteractingFromEps epsDandrea
    field_simp
    ring
  simp only [s0eeDandrea]
  rw [hxi]
  apply chain_pos u hk.ne' hT hn
  rw [epsDandrea_im u d _ hk hT hn]
  exact imagRPANoDamping_sign u _ hk hT (neg_ne_zero.2 hE)

/-- C28: `S0_ee_RPA_Dandrea` fulfils detailed balance. -/
theorem s0eeDandrea_balance (d : DandreaFits) (k n lfc : ℝ) {T E : ℝ} (hT : 0 < T)
    (hE : E ≠ 0) :
    s0eeDandrea u d k T n E lfc =
      exp (-E / (u.kB * T)) * s0eeDandrea u d k T n (-E) lfc := by
  simp only [s0eeDandrea]
  rw [neg_neg]
  apply fdt_balance u k T n hT hE
  rw [show xiDandrea u d k (-E) T n = conj (xiDandrea u d k E T n) from
    xiDandrea_hermitian u d k T n E, xiLfc_conj]

/-! ### Random phase approximation for complex energies -/

/-- The reflection of a complex energy that leaves its damping unchanged. -/
theorem redW_reflect (k : ℝ) (E : ℂ) (T : ℝ) :
    redW u k (-conj E) T = -conj (redW u k E T) := by
  simp only [redW, map_div₀, Complex.conj_ofReal]
  ring

theorem realRPARewrite_reflect (k : ℝ) (E : ℂ) (mu T : ℝ) :
    realRPARewrite u k (-conj E) mu T = realRPARewrite u k E mu T := by
  have h1 : (redW u k (-conj E) T).re = -(redW u k E T).re := by rw [redW_reflect]; simp
  have h2 : (redW u k (-conj E) T).im = (redW u k E T).im := by rw [redW_reflect]; simp
  simp only [realRPARewrite, h1, h2, abs_neg, sub_neg_eq_add, ← sub_eq_add_neg]
  have hc : ∀ a b w : ℝ, (w + a) / ((w + a) ^ 2 + b ^ 2) + (w - a) / ((w - a) ^ 2 + b ^ 2) =
      (w - a) / ((w - a) ^ 2 + b ^ 2) + (w + a) / ((w + a) ^ 2 + b ^ 2) :=
    fun a b w => add_comm _ _
  simp only [hc]

theorem imagRPARewrite_reflect (k : ℝ) (E : ℂ) (mu T : ℝ) :
    imagRPARewrite u k (-conj E) mu T = -imagRPARewrite u k E mu T := by
  have h1 : (redW u k (-conj E) T).re = -(redW u k E T).re := by rw [redW_reflect]; simp
  have h2 : (redW u k (-conj E) T).im = (redW u k E T).im := by rw [redW_reflect]; simp
  simp only [imagRPARewrite, h1, h2, abs_neg, sub_neg_eq_add, ← sub_eq_add_neg]
  have hc : ∀ a b w c : ℝ, (1 / ((w + a) ^ 2 + b ^ 2) - 1 / ((w - a) ^ 2 + b ^ 2)) * c =
      -((1 / ((w - a) ^ 2 + b ^ 2) - 1 / ((w + a) ^ 2 + b ^ 2)) * c) :=
    fun a b w c => by ring
  simp only [hc, integral_neg]
  ring

theorem realRPA_reflect (k : ℝ) (E : ℂ) (mu T : ℝ) :
    realRPA u k (-conj E) mu T = realRPA u k E mu T := by
  simp only [realRPA, Complex.neg_re, Complex.conj_re, Complex.neg_im, Complex.conj_im, neg_neg]
  have hk : -E.re / u.hbar * u.me / (u.hbar * k) = -(E.re / u.hbar * u.me / (u.hbar * k)) := by
    ring
  rw [hk]
  have hc : ∀ d a Q : ℝ,
      (d ^ 2 + (-a - k / 2 - Q) ^ 2) * (d ^ 2 + (-a + k / 2 + Q) ^ 2) /
        ((d ^ 2 + (-a - k / 2 + Q) ^ 2) * (d ^ 2 + (-a + k / 2 - Q) ^ 2)) =
      (d ^ 2 + (a - k / 2 - Q) ^ 2) * (d ^ 2 + (a + k / 2 + Q) ^ 2) /
        ((d ^ 2 + (a - k / 2 + Q) ^ 2) * (d ^ 2 + (a + k / 2 - Q) ^ 2)) := by
    intro d a Q
    congr 1 <;> ring
  simp only [hc]

theorem imagRPA_reflect (k : ℝ) (E : ℂ) (mu T : ℝ) :
    imagRPA u k (-conj E) mu T = -imagRPA u k E mu T := by
  simp only [imagRPA, Complex.neg_re, Complex.conj_re, Complex.neg_im, Complex.conj_im, neg_neg,
    imagRPANoDamping_neg]
  have hk : -E.re / u.hbar * u.me / (u.hbar * k) = -(E.re / u.hbar * u.me / (u.hbar * k)) := by
    ring
  rw [hk]
  have hc : ∀ d a Q f y : ℝ, Q * f *
      (arctan ((-a - k / 2 - Q) / d) + arctan ((-a + k / 2 + Q) / d) -
        arctan ((-a - k / 2 + Q) / d) - arctan ((-a + k / 2 - Q) / d)) * y =
      -(Q * f * (arctan ((a - k / 2 - Q) / d) + arctan ((a + k / 2 + Q) / d) -
        arctan ((a - k / 2 + Q) / d) - arctan ((a + k / 2 - Q) / d)) * y) := by
    intro d a Q f y
    have e1 : (-a - k / 2 - Q) / d = -((a + k / 2 + Q) / d) := by ring
    have e2 : (-a + k / 2 + Q) / d = -((a - k / 2 - Q) / d) := by ring
    have e3 : (-a - k / 2 + Q) / d = -((a + k / 2 - Q) / d) := by ring
    have e4 : (-a + k / 2 - Q) / d = -((a - k / 2 + Q) / d) := by ring
    rw [e1, e2, e3, e4]
    simp only [arctan_neg]
    ring
  simp only [hc, integral_neg]
  split_ifs
  · rfl
  · ring

/-- Both damped dielectric functions are real in the time domain: reflecting the energy at fixed
damping conjugates them. -/
theorem epsDamped_reflect (rewrite : Bool) (k : ℝ) (E : ℂ) (mu T : ℝ) :
    epsDamped u rewrite k (-conj E) mu T = conj (epsDamped u rewrite k E mu T) := by
  cases rewrite
  · apply Complex.ext <;>
      simp [epsDamped, epsRPA, realRPA_reflect, imagRPA_reflect]
  · apply Complex.ext <;>
      simp [epsDamped, epsRPARewrite, realRPARewrite_reflect, imagRPARewrite_reflect]

/-! ### C55: structure factor of the damped functions at real energies -/

theorem redW_ofReal_im (k E T : ℝ) : (redW u k (E : ℂ) T).im = 0 := by
  have : redW u k (E : ℂ) T = ((E / u.hbar / k / (sqrt 2 * thermalVelocity u T) : ℝ) : ℂ) := by
    simp only [redW]
    push_cast
    rfl
  rw [this, Complex.ofReal_im]

/-- C55: at real energies, the imaginary part of `dielectric_function_RPA_rewrite` vanishes.  The
other damped function falls back to the undamped one here, this one does not. -/
theorem imagRPARewrite_real (k E mu T : ℝ) : imagRPARewrite u k (E : ℂ) mu T = 0 := by
  simp [imagRPARewrite, redW_ofReal_im]

/-- C55: `S0_ee_RPA` with its default `rpa_rewrite=True` is zero for all real energies. -/
theorem s0eeRPA_default_zero (k T n E mu lfc : ℝ) : s0eeRPA u k T n E mu lfc true = 0 := by
  have h : (noninteractingFromEps u (epsDamped u true k ((-E : ℝ) : ℂ) mu T) k).im = 0 := by
    rw [noninteractingFromEps_im]
    simp only [epsDamped, cond_true, epsRPARewrite, imagRPARewrite_real]
    simp
  simp only [s0eeRPA, s0eeSusceptibility]
  rw [Complex.im_mul_ofReal, xiLfc_im, h]
  simp

/-- C55: `S0_ee_RPA` with its default arguments differs from `S0_ee_RPA_no_damping` at every nonzero
energy transfer, although no damping is present in both cases. -/
theorem s0eeRPA_default_ne {k T n E : ℝ} (hk : 0 < k) (hT : 0 < T) (hn : 0 < n) (hE : E ≠ 0)
    (mu lfc : ℝ) (unsave : Bool) :
    s0eeRPA u k T n E mu lfc ≠ s0eeRPANoDamping u k T n E mu lfc unsave := by
  rw [s0eeRPA_default_zero]
  exact (s0eeRPANoDamping_pos u hk hT hn hE mu lfc unsave).ne

theorem realRPA_real (k E mu T : ℝ) :
    realRPA u k (E : ℂ) mu T = realRPANoDampingUnsave u k E mu T := by
  simp only [realRPA, realRPANoDampingUnsave, kappaRPA, integrandRPANoDamping, lnArgRPA,
    Complex.ofReal_re, Complex.ofReal_im]
  have hc : ∀ a Q f y : ℝ, Q * f *
      log ((((0 : ℝ) / u.hbar * u.me / (u.hbar * k)) ^ 2 + (a - k / 2 - Q) ^ 2) *
        (((0 : ℝ) / u.hbar * u.me / (u.hbar * k)) ^ 2 + (a + k / 2 + Q) ^ 2) /
        ((((0 : ℝ) / u.hbar * u.me / (u.hbar * k)) ^ 2 + (a - k / 2 + Q) ^ 2) *
          (((0 : ℝ) / u.hbar * u.me / (u.hbar * k)) ^ 2 + (a + k / 2 - Q) ^ 2))) * y =
      2 * (Q * f * log (|a - k / 2 - Q| * |a + k / 2 + Q| /
        (|a - k / 2 + Q| * |a + k / 2 - Q|)) * y) := by
    intro a Q f y
    have : (((0 : ℝ) / u.hbar * u.me / (u.hbar * k)) ^ 2 + (a - k / 2 - Q) ^ 2) *
        (((0 : ℝ) / u.hbar * u.me / (u.hbar * k)) ^ 2 + (a + k / 2 + Q) ^ 2) /
        ((((0 : ℝ) / u.hbar * u.me / (u.hbar * k)) ^ 2 + (a - k / 2 + Q) ^ 2) *
          (((0 : ℝ) / u.hbar * u.me / (u.hbar * k)) ^ 2 + (a + k / 2 - Q) ^ 2)) =
        (|a - k / 2 - Q| * |a + k / 2 + Q| / (|a - k / 2 + Q| * |a + k / 2 - Q|)) ^ 2 := by
      have z : (0 : ℝ) / u.hbar * u.me / (u.hbar * k) = 0 := by simp
      rw [z, div_pow, mul_pow, mul_pow, sq_abs, sq_abs, sq_abs, sq_abs]
      simp
    rw [this, log_pow]
    push_cast
    ring
  simp only [hc, integral_const_mul]
  ring

theorem epsRPA_real (k E mu T : ℝ) :
    epsRPA u k (E : ℂ) mu T = epsRPANoDamping u k E mu T true := by
  apply Complex.ext
  · simp [epsRPA, epsRPANoDamping, realRPA_real]
  · simp [epsRPA, epsRPANoDamping, imagRPA]

/-- C55: with `rpa_rewrite=False`, `S0_ee_RPA` at real energies is `S0_ee_RPA_no_damping` with
`unsave=True`.
(Partial: with `rpa_rewrite=False`; it fails for the default, see `s0eeRPA_default_zero`.) -/
theorem s0eeRPA_schoerner_partial (k T n E mu lfc : ℝ) :
    s0eeRPA u k T n E mu lfc false = s0eeRPANoDamping u k T n E mu lfc true := by
  simp only [s0eeRPA, s0eeRPANoDamping, epsDamped, cond_false, ← vee_eq]
  rw [epsRPA_real]

end Verif.Resp
