/-
Property C24, the orbitals 5s, 5p and 5d: the profiles of the code against those of hydrogen-like orbitals.  Two of
the coefficients of the code are products of digits (48 * 128 and 46 * 592 instead of 48128 and 46592), and a factor in front of a bracket
only multiplies the first summand.
-/
import Verif.Props.Compton

set_option autoImplicit false

namespace Verif.Bound

open MeasureTheory Set Real Filter Topology Verif.Expt Verif.Resp

variable (u : Consts)

/-- Inverse powers from the third to the eleventh. -/
noncomputable def invPoly11 (c : List ℝ) (y : ℝ) : ℝ := ∑ j ∈ Finset.range 9, c.getD j 0 * (y ^ (j + 3))⁻¹

theorem invPoly11_tendsto (c : List ℝ) : Tendsto (invPoly11 c) atTop (𝓝 0) := by
  have h : Tendsto (invPoly11 c) atTop (𝓝 (∑ j ∈ Finset.range 9, c.getD j 0 * 0)) :=
    tendsto_finsetSum _ fun j _ =>
      ((tendsto_pow_atTop (α := ℝ) (n := j + 3) (by omega)).inv_tendsto_atTop).const_mul _
  simpa using h

theorem invPoly11_deriv (c : List ℝ) {y : ℝ} (hy : 0 < y) :
    HasDerivAt (invPoly11 c) (-∑ j ∈ Finset.range 9, c.getD j 0 * (j + 3) * (y ^ (j + 4))⁻¹) y := by
  unfold invPoly11
  have h : ∀ j ∈ Finset.range 9, HasDerivAt (fun y : ℝ => c.getD j 0 * (y ^ (j + 3))⁻¹)
      (-(c.getD j 0 * (j + 3) * (y ^ (j + 4))⁻¹)) y := by
    intro j _
    have h1 := ((hasDerivAt_pow (j + 3) y).inv (pow_pos hy _).ne').const_mul (c.getD j 0)
    refine h1.congr_deriv ?_
    push_cast
    field_simp
    ring
  have h2 := HasDerivAt.fun_sum h
  rwa [Finset.sum_neg_distrib] at h2

/-- The profiles of 5s, 5p and 5d. -/
noncomputable def trueCoef5 : Fin 3 → List ℝ :=
  ![[25 / 3, -200, 1952, -29440 / 3, 197376 / 7, -48128, 434176 / 9, -131072 / 5, 65536 / 11],
    [0, 100, -1424, 8384, -182848 / 7, 46592, -143360 / 3, 131072 / 5, -65536 / 11],
    [0, 0, 441 / 5, -819, 21753 / 7, -6120, 6592, -18432 / 5, 9216 / 11]]

theorem momentumShape5_eq (l : Fin 3) {y : ℝ} (hy : 0 < y) :
    momentumShape 5 l y = ∑ j ∈ Finset.range 9, (trueCoef5 l).getD j 0 * (j + 3) * (y ^ (j + 4))⁻¹ := by
  fin_cases l <;>
    simp [momentumShape, trueCoef5, Finset.sum_range_succ, gegenbauer] <;>
    field_simp <;> ring

theorem profileSpec5_eq (l : Fin 3) {y : ℝ} (hy : 1 ≤ y) : profileSpec 5 l y = invPoly11 (trueCoef5 l) y := by
  have h := integral_Ioi_of_hasDerivAt_of_nonneg' (a := y) (g := fun t => -invPoly11 (trueCoef5 l) t)
    (g' := momentumShape 5 l) (l := 0)
    (fun t ht => by
      have ht' : y ≤ t := ht
      rw [momentumShape5_eq l (by linarith)]
      exact ((invPoly11_deriv (trueCoef5 l) (by linarith)).neg).congr_deriv (neg_neg _))
    (fun t ht => momentumShape_nonneg _ _ (by have : y < t := ht; linarith))
    (by simpa using (invPoly11_tendsto (trueCoef5 l)).neg)
  unfold profileSpec
  rw [h]
  ring

/-- C24 is false for 5s: how far the profile of the code is off, at every frequency. -/
theorem phi50_off {y : ℝ} (hy : 1 ≤ y) : phi50 y = profileSpec 5 0 y + 41984 / y ^ 8 := by
  have h := profileSpec5_eq 0 hy
  simp only [Fin.val_zero] at h
  rw [h]
  simp [phi50, invPoly11, trueCoef5, Finset.sum_range_succ]
  field_simp
  ring

/-- C24 is false for 5p. -/
theorem phi51_off {y : ℝ} (hy : 1 ≤ y) : phi51 y = profileSpec 5 1 y - 19360 / y ^ 8 := by
  have h := profileSpec5_eq 1 hy
  simp only [Fin.val_one] at h
  rw [h]
  simp [phi51, invPoly11, trueCoef5, Finset.sum_range_succ]
  field_simp
  ring

/-- C24 is false for 5d. -/
theorem phi52_off {y : ℝ} (hy : 1 ≤ y) : phi52 y = profileSpec 5 2 y / 9 + 392 / (5 * y ^ 5) := by
  have h := profileSpec5_eq 2 hy
  simp only [Fin.val_two] at h
  rw [h]
  simp [phi52, invPoly11, trueCoef5, Finset.sum_range_succ]
  field_simp
  ring

/-- C24 is false for 5p: the intensity at the centre of the profile is negative, for every wavenumber and effective
charge. -/
theorem j51_negative {k Z : ℝ} (hZ : 0 < Z) : j51 u (u.hbar * k ^ 2 / (2 * u.me)) k Z < 0 := by
  have ha := alphaFS_pos u
  have hp : 0 < prefSchum u 5 1 Z := by
    unfold prefSchum
    positivity
  have hy : yArg u 5 Z (u.hbar * k ^ 2 / (2 * u.me)) k = 1 := by simp [yArg, xi]
  unfold j51
  rw [hy]
  refine mul_neg_of_pos_of_neg hp ?_
  unfold phi51
  norm_num

/-- The true profiles are not negative, and positive at the centre. -/
theorem profileSpec_nonneg (n l : ℕ) {y : ℝ} (hy : 1 ≤ y) : 0 ≤ profileSpec n l y :=
  setIntegral_nonneg measurableSet_Ioi fun t ht => momentumShape_nonneg n l (by have : y < t := ht; linarith)

/-- Values at the centre: 41985 instead of 0.77, and -19359 instead of 0.77. -/
example : 41984 < phi50 1 ∧ profileSpec 5 0 1 < 1 ∧ phi51 1 < -19359 ∧ profileSpec 5 1 1 < 1 := by
  have h0 := profileSpec5_eq 0 (le_refl (1 : ℝ))
  have h1 := profileSpec5_eq 1 (le_refl (1 : ℝ))
  simp only [Fin.val_zero, Fin.val_one] at h0 h1
  refine ⟨?_, ?_, ?_, ?_⟩
  · norm_num [phi50]
  · rw [h0]; norm_num [invPoly11, trueCoef5, Finset.sum_range_succ]
  · norm_num [phi51]
  · rw [h1]; norm_num [invPoly11, trueCoef5, Finset.sum_range_succ]

/-- C24: the wave functions by quantum numbers are those of the impulse approximation for the shells K and L, and there are no
others. -/
theorem bmBound_eq (o : Fin 10) (omega k : ℝ) {Z : ℝ} (hZ : 0 < Z) (hr : Bool) :
    bmBound u (orbN o) (orbL o) omega k Z hr =
      if o ≤ 2 then some (jSchum u o omega k Z + if hr then jHR u o omega k Z else 0) else none := by
  have key : ∀ p : Fin 10, p ≤ 2 → jBM u p omega k Z = jSchum u p omega k Z := fun p hp => by
    rw [jBM_eq u p omega k hZ, if_pos hp]
  match o with
  | 0 => cases hr <;> simp [bmBound, orbN, orbL, key 0 (by decide)]
  | 1 => cases hr <;> simp [bmBound, orbN, orbL, key 1 (by decide)]
  | 2 => cases hr <;> simp [bmBound, orbN, orbL, key 2 (by decide)]
  | 3 => simp [bmBound, orbN, orbL]
  | 4 => simp [bmBound, orbN, orbL]
  | 5 => simp [bmBound, orbN, orbL]
  | 6 => simp [bmBound, orbN, orbL]
  | 7 => simp [bmBound, orbN, orbL]
  | 8 => simp [bmBound, orbN, orbL]
  | 9 => simp [bmBound, orbN, orbL]

/-- C24: a pair of quantum numbers other than those of 1s, 2s and 2p raises, whether or not such an orbital exists. -/
theorem bmBound_none (n l : ℕ) (omega k Z : ℝ) (hr : Bool) (h : (n, l) ∉ [(1, 0), (2, 0), (2, 1)]) :
    bmBound u n l omega k Z hr = none := by
  simp only [List.mem_cons, Prod.mk.injEq, List.not_mem_nil, or_false, not_or] at h
  unfold bmBound
  rw [if_neg h.1, if_neg h.2.1, if_neg h.2.2]
  rfl

/-- C24: the older approximation with the asymmetric correction is the newer one for the shells K and L, and drops
the electrons of the other ones; its integral over all frequencies is the population. -/
theorem bmHRApprox_norm (o : Fin 10) (pop : ℝ) {k Z : ℝ} (hk : 0 < k) (hZ : 0 < Z) :
    (∀ omega, bmHRApprox u o omega k pop Z = if o ≤ 2 then impulseApprox u o omega k pop Z else 0) ∧
      ∫ omega : ℝ, bmHRApprox u o omega k pop Z = if o ≤ 2 then pop else 0 := by
  have h : ∀ omega, bmHRApprox u o omega k pop Z = if o ≤ 2 then impulseApprox u o omega k pop Z else 0 := by
    intro omega
    unfold bmHRApprox
    rw [jBM_eq u o omega k hZ]
    by_cases ho : o ≤ 2
    · rw [if_pos ho, if_pos ho]; rfl
    · rw [if_neg ho, if_neg ho]
      have : hrShape o (xi u (orbN o) Z omega k) = 0 := by
        fin_cases o <;> first | exact absurd (by decide) ho | rfl
      have h0 : jHR u o omega k Z = 0 := by
        unfold jHR
        rw [this, mul_zero]
      rw [h0]; ring
  refine ⟨h, ?_⟩
  simp_rw [h]
  by_cases ho : o ≤ 2
  · simp only [if_pos ho]
    exact impulse_norm_partial u (ho.trans (by decide)) pop hk hZ
  · simp [if_neg ho]

/-- C24: without the correction the profile is symmetric about the Compton shift of a free electron, not negative,
and integrates to the population for the shells K and L. -/
theorem bmApprox_norm (o : Fin 10) (pop : ℝ) {k Z : ℝ} (hk : 0 < k) (hZ : 0 < Z) (hp : 0 ≤ pop) :
    (∀ x, bmApprox u o (u.hbar * k ^ 2 / (2 * u.me) + x) k pop Z =
        bmApprox u o (u.hbar * k ^ 2 / (2 * u.me) - x) k pop Z) ∧
      (∀ omega, 0 ≤ bmApprox u o omega k pop Z) ∧
      ∫ omega : ℝ, bmApprox u o omega k pop Z = if o ≤ 2 then pop else 0 := by
  have hc := u.c_pos
  have hn : 1 ≤ orbN o := (orb_covered o).1
  have hn' : (0 : ℝ) < orbN o := by exact_mod_cast hn
  have ha := alphaFS_pos u
  have e : ∀ omega, bmApprox u o omega k pop Z = if o ≤ 2 then pop * jSchum u o omega k Z / (u.c * k) else 0 := by
    intro omega
    unfold bmApprox
    rw [jBM_eq u o omega k hZ]
    by_cases ho : o ≤ 2
    · rw [if_pos ho, if_pos ho]
    · rw [if_neg ho, if_neg ho]; ring
  simp_rw [e]
  by_cases ho : o ≤ 2
  · simp only [if_pos ho]
    refine ⟨fun x => ?_, fun omega => ?_, ?_⟩
    · have hx : xi u (orbN o) Z (u.hbar * k ^ 2 / (2 * u.me) + x) k ^ 2 =
          xi u (orbN o) Z (u.hbar * k ^ 2 / (2 * u.me) - x) k ^ 2 := by
        unfold xi; ring
      unfold jSchum
      rw [hx]
    · have := jSchum_pos u o omega k hZ
      positivity
    · have h1 : ∀ omega, pop * jSchum u o omega k Z / (u.c * k) = pop / (u.c * k) * prefSchum u (orbN o) (orbL o) Z *
          invPoly (codeCoef o) (1 + xi u (orbN o) Z omega k ^ 2) := by
        intro omega
        unfold jSchum
        rw [phiS_eq o (by positivity)]
        ring
      have h2 : norms o = 1 := by
        fin_cases o <;> first | exact absurd ho (by decide) | simp [norms]
      have h3 := pref_norm u o hZ
      simp_rw [h1]
      rw [integral_const_mul, xi_integral u (orbN o) hn hk hZ (fun x => invPoly (codeCoef o) (1 + x ^ 2))]
      rw [h2] at h3
      generalize (∫ x : ℝ, invPoly (codeCoef o) (1 + x ^ 2)) = I at h3
      generalize prefSchum u (orbN o) (orbL o) Z = P at h3
      have : pop / (u.c * k) * P * (u.c * k * Z * alphaFS u / orbN o * I) = pop * (P * (Z * alphaFS u / orbN o) * I) := by
        field_simp
      rw [this]
      linear_combination pop * h3
  · simp [if_neg ho]

end Verif.Bound
