/-
Helpers for C79: what the test of a number of the grid says about the Fermi integral.
-/
import Verif.Lemmas.FermiGridValue

set_option autoImplicit false

namespace Verif.FermiInt
open Real Verif.RatPoly

/-- The Fermi integral without its norm. -/
noncomputable def unnorm (η : ℝ) : ℝ := Gamma (1 / 2 + 1) * fermiIntegral η (1 / 2)

theorem unnorm_pos (η : ℝ) : 0 < unnorm η := mul_pos norm_pos (fermiIntegral_pos _ (by norm_num) _)

theorem unnorm_deriv (η : ℝ) :
    HasDerivAt unnorm (Gamma (1 / 2 + 1) * fermiIntegral η (-1 / 2)) η := by
  have := (fermiIntegral_deriv (1 / 2) (by norm_num) η).const_mul (Gamma (1 / 2 + 1))
  rw [show (1 / 2 - 1 : ℝ) = -1 / 2 by norm_num] at this
  exact this

theorem unnorm_strictMono : StrictMono unnorm := by
  apply strictMono_of_deriv_pos
  intro x
  rw [(unnorm_deriv x).deriv]
  exact mul_pos norm_pos (fermiIntegral_pos _ (by norm_num) _)

theorem fermiIntegral_mono (n : ℝ) (hn : -1 < n) : Monotone fun x => fermiIntegral x n := by
  intro x y hxy
  unfold fermiIntegral
  apply div_le_div_of_nonneg_right _ (Gamma_pos_of_pos (by linarith)).le
  apply MeasureTheory.setIntegral_mono_on (integrand_integrable n hn x) (integrand_integrable n hn y)
    measurableSet_Ioi
  intro t ht
  have ht' : (0 : ℝ) < t := ht
  apply div_le_div_of_nonneg_left (rpow_pos_of_pos ht' n).le (by positivity)
  have := exp_le_exp.2 (show t - y ≤ t - x by linarith)
  linarith

theorem unnorm_convex : ConvexOn ℝ Set.univ unnorm := by
  apply Monotone.convexOn_univ_of_deriv
  · exact fun x => (unnorm_deriv x).differentiableAt
  · intro x y hxy
    rw [(unnorm_deriv x).deriv, (unnorm_deriv y).deriv]
    exact mul_le_mul_of_nonneg_left (fermiIntegral_mono (-1 / 2) (by norm_num) hxy) norm_pos.le

/-- The approximation without its norm, and the integral. -/
theorem unnorm_fermi12 (η : ℝ) :
    Gamma (1 / 2 + 1) * fermi12 η ≤ (1 + 12 / 10 ^ 7) * unnorm η ∧
    (1 - 12 / 10 ^ 7) * unnorm η ≤ Gamma (1 / 2 + 1) * fermi12 η := by
  have h := abs_le.1 (fermi_accurate η).1
  have hn := norm_pos
  unfold unnorm
  generalize Gamma (1 / 2 + 1) = g at *
  generalize fermiIntegral η (1 / 2) = f at *
  generalize fermi12 η = a at *
  constructor <;> nlinarith

theorem gS_cast : ((gS2 : ℕ) : ℝ) = (gS : ℝ) ^ 2 ∧ ((gS3 : ℕ) : ℝ) = (gS : ℝ) ^ 3 ∧ 0 < gS := by
  refine ⟨?_, ?_, ?_⟩ <;> simp only [gS, gS2, gS3] <;> norm_num

attribute [local irreducible] gS gS2 gS3 eD eP

/-- The approximation above two in terms of the integers. -/
theorem high_value (A : ℕ) (hA : 2 * gS ≤ A) :
    0 < dH gS2 (A * A) ∧ 0 < Gamma (1 / 2 + 1) * fermi12 (A / gS) ∧
    (Gamma (1 / 2 + 1) * fermi12 (A / gS)) ^ 2 * (((dH gS2 (A * A) : ℕ) : ℝ) ^ 2 * (gS3 : ℕ)) =
      (A : ℝ) ^ 7 * ((cH gS2 (A * A) : ℕ) : ℝ) ^ 2 := by
  obtain ⟨s2, s3, s0⟩ := gS_cast
  have hS : (0 : ℝ) < gS := by exact_mod_cast s0
  have hA0 : 0 < A := by omega
  have hA' : (0 : ℝ) < A := by exact_mod_cast hA0
  have hx : (2 : ℝ) ≤ (A : ℝ) / gS := by
    rw [le_div_iff₀ hS]; exact_mod_cast hA
  have hv : ((A : ℝ) / gS) ^ (-2 : ℝ) = ((gS2 : ℕ) : ℝ) / ((A * A : ℕ) : ℝ) := by
    rw [rpow_neg (by positivity), show (2 : ℝ) = ((2 : ℕ) : ℝ) by norm_num, rpow_natCast, s2]
    push_cast
    field_simp
  obtain ⟨pc, pd⟩ := d12_pos _ hx
  have hle : gS2 ≤ A * A := by
    have : (gS : ℝ) ^ 2 ≤ (A : ℝ) * A := by
      have : (gS : ℝ) ≤ A := by exact_mod_cast (show gS ≤ A by omega)
      nlinarith
    rw [← s2] at this
    exact_mod_cast this
  have ec := cH_eq gS2 (A * A) (by positivity)
  have ed := dH_eq gS2 (A * A) (by positivity) hle
  rw [← hv] at ec ed
  have hF : Gamma (1 / 2 + 1) * fermi12 (A / gS) = ((A : ℝ) / gS) ^ (3 / 2 : ℝ) *
      (ev c12.c (((A : ℝ) / gS) ^ (-2 : ℝ)) / ev c12.d (((A : ℝ) / gS) ^ (-2 : ℝ))) := by
    unfold fermi12 fermiF
    rw [if_neg (by linarith), rational_ev, show (1 / 2 + 1 : ℝ) = 3 / 2 by norm_num]
    have : Gamma (3 / 2) ≠ 0 := (Gamma_pos_of_pos (by norm_num)).ne'
    field_simp
  have h32 : (((A : ℝ) / gS) ^ (3 / 2 : ℝ)) ^ 2 = ((A : ℝ) / gS) ^ 3 := by
    rw [← rpow_natCast, ← rpow_mul (by positivity), show (3 / 2 * ((2 : ℕ) : ℝ)) = ((3 : ℕ) : ℝ) by norm_num,
      rpow_natCast]
  have h32p : 0 < ((A : ℝ) / gS) ^ (3 / 2 : ℝ) := rpow_pos_of_pos (by positivity) _
  refine ⟨?_, ?_, ?_⟩
  · have : (0 : ℝ) < ((dH gS2 (A * A) : ℕ) : ℝ) := by rw [ed]; positivity
    exact_mod_cast this
  · rw [hF]; positivity
  · rw [hF, mul_pow, h32, ec, ed, s3]
    generalize ev c12.c (((A : ℝ) / gS) ^ (-2 : ℝ)) = c at *
    generalize ev c12.d (((A : ℝ) / gS) ^ (-2 : ℝ)) = d at *
    generalize (gS : ℝ) = S at *
    push_cast
    generalize (A : ℝ) = a at *
    field_simp

theorem highLow_spec (A X U : ℕ) (hA : 2 * gS ≤ A) (hU : 0 < U) (h : highLow A X U = true) :
    (1 - 13 / 10 ^ 8) * ((X : ℝ) / U) ≤ Gamma (1 / 2 + 1) * fermi12 (A / gS) := by
  obtain ⟨d0, f0, e⟩ := high_value A hA
  have h' := Nat.le_of_ble_eq_true h
  simp only [Nat.mul_eq, Nat.pow_eq] at h'
  have h'' : (9999997400000169 * ((X : ℝ) * X) * ((dH gS2 (A * A) : ℕ) : ℝ) ^ 2 * (gS3 : ℕ) : ℝ) ≤
      10000000000000000 * (A : ℝ) ^ 7 * ((cH gS2 (A * A) : ℕ) : ℝ) ^ 2 * ((U : ℝ) * U) := by exact_mod_cast h'
  have hU' : (0 : ℝ) < U := by exact_mod_cast hU
  have hw : (0 : ℝ) < ((dH gS2 (A * A) : ℕ) : ℝ) ^ 2 * (gS3 : ℕ) := by
    have : 0 < gS3 := by simp [gS3]
    positivity
  generalize Gamma (1 / 2 + 1) * fermi12 (A / gS) = F at *
  rw [show (10000000000000000 * (A : ℝ) ^ 7 * ((cH gS2 (A * A) : ℕ) : ℝ) ^ 2 * ((U : ℝ) * U)) =
    10000000000000000 * ((A : ℝ) ^ 7 * ((cH gS2 (A * A) : ℕ) : ℝ) ^ 2) * ((U : ℝ) * U) by ring, ← e,
    show (9999997400000169 * ((X : ℝ) * X) * ((dH gS2 (A * A) : ℕ) : ℝ) ^ 2 * (gS3 : ℕ) : ℝ) =
    9999997400000169 * ((X : ℝ) * X) * (((dH gS2 (A * A) : ℕ) : ℝ) ^ 2 * (gS3 : ℕ)) by ring] at h''
  generalize ((dH gS2 (A * A) : ℕ) : ℝ) ^ 2 * (gS3 : ℕ) = w at *
  have h3 : (9999997400000169 * ((X : ℝ) * X)) ≤ 10000000000000000 * F ^ 2 * ((U : ℝ) * U) := by
    by_contra hc
    push Not at hc
    have := mul_lt_mul_of_pos_right hc hw
    nlinarith
  refine le_of_sq_le_sq ?_ f0.le
  rw [mul_pow, div_pow, ← mul_div_assoc, div_le_iff₀ (by positivity)]
  nlinarith

theorem highUp_spec (A X U : ℕ) (hA : 2 * gS ≤ A) (hU : 0 < U) (h : highUp A X U = true) :
    Gamma (1 / 2 + 1) * fermi12 (A / gS) ≤ (1 + 13 / 10 ^ 8) * ((X : ℝ) / U) := by
  obtain ⟨d0, f0, e⟩ := high_value A hA
  have h' := Nat.le_of_ble_eq_true h
  simp only [Nat.mul_eq, Nat.pow_eq] at h'
  have h'' : 10000000000000000 * (A : ℝ) ^ 7 * ((cH gS2 (A * A) : ℕ) : ℝ) ^ 2 * ((U : ℝ) * U) ≤
      (10000002600000169 * ((X : ℝ) * X) * ((dH gS2 (A * A) : ℕ) : ℝ) ^ 2 * (gS3 : ℕ) : ℝ) := by exact_mod_cast h'
  have hU' : (0 : ℝ) < U := by exact_mod_cast hU
  have hw : (0 : ℝ) < ((dH gS2 (A * A) : ℕ) : ℝ) ^ 2 * (gS3 : ℕ) := by
    have : 0 < gS3 := by simp [gS3]
    positivity
  generalize Gamma (1 / 2 + 1) * fermi12 (A / gS) = F at *
  rw [show (10000000000000000 * (A : ℝ) ^ 7 * ((cH gS2 (A * A) : ℕ) : ℝ) ^ 2 * ((U : ℝ) * U)) =
    10000000000000000 * ((A : ℝ) ^ 7 * ((cH gS2 (A * A) : ℕ) : ℝ) ^ 2) * ((U : ℝ) * U) by ring, ← e,
    show (10000002600000169 * ((X : ℝ) * X) * ((dH gS2 (A * A) : ℕ) : ℝ) ^ 2 * (gS3 : ℕ) : ℝ) =
    10000002600000169 * ((X : ℝ) * X) * (((dH gS2 (A * A) : ℕ) : ℝ) ^ 2 * (gS3 : ℕ)) by ring] at h''
  generalize ((dH gS2 (A * A) : ℕ) : ℝ) ^ 2 * (gS3 : ℕ) = w at *
  have h3 : 10000000000000000 * F ^ 2 * ((U : ℝ) * U) ≤ (10000002600000169 * ((X : ℝ) * X)) := by
    by_contra hc
    push Not at hc
    have := mul_lt_mul_of_pos_right hc hw
    nlinarith
  refine le_of_sq_le_sq ?_ (by positivity)
  rw [mul_pow, div_pow, ← mul_div_assoc, le_div_iff₀ (by positivity)]
  nlinarith

/-- The approximation below two in terms of the integers. -/
theorem low_value (b : ℕ) (hb : 0 < b) :
    0 < bH (b * b) gS2 ∧ exp (log (((b : ℝ) / gS) ^ 2)) = ((b : ℝ) / gS) ^ 2 ∧
    (exp (log (((b : ℝ) / gS) ^ 2)) * rational c12.a c12.b (exp (log (((b : ℝ) / gS) ^ 2)))) *
      ((gS2 : ℕ) * ((bH (b * b) gS2 : ℕ) : ℝ)) = ((b : ℝ) * b) * ((aH (b * b) gS2 : ℕ) : ℝ) := by
  obtain ⟨s2, -, s0⟩ := gS_cast
  have hS : (0 : ℝ) < gS := by exact_mod_cast s0
  have hb' : (0 : ℝ) < b := by exact_mod_cast hb
  have h2 : 0 < gS2 := by simp [gS2]
  have ex : exp (log (((b : ℝ) / gS) ^ 2)) = ((b : ℝ) / gS) ^ 2 := exp_log (by positivity)
  have hv : ((b : ℝ) / gS) ^ 2 = ((b * b : ℕ) : ℝ) / ((gS2 : ℕ) : ℝ) := by
    rw [s2]; push_cast; field_simp
  have ea := aH_eq (b * b) gS2 h2
  have eb := bH_eq (b * b) gS2 h2
  rw [← hv] at ea eb
  obtain ⟨pa, pb, -⟩ := b_pos (((b : ℝ) / gS) ^ 2) (by positivity)
  refine ⟨?_, ex, ?_⟩
  · have h2' : (0 : ℝ) < ((gS2 : ℕ) : ℝ) := by exact_mod_cast h2
    have : (0 : ℝ) < ((bH (b * b) gS2 : ℕ) : ℝ) := by rw [eb]; positivity
    exact_mod_cast this
  · rw [ex, rational_ev, ea, eb, s2]
    generalize ev c12.a (((b : ℝ) / gS) ^ 2) = c at *
    generalize ev c12.b (((b : ℝ) / gS) ^ 2) = d at *
    generalize (gS : ℝ) = S at *
    generalize (b : ℝ) = a at *
    field_simp

/-- Half of the exponent and the terms of the exponential function. -/
theorem eH_sum (A : ℕ) : ((eH A (2 * gS) : ℕ) : ℝ) / eD =
    ∑ m ∈ Finset.range 15, ((A : ℝ) / gS / 2) ^ m / m.factorial := by
  have e := eH_eq A (2 * gS) (by simp [gS])
  have hd : ((eD : ℕ) : ℝ) = 1307674368000 * ((2 * gS : ℕ) : ℝ) ^ 14 := by
    simp only [eD, gS]; norm_num
  have hp : (0 : ℝ) < ((2 * gS : ℕ) : ℝ) := by simp [gS]
  rw [e, hd, show (A : ℝ) / gS / 2 = (A : ℝ) / ((2 * gS : ℕ) : ℝ) by push_cast; field_simp]
  generalize ((2 * gS : ℕ) : ℝ) = q at *
  field_simp

theorem eD_pos : (0 : ℝ) < ((eD : ℕ) : ℝ) := by simp [eD]

theorem expLow_spec (A b : ℕ) (h : b * eD ≤ eH A (2 * gS) * gS) :
    (b : ℝ) / gS ≤ exp ((A : ℝ) / gS / 2) := by
  have hS : (0 : ℝ) < gS := by exact_mod_cast gS_cast.2.2
  have h1 : (b : ℝ) * eD ≤ (eH A (2 * gS) : ℕ) * gS := by exact_mod_cast h
  refine le_trans ?_ (Real.sum_le_exp_of_nonneg (by positivity) 15)
  rw [← eH_sum, div_le_div_iff₀ hS eD_pos]
  exact h1

theorem expUp_spec (A b : ℕ) (hA : A ≤ 2 * gS) (h : (eH A (2 * gS) + 2 * eP) * gS ≤ b * eD) :
    exp ((A : ℝ) / gS / 2) ≤ (b : ℝ) / gS := by
  have hS : (0 : ℝ) < gS := by exact_mod_cast gS_cast.2.2
  have h1 : ((eH A (2 * gS) : ℕ) + 2 * (eP : ℕ)) * (gS : ℝ) ≤ (b : ℝ) * eD := by exact_mod_cast h
  have hx0 : 0 ≤ (A : ℝ) / gS / 2 := by positivity
  have hx1 : (A : ℝ) / gS / 2 ≤ 1 := by
    rw [div_div, div_le_one (by positivity)]
    have : (A : ℝ) ≤ 2 * gS := by exact_mod_cast hA
    linarith
  refine (Real.exp_bound' hx0 hx1 (n := 15) (by norm_num)).trans ?_
  rw [← eH_sum]
  have hp : ((A : ℝ) / gS / 2) ^ 15 * ((15 : ℕ) + 1) / ((15 : ℕ).factorial * (15 : ℕ)) ≤
      2 * (eP : ℕ) / (eD : ℕ) := by
    have e : ((eD : ℕ) : ℝ) = 1307674368000 * ((eP : ℕ) : ℝ) := by simp only [eD, eP]; norm_num
    have hP : (0 : ℝ) < ((eP : ℕ) : ℝ) := by simp [eP]
    rw [e]
    have := pow_le_one₀ (n := 15) hx0 hx1
    rw [show (2 * ((eP : ℕ) : ℝ) / (1307674368000 * (eP : ℕ))) = 2 / 1307674368000 by field_simp]
    rw [show ((15 : ℕ).factorial : ℝ) = 1307674368000 by norm_num [Nat.factorial]]
    push_cast
    rw [div_le_div_iff₀ (by norm_num) (by norm_num)]
    nlinarith
  calc _ ≤ ((eH A (2 * gS) : ℕ) : ℝ) / (eD : ℕ) + 2 * (eP : ℕ) / (eD : ℕ) := by linarith
    _ = (((eH A (2 * gS) : ℕ) : ℝ) + 2 * (eP : ℕ)) / (eD : ℕ) := by ring
    _ ≤ (b : ℝ) / gS := by rw [div_le_div_iff₀ eD_pos hS]; exact h1

/-- The approximation below two and the integral. -/
theorem unnorm_low (η : ℝ) (h : exp η ≤ 37 / 5) :
    exp η * rational c12.a c12.b (exp η) ≤ (1 + 12 / 10 ^ 7) * unnorm η ∧
    (1 - 12 / 10 ^ 7) * unnorm η ≤ exp η * rational c12.a c12.b (exp η) := by
  have h := abs_le.1 (accurate12 η h)
  have hn := norm_pos
  have hf := fermiIntegral_pos (1 / 2) (by norm_num) η
  unfold unnorm
  rw [← mul_div_cancel_left₀ (exp η * rational c12.a c12.b (exp η)) hn.ne', mul_div_assoc]
  generalize Gamma (1 / 2 + 1) = g at *
  generalize fermiIntegral η (1 / 2) = f at *
  generalize exp η * rational c12.a c12.b (exp η) / g = a at *
  have := mul_pos hn hf
  constructor <;> nlinarith

theorem lowLow_spec (b X U : ℕ) (hb : 0 < b) (hU : 0 < U) (h : lowLow b X U = true) :
    (1 - 13 / 10 ^ 8) * ((X : ℝ) / U) ≤
      exp (log (((b : ℝ) / gS) ^ 2)) * rational c12.a c12.b (exp (log (((b : ℝ) / gS) ^ 2))) := by
  obtain ⟨d0, -, e⟩ := low_value b hb
  have h' := Nat.le_of_ble_eq_true h
  simp only [Nat.mul_eq] at h'
  have h'' : (99999987 * (X : ℝ) * ((gS2 : ℕ) * ((bH (b * b) gS2 : ℕ) : ℝ))) ≤
      100000000 * (U : ℝ) * ((b : ℝ) * b * ((aH (b * b) gS2 : ℕ) : ℝ)) := by exact_mod_cast h'
  have hU' : (0 : ℝ) < U := by exact_mod_cast hU
  have hw : (0 : ℝ) < (gS2 : ℕ) * ((bH (b * b) gS2 : ℕ) : ℝ) := by
    have : 0 < gS2 := by simp [gS2]
    positivity
  rw [← e] at h''
  generalize exp (log (((b : ℝ) / gS) ^ 2)) * rational c12.a c12.b (exp (log (((b : ℝ) / gS) ^ 2))) = F at *
  generalize (gS2 : ℕ) * ((bH (b * b) gS2 : ℕ) : ℝ) = w at *
  have h3 : 99999987 * (X : ℝ) ≤ 100000000 * U * F := by
    by_contra hc
    push Not at hc
    have := mul_lt_mul_of_pos_right hc hw
    nlinarith
  rw [← mul_div_assoc, div_le_iff₀ hU']
  linarith

theorem lowUp_spec (b X U : ℕ) (hb : 0 < b) (hU : 0 < U) (h : lowUp b X U = true) :
    exp (log (((b : ℝ) / gS) ^ 2)) * rational c12.a c12.b (exp (log (((b : ℝ) / gS) ^ 2))) ≤
      (1 + 13 / 10 ^ 8) * ((X : ℝ) / U) := by
  obtain ⟨d0, -, e⟩ := low_value b hb
  have h' := Nat.le_of_ble_eq_true h
  simp only [Nat.mul_eq] at h'
  have h'' : 100000000 * (U : ℝ) * ((b : ℝ) * b * ((aH (b * b) gS2 : ℕ) : ℝ)) ≤
      (100000013 * (X : ℝ) * ((gS2 : ℕ) * ((bH (b * b) gS2 : ℕ) : ℝ))) := by exact_mod_cast h'
  have hU' : (0 : ℝ) < U := by exact_mod_cast hU
  have hw : (0 : ℝ) < (gS2 : ℕ) * ((bH (b * b) gS2 : ℕ) : ℝ) := by
    have : 0 < gS2 := by simp [gS2]
    positivity
  rw [← e] at h''
  generalize exp (log (((b : ℝ) / gS) ^ 2)) * rational c12.a c12.b (exp (log (((b : ℝ) / gS) ^ 2))) = F at *
  generalize (gS2 : ℕ) * ((bH (b * b) gS2 : ℕ) : ℝ) = w at *
  have h3 : 100000000 * U * F ≤ 100000013 * (X : ℝ) := by
    by_contra hc
    push Not at hc
    have := mul_lt_mul_of_pos_right hc hw
    nlinarith
  rw [← mul_div_assoc, le_div_iff₀ hU']
  linarith

/-- From the approximation to the integral. -/
theorem close_up (F G x : ℝ) (hx : 0 ≤ x) (h1 : (1 - 12 / 10 ^ 7) * G ≤ F)
    (h2 : F ≤ (1 + 13 / 10 ^ 8) * x) : G ≤ (1 + 134 / 10 ^ 8) * x := by
  by_contra hc
  push Not at hc
  nlinarith

theorem close_low (F G x : ℝ) (hx : 0 ≤ x) (h1 : F ≤ (1 + 12 / 10 ^ 7) * G)
    (h2 : (1 - 13 / 10 ^ 8) * x ≤ F) : (1 - 134 / 10 ^ 8) * x ≤ G := by
  by_contra hc
  push Not at hc
  nlinarith

/-- What the test of a number says. -/
theorem nodeTest_spec (A X U : ℕ) (hU : 0 < U) (h : nodeTest A X U = true) (η : ℝ)
    (h1 : (A : ℝ) / gS ≤ η) (h2 : η ≤ ((A + 2 : ℕ) : ℝ) / gS) :
    (1 - 134 / 10 ^ 8) * ((X : ℝ) / U) ≤ unnorm η ∧ unnorm η ≤ (1 + 134 / 10 ^ 8) * ((X : ℝ) / U) := by
  have hx : 0 ≤ (X : ℝ) / U := by positivity
  have m1 := unnorm_strictMono.monotone h1
  have m2 := unnorm_strictMono.monotone h2
  have hS : (0 : ℝ) < gS := by exact_mod_cast gS_cast.2.2
  unfold nodeTest at h
  simp only [Nat.mul_eq, Nat.add_eq, forceNat_eq] at h
  cases hb : Nat.ble (2 * gS) A with
  | true =>
    rw [hb] at h
    have hA := Nat.le_of_ble_eq_true hb
    simp only [Bool.and_eq_true] at h
    have a := highLow_spec A X U hA hU h.1
    have c := highUp_spec (A + 2) X U (by omega) hU h.2
    exact ⟨(close_low _ _ _ hx (unnorm_fermi12 _).1 a).trans m1, m2.trans (close_up _ _ _ hx (unnorm_fermi12 _).2 c)⟩
  | false =>
    rw [hb] at h
    simp only [Bool.and_eq_true] at h
    obtain ⟨⟨⟨k1, k2⟩, ⟨k3, k4⟩, k5⟩, ⟨k6, k7⟩, k8⟩ := h
    replace k1 := Nat.le_of_ble_eq_true k1
    replace k2 := Nat.le_of_ble_eq_true k2
    replace k3 := Nat.le_of_ble_eq_true k3
    replace k4 := Nat.le_of_ble_eq_true k4
    replace k6 := Nat.le_of_ble_eq_true k6
    replace k7 := Nat.le_of_ble_eq_true k7
    generalize expLow A = b at *
    generalize expUp (A + 2) = b' at *
    have e1 := expLow_spec A b k4
    have e2 := expUp_spec (A + 2) b' k2 k6
    have hb' : 0 < b' := by
      by_contra hc
      have : b' = 0 := by omega
      rw [this] at e2
      rw [Nat.cast_zero, zero_div] at e2
      exact absurd e2 (not_le.2 (exp_pos _))
    have r1 : (0 : ℝ) < b := by exact_mod_cast k3
    have r2 : (0 : ℝ) < b' := by exact_mod_cast hb'
    have p2 : ∀ x : ℝ, exp (x / 2) ^ 2 = exp x := by
      intro x; rw [← exp_nat_mul]; congr 1; push_cast; ring
    have l1 : log (((b : ℝ) / gS) ^ 2) ≤ (A : ℝ) / gS := by
      rw [Real.log_le_iff_le_exp (by positivity), ← p2]
      exact pow_le_pow_left₀ (by positivity) e1 2
    have l2 : ((A + 2 : ℕ) : ℝ) / gS ≤ log (((b' : ℝ) / gS) ^ 2) := by
      rw [Real.le_log_iff_exp_le (by positivity), ← p2]
      exact pow_le_pow_left₀ (exp_pos _).le e2 2
    have t2 : exp (log (((b' : ℝ) / gS) ^ 2)) ≤ 37 / 5 := by
      rw [exp_log (by positivity), div_pow, ← gS_cast.1, div_le_iff₀ (by simp [gS2])]
      have : (5 : ℝ) * (b' * b') ≤ 37 * (gS2 : ℕ) := by exact_mod_cast k7
      nlinarith
    have t1 : exp (log (((b : ℝ) / gS) ^ 2)) ≤ 37 / 5 :=
      (exp_le_exp.2 (l1.trans (le_trans (by gcongr; simp) l2))).trans t2
    have a := lowLow_spec b X U k3 hU k5
    have c := lowUp_spec b' X U hb' hU k8
    have n1 := unnorm_strictMono.monotone l1
    have n2 := unnorm_strictMono.monotone l2
    exact ⟨(close_low _ _ _ hx (unnorm_low _ t1).1 a).trans (n1.trans m1),
      m2.trans (n2.trans (close_up _ _ _ hx (unnorm_low _ t2).2 c))⟩

end Verif.FermiInt
