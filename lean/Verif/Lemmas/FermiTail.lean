/-
The Fermi integral of order -1/2 from the poles of the occupation: the sum over the poles.
-/
import Verif.Lemmas.FermiPoles
import Verif.Lemmas.FermiSeries
import Mathlib.Analysis.SpecialFunctions.Trigonometric.Cotangent

set_option autoImplicit false

namespace Verif.FermiInt

open MeasureTheory Filter Topology Set Complex

/-! ### The poles of the occupation -/

theorem shifted_half (v : ℝ) : (1 / 2 + I * (v / 2) : ℂ) ∈ Complex.integerComplement := by
  rintro ⟨n, hn⟩
  have h := congrArg Complex.re hn
  simp at h
  have h2 : (2 * n : ℝ) = 1 := by rw [h]; norm_num
  have h3 : (2 * n : ℤ) = 1 := by exact_mod_cast h2
  omega

theorem pair_eq (v : ℝ) (k : ℕ) :
    1 / ((1 / 2 + I * (v / 2) : ℂ) - (k + 1)) + 1 / ((1 / 2 + I * (v / 2) : ℂ) + k) =
      (-4 * I) * ((v / (v ^ 2 + (2 * k + 1) ^ 2) : ℝ) : ℂ) := by
  have hk : (0 : ℝ) < 2 * k + 1 := by positivity
  have hp : (0 : ℝ) < v ^ 2 + (2 * k + 1) ^ 2 := by positivity
  have n1 : (1 / 2 + I * (v / 2) : ℂ) - (k + 1) ≠ 0 := by
    intro h; have := congrArg Complex.re h; simp at this; linarith
  have n2 : (1 / 2 + I * (v / 2) : ℂ) + k ≠ 0 := by
    intro h; have := congrArg Complex.re h; simp at this; linarith
  have n3 : (v : ℂ) ^ 2 + (2 * k + 1) ^ 2 ≠ 0 := by exact_mod_cast hp.ne'
  have e1 : (1 / 2 + I * (v / 2) : ℂ) - (k + 1) = (I * v - (2 * k + 1)) / 2 := by ring
  have e2 : (1 / 2 + I * (v / 2) : ℂ) + k = (I * v + (2 * k + 1)) / 2 := by ring
  rw [e1] at n1 ⊢
  rw [e2] at n2 ⊢
  have m1 : (I * v - (2 * k + 1) : ℂ) ≠ 0 := by intro h; rw [h] at n1; simp at n1
  have m2 : (I * v + (2 * k + 1) : ℂ) ≠ 0 := by intro h; rw [h] at n2; simp at n2
  push_cast
  rw [one_div_div, one_div_div, div_add_div _ _ m1 m2, mul_div_assoc', div_eq_div_iff (mul_ne_zero m1 m2) n3]
  have hI : I ^ 2 = -1 := I_sq
  linear_combination (-4 * I * v * v ^ 2 + 4 * I * v * v ^ 2 + 4 * I * v ^ 3 ) * hI

theorem partial_cot (v : ℝ) (N : ℕ) :
    ∑ k ∈ Finset.range N, (1 / ((1 / 2 + I * (v / 2) : ℂ) - (k + 1)) + 1 / ((1 / 2 + I * (v / 2) : ℂ) + (k + 1))) +
      1 / (1 / 2 + I * (v / 2) : ℂ) =
    (-4 * I) * ((∑ k ∈ Finset.range N, v / (v ^ 2 + (2 * k + 1) ^ 2) : ℝ) : ℂ) + 1 / ((1 / 2 + I * (v / 2) : ℂ) + N) := by
  induction N with
  | zero => simp
  | succ N ih =>
    rw [Finset.sum_range_succ, Finset.sum_range_succ, Complex.ofReal_add, mul_add, ← pair_eq v N]
    push_cast at ih ⊢
    linear_combination ih

theorem cot_half (v : ℝ) :
    Complex.cot (Real.pi * (1 / 2 + I * (v / 2))) = -I * ((1 - 2 / (Real.exp (Real.pi * v) + 1) : ℝ) : ℂ) := by
  rw [Complex.cot_pi_eq_exp_ratio]
  have e : Complex.exp (2 * Real.pi * I * (1 / 2 + I * (v / 2))) = -((Real.exp (Real.pi * v))⁻¹ : ℝ) := by
    have : (2 * Real.pi * I * (1 / 2 + I * (v / 2)) : ℂ) = Real.pi * I + -((Real.pi * v : ℝ) : ℂ) := by
      push_cast
      linear_combination (Real.pi * v : ℂ) * I_sq
    rw [this, Complex.exp_add, Complex.exp_pi_mul_I, Complex.exp_neg, ← Complex.ofReal_exp, ← Complex.ofReal_inv]
    ring
  rw [e]
  have hp := Real.exp_pos (Real.pi * v)
  generalize Real.exp (Real.pi * v) = y at *
  have hy : (y : ℂ) ≠ 0 := by exact_mod_cast hp.ne'
  have hy1 : (y : ℂ) + 1 ≠ 0 := by exact_mod_cast (by linarith : y + 1 ≠ 0)
  push_cast
  have n1 : (1 : ℂ) - -(y : ℂ)⁻¹ ≠ 0 := by
    rw [sub_neg_eq_add]
    intro h
    apply hy1
    field_simp at h
    simpa using h
  rw [div_eq_iff (mul_ne_zero I_ne_zero n1)]
  field_simp
  linear_combination (y ^ 2 - 1 : ℂ) * I_sq

/-- The occupation is a sum over poles at the odd multiples of the imaginary unit. -/
theorem occ_poles (v : ℝ) :
    Tendsto (fun N : ℕ => ∑ k ∈ Finset.range N, v / (v ^ 2 + (2 * k + 1) ^ 2)) atTop
      (𝓝 (Real.pi / 2 * (1 / 2 - 1 / (Real.exp (Real.pi * v) + 1)))) := by
  have h := tendsto_logDeriv_euler_cot_sub (shifted_half v)
  have h1 : Tendsto (fun N : ℕ => 1 / ((1 / 2 + I * (v / 2) : ℂ) + N)) atTop (𝓝 0) := by
    have : Tendsto (fun N : ℕ => ((1 / 2 + I * (v / 2) : ℂ) + N)) atTop (Bornology.cobounded ℂ) := by
      rw [← tendsto_norm_atTop_iff_cobounded]
      refine tendsto_atTop_mono (f := fun N : ℕ => (N : ℝ) + -‖(1 / 2 + I * (v / 2) : ℂ)‖) (fun N => ?_)
        (tendsto_atTop_add_const_right _ _ tendsto_natCast_atTop_atTop)
      have := norm_sub_le ((1 / 2 + I * (v / 2) : ℂ) + N) (1 / 2 + I * (v / 2) : ℂ)
      rw [add_sub_cancel_left, Complex.norm_natCast] at this
      linarith
    refine (tendsto_inv₀_cobounded.comp this).congr fun N => ?_
    simp only [Function.comp_apply, one_div]
  have h2 := ((h.add_const (1 / (1 / 2 + I * (v / 2) : ℂ))).sub h1)
  have h3 : Tendsto (fun N : ℕ => (-4 * I) * ((∑ k ∈ Finset.range N, v / (v ^ 2 + (2 * k + 1) ^ 2) : ℝ) : ℂ)) atTop
      (𝓝 (Real.pi * Complex.cot (Real.pi * (1 / 2 + I * (v / 2))))) := by
    refine (h2.congr fun N => ?_).trans_eq ?_
    · have := partial_cot v N
      simp only [cotTerm]
      linear_combination this
    · congr 1; ring
  have h4 := (Complex.continuous_re.tendsto _).comp (h3.const_mul (I / 4))
  rw [cot_half] at h4
  refine (h4.congr fun N => ?_).trans_eq ?_
  · simp only [Function.comp_apply]
    have : I / 4 * ((-4 * I) * ((∑ k ∈ Finset.range N, v / (v ^ 2 + (2 * k + 1) ^ 2) : ℝ) : ℂ)) =
        ((∑ k ∈ Finset.range N, v / (v ^ 2 + (2 * k + 1) ^ 2) : ℝ) : ℂ) := by
      linear_combination (-((∑ k ∈ Finset.range N, v / (v ^ 2 + (2 * k + 1) ^ 2) : ℝ) : ℂ)) * I_sq
    rw [this, Complex.ofReal_re]
  · congr 1
    have : I / 4 * (Real.pi * (-I * ((1 - 2 / (Real.exp (Real.pi * v) + 1) : ℝ) : ℂ))) =
        ((Real.pi / 2 * (1 / 2 - 1 / (Real.exp (Real.pi * v) + 1)) : ℝ) : ℂ) := by
      push_cast
      linear_combination (-(Real.pi / 4 * (1 - 2 / (Complex.exp (Real.pi * v) + 1))) : ℂ) * I_sq
    rw [this, Complex.ofReal_re]

/-! ### Comparison of the sum over the poles with an integral -/

/-- The sum over the poles beyond a point: the integral and two corrections. -/
noncomputable def tail (w : ℂ) : ℂ := -(I / 2) * log (I * w) + I / 12 / w ^ 2 + 7 * I / 120 / w ^ 4

theorem log_mul_near {a e : ℂ} (ha : 0 < a.re) (he : ‖e‖ < 1) : log (a * (1 + e)) = log a + log (1 + e) := by
  have ha0 : a ≠ 0 := by rintro rfl; simp at ha
  have hr : 0 < (1 + e).re := by
    have := Complex.abs_re_le_norm e
    have := neg_abs_le e.re
    simp; linarith
  have he0 : 1 + e ≠ 0 := by intro h; rw [h] at hr; simp at hr
  apply (Complex.log_mul_eq_add_log_iff ha0 he0).2
  have h1 := abs_lt.1 (Complex.abs_arg_lt_pi_div_two_iff.2 (Or.inl ha))
  have h2 := abs_lt.1 (Complex.abs_arg_lt_pi_div_two_iff.2 (Or.inl hr))
  constructor <;> linarith

theorem log_diff_bound {e : ℂ} (he : ‖e‖ ≤ 1 / 13) :
    ‖log (1 + e) - log (1 + -e) - 2 * (e + e ^ 3 / 3 + e ^ 5 / 5)‖ ≤ 13 / 42 * ‖e‖ ^ 7 := by
  have hlt : ‖e‖ < 1 := by linarith
  have h1 := Complex.norm_log_sub_logTaylor_le 6 hlt
  have h2 := Complex.norm_log_sub_logTaylor_le 6 (z := -e) (by rwa [norm_neg])
  rw [norm_neg] at h2
  have h3 : log (1 + e) - log (1 + -e) - 2 * (e + e ^ 3 / 3 + e ^ 5 / 5) =
      (log (1 + e) - Complex.logTaylor (6 + 1) e) - (log (1 + -e) - Complex.logTaylor (6 + 1) (-e)) := by
    simp only [Complex.logTaylor, Finset.sum_range_succ, Finset.sum_range_zero]
    push_cast
    ring
  rw [h3]
  refine (norm_sub_le _ _).trans ?_
  have h4 : (1 - ‖e‖)⁻¹ ≤ 13 / 12 := by
    rw [inv_le_comm₀ (by linarith) (by norm_num)]; linarith
  have h5 : ‖e‖ ^ (6 + 1) * (1 - ‖e‖)⁻¹ / ((6 : ℕ) + 1) ≤ ‖e‖ ^ 7 * (13 / 12) / 7 := by
    norm_num
    gcongr
  linarith

theorem rest_bound {e : ℂ} (he : ‖e‖ ≤ 1 / 13) :
    ‖(20 - 2 * e ^ 2 - 7 * (e ^ 2) ^ 2 + 3 * (e ^ 2) ^ 3) / (15 * (1 - e ^ 2) ^ 4)‖ ≤ 7 / 5 := by
  have h1 : ‖e ^ 2‖ ≤ 1 / 169 := by
    rw [norm_pow]
    calc ‖e‖ ^ 2 ≤ (1 / 13) ^ 2 := by gcongr
      _ = _ := by norm_num
  generalize e ^ 2 = d at h1
  have h2 : (168 : ℝ) / 169 ≤ ‖1 - d‖ := by
    have := norm_sub_norm_le (1 : ℂ) d
    rw [norm_one] at this
    linarith
  have h3 : (168 / 169 : ℝ) ^ 4 ≤ ‖1 - d‖ ^ 4 := by gcongr
  have h4 : ‖(20 - 2 * d - 7 * d ^ 2 + 3 * d ^ 3 : ℂ)‖ ≤ 20 + 2 * (1 / 169) + 7 * (1 / 169) ^ 2 + 3 * (1 / 169) ^ 3 := by
    refine (norm_add_le _ _).trans ?_
    refine add_le_add ((norm_sub_le _ _).trans (add_le_add ((norm_sub_le _ _).trans (add_le_add ?_ ?_)) ?_)) ?_
    · simp
    · rw [norm_mul]; simpa using h1
    · rw [norm_mul, norm_pow]; simp only [Complex.norm_ofNat]; gcongr
    · rw [norm_mul, norm_pow]; simp only [Complex.norm_ofNat]; gcongr
  rw [norm_div, norm_mul, norm_pow]
  simp only [Complex.norm_ofNat]
  rw [div_le_iff₀ (by positivity)]
  norm_num at h3 h4 ⊢
  linarith

theorem tail_step {M : ℂ} (hM : M.im ≤ -13) : ‖1 / M - (tail (M + I) - tail (M - I))‖ ≤ 8 / 5 / ‖M‖ ^ 7 := by
  have hM0 : M ≠ 0 := by rintro rfl; norm_num at hM
  have hn : 13 ≤ ‖M‖ := by
    have := Complex.abs_im_le_norm M
    have := neg_abs_le M.im
    linarith
  have hpos : 0 < ‖M‖ := by linarith
  obtain ⟨e, he⟩ : ∃ e, e = I / M := ⟨_, rfl⟩
  have hne : ‖e‖ = 1 / ‖M‖ := by rw [he, norm_div, Complex.norm_I]
  have hle : ‖e‖ ≤ 1 / 13 := by rw [hne]; gcongr
  have hlt : ‖e‖ < 1 := by linarith
  have hre : 0 < (I * M).re := by simp; linarith
  have e1 : I * (M + I) = (I * M) * (1 + e) := by rw [he]; field_simp
  have e2 : I * (M - I) = (I * M) * (1 + -e) := by rw [he]; field_simp; ring
  have n1 : 1 + e ≠ 0 := by
    intro h
    have h' : e = -1 := by linear_combination h
    rw [h', norm_neg, norm_one] at hlt; exact lt_irrefl _ hlt
  have n2 : 1 - e ≠ 0 := by
    intro h
    have h' : e = 1 := by linear_combination -h
    rw [h', norm_one] at hlt; exact lt_irrefl _ hlt
  have n3 : 1 - e ^ 2 ≠ 0 := by
    have : 1 - e ^ 2 = (1 + e) * (1 - e) := by ring
    rw [this]; exact mul_ne_zero n1 n2
  have e0 : e ≠ 0 := by rw [he]; exact div_ne_zero I_ne_zero hM0
  have eM : M = I / e := by rw [he]; field_simp
  have key : 1 / M - (tail (M + I) - tail (M - I)) =
      I * ((log (1 + e) - log (1 + -e) - 2 * (e + e ^ 3 / 3 + e ^ 5 / 5)) / 2 +
        e ^ 7 * ((20 - 2 * e ^ 2 - 7 * (e ^ 2) ^ 2 + 3 * (e ^ 2) ^ 3) / (15 * (1 - e ^ 2) ^ 4))) := by
    unfold tail
    rw [e1, e2, log_mul_near hre hlt, log_mul_near hre (by rwa [norm_neg])]
    have s1 : M + I = I * (1 + e) / e := by rw [eM]; field_simp
    have s2 : M - I = I * (1 - e) / e := by rw [eM]; field_simp
    rw [s1, s2, eM]
    have i2 : I ^ 2 = -1 := I_sq
    have i4 : I ^ 4 = 1 := I_pow_four
    have t1 : (I * (1 + e) / e) ^ 2 = -((1 + e) ^ 2 / e ^ 2) := by rw [div_pow, mul_pow, i2]; ring
    have t2 : (I * (1 - e) / e) ^ 2 = -((1 - e) ^ 2 / e ^ 2) := by rw [div_pow, mul_pow, i2]; ring
    have t3 : (I * (1 + e) / e) ^ 4 = (1 + e) ^ 4 / e ^ 4 := by rw [div_pow, mul_pow, i4]; ring
    have t4 : (I * (1 - e) / e) ^ 4 = (1 - e) ^ 4 / e ^ 4 := by rw [div_pow, mul_pow, i4]; ring
    rw [t1, t2, t3, t4]
    have t5 : 1 / (I / e) = -I * e := by
      rw [one_div_div, div_eq_iff I_ne_zero]; linear_combination e * i2
    rw [t5]
    have f : (1 - e ^ 2) = (1 + e) * (1 - e) := by ring
    rw [f]
    generalize log (1 + e) = l1
    generalize log (1 + -e) = l2
    generalize log (I * M) = l3
    field_simp
    ring
  rw [key, norm_mul, Complex.norm_I, one_mul]
  refine (norm_add_le _ _).trans ?_
  have b1 := log_diff_bound hle
  have b2 := rest_bound hle
  have h7 : (0 : ℝ) ≤ ‖e‖ ^ 7 := by positivity
  have b3 : (8 : ℝ) / 5 / ‖M‖ ^ 7 = 8 / 5 * ‖e‖ ^ 7 := by rw [hne]; field_simp
  rw [b3, norm_div, norm_mul (e ^ 7), norm_pow]
  simp only [Complex.norm_ofNat]
  have b4 := mul_le_mul_of_nonneg_left b2 h7
  linarith

theorem pole_re (v m : ℝ) : (1 / ((v : ℂ) - m * I)).re = v / (v ^ 2 + m ^ 2) := by
  simp [Complex.normSq_apply]
  ring_nf

theorem pole_norm_sq (v m : ℝ) : ‖(v : ℂ) - m * I‖ ^ 2 = v ^ 2 + m ^ 2 := by
  rw [← Complex.normSq_eq_norm_sq, Complex.normSq_apply]
  simp
  ring

theorem inv_pow_five (m : ℝ) (hm : 1 < m) : 8 / m ^ 5 ≤ 1 / (m - 1) ^ 4 - 1 / (m + 1) ^ 4 := by
  have h1 : 0 < m - 1 := by linarith
  have h2 : 0 < m + 1 := by linarith
  have h3 : 0 < m := by linarith
  rw [div_sub_div _ _ (by positivity) (by positivity), div_le_div_iff₀ (by positivity) (by positivity)]
  have e : ((1 * (m + 1) ^ 4 - (m - 1) ^ 4 * 1) * m ^ 5 - 8 * ((m - 1) ^ 4 * (m + 1) ^ 4)) =
      8 * (5 * m ^ 6 - 6 * m ^ 4 + 4 * m ^ 2 - 1) := by ring
  have e2 : 5 * m ^ 6 - 6 * m ^ 4 + 4 * m ^ 2 - 1 =
      5 * (m ^ 2 - 1) ^ 3 + 9 * (m ^ 2 - 1) ^ 2 + 7 * (m ^ 2 - 1) + 2 := by ring
  have h4 : 0 < m ^ 2 - 1 := by nlinarith
  have h5 : 0 < 5 * m ^ 6 - 6 * m ^ 4 + 4 * m ^ 2 - 1 := by rw [e2]; positivity
  linarith

theorem tail_sum (v : ℝ) (n : ℕ) :
    |∑ k ∈ Finset.range n, v / (v ^ 2 + (2 * ((k + 6 : ℕ) : ℝ) + 1) ^ 2) -
      ((tail ((v : ℂ) - (12 : ℝ) * I)).re - (tail ((v : ℂ) - (2 * ((n : ℝ) + 6) : ℝ) * I)).re)| ≤
      1 / 5 / (v ^ 2 + 169) * (1 / 12 ^ 4 - 1 / (2 * ((n : ℝ) + 6)) ^ 4) := by
  induction n with
  | zero => norm_num
  | succ n ih =>
    have hn : (0 : ℝ) ≤ n := Nat.cast_nonneg n
    obtain ⟨m, hm⟩ : ∃ m : ℝ, m = 2 * ((n : ℝ) + 6) + 1 := ⟨_, rfl⟩
    have hm13 : 13 ≤ m := by linarith
    have h := tail_step (M := (v : ℂ) - m * I) (by simp; linarith)
    have e1 : (v : ℂ) - m * I + I = (v : ℂ) - (2 * ((n : ℝ) + 6) : ℝ) * I := by rw [hm]; push_cast; ring
    have e2 : (v : ℂ) - m * I - I = (v : ℂ) - (2 * (((n + 1 : ℕ) : ℝ) + 6) : ℝ) * I := by rw [hm]; push_cast; ring
    rw [e1, e2] at h
    have h1 := (Complex.abs_re_le_norm _).trans h
    rw [Complex.sub_re, Complex.sub_re, pole_re] at h1
    have hsq := pole_norm_sq v m
    have hge : m ≤ ‖(v : ℂ) - m * I‖ := by
      have := Complex.abs_im_le_norm ((v : ℂ) - m * I)
      simp only [Complex.sub_im, Complex.ofReal_im, Complex.mul_im, Complex.I_im, Complex.I_re, mul_zero, mul_one,
        Complex.ofReal_re, add_zero, zero_sub, abs_neg] at this
      exact (le_abs_self m).trans this
    have h2 : m ^ 5 * (v ^ 2 + 169) ≤ ‖(v : ℂ) - m * I‖ ^ 7 := by
      rw [show ‖(v : ℂ) - m * I‖ ^ 7 = ‖(v : ℂ) - m * I‖ ^ 5 * ‖(v : ℂ) - m * I‖ ^ 2 by ring, hsq]
      have : m ^ 5 ≤ ‖(v : ℂ) - m * I‖ ^ 5 := by gcongr
      have h169 : v ^ 2 + 169 ≤ v ^ 2 + m ^ 2 := by nlinarith
      exact mul_le_mul this h169 (by positivity) (by positivity)
    have h3 : 8 / 5 / ‖(v : ℂ) - m * I‖ ^ 7 ≤ 8 / 5 / (m ^ 5 * (v ^ 2 + 169)) := by gcongr
    have h4 := inv_pow_five m (by linarith)
    have h5 : 8 / 5 / (m ^ 5 * (v ^ 2 + 169)) = 1 / 5 / (v ^ 2 + 169) * (8 / m ^ 5) := by field_simp
    have h6 : 1 / 5 / (v ^ 2 + 169) * (8 / m ^ 5) ≤ 1 / 5 / (v ^ 2 + 169) * (1 / (m - 1) ^ 4 - 1 / (m + 1) ^ 4) := by
      gcongr
    rw [show m - 1 = 2 * ((n : ℝ) + 6) by rw [hm]; ring,
      show m + 1 = 2 * (((n + 1 : ℕ) : ℝ) + 6) by rw [hm]; push_cast; ring] at h6
    rw [Finset.sum_range_succ, show (2 * ((n + 6 : ℕ) : ℝ) + 1) = m by rw [hm]; push_cast; ring]
    have h7 := h1.trans (h3.trans (h5.le.trans h6))
    generalize ∑ k ∈ Finset.range n, v / (v ^ 2 + (2 * ((k + 6 : ℕ) : ℝ) + 1) ^ 2) = s at *
    have h8 := abs_add_le (s - ((tail ((v : ℂ) - (12 : ℝ) * I)).re - (tail ((v : ℂ) - (2 * ((n : ℝ) + 6) : ℝ) * I)).re))
      (v / (v ^ 2 + m ^ 2) - ((tail ((v : ℂ) - (2 * ((n : ℝ) + 6) : ℝ) * I)).re -
        (tail ((v : ℂ) - (2 * (((n + 1 : ℕ) : ℝ) + 6) : ℝ) * I)).re))
    refine le_trans (le_of_eq ?_) (h8.trans (le_trans (add_le_add ih h7) (le_of_eq ?_)))
    · congr 1; ring
    · ring

theorem I_mul_re (v m : ℝ) : (I * ((v : ℂ) - m * I)).re = m := by simp

theorem tail_re (w : ℂ) : (tail w).re = (I * w).arg / 2 + (I / 12 / w ^ 2 + 7 * I / 120 / w ^ 4).re := by
  unfold tail
  rw [add_assoc, Complex.add_re]
  congr 1
  simp [Complex.mul_re, Complex.log_im]
  ring

theorem tail_lim (v : ℝ) :
    Tendsto (fun n : ℕ => (tail ((v : ℂ) - (2 * ((n : ℝ) + 6) : ℝ) * I)).re) atTop (𝓝 0) := by
  have hm : Tendsto (fun n : ℕ => 2 * ((n : ℝ) + 6)) atTop atTop :=
    (tendsto_atTop_add_const_right _ _ tendsto_natCast_atTop_atTop).const_mul_atTop (by norm_num)
  have hinv : Tendsto (fun n : ℕ => (1 / ((v : ℂ) - (2 * ((n : ℝ) + 6) : ℝ) * I))) atTop (𝓝 0) := by
    rw [tendsto_zero_iff_norm_tendsto_zero]
    refine squeeze_zero (fun _ => norm_nonneg _) (fun n => ?_) (tendsto_inv_atTop_zero.comp hm)
    have h1 : 2 * ((n : ℝ) + 6) ≤ ‖(v : ℂ) - (2 * ((n : ℝ) + 6) : ℝ) * I‖ := by
      have := Complex.abs_im_le_norm ((v : ℂ) - (2 * ((n : ℝ) + 6) : ℝ) * I)
      simp only [Complex.sub_im, Complex.ofReal_im, Complex.mul_im, Complex.I_im, Complex.I_re, mul_zero, mul_one,
        Complex.ofReal_re, add_zero, zero_sub, abs_neg] at this
      exact (le_abs_self _).trans this
    rw [norm_div, norm_one, one_div, Function.comp_apply]
    gcongr
  have hpow : Tendsto (fun n : ℕ => (I / 12 / ((v : ℂ) - (2 * ((n : ℝ) + 6) : ℝ) * I) ^ 2 +
      7 * I / 120 / ((v : ℂ) - (2 * ((n : ℝ) + 6) : ℝ) * I) ^ 4).re) atTop (𝓝 0) := by
    have h1 := ((hinv.pow 2).const_mul (I / 12)).add ((hinv.pow 4).const_mul (7 * I / 120))
    have h2 := (Complex.continuous_re.tendsto _).comp h1
    norm_num at h2
    refine h2.congr fun n => ?_
    simp only [Function.comp_apply]
    congr 1
    push_cast
    ring
  have harg : Tendsto (fun n : ℕ => (I * ((v : ℂ) - (2 * ((n : ℝ) + 6) : ℝ) * I)).arg / 2) atTop (𝓝 0) := by
    have h0 : Tendsto (fun n : ℕ => (1 : ℂ) + I * ((v * (2 * ((n : ℝ) + 6))⁻¹ : ℝ) : ℂ)) atTop
        (𝓝 (1 + I * ((v * 0 : ℝ) : ℂ))) :=
      (((continuous_ofReal.tendsto _).comp ((tendsto_inv_atTop_zero.comp hm).const_mul v)).const_mul I).const_add 1
    rw [mul_zero, Complex.ofReal_zero, mul_zero, add_zero] at h0
    have h1 := (((continuousAt_arg (x := 1) (by simp)).tendsto.comp h0)).div_const 2
    rw [Complex.arg_one, zero_div] at h1
    refine h1.congr fun n => ?_
    have hn : (0 : ℝ) < 2 * ((n : ℝ) + 6) := by positivity
    have e : I * ((v : ℂ) - (2 * ((n : ℝ) + 6) : ℝ) * I) =
        ((2 * ((n : ℝ) + 6) : ℝ) : ℂ) * (1 + I * ((v * (2 * ((n : ℝ) + 6))⁻¹ : ℝ) : ℂ)) := by
      generalize 2 * ((n : ℝ) + 6) = m at hn ⊢
      have hn' : (m : ℂ) ≠ 0 := by exact_mod_cast hn.ne'
      rw [Complex.ofReal_mul, Complex.ofReal_inv]
      generalize (m : ℂ) = y at *
      field_simp
      linear_combination (-y) * I_sq
    rw [e, Complex.arg_real_mul _ hn]
    rfl
  have := harg.add hpow
  rw [add_zero] at this
  refine this.congr fun n => ?_
  rw [tail_re]

/-- The approximation of the occupation by six poles, an integral over the others and two corrections. -/
noncomputable def occApprox (v : ℝ) : ℝ :=
  -((v : ℂ) - (12 : ℝ) * I).arg / Real.pi -
    2 / Real.pi * (∑ k ∈ Finset.range 6, (1 / ((v : ℂ) - (2 * (k : ℝ) + 1 : ℝ) * I)).re +
      (I / 12 / ((v : ℂ) - (12 : ℝ) * I) ^ 2 + 7 * I / 120 / ((v : ℂ) - (12 : ℝ) * I) ^ 4).re)

theorem arg_rotate {w : ℂ} (hw : w.im < 0) : (I * w).arg = w.arg + Real.pi / 2 := by
  have h0 : w ≠ 0 := by rintro rfl; simp at hw
  have h1 := Complex.arg_neg_iff.2 hw
  have h2 := Complex.neg_pi_lt_arg w
  have hp := Real.pi_pos
  rw [Complex.arg_mul I_ne_zero h0 (by rw [Complex.arg_I]; constructor <;> linarith), Complex.arg_I]
  ring

theorem occ_approx (v : ℝ) :
    |1 / (Real.exp (Real.pi * v) + 1) - occApprox v| ≤ 2 / Real.pi * (1 / 5 / (v ^ 2 + 169) * (1 / 12 ^ 4)) := by
  have hpi := Real.pi_pos
  have hT := (tendsto_add_atTop_iff_nat 6).2 (occ_poles v)
  have hs : ∀ n : ℕ, ∑ k ∈ Finset.range (n + 6), v / (v ^ 2 + (2 * k + 1) ^ 2) =
      ∑ k ∈ Finset.range 6, v / (v ^ 2 + (2 * (k : ℝ) + 1) ^ 2) +
        ∑ k ∈ Finset.range n, v / (v ^ 2 + (2 * ((k + 6 : ℕ) : ℝ) + 1) ^ 2) := by
    intro n
    rw [add_comm n 6, Finset.sum_range_add]
    congr 1
    refine Finset.sum_congr rfl fun k _ => ?_
    rw [add_comm 6 k]
  have hlim := (((hT.sub_const (∑ k ∈ Finset.range 6, v / (v ^ 2 + (2 * (k : ℝ) + 1) ^ 2))).sub_const
    ((tail ((v : ℂ) - (12 : ℝ) * I)).re)).add (tail_lim v)).abs
  have hle : ∀ n : ℕ, |∑ k ∈ Finset.range (n + 6), v / (v ^ 2 + (2 * k + 1) ^ 2) -
      ∑ k ∈ Finset.range 6, v / (v ^ 2 + (2 * (k : ℝ) + 1) ^ 2) - (tail ((v : ℂ) - (12 : ℝ) * I)).re +
      (tail ((v : ℂ) - (2 * ((n : ℝ) + 6) : ℝ) * I)).re| ≤ 1 / 5 / (v ^ 2 + 169) * (1 / 12 ^ 4) := by
    intro n
    have h := tail_sum v n
    rw [hs n]
    have h1 : 1 / 5 / (v ^ 2 + 169) * (1 / 12 ^ 4 - 1 / (2 * ((n : ℝ) + 6)) ^ 4) ≤ 1 / 5 / (v ^ 2 + 169) * (1 / 12 ^ 4) := by
      apply mul_le_mul_of_nonneg_left _ (by positivity)
      have : 0 ≤ 1 / (2 * ((n : ℝ) + 6)) ^ 4 := by positivity
      linarith
    refine le_trans (le_of_eq ?_) (h.trans h1)
    congr 1; ring
  have hfin := le_of_tendsto hlim (Eventually.of_forall hle)
  rw [tail_re, arg_rotate (by simp)] at hfin
  have e : 1 / (Real.exp (Real.pi * v) + 1) - occApprox v = -(2 / Real.pi) *
      (Real.pi / 2 * (1 / 2 - 1 / (Real.exp (Real.pi * v) + 1)) - ∑ k ∈ Finset.range 6, v / (v ^ 2 + (2 * (k : ℝ) + 1) ^ 2) -
        ((((v : ℂ) - (12 : ℝ) * I).arg + Real.pi / 2) / 2 +
          (I / 12 / ((v : ℂ) - (12 : ℝ) * I) ^ 2 + 7 * I / 120 / ((v : ℂ) - (12 : ℝ) * I) ^ 4).re) + 0) := by
    unfold occApprox
    simp only [pole_re]
    field_simp
    ring
  rw [e, abs_mul, abs_neg, abs_of_pos (by positivity)]
  exact mul_le_mul_of_nonneg_left hfin (by positivity)

/-! ### The Fermi integral -/

theorem fermi_rescaled (ξ : ℝ) :
    fermiIntegral (Real.pi * ξ) (-1 / 2) =
      ∫ t in Ioi (0 : ℝ), (√t)⁻¹ * (1 / (Real.exp (Real.pi * (t - ξ)) + 1)) := by
  have hpi := Real.pi_pos
  have h := integral_comp_mul_left_Ioi (fun t : ℝ => t ^ (-1 / 2 : ℝ) / (Real.exp (t - Real.pi * ξ) + 1)) 0 hpi
  rw [mul_zero] at h
  unfold fermiIntegral
  rw [show (-1 / 2 + 1 : ℝ) = 1 / 2 by norm_num, Real.Gamma_one_half_eq]
  have e : ∫ t in Ioi (0 : ℝ), (Real.pi * t) ^ (-1 / 2 : ℝ) / (Real.exp (Real.pi * t - Real.pi * ξ) + 1) =
      ∫ t in Ioi (0 : ℝ), (√Real.pi)⁻¹ * ((√t)⁻¹ * (1 / (Real.exp (Real.pi * (t - ξ)) + 1))) := by
    refine setIntegral_congr_fun measurableSet_Ioi fun t ht => ?_
    have ht' : (0 : ℝ) < t := ht
    rw [Real.mul_rpow hpi.le ht'.le, show (-1 / 2 : ℝ) = -(1 / 2) by norm_num, Real.rpow_neg hpi.le, Real.rpow_neg ht'.le,
      ← Real.sqrt_eq_rpow, ← Real.sqrt_eq_rpow, mul_sub]
    ring
  rw [e, integral_const_mul, smul_eq_mul] at h
  have hs := Real.sqrt_pos.2 hpi
  have h2 : Real.pi * ((√Real.pi)⁻¹ * ∫ t in Ioi (0 : ℝ), (√t)⁻¹ * (1 / (Real.exp (Real.pi * (t - ξ)) + 1))) =
      ∫ t in Ioi (0 : ℝ), t ^ (-1 / 2 : ℝ) / (Real.exp (t - Real.pi * ξ) + 1) := by
    rw [h]; field_simp
  rw [← h2, div_eq_iff hs.ne']
  have h3 : √Real.pi * √Real.pi = Real.pi := Real.mul_self_sqrt hpi.le
  field_simp
  rw [sq, h3]

theorem scaled_integrable (ξ : ℝ) :
    IntegrableOn (fun t : ℝ => (√t)⁻¹ * (1 / (Real.exp (Real.pi * (t - ξ)) + 1))) (Ioi 0) := by
  have hpi := Real.pi_pos
  refine Integrable.mono' (integrable_weight.const_mul (1 + Real.exp (Real.pi * ξ))) ?_ ?_
  · exact Measurable.aestronglyMeasurable (by fun_prop)
  · refine (ae_restrict_mem measurableSet_Ioi).mono fun t ht => ?_
    have ht' : (0 : ℝ) < t := ht
    rw [Real.norm_of_nonneg (by positivity)]
    have h1 : 1 / (Real.exp (Real.pi * (t - ξ)) + 1) ≤ (1 + Real.exp (Real.pi * ξ)) / (1 + t) := by
      rw [div_le_div_iff₀ (by positivity) (by positivity)]
      have h2 : Real.pi * t + 1 ≤ Real.exp (Real.pi * t) := Real.add_one_le_exp _
      have h3 : Real.exp (Real.pi * ξ) * Real.exp (Real.pi * (t - ξ)) = Real.exp (Real.pi * t) := by
        rw [← Real.exp_add]; congr 1; ring
      have h4 := Real.exp_pos (Real.pi * (t - ξ))
      have h5 := Real.exp_pos (Real.pi * ξ)
      have h6 : t ≤ Real.pi * t := by
        have := Real.two_le_pi
        nlinarith
      nlinarith
    calc _ ≤ (√t)⁻¹ * ((1 + Real.exp (Real.pi * ξ)) / (1 + t)) := mul_le_mul_of_nonneg_left h1 (by positivity)
      _ = _ := by ring

/-- A square root in the upper half plane. -/
structure IsRoot (z q : ℂ) : Prop where
  sq : q ^ 2 = z
  im_pos : 0 < q.im
  re_pos : 0 < q.re

theorem IsRoot.ne {z q : ℂ} (h : IsRoot z q) : q ≠ 0 := by
  rintro rfl; simpa using h.im_pos

theorem IsRoot.z_im {z q : ℂ} (h : IsRoot z q) : z.im ≠ 0 := by
  rw [← h.sq, pow_two, Complex.mul_im]
  have := mul_pos h.im_pos h.re_pos
  exact (by linarith : 0 < q.re * q.im + q.im * q.re).ne'

theorem IsRoot.one {z q : ℂ} (h : IsRoot z q) : poleInt z 1 = I * Real.pi / q := by
  have := h.z_im
  rw [← h.sq] at this ⊢
  exact poleInt_one h.im_pos this

theorem IsRoot.two {z q : ℂ} (h : IsRoot z q) : poleInt z 2 = -(1 / 2) * (I * Real.pi) / q ^ 3 := by
  have h1 := poleInt_succ h.z_im 1 le_rfl
  have hq := h.ne
  rw [h.one] at h1
  rw [← h.sq] at h1 ⊢
  norm_num at h1
  rw [eq_div_iff (pow_ne_zero _ hq), show q ^ 3 = q ^ 2 * q by ring]
  have h2 : q ^ 2 * poleInt (q ^ 2) 2 * q = (-1 / 2 * (I * Real.pi / q)) * q := by rw [h1]; ring
  field_simp at h2
  field_simp
  linear_combination h2

theorem IsRoot.four {z q : ℂ} (h : IsRoot z q) : poleInt z 4 = -(5 / 16) * (I * Real.pi) / q ^ 7 := by
  have h2 := poleInt_succ h.z_im 2 (by norm_num)
  have h3 := poleInt_succ h.z_im 3 (by norm_num)
  have hq := h.ne
  rw [h.two] at h2
  rw [← h.sq] at h2 h3 ⊢
  norm_num at h2 h3
  have e3 : poleInt (q ^ 2) 3 = 3 / 8 * (I * Real.pi) / q ^ 5 := by
    have h5 : 2 * q ^ 2 ≠ 0 := mul_ne_zero two_ne_zero (pow_ne_zero _ hq)
    apply mul_left_cancel₀ h5
    rw [h2]
    field_simp
    ring
  rw [e3] at h3
  have h5 : 3 * q ^ 2 ≠ 0 := mul_ne_zero three_ne_zero (pow_ne_zero _ hq)
  apply mul_left_cancel₀ h5
  rw [h3]
  field_simp
  ring

theorem ofReal_mul_re' (a : ℝ) (w : ℂ) : ((a : ℂ) * w).re = a * w.re := by simp

/-- The real part of a pole, integrated. -/
theorem re_int {z : ℂ} (hz : z.im ≠ 0) (c : ℂ) (j : ℕ) (hj : 1 ≤ j) :
    IntegrableOn (fun t : ℝ => (√t)⁻¹ * (c / ((t : ℂ) - z) ^ j).re) (Ioi 0) ∧
    ∫ t in Ioi (0 : ℝ), (√t)⁻¹ * (c / ((t : ℂ) - z) ^ j).re = (c * poleInt z j).re := by
  have i := (pole_integrable hz j hj).const_mul c
  have e : ∀ t : ℝ, (√t)⁻¹ * (c / ((t : ℂ) - z) ^ j).re = (c * ((((√t)⁻¹ : ℝ) : ℂ) * (1 / ((t : ℂ) - z) ^ j))).re := by
    intro t
    rw [← ofReal_mul_re']
    congr 1
    ring
  constructor
  · have := i.re
    refine this.congr (Eventually.of_forall fun t => ?_)
    exact (e t).symm
  · simp only [e]
    rw [poleInt, ← integral_const_mul]
    exact integral_re i

theorem integral_add4 {f1 f2 f3 f4 : ℝ → ℝ} {μ : Measure ℝ} (h1 : Integrable f1 μ) (h2 : Integrable f2 μ)
    (h3 : Integrable f3 μ) (h4 : Integrable f4 μ) :
    Integrable (fun t => f1 t + f2 t + f3 t + f4 t) μ ∧
    ∫ t, f1 t + f2 t + f3 t + f4 t ∂μ = ∫ t, f1 t ∂μ + ∫ t, f2 t ∂μ + ∫ t, f3 t ∂μ + ∫ t, f4 t ∂μ := by
  have h12 : Integrable (fun t => f1 t + f2 t) μ := h1.add h2
  have h123 : Integrable (fun t => f1 t + f2 t + f3 t) μ := h12.add h3
  refine ⟨h123.add h4, ?_⟩
  rw [integral_add h123 h4, integral_add h12 h3, integral_add h1 h2]

/-- Six poles, an integral over the others and two corrections, integrated. -/
noncomputable def poleSum (q : ℕ → ℂ) : ℝ :=
  2 * ((q 12).re + ∑ k ∈ Finset.range 6, (1 / q (2 * k + 1)).im - (1 / 24 / q 12 ^ 3 + 7 / 384 / q 12 ^ 7).re)

theorem int_occApprox (ξ : ℝ) (q : ℕ → ℂ) (hq : ∀ m : ℕ, 0 < m → IsRoot (ξ + m * I) (q m)) :
    IntegrableOn (fun t : ℝ => (√t)⁻¹ * occApprox (t - ξ)) (Ioi 0) ∧
    ∫ t in Ioi (0 : ℝ), (√t)⁻¹ * occApprox (t - ξ) = poleSum q := by
  have hpi := Real.pi_pos
  have h12 := hq 12 (by norm_num)
  have hk : ∀ k : ℕ, IsRoot (ξ + (2 * k + 1 : ℕ) * I) (q (2 * k + 1)) := fun k => hq _ (by omega)
  have j1 := (arg_integrable h12.z_im).const_mul (-1 / Real.pi)
  have j2 : ∀ k ∈ Finset.range 6, Integrable (fun t : ℝ => -(2 / Real.pi) *
      ((√t)⁻¹ * (1 / ((t : ℂ) - (ξ + (2 * k + 1 : ℕ) * I)) ^ 1).re)) (volume.restrict (Ioi 0)) := fun k _ =>
    ((re_int (hk k).z_im 1 1 le_rfl).1).const_mul _
  have j3 := ((re_int h12.z_im (I / 12) 2 (by norm_num)).1).const_mul (-(2 / Real.pi))
  have j4 := ((re_int h12.z_im (7 * I / 120) 4 (by norm_num)).1).const_mul (-(2 / Real.pi))
  have j5 := integrable_finsetSum _ j2
  have e : ∀ t : ℝ, (√t)⁻¹ * occApprox (t - ξ) =
      -1 / Real.pi * ((√t)⁻¹ * ((t : ℂ) - (ξ + (12 : ℕ) * I)).arg) +
      ∑ k ∈ Finset.range 6, -(2 / Real.pi) * ((√t)⁻¹ * (1 / ((t : ℂ) - (ξ + (2 * k + 1 : ℕ) * I)) ^ 1).re) +
      -(2 / Real.pi) * ((√t)⁻¹ * (I / 12 / ((t : ℂ) - (ξ + (12 : ℕ) * I)) ^ 2).re) +
      -(2 / Real.pi) * ((√t)⁻¹ * (7 * I / 120 / ((t : ℂ) - (ξ + (12 : ℕ) * I)) ^ 4).re) := by
    intro t
    unfold occApprox
    rw [Complex.add_re]
    have c1 : (((t - ξ : ℝ) : ℂ) - (12 : ℝ) * I) = (t : ℂ) - (ξ + (12 : ℕ) * I) := by push_cast; ring
    have c2 : ∀ k : ℕ, (((t - ξ : ℝ) : ℂ) - (2 * (k : ℝ) + 1 : ℝ) * I) = (t : ℂ) - (ξ + (2 * k + 1 : ℕ) * I) := by
      intro k; push_cast; ring
    simp only [c1, c2, pow_one]
    rw [← Finset.mul_sum, ← Finset.mul_sum]
    ring
  simp only [e]
  obtain ⟨j6, j7⟩ := integral_add4 j1 j5 j3 j4
  refine ⟨j6, ?_⟩
  rw [j7, integral_finsetSum _ j2]
  simp only [integral_const_mul]
  rw [argInt h12.z_im, (re_int h12.z_im _ 2 (by norm_num)).2, (re_int h12.z_im _ 4 (by norm_num)).2, h12.one, h12.two, h12.four]
  have s1 : ∀ k : ℕ, ∫ t in Ioi (0 : ℝ), (√t)⁻¹ * (1 / ((t : ℂ) - (ξ + (2 * k + 1 : ℕ) * I)) ^ 1).re =
      -(Real.pi * (1 / q (2 * k + 1)).im) := by
    intro k
    rw [(re_int (hk k).z_im 1 1 le_rfl).2, (hk k).one, one_mul,
      show I * Real.pi / q (2 * k + 1) = (Real.pi : ℂ) * (I * (1 / q (2 * k + 1))) by ring, ofReal_mul_re', Complex.I_mul_re]
    ring
  simp only [s1]
  have hq0 := h12.ne
  have s2 : ((ξ : ℂ) + (12 : ℕ) * I) * (I * Real.pi / q 12) = (Real.pi : ℂ) * (I * q 12) := by
    rw [← h12.sq]; field_simp
  have s3 : I / 12 * (-(1 / 2) * (I * Real.pi) / q 12 ^ 3) = (Real.pi : ℂ) * (1 / 24 / q 12 ^ 3) := by
    linear_combination (-(Real.pi / 24 / q 12 ^ 3) : ℂ) * I_sq
  have s4 : 7 * I / 120 * (-(5 / 16) * (I * Real.pi) / q 12 ^ 7) = (Real.pi : ℂ) * (7 / 384 / q 12 ^ 7) := by
    linear_combination (-(7 * Real.pi / 384 / q 12 ^ 7) : ℂ) * I_sq
  rw [s2, s3, s4, ofReal_mul_re', ofReal_mul_re', Complex.im_ofReal_mul, Complex.I_mul_im]
  unfold poleSum
  rw [Complex.add_re, ← Finset.mul_sum, Finset.sum_neg_distrib, ← Finset.mul_sum]
  field_simp
  ring

/-- The Fermi integral of order -1/2 is a sum of square roots, to six digits. -/
theorem fermi_poleSum (ξ : ℝ) (q : ℕ → ℂ) (hq : ∀ m : ℕ, 0 < m → IsRoot (ξ + m * I) (q m)) :
    |fermiIntegral (Real.pi * ξ) (-1 / 2) - poleSum q| ≤ 42 / 10 ^ 8 := by
  have hpi := Real.pi_pos
  obtain ⟨i2, e2⟩ := int_occApprox ξ q hq
  have i1 := scaled_integrable ξ
  have h13 := hq 13 (by norm_num)
  obtain ⟨i3, e3⟩ := re_int h13.z_im (-I) 1 le_rfl
  rw [fermi_rescaled, ← e2, ← integral_sub i1 i2]
  have hb : ∀ t : ℝ, 0 < t → |(√t)⁻¹ * (1 / (Real.exp (Real.pi * (t - ξ)) + 1)) - (√t)⁻¹ * occApprox (t - ξ)| ≤
      2 / Real.pi * (1 / 5 * (1 / 12 ^ 4)) * (1 / 13) * ((√t)⁻¹ * (-I / ((t : ℂ) - (ξ + (13 : ℕ) * I)) ^ 1).re) := by
    intro t ht
    have hst := Real.sqrt_pos.2 ht
    rw [← mul_sub, abs_mul, abs_of_pos (by positivity)]
    have h := mul_le_mul_of_nonneg_left (occ_approx (t - ξ)) (by positivity : 0 ≤ (√t)⁻¹)
    refine h.trans (le_of_eq ?_)
    have hre : (-I / ((t : ℂ) - (ξ + (13 : ℕ) * I)) ^ 1).re = 13 / ((t - ξ) ^ 2 + 169) := by
      rw [show (t : ℂ) - (ξ + (13 : ℕ) * I) = ((t - ξ : ℝ) : ℂ) - (13 : ℝ) * I by push_cast; ring, pow_one, Complex.div_re]
      simp [Complex.normSq_apply]
      ring_nf
    rw [hre]
    have : 0 < (t - ξ) ^ 2 + 169 := by positivity
    field_simp
  have hint := i3.const_mul (2 / Real.pi * (1 / 5 * (1 / 12 ^ 4)) * (1 / 13))
  have h1 : |∫ t in Ioi (0 : ℝ), ((√t)⁻¹ * (1 / (Real.exp (Real.pi * (t - ξ)) + 1)) - (√t)⁻¹ * occApprox (t - ξ))| ≤
      ∫ t in Ioi (0 : ℝ), 2 / Real.pi * (1 / 5 * (1 / 12 ^ 4)) * (1 / 13) * ((√t)⁻¹ * (-I / ((t : ℂ) - (ξ + (13 : ℕ) * I)) ^ 1).re) := by
    rw [← Real.norm_eq_abs]
    refine norm_integral_le_of_norm_le hint ((ae_restrict_mem measurableSet_Ioi).mono fun t ht => ?_)
    rw [Real.norm_eq_abs]
    exact hb t ht
  refine h1.trans ?_
  rw [integral_const_mul, e3, h13.one]
  have e4 : -I * (I * Real.pi / q 13) = (Real.pi : ℂ) * (1 / q 13) := by
    linear_combination (-(Real.pi / q 13) : ℂ) * I_sq
  rw [e4, ofReal_mul_re']
  have hn : 3.6 ≤ ‖q 13‖ := by
    have h2 : ‖q 13‖ ^ 2 = ‖(ξ : ℂ) + (13 : ℕ) * I‖ := by rw [← norm_pow, h13.sq]
    have h3 : 13 ≤ ‖(ξ : ℂ) + (13 : ℕ) * I‖ := by
      have := Complex.abs_im_le_norm ((ξ : ℂ) + (13 : ℕ) * I)
      simpa using this
    by_contra hc
    push Not at hc
    have : ‖q 13‖ ^ 2 < 3.6 ^ 2 := by gcongr
    norm_num at this
    linarith
  have h4 : (1 / q 13).re ≤ 1 / 3.6 := by
    refine (Complex.re_le_norm _).trans ?_
    rw [norm_div, norm_one]
    gcongr
  calc 2 / Real.pi * (1 / 5 * (1 / 12 ^ 4)) * (1 / 13) * (Real.pi * (1 / q 13).re)
      = 2 * (1 / 5 * (1 / 12 ^ 4)) * (1 / 13) * (1 / q 13).re := by field_simp
    _ ≤ 2 * (1 / 5 * (1 / 12 ^ 4)) * (1 / 13) * (1 / 3.6) := by gcongr
    _ ≤ _ := by norm_num

end Verif.FermiInt
