/-
The approximation of the Fermi integral of order -1/2 above an argument of two, from the certificates of
`FermiCells`.
-/
import Verif.Lemmas.FermiCells
import Mathlib.Analysis.Calculus.MeanValue
import Mathlib.Analysis.Real.Pi.Bounds

set_option autoImplicit false

namespace Verif.FermiInt

open Verif.RatPoly Complex

/-- The factor of the last root. -/
noncomputable def lastFactor (η : ℝ) : ℂ :=
  (1 + 12 * η * I) - η ^ 2 / 24 * (1 + 12 * η * I)⁻¹ - 7 / 384 * η ^ 4 * (1 + 12 * η * I)⁻¹ ^ 3

/-- Half of the sum over the poles, in units of the square root of the argument; `η` is the inverse of the
argument, `s m` the inverse square root of `1 + i m η`. -/
noncomputable def scaledSum (η : ℝ) (s : ℕ → ℂ) : ℝ :=
  (s 12 * lastFactor η).re + η * ∑ k ∈ Finset.range 6, (s (2 * k + 1)).im

/-- The approximation of the code, up to a factor. -/
noncomputable def ratio (v : ℝ) : ℝ := evZ cInt v / evZ dInt v

theorem lastFactor_eq (η : ℝ) : lastFactor η * (384 * (1 + 144 * η ^ 2) ^ 3 : ℝ) =
    (384 * (1 + 144 * η ^ 2) ^ 3 - 16 * η ^ 2 * (1 + 144 * η ^ 2) ^ 2 - 7 * η ^ 4 * (1 - 432 * η ^ 2) : ℝ) +
    (4608 * η * (1 + 144 * η ^ 2) ^ 3 + 192 * η ^ 3 * (1 + 144 * η ^ 2) ^ 2 - 7 * η ^ 4 * (-36 * η + 1728 * η ^ 3) : ℝ) * I := by
  unfold lastFactor
  have hw : (1 + 12 * η * I : ℂ) ≠ 0 := by
    intro h
    have := congrArg Complex.re h
    simp at this
  have hD : (1 + 144 * (η : ℂ) ^ 2) = (1 + 12 * η * I) * (1 - 12 * η * I) := by
    linear_combination (144 * (η : ℂ) ^ 2) * I_sq
  have hi : (1 + 12 * η * I : ℂ)⁻¹ * (1 + 144 * (η : ℂ) ^ 2) = 1 - 12 * η * I := by
    rw [hD, inv_mul_cancel_left₀ hw]
  have h3 : (1 - 12 * η * I : ℂ) ^ 3 = 1 - 36 * η * I - 432 * (η : ℂ) ^ 2 + 1728 * (η : ℂ) ^ 3 * I := by
    linear_combination (432 * (η : ℂ) ^ 2 - 1728 * (η : ℂ) ^ 3 * I) * I_sq
  push_cast
  generalize (1 + 144 * (η : ℂ) ^ 2) = D at *
  generalize (1 + 12 * η * I : ℂ)⁻¹ = u at *
  have h4 : u ^ 3 * D ^ 3 = 1 - 36 * η * I - 432 * (η : ℂ) ^ 2 + 1728 * (η : ℂ) ^ 3 * I := by
    rw [← mul_pow, hi, h3]
  linear_combination (-16 * (η : ℂ) ^ 2 * D ^ 2) * hi - 7 * (η : ℂ) ^ 4 * h4

theorem lastFactor_norm (η : ℝ) (h0 : 0 ≤ η) (h1 : η ≤ 16 / 10) : ‖lastFactor η‖ ≤ 21 := by
  have hw := norm_w (12 * η)
  push_cast at hw
  have hi : ‖(1 + 12 * η * I : ℂ)⁻¹‖ ≤ 1 := by rw [norm_inv]; exact inv_le_one_of_one_le₀ hw
  have hu : ‖(1 + 12 * η * I : ℂ)‖ ≤ 1 + 12 * η := by
    refine (norm_add_le _ _).trans ?_
    simp [abs_of_nonneg h0]
  unfold lastFactor
  generalize (1 + 12 * η * I : ℂ)⁻¹ = u at *
  refine (norm_sub_le _ _).trans ?_
  refine (add_le_add_left (norm_sub_le _ _) _).trans ?_
  have e1 : ‖(η : ℂ) ^ 2 / 24 * u‖ ≤ 11 / 100 := by
    rw [norm_mul, norm_div, norm_pow, Complex.norm_real, Real.norm_eq_abs, abs_of_nonneg h0]
    norm_num
    have : η ^ 2 ≤ (16 / 10) ^ 2 := by gcongr
    norm_num at this
    nlinarith [norm_nonneg u, sq_nonneg η]
  have e2 : ‖7 / 384 * (η : ℂ) ^ 4 * u ^ 3‖ ≤ 12 / 100 := by
    rw [norm_mul, norm_mul, norm_div, norm_pow, norm_pow, Complex.norm_real, Real.norm_eq_abs, abs_of_nonneg h0]
    have a : ‖u‖ ^ 3 ≤ 1 := pow_le_one₀ (norm_nonneg _) hi
    norm_num at *
    have : η ^ 4 ≤ (16 / 10) ^ 4 := by gcongr; linarith
    norm_num at this
    have b : 0 ≤ ‖u‖ ^ 3 := by positivity
    nlinarith [pow_nonneg h0 4]
  linarith

theorem ratio_hom (l : List ℤ) (y : ℝ) (hd : 0 < evZ (homZ (scaleZ invPiSq l) (10 ^ 18) dInt) y) :
    evZ (homZ (scaleZ invPiSq l) (10 ^ 18) cInt) y =
      ratio (1013211836 / 10 ^ 18 * evZ l y) * evZ (homZ (scaleZ invPiSq l) (10 ^ 18) dInt) y := by
  have h1 := evZ_homZ (scaleZ invPiSq l) (10 ^ 18) (by norm_num) cInt y
  have h2 := evZ_homZ (scaleZ invPiSq l) (10 ^ 18) (by norm_num) dInt y
  rw [show evZ (scaleZ invPiSq l) y / ((10 ^ 18 : ℤ) : ℝ) = 1013211836 / 10 ^ 18 * evZ l y by
    rw [evZ_scaleZ]; unfold invPiSq; push_cast; ring] at h1 h2
  rw [show cInt.length = 12 from rfl] at h1
  rw [show dInt.length = 12 from rfl] at h2
  unfold ratio
  generalize evZ cInt _ = A at *
  generalize evZ dInt _ = B at *
  generalize evZ (homZ _ _ cInt) y = X at *
  generalize evZ (homZ _ _ dInt) y = Y at *
  push_cast at h1 h2
  have hB : B ≠ 0 := by
    rintro rfl
    rw [mul_zero] at h2
    linarith
  field_simp
  have : (10 ^ 18 : ℝ) ≠ 0 := by norm_num
  apply mul_right_cancel₀ this
  linear_combination B * h1 - A * h2

/-- Two numbers close to each other. -/
theorem im_near (a b : ℂ) (h : ‖a - b‖ ≤ 3 / 10 ^ 9) : |a.im - b.im| ≤ 3 / 10 ^ 9 := by
  have := Complex.abs_im_le_norm (a - b)
  rw [Complex.sub_im] at this
  linarith

theorem cell_sound (c : Cell) (hr : rootsOk c = true) (hc : sumOk c = true) (y : ℝ) (hy : |y| ≤ 1) (η : ℝ)
    (hη : η = evZ c.L y / 10 ^ 4) (h0 : 0 ≤ η) (h1 : η ≤ 16 / 10) (s : ℕ → ℂ)
    (hs : ∀ m : ℕ, 0 < m → IsInvRoot (1 + (m * η : ℝ) * I) (s m)) :
    |2 * scaledSum η s - ratio (1013211836 / 10 ^ 10 * η ^ 2)| ≤ 3 / 10 ^ 7 := by
  unfold rootsOk at hr
  simp only [Bool.and_eq_true] at hr
  obtain ⟨r1, r3, r5, r7, r9, r11, r12⟩ := hr
  have hs' : ∀ m : ℕ, 0 < m → IsInvRoot (1 + (m * (evZ c.L y / 10 ^ 4) : ℝ) * I) (s m) := by
    intro m hm
    rw [← hη]
    exact hs m hm
  have n1 := root_near _ _ _ r1 y hy _ (hs' 1 (by norm_num))
  have n3 := root_near _ _ _ r3 y hy _ (hs' 3 (by norm_num))
  have n5 := root_near _ _ _ r5 y hy _ (hs' 5 (by norm_num))
  have n7 := root_near _ _ _ r7 y hy _ (hs' 7 (by norm_num))
  have n9 := root_near _ _ _ r9 y hy _ (hs' 9 (by norm_num))
  have n11 := root_near _ _ _ r11 y hy _ (hs' 11 (by norm_num))
  have n12 := root_near _ _ _ r12 y hy _ (hs' 12 (by norm_num))
  have hl : evZ c.L y = 10 ^ 4 * η := by rw [hη]; ring
  unfold sumOk at hc
  simp only [forceListZ_eq, Bool.and_eq_true] at hc
  obtain ⟨t1, t2, t3⟩ := hc
  replace t1 := test_pos _ t1 y hy
  replace t2 := test_pos _ t2 y hy
  replace t3 := test_pos _ t3 y hy
  simp only [evZ_addZ, evZ_scaleZ, evZ_mulZ, ratio_hom _ y t3] at t1
  simp only [evZ_addZ, evZ_scaleZ, evZ_mulZ, ratio_hom _ y t3] at t2
  rw [show 1013211836 / 10 ^ 18 * (evZ c.L y * evZ c.L y) = 1013211836 / 10 ^ 10 * η ^ 2 by rw [hl]; ring] at t1 t2
  generalize evZ (homZ (scaleZ invPiSq (mulZ c.L c.L)) (10 ^ 18) dInt) y = dA at *
  generalize ratio (1013211836 / 10 ^ 10 * η ^ 2) = R at *
  -- the sum with the polynomials
  obtain ⟨τ, hτ⟩ : ∃ τ : ℝ, τ = (evC c.r12 y * lastFactor η).re + η * ((evC c.r1 y).im + (evC c.r3 y).im +
    (evC c.r5 y).im + (evC c.r7 y).im + (evC c.r9 y).im + (evC c.r11 y).im) := ⟨_, rfl⟩
  have hD : 0 < 1 + 144 * η ^ 2 := by positivity
  have hN : evZ (nPoly c (mulZ c.L c.L) (mulZ (dPoly (mulZ c.L c.L)) (dPoly (mulZ c.L c.L)))
      (mulZ (dPoly (mulZ c.L c.L)) (mulZ (dPoly (mulZ c.L c.L)) (dPoly (mulZ c.L c.L))))) y =
      384 * 10 ^ 40 * (1 + 144 * η ^ 2) ^ 3 * τ := by
    have e : (evC c.r12 y * lastFactor η).re * (384 * (1 + 144 * η ^ 2) ^ 3) = evZ c.r12.1 y / 10 ^ 12 *
        (384 * (1 + 144 * η ^ 2) ^ 3 - 16 * η ^ 2 * (1 + 144 * η ^ 2) ^ 2 - 7 * η ^ 4 * (1 - 432 * η ^ 2)) -
        evZ c.r12.2 y / 10 ^ 12 * (4608 * η * (1 + 144 * η ^ 2) ^ 3 + 192 * η ^ 3 * (1 + 144 * η ^ 2) ^ 2 -
          7 * η ^ 4 * (-36 * η + 1728 * η ^ 3)) := by
      rw [← Complex.re_mul_ofReal, mul_assoc, lastFactor_eq]
      generalize 384 * (1 + 144 * η ^ 2) ^ 3 - 16 * η ^ 2 * (1 + 144 * η ^ 2) ^ 2 - 7 * η ^ 4 * (1 - 432 * η ^ 2) = A
      generalize 4608 * η * (1 + 144 * η ^ 2) ^ 3 + 192 * η ^ 3 * (1 + 144 * η ^ 2) ^ 2 -
          7 * η ^ 4 * (-36 * η + 1728 * η ^ 3) = B
      unfold evC
      generalize evZ c.r12.1 y / 10 ^ 12 = p
      generalize evZ c.r12.2 y / 10 ^ 12 = q
      simp
    have im : ∀ r : Pair, (evC r y).im = evZ r.2 y / 10 ^ 12 := by
      intro r
      unfold evC
      generalize evZ r.1 y / 10 ^ 12 = p
      generalize evZ r.2 y / 10 ^ 12 = q
      simp
    rw [show 384 * 10 ^ 40 * (1 + 144 * η ^ 2) ^ 3 * τ = 10 ^ 40 * ((evC c.r12 y * lastFactor η).re * (384 * (1 + 144 * η ^ 2) ^ 3)
      + 384 * (1 + 144 * η ^ 2) ^ 3 * (η * ((evC c.r1 y).im + (evC c.r3 y).im + (evC c.r5 y).im + (evC c.r7 y).im +
        (evC c.r9 y).im + (evC c.r11 y).im))) by rw [hτ]; ring, e]
    simp only [im, nPoly, gRe, gIm, dPoly, evZ_addZ, evZ_scaleZ, evZ_mulZ, evZ, hl]
    push_cast
    ring
  rw [hN] at t1 t2
  simp only [dPoly, evZ_addZ, evZ_scaleZ, evZ_mulZ, evZ, hl] at t1 t2
  have hτR : |2 * τ - R| ≤ 1 / 10 ^ 7 := by
    have hpos : 0 < (1 + 144 * η ^ 2) ^ 3 * dA := by positivity
    push_cast at t1 t2
    rw [abs_le]
    constructor
    · by_contra hcon
      push Not at hcon
      nlinarith [mul_pos hpos (sub_pos.2 hcon)]
    · by_contra hcon
      push Not at hcon
      nlinarith [mul_pos hpos (sub_pos.2 hcon)]
  -- the difference of the sums
  have hdiff : |scaledSum η s - τ| ≤ 92 / 10 ^ 9 := by
    have e : scaledSum η s - τ = ((s 12 - evC c.r12 y) * lastFactor η).re + η * (((s 1).im - (evC c.r1 y).im) +
        ((s 3).im - (evC c.r3 y).im) + ((s 5).im - (evC c.r5 y).im) + ((s 7).im - (evC c.r7 y).im) +
        ((s 9).im - (evC c.r9 y).im) + ((s 11).im - (evC c.r11 y).im)) := by
      rw [hτ, sub_mul, Complex.sub_re]
      unfold scaledSum
      simp only [Finset.sum_range_succ, Finset.sum_range_zero]
      norm_num
      ring
    have a1 : |((s 12 - evC c.r12 y) * lastFactor η).re| ≤ 3 / 10 ^ 9 * 21 := by
      refine (Complex.abs_re_le_norm _).trans ?_
      rw [norm_mul, norm_sub_rev]
      exact mul_le_mul n12 (lastFactor_norm η h0 h1) (norm_nonneg _) (by norm_num)
    have b1 := abs_le.1 (im_near _ _ n1)
    have b3 := abs_le.1 (im_near _ _ n3)
    have b5 := abs_le.1 (im_near _ _ n5)
    have b7 := abs_le.1 (im_near _ _ n7)
    have b9 := abs_le.1 (im_near _ _ n9)
    have b11 := abs_le.1 (im_near _ _ n11)
    have a2 : |((s 1).im - (evC c.r1 y).im) +
        ((s 3).im - (evC c.r3 y).im) + ((s 5).im - (evC c.r5 y).im) + ((s 7).im - (evC c.r7 y).im) +
        ((s 9).im - (evC c.r9 y).im) + ((s 11).im - (evC c.r11 y).im)| ≤ 18 / 10 ^ 9 := by
      rw [abs_le]
      constructor <;> linarith
    rw [e]
    refine (abs_add_le _ _).trans ?_
    rw [abs_mul, abs_of_nonneg h0]
    have := mul_le_mul h1 a2 (abs_nonneg _) (by norm_num)
    norm_num at a1 this ⊢
    linarith
  rw [show 2 * scaledSum η s - R = 2 * (scaledSum η s - τ) + (2 * τ - R) by ring]
  refine (abs_add_le _ _).trans ?_
  rw [abs_mul, abs_two]
  norm_num at hdiff hτR ⊢
  linarith

theorem line (c h y : ℝ) (hh : 0 < h) (h1 : c - h ≤ y) (h2 : y ≤ c + h) : |(y - c) / h| ≤ 1 := by
  rw [abs_div, abs_of_pos hh, div_le_one hh, abs_le]
  constructor <;> linarith

/-- The sum agrees with the approximation of the code. -/
theorem scaledSum_near (η : ℝ) (h0 : 0 ≤ η) (h1 : η ≤ 1571 / 1000) (s : ℕ → ℂ)
    (hs : ∀ m : ℕ, 0 < m → IsInvRoot (1 + (m * η : ℝ) * I) (s m)) :
    |2 * scaledSum η s - ratio (1013211836 / 10 ^ 10 * η ^ 2)| ≤ 3 / 10 ^ 7 := by
  have key : ∀ c : Cell, rootsOk c = true → sumOk c = true → ∀ a h : ℤ, c.L = [a, h] → 0 < h →
      (a - h : ℝ) ≤ 10 ^ 4 * η → 10 ^ 4 * η ≤ a + h →
      |2 * scaledSum η s - ratio (1013211836 / 10 ^ 10 * η ^ 2)| ≤ 3 / 10 ^ 7 := by
    intro c hr hc a h hl hh ha hb
    have hh' : (0 : ℝ) < h := by exact_mod_cast hh
    refine cell_sound c hr hc ((10 ^ 4 * η - a) / h) (line _ _ _ hh' ha hb) η ?_ h0 (by linarith) s hs
    rw [hl]
    simp only [evZ]
    field_simp
    ring
  by_cases k0 : η ≤ 248 / 10 ^ 4
  · exact key cell0 roots0 sum0 1 247 rfl (by norm_num) (by push_cast; linarith) (by push_cast; linarith)
  by_cases k1 : η ≤ 492 / 10 ^ 4
  · exact key cell1 roots1 sum1 369 123 rfl (by norm_num) (by push_cast; linarith) (by push_cast; linarith)
  by_cases k2 : η ≤ 986 / 10 ^ 4
  · exact key cell2 roots2 sum2 739 247 rfl (by norm_num) (by push_cast; linarith) (by push_cast; linarith)
  by_cases k3 : η ≤ 1970 / 10 ^ 4
  · exact key cell3 roots3 sum3 1477 493 rfl (by norm_num) (by push_cast; linarith) (by push_cast; linarith)
  by_cases k4 : η ≤ 3938 / 10 ^ 4
  · exact key cell4 roots4 sum4 2953 985 rfl (by norm_num) (by push_cast; linarith) (by push_cast; linarith)
  by_cases k5 : η ≤ 7862 / 10 ^ 4
  · exact key cell5 roots5 sum5 5899 1963 rfl (by norm_num) (by push_cast; linarith) (by push_cast; linarith)
  exact key cell6 roots6 sum6 11785 3925 rfl (by norm_num) (by push_cast; linarith) (by push_cast; linarith)

/-! ### The square roots -/

/-- The square root of a number in the upper half plane. -/
noncomputable def upRoot (z : ℂ) : ℂ := √((‖z‖ + z.re) / 2) + √((‖z‖ - z.re) / 2) * I

theorem upRoot_isRoot (z : ℂ) (hz : 0 < z.im) : IsRoot z (upRoot z) := by
  have hn : |z.re| < ‖z‖ := Complex.abs_re_lt_norm.2 hz.ne'
  obtain ⟨h1, h2⟩ := abs_lt.1 hn
  have p1 : 0 < (‖z‖ + z.re) / 2 := by linarith
  have p2 : 0 < (‖z‖ - z.re) / 2 := by linarith
  have s1 := Real.sqrt_pos.2 p1
  have s2 := Real.sqrt_pos.2 p2
  refine ⟨?_, by simpa [upRoot] using s2, by simpa [upRoot] using s1⟩
  have q1 := Real.sq_sqrt p1.le
  have q2 := Real.sq_sqrt p2.le
  have q3 : √((‖z‖ + z.re) / 2) * √((‖z‖ - z.re) / 2) = z.im / 2 := by
    rw [← Real.sqrt_mul p1.le]
    have e : (‖z‖ + z.re) / 2 * ((‖z‖ - z.re) / 2) = (z.im / 2) ^ 2 := by
      have : ‖z‖ ^ 2 = z.re ^ 2 + z.im ^ 2 := by rw [← Complex.normSq_eq_norm_sq, Complex.normSq_apply]; ring
      linear_combination this / 4
    rw [e, Real.sqrt_sq (by positivity)]
  unfold upRoot
  generalize √((‖z‖ + z.re) / 2) = a at *
  generalize √((‖z‖ - z.re) / 2) = b at *
  apply Complex.ext
  · simp [pow_two]
    linear_combination q1 - q2
  · simp [pow_two]
    linear_combination 2 * q3

theorem poleSum_scaled (ξ : ℝ) (hξ : 0 < ξ) (q : ℕ → ℂ) (hq : ∀ m : ℕ, 0 < m → IsRoot (ξ + m * I) (q m)) :
    (∀ m : ℕ, 0 < m → IsInvRoot (1 + (m * ξ⁻¹ : ℝ) * I) (√ξ / q m)) ∧
    poleSum q = √ξ * (2 * scaledSum ξ⁻¹ fun m => √ξ / q m) := by
  have hx : (ξ : ℂ) ≠ 0 := by exact_mod_cast hξ.ne'
  have hr : (√ξ : ℂ) ^ 2 = ξ := by exact_mod_cast Real.sq_sqrt hξ.le
  have hr0 := Real.sqrt_pos.2 hξ
  have hr1 : (√ξ : ℂ) ≠ 0 := by exact_mod_cast hr0.ne'
  constructor
  · intro m hm
    have h := hq m hm
    refine ⟨?_, ?_⟩
    · have := h.ne
      rw [div_pow, hr, h.sq]
      have hz : (ξ + m * I : ℂ) ≠ 0 := by rw [← h.sq]; exact pow_ne_zero _ this
      push_cast
      field_simp
    · rw [Complex.div_re]
      simp only [Complex.ofReal_re, Complex.ofReal_im, zero_mul, zero_div, add_zero]
      have := Complex.normSq_pos.2 h.ne
      have := h.re_pos
      positivity
  · have h12 := hq 12 (by norm_num)
    have n12 := h12.ne
    have w : (1 + 12 * (ξ⁻¹ : ℝ) * I : ℂ) = q 12 ^ 2 / ξ := by
      rw [h12.sq]; push_cast; field_simp
    have l : (√ξ : ℂ) * ((√ξ / q 12) * lastFactor ξ⁻¹) = q 12 - (1 / 24 / q 12 ^ 3 + 7 / 384 / q 12 ^ 7) := by
      unfold lastFactor
      rw [w]
      push_cast
      have : (√ξ : ℂ) * ((√ξ / q 12) * (q 12 ^ 2 / ξ - (ξ : ℂ)⁻¹ ^ 2 / 24 * (q 12 ^ 2 / ξ)⁻¹ -
          7 / 384 * (ξ : ℂ)⁻¹ ^ 4 * (q 12 ^ 2 / ξ)⁻¹ ^ 3)) = (√ξ : ℂ) ^ 2 / q 12 * (q 12 ^ 2 / ξ - (ξ : ℂ)⁻¹ ^ 2 / 24 * (q 12 ^ 2 / ξ)⁻¹ -
          7 / 384 * (ξ : ℂ)⁻¹ ^ 4 * (q 12 ^ 2 / ξ)⁻¹ ^ 3) := by ring
      rw [this, hr]
      field_simp
      ring
    have i : ∀ k : ℕ, √ξ * (ξ⁻¹ * ((√ξ : ℂ) / q (2 * k + 1)).im) = (1 / q (2 * k + 1)).im := by
      intro k
      rw [← Complex.im_ofReal_mul, ← Complex.im_ofReal_mul]
      congr 1
      have := (hq (2 * k + 1) (by omega)).ne
      rw [show (√ξ : ℂ) * ((ξ⁻¹ : ℝ) * (√ξ / q (2 * k + 1))) = (√ξ : ℂ) ^ 2 * (ξ⁻¹ : ℝ) / q (2 * k + 1) by ring, hr]
      push_cast
      field_simp
    unfold poleSum scaledSum
    have e1 := congrArg Complex.re l
    rw [Complex.re_ofReal_mul, Complex.sub_re] at e1
    have e2 : √ξ * (ξ⁻¹ * ∑ k ∈ Finset.range 6, ((√ξ : ℂ) / q (2 * k + 1)).im) = ∑ k ∈ Finset.range 6, (1 / q (2 * k + 1)).im := by
      rw [Finset.mul_sum, Finset.mul_sum]
      exact Finset.sum_congr rfl fun k _ => i k
    linear_combination (-2 : ℝ) * e1 - 2 * e2

/-! ### The approximation of the code -/

theorem ev_of_int (p : List ℚ) (z : List ℤ) (h : p = z.map fun a : ℤ => -(a : ℚ) / 10 ^ 29) (v : ℝ) :
    evZ z v = -10 ^ 29 * ev p v := by
  subst h
  induction z with
  | nil => simp [ev, evZ]
  | cons a z ih => simp only [evZ, List.map_cons, ev, ih]; push_cast; ring

theorem ratio_eq (v : ℝ) : ratio v = ev cm12.c v / ev cm12.d v := by
  unfold ratio
  rw [ev_of_int cm12.c cInt (by decide +kernel), ev_of_int cm12.d dInt (by decide +kernel)]
  exact mul_div_mul_left _ _ (by norm_num)

/-- A polynomial that passes the test is positive up to 17/63. -/
theorem pos17 (p : List ℚ) (h : check 17 (toInt 63 (3 ^ 190) p) = true) (v : ℝ) (h0 : 0 ≤ v) (h1 : v ≤ 26 / 100) :
    0 < ev p v :=
  ev_pos 63 (3 ^ 190) 17 (by norm_num) p h v h0 (by push_cast; linarith)

theorem ratio_lipschitz (u v : ℝ) (hu : 0 ≤ u) (hu1 : u ≤ 26 / 100) (hv : 0 ≤ v) (hv1 : v ≤ 26 / 100) :
    |ratio u - ratio v| ≤ 10 * |u - v| := by
  have hd : ∀ x ∈ Set.Icc (0 : ℝ) (26 / 100), HasDerivWithinAt ratio
      ((dev cm12.c x * ev cm12.d x - ev cm12.c x * dev cm12.d x) / ev cm12.d x ^ 2) (Set.Icc 0 (26 / 100)) x := by
    intro x hx
    have hneg := pos17 (scale (-1) cm12.d) (by decide +kernel) x hx.1 hx.2
    rw [ev_scale] at hneg
    have h : HasDerivAt (fun v => ev cm12.c v / ev cm12.d v) _ x :=
      (hasDerivAt_ev cm12.c x).fun_div (hasDerivAt_ev cm12.d x) (by push_cast at hneg; intro h; rw [h] at hneg; simp at hneg)
    rw [show ratio = fun v => ev cm12.c v / ev cm12.d v from funext ratio_eq]
    exact h.hasDerivWithinAt
  have hb : ∀ x ∈ Set.Icc (0 : ℝ) (26 / 100),
      ‖(dev cm12.c x * ev cm12.d x - ev cm12.c x * dev cm12.d x) / ev cm12.d x ^ 2‖ ≤ 10 := by
    intro x hx
    have hneg := pos17 (scale (-1) cm12.d) (by decide +kernel) x hx.1 hx.2
    have t1 := pos17 (add (scale 10 (mul cm12.d cm12.d)) (add (mul (diff cm12.c) cm12.d) (scale (-1) (mul cm12.c (diff cm12.d)))))
      (by decide +kernel) x hx.1 hx.2
    have t2 := pos17 (add (scale 10 (mul cm12.d cm12.d)) (add (scale (-1) (mul (diff cm12.c) cm12.d)) (mul cm12.c (diff cm12.d))))
      (by decide +kernel) x hx.1 hx.2
    simp only [ev_add, ev_scale, ev_mul, ev_diff] at hneg t1 t2
    push_cast at hneg t1 t2
    have hsq : 0 < ev cm12.d x ^ 2 := by
      have : ev cm12.d x ≠ 0 := by intro h; rw [h] at hneg; simp at hneg
      positivity
    rw [Real.norm_eq_abs, abs_div, abs_of_pos hsq, div_le_iff₀ hsq, abs_le]
    constructor <;> nlinarith
  have := Convex.norm_image_sub_le_of_norm_hasDerivWithin_le hd hb (convex_Icc _ _) (x := v) (y := u) ⟨hv, hv1⟩ ⟨hu, hu1⟩
  simpa [Real.norm_eq_abs] using this

theorem ratio_ge (v : ℝ) (h0 : 0 ≤ v) (h1 : v ≤ 26 / 100) : 3 / 2 ≤ ratio v := by
  have hneg := pos17 (scale (-1) cm12.d) (by decide +kernel) v h0 h1
  have t := pos17 (add (scale (-1) cm12.c) (scale (3 / 2) cm12.d)) (by decide +kernel) v h0 h1
  simp only [ev_add, ev_scale] at hneg t
  push_cast at hneg t
  rw [ratio_eq, ← neg_div_neg_eq (ev cm12.c v), le_div_iff₀ (by linarith)]
  linarith

/-- The number close to `1 / π ^ 2`. -/
theorem invPiSq_near : |1013211836 / 10 ^ 10 - 1 / Real.pi ^ 2| ≤ 1 / 10 ^ 10 := by
  have h1 := Real.pi_gt_d20
  have h2 := Real.pi_lt_d20
  have hp : 0 < Real.pi ^ 2 := by positivity
  have l : (3.14159265358979323846 : ℝ) ^ 2 < Real.pi ^ 2 := by gcongr
  have u : Real.pi ^ 2 < (3.14159265358979323847 : ℝ) ^ 2 := by gcongr
  have e : 1 / Real.pi ^ 2 * Real.pi ^ 2 = 1 := by field_simp
  have hq : 0 < 1 / Real.pi ^ 2 := by positivity
  generalize 1 / Real.pi ^ 2 = w at *
  generalize Real.pi ^ 2 = z at *
  norm_num at l u
  rw [abs_le]
  constructor <;> nlinarith

/-- Above an argument of two the approximation of the order -1/2 is accurate. -/
theorem neg12_high (x : ℝ) (hx : 2 ≤ x) :
    |fermiNeg12 x - fermiIntegral x (-1 / 2)| ≤ 6 / 10 ^ 7 * fermiIntegral x (-1 / 2) := by
  have hpi := Real.pi_pos
  have hp1 := Real.pi_gt_d4
  have hp2 := Real.pi_lt_d4
  have hx0 : 0 < x := by linarith
  obtain ⟨ξ, hξ⟩ : ∃ ξ : ℝ, ξ = x / Real.pi := ⟨_, rfl⟩
  have hξ0 : 0 < ξ := by rw [hξ]; positivity
  have hxξ : x = Real.pi * ξ := by rw [hξ]; field_simp
  have hq : ∀ m : ℕ, 0 < m → IsRoot (ξ + m * I) (upRoot (ξ + m * I)) := by
    intro m hm
    apply upRoot_isRoot
    simpa using hm
  have f := fermi_poleSum ξ _ hq
  obtain ⟨hs, hp⟩ := poleSum_scaled ξ hξ0 _ hq
  have hη1 : ξ⁻¹ ≤ 1571 / 1000 := by
    rw [hξ, inv_div, div_le_iff₀ hx0]
    norm_num at hp2
    linarith
  have g := scaledSum_near ξ⁻¹ (by positivity) hη1 _ hs
  have hv : (x ^ (-2 : ℝ)) = 1 / Real.pi ^ 2 * ξ⁻¹ ^ 2 := by
    rw [show (-2 : ℝ) = -((2 : ℕ) : ℝ) by norm_num, Real.rpow_neg hx0.le, Real.rpow_natCast, hxξ]
    field_simp
  have hv1 : x ^ (-2 : ℝ) ≤ 26 / 100 ∧ 0 ≤ x ^ (-2 : ℝ) := by
    refine ⟨?_, by positivity⟩
    rw [show (-2 : ℝ) = -((2 : ℕ) : ℝ) by norm_num, Real.rpow_neg hx0.le, Real.rpow_natCast]
    have : (2 : ℝ) ^ 2 ≤ x ^ 2 := by gcongr
    rw [inv_le_comm₀ (by positivity) (by norm_num)]
    norm_num at this ⊢
    linarith
  have hη2 : ξ⁻¹ ^ 2 ≤ (1571 / 1000) ^ 2 := by gcongr
  have hη3 : 0 ≤ ξ⁻¹ ^ 2 := by positivity
  have r := ratio_lipschitz (1013211836 / 10 ^ 10 * ξ⁻¹ ^ 2) (x ^ (-2 : ℝ)) (by positivity)
    (by norm_num at hη2 ⊢; linarith) hv1.2 hv1.1
  have r2 := ratio_ge _ hv1.2 hv1.1
  have hF : fermiNeg12 x = √ξ * ratio (x ^ (-2 : ℝ)) := by
    unfold fermiNeg12 fermiF
    rw [if_neg (by linarith), Gamma_neg12, rational_ev, ratio_eq, show (-1 / 2 + 1 : ℝ) = 1 / 2 by norm_num, ← Real.sqrt_eq_rpow,
      hξ, Real.sqrt_div hx0.le]
    push_cast
    ring
  have n1 : |1013211836 / 10 ^ 10 * ξ⁻¹ ^ 2 - x ^ (-2 : ℝ)| ≤ 3 / 10 ^ 10 := by
    rw [hv, ← sub_mul, abs_mul, abs_of_nonneg hη3]
    have := mul_le_mul invPiSq_near hη2 hη3 (by norm_num)
    norm_num at this ⊢
    linarith
  have hsq : 797 / 1000 ≤ √ξ := by
    apply Real.le_sqrt_of_sq_le
    rw [hξ, le_div_iff₀ hpi]
    norm_num at hp2 ⊢
    linarith
  rw [← hxξ, hp] at f
  rw [hF]
  generalize ratio (x ^ (-2 : ℝ)) = R at *
  generalize ratio (1013211836 / 10 ^ 10 * ξ⁻¹ ^ 2) = R0 at *
  generalize fermiIntegral x (-1 / 2) = F at *
  generalize (2 * scaledSum ξ⁻¹ fun m => √ξ / upRoot (ξ + m * I)) = T at *
  generalize √ξ = a at *
  have d1 : |T - R| ≤ 303 / 10 ^ 9 := by
    have : T - R = (T - R0) + (R0 - R) := by ring
    rw [this]
    refine (abs_add_le _ _).trans ?_
    norm_num at g r n1 ⊢
    linarith
  have d2 := abs_le.1 d1
  have d3 := abs_le.1 f
  norm_num at d2 d3 hsq r2
  rw [abs_le]
  constructor <;> nlinarith

end Verif.FermiInt
