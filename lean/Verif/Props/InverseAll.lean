/-
C79: the accuracy of the approximate inverse that the code uses, for all positive arguments.
-/
import Verif.Lemmas.FermiGridRun

set_option autoImplicit false

namespace Verif.FermiInt
open Real Verif.RatPoly

/-! ### The middle pieces -/

theorem piece1_eq (x : ℝ) : fukushimaPiece1 x = gridVal grid1 x := by
  unfold fukushimaPiece1 gridVal
  rw [rational_ev]
  have e1 : cubicR grid1.n ((grid1.be * x - grid1.al) / grid1.Q) = 10 ^ 13 *
      ev [22.3158685, 122.487649, 135.023156, 30.5460708] (-0.550848552 + 0.452114610 * x) := by
    simp only [cubicR, grid1, ev]; norm_num; ring
  have e2 : cubicR grid1.d ((grid1.be * x - grid1.al) / grid1.Q) = 10 ^ 13 *
      ev [28.0566860, 59.9641578, 27.8629074, 1.0] (-0.550848552 + 0.452114610 * x) := by
    simp only [cubicR, grid1, ev]; norm_num; ring
  rw [e1, e2, mul_div_mul_left _ _ (by norm_num)]

theorem piece2_eq (x : ℝ) : fukushimaPiece2 x = gridVal grid2 x := by
  unfold fukushimaPiece2 gridVal
  rw [rational_ev]
  have e1 : cubicR grid2.n ((grid2.be * x - grid2.al) / grid2.Q) = 10 ^ 13 *
      ev [74.0135089, 294.367987, 294.232354, 64.9306737] (-0.482411581 + 0.140636120 * x) := by
    simp only [cubicR, grid2, ev]; norm_num; ring
  have e2 : cubicR grid2.d ((grid2.be * x - grid2.al) / grid2.Q) = 10 ^ 13 *
      ev [27.8728584, 62.0649704, 27.1148810, 1.0] (-0.482411581 + 0.140636120 * x) := by
    simp only [cubicR, grid2, ev]; norm_num; ring
  rw [e1, e2, mul_div_mul_left _ _ (by norm_num)]

theorem piece3_eq (x : ℝ) : fukushimaPiece3 x = gridVal grid3 x := by
  unfold fukushimaPiece3 gridVal
  rw [rational_ev]
  have e1 : cubicR grid3.n ((grid3.be * x - grid3.al) / grid3.Q) = 10 ^ 13 *
      ev [156.549383, 612.130579, 639.532875, 145.238686] (-0.442839571 + 0.0420121106 * x) := by
    simp only [cubicR, grid3, ev]; norm_num; ring
  have e2 : cubicR grid3.d ((grid3.be * x - grid3.al) / grid3.Q) = 10 ^ 13 *
      ev [25.4019873, 59.3035998, 26.9857305, 1.0] (-0.442839571 + 0.0420121106 * x) := by
    simp only [cubicR, grid3, ev]; norm_num; ring
  rw [e1, e2, mul_div_mul_left _ _ (by norm_num)]

theorem piece4_eq (x : ℝ) : fukushimaPiece4 x = gridVal grid4 x := by
  unfold fukushimaPiece4 gridVal
  rw [rational_ev]
  have e1 : cubicR grid4.n ((grid4.be * x - grid4.al) / grid4.Q) = 10 ^ 13 *
      ev [376.286772, 1449.93277, 1487.47498, 333.722383] (-0.416448071 + 0.0121259929 * x) := by
    simp only [cubicR, grid4, ev]; norm_num; ring
  have e2 : cubicR grid4.d ((grid4.be * x - grid4.al) / grid4.Q) = 10 ^ 13 *
      ev [27.2967945, 61.1014417, 27.1844466, 1.0] (-0.416448071 + 0.0121259929 * x) := by
    simp only [cubicR, grid4, ev]; norm_num; ring
  rw [e1, e2, mul_div_mul_left _ _ (by norm_num)]

theorem piece1_concave : ConcaveOn ℝ (Set.Icc 1.2187 3.43) fukushimaPiece1 :=
  piece_concave _ _ _ _ _ _ (by norm_num) (by norm_num) (by norm_num) (by decide +kernel) (by decide +kernel)

theorem piece2_concave : ConcaveOn ℝ (Set.Icc 3.4265 10.5) fukushimaPiece2 :=
  piece_concave _ _ _ _ _ _ (by norm_num) (by norm_num) (by norm_num) (by decide +kernel) (by decide +kernel)

theorem piece3_concave : ConcaveOn ℝ (Set.Icc 10.486 34.3) fukushimaPiece3 :=
  piece_concave _ _ _ _ _ _ (by norm_num) (by norm_num) (by norm_num) (by decide +kernel) (by decide +kernel)

theorem piece4_concave : ConcaveOn ℝ (Set.Icc 34.25 117) fukushimaPiece4 :=
  piece_concave _ _ _ _ _ _ (by norm_num) (by norm_num) (by norm_num) (by decide +kernel) (by decide +kernel)

/-- From a grid to a piece. -/
theorem piece_close (f : ℝ → ℝ) (g : Grid) (hf : ∀ x, f x = gridVal g x) (hQ : 0 < g.Q) (hU : 0 < g.U)
    (hX : 0 < g.dX) (n Y : ℕ) (lo st hi : ℝ) (hlo : lo = (Y : ℝ) / g.U) (hY : 0 < Y)
    (hst : st = ((Y + g.dX : ℕ) : ℝ) / g.U) (hhi : hi = ((Y + g.dX + n * g.dX : ℕ) : ℝ) / g.U)
    (hc : ConcaveOn ℝ (Set.Icc lo hi) f) (hm : StrictMonoOn f (Set.Icc st hi))
    (h : gridTest g n (Y + g.dX) = true) (x : ℝ) (hx1 : st ≤ x) (hx2 : x ≤ hi) :
    |unnorm (f x) - x| ≤ 5 / 10 ^ 6 * x := by
  obtain rfl : f = gridVal g := funext hf
  subst hst
  exact gridTest_spec g hQ hU hX n Y lo hi hlo hY hhi hc hm.monotoneOn h x hx1 hx2

theorem piece1_close (x : ℝ) (h1 : 1.22 ≤ x) (h2 : x ≤ 3.43) :
    |unnorm (fukushimaPiece1 x) - x| ≤ 5 / 10 ^ 6 * x :=
  piece_close fukushimaPiece1 grid1 piece1_eq (by simp [grid1]) (by simp [grid1]) (by simp [grid1]) 1700 12187
    _ _ _ (by simp only [grid1]; norm_num) (by norm_num) (by simp only [grid1]; norm_num)
    (by simp only [grid1]; norm_num) piece1_concave piece1_mono grid1_test x h1 h2

theorem piece2_close (x : ℝ) (h1 : 3.43 ≤ x) (h2 : x ≤ 10.5) :
    |unnorm (fukushimaPiece2 x) - x| ≤ 5 / 10 ^ 6 * x :=
  piece_close fukushimaPiece2 grid2 piece2_eq (by simp [grid2]) (by simp [grid2]) (by simp [grid2]) 2020 34265
    _ _ _ (by simp only [grid2]; norm_num) (by norm_num) (by simp only [grid2]; norm_num)
    (by simp only [grid2]; norm_num) piece2_concave piece2_mono grid2_test x h1 h2

theorem piece3_close (x : ℝ) (h1 : 10.5 ≤ x) (h2 : x ≤ 34.3) :
    |unnorm (fukushimaPiece3 x) - x| ≤ 5 / 10 ^ 6 * x :=
  piece_close fukushimaPiece3 grid3 piece3_eq (by simp [grid3]) (by simp [grid3]) (by simp [grid3]) 1700 10486
    _ _ _ (by simp only [grid3]; norm_num) (by norm_num) (by simp only [grid3]; norm_num)
    (by simp only [grid3]; norm_num) piece3_concave piece3_mono grid3_test x h1 h2

theorem piece4_close (x : ℝ) (h1 : 34.3 ≤ x) (h2 : x ≤ 117) :
    |unnorm (fukushimaPiece4 x) - x| ≤ 5 / 10 ^ 6 * x :=
  piece_close fukushimaPiece4 grid4 piece4_eq (by simp [grid4]) (by simp [grid4]) (by simp [grid4]) 1654 3425
    _ _ _ (by simp only [grid4]; norm_num) (by norm_num) (by simp only [grid4]; norm_num)
    (by simp only [grid4]; norm_num) piece4_concave piece4_mono grid4_test x h1 h2

/-! ### The last piece -/

/-- A linear bound of the quotient of the approximation for large arguments. -/
def lin : List ℚ := [2 / 3, 0.8232]

theorem lin_bounds (v : ℝ) (h0 : 0 ≤ v) (h1 : v ≤ 1 / 900) :
    (1 - 4 / 10 ^ 7) * (ev lin v * ev c12.d v) < ev c12.c v ∧
    ev c12.c v < (1 + 4 / 10 ^ 7) * (ev lin v * ev c12.d v) := by
  have h2 : ((9001 : ℕ) : ℝ) * v < (11 : ℕ) := by push_cast; linarith
  have a := ev_pos 9001 (3 ^ 80) 11 (by norm_num)
    (add c12.c (scale (-(1 - 4 / 10 ^ 7)) (mul lin c12.d))) (by decide +kernel) v h0 h2
  have b := ev_pos 9001 (3 ^ 80) 11 (by norm_num)
    (add (scale (1 + 4 / 10 ^ 7) (mul lin c12.d)) (scale (-1) c12.c)) (by decide +kernel) v h0 h2
  simp only [ev_add, ev_scale, ev_mul] at a b
  push_cast at a b
  constructor <;> linarith

/-- Numerator and denominator of the last piece as polynomials of `q`. -/
def n5q : List ℚ := comp [1, -1] n5
def d5q : List ℚ := comp [1, -1] d5

/-- `2/3 n + 0.8232 q d`. -/
def mid5 : List ℚ := add (scale (2 / 3) n5q) (scale 0.8232 (mul [0, 1] d5q))

theorem last_tests (q : ℝ) (h0 : 0 ≤ q) (h1 : q ≤ qMax) :
    0 < ev n5q q ∧ 0 < ev d5q q ∧ 900 * (q * ev d5q q) < ev n5q q ∧
    (1 - 4 / 10 ^ 7) ^ 4 * (111.632691 ^ 3 * ev n5q q * ev d5q q ^ 3) < ev mid5 q ^ 4 ∧
    ev mid5 q ^ 4 < (1 + 4 / 10 ^ 7) ^ 4 * (111.632691 ^ 3 * ev n5q q * ev d5q q ^ 3) := by
  have h2 : ((100 : ℕ) : ℝ) * q < (20 : ℕ) := by
    unfold qMax at h1; norm_num at h1; push_cast; linarith
  have a := ev_pos 100 (3 ^ 60) 20 (by norm_num) n5q (by decide +kernel) q h0 h2
  have b := ev_pos 100 (3 ^ 60) 20 (by norm_num) d5q (by decide +kernel) q h0 h2
  have c := ev_pos 100 (3 ^ 60) 20 (by norm_num)
    (add n5q (scale (-900) (mul [0, 1] d5q))) (by decide +kernel) q h0 h2
  have d := ev_pos 100 (3 ^ 60) 20 (by norm_num)
    (add (mul (mul mid5 mid5) (mul mid5 mid5)) (scale (-((1 - 4 / 10 ^ 7) ^ 4 * 111.632691 ^ 3))
      (mul n5q (mul d5q (mul d5q d5q))))) (by decide +kernel) q h0 h2
  have e := ev_pos 100 (3 ^ 60) 20 (by norm_num)
    (add (scale ((1 + 4 / 10 ^ 7) ^ 4 * 111.632691 ^ 3) (mul n5q (mul d5q (mul d5q d5q))))
      (scale (-1) (mul (mul mid5 mid5) (mul mid5 mid5)))) (by decide +kernel) q h0 h2
  have hq : ev [0, 1] q = q := by simp [ev]
  simp only [ev_add, ev_scale, ev_mul, hq] at c d e
  generalize ev mid5 q = m at *
  generalize ev n5q q = n at *
  generalize ev d5q q = k at *
  push_cast at c d e
  refine ⟨a, b, by linarith, ?_, ?_⟩
  · have e1 : (1 - 4 / 10 ^ 7) ^ 4 * (111.632691 ^ 3 * n * k ^ 3) =
      (1 - 4 / 10 ^ 7) ^ 4 * 111.632691 ^ 3 * (n * (k * (k * k))) := by ring
    have e2 : m ^ 4 = m * m * (m * m) := by ring
    rw [e1, e2]
    linarith
  · have e1 : (1 + 4 / 10 ^ 7) ^ 4 * (111.632691 ^ 3 * n * k ^ 3) =
      (1 + 4 / 10 ^ 7) ^ 4 * 111.632691 ^ 3 * (n * (k * (k * k))) := by ring
    have e2 : m ^ 4 = m * m * (m * m) := by ring
    rw [e1, e2]
    linarith

theorem piece5_close (x : ℝ) (hx : 117 ≤ x) :
    |unnorm (fukushimaPiece5 x) - x| ≤ 5 / 10 ^ 6 * x := by
  have hx0 : 0 < x := by linarith
  obtain ⟨q0, q1⟩ := q_le x hx
  set q := 111.632691 * x ^ (-4 / 3 : ℝ) with hq
  obtain ⟨pn, pd, t1, t2, t3⟩ := last_tests q q0.le q1
  have hm : ev mid5 q = 2 / 3 * ev n5q q + 0.8232 * (q * ev d5q q) := by
    simp only [mid5, ev_add, ev_scale, ev_mul]
    have : ev [0, 1] q = q := by simp [ev]
    rw [this]; push_cast; norm_num
  have en : ev n5 (1 - q) = ev n5q q := by
    rw [n5q, ev_comp]; congr 1; simp [ev]; ring
  have ed : ev d5 (1 - q) = ev d5q q := by
    rw [d5q, ev_comp]; congr 1; simp [ev]; ring
  -- the square of the piece
  have hη : fukushimaPiece5 x = √(ev n5q q / ev d5q q / q) := by
    rw [piece5_eq, rational_ev, ← hq, en, ed]
  have hsq : fukushimaPiece5 x ^ 2 = ev n5q q / ev d5q q / q := by
    rw [hη]; exact Real.sq_sqrt (by positivity)
  have hpos : 0 < fukushimaPiece5 x := by rw [hη]; exact Real.sqrt_pos.2 (by positivity)
  have hq3 : q ^ 3 * x ^ 4 = 111.632691 ^ 3 := by
    have : (x ^ (-4 / 3 : ℝ)) ^ 3 = (x ^ 4)⁻¹ := by
      rw [← rpow_natCast, ← rpow_mul hx0.le, show (-4 / 3 * ((3 : ℕ) : ℝ)) = -((4 : ℕ) : ℝ) by norm_num,
        rpow_neg hx0.le, rpow_natCast]
    rw [hq, mul_pow, this]
    field_simp
  generalize fukushimaPiece5 x = η at *
  generalize q = q at *
  generalize ev n5q q = n at *
  generalize ev d5q q = d at *
  generalize ev mid5 q = m at *
  have hge : 2 ≤ η := by
    have : (2 : ℝ) ^ 2 ≤ η ^ 2 := by
      rw [hsq, div_div, le_div_iff₀ (by positivity)]
      nlinarith [mul_pos q0 pd]
    exact le_of_sq_le_sq this hpos.le
  have hv : η ^ (-2 : ℝ) = q * d / n := by
    rw [rpow_neg hpos.le, show (2 : ℝ) = ((2 : ℕ) : ℝ) by norm_num, rpow_natCast, hsq]
    field_simp
  obtain ⟨pc, pD⟩ := d12_pos _ hge
  rw [hv] at pc pD
  obtain ⟨l1, l2⟩ := lin_bounds (q * d / n) (by positivity) (by
    rw [div_le_div_iff₀ pn (by norm_num)]; linarith)
  have hF : Gamma (1 / 2 + 1) * fermi12 η = η ^ (3 / 2 : ℝ) * (ev c12.c (q * d / n) / ev c12.d (q * d / n)) := by
    unfold fermi12 fermiF
    rw [if_neg (by linarith), rational_ev, show (1 / 2 + 1 : ℝ) = 3 / 2 by norm_num, hv]
    have : Gamma (3 / 2) ≠ 0 := (Gamma_pos_of_pos (by norm_num)).ne'
    field_simp
  have h32 : (η ^ (3 / 2 : ℝ)) ^ 4 = (n / d / q) ^ 3 := by
    rw [← rpow_natCast, ← rpow_mul hpos.le, show (3 / 2 * ((4 : ℕ) : ℝ)) = ((6 : ℕ) : ℝ) by norm_num,
      rpow_natCast, ← hsq]
    ring
  have h32p : 0 < η ^ (3 / 2 : ℝ) := rpow_pos_of_pos hpos _
  have hlin : ev lin (q * d / n) = m / n := by
    rw [hm]; simp only [lin, ev]; push_cast; field_simp; ring
  rw [hlin] at l1 l2
  have hm0 : 0 < m := by rw [hm]; positivity
  obtain ⟨f1, f2⟩ := unnorm_fermi12 η
  rw [hF] at f1 f2
  have r1 : (1 - 4 / 10 ^ 7) * (m / n) ≤ ev c12.c (q * d / n) / ev c12.d (q * d / n) := by
    rw [le_div_iff₀ pD]; linarith
  have r2 : ev c12.c (q * d / n) / ev c12.d (q * d / n) ≤ (1 + 4 / 10 ^ 7) * (m / n) := by
    rw [div_le_iff₀ pD]; linarith
  generalize ev c12.c (q * d / n) / ev c12.d (q * d / n) = R at *
  generalize η ^ (3 / 2 : ℝ) = s at *
  -- the fourth power of the linear bound
  have h4 : (s * (m / n)) ^ 4 * (111.632691 ^ 3 * n * d ^ 3) = m ^ 4 * x ^ 4 := by
    rw [mul_pow, h32, ← hq3]
    field_simp
  have hK : 0 < 111.632691 ^ 3 * n * d ^ 3 := by positivity
  have w1 : (1 - 4 / 10 ^ 7) * x ≤ s * (m / n) := by
    apply le_of_pow_le_pow_left₀ (n := 4) (by norm_num) (by positivity)
    rw [mul_pow]
    have := mul_lt_mul_of_pos_right t2 (show 0 < x ^ 4 by positivity)
    rw [← h4] at this
    generalize 111.632691 ^ 3 * n * d ^ 3 = K at *
    by_contra hc
    push Not at hc
    have := mul_lt_mul_of_pos_right hc hK
    linarith
  have w2 : s * (m / n) ≤ (1 + 4 / 10 ^ 7) * x := by
    apply le_of_pow_le_pow_left₀ (n := 4) (by norm_num) (by positivity)
    rw [mul_pow]
    have := mul_lt_mul_of_pos_right t3 (show 0 < x ^ 4 by positivity)
    rw [← h4] at this
    generalize 111.632691 ^ 3 * n * d ^ 3 = K at *
    by_contra hc
    push Not at hc
    have := mul_lt_mul_of_pos_right hc hK
    linarith
  have z1 := mul_le_mul_of_nonneg_left r1 h32p.le
  have z2 := mul_le_mul_of_nonneg_left r2 h32p.le
  have hu := unnorm_pos η
  generalize unnorm η = G at *
  generalize m / n = y at *
  rw [abs_le]
  constructor <;> nlinarith

/-! ### All arguments -/

/-- C79.  For all positive arguments the inverse which the code uses is accurate: the Fermi integral of its
value is the argument, up to five digits. -/
theorem inverse_accurate (y : ℝ) (h0 : 0 < y) :
    |fermiIntegral (inverseFermi12 y) (1 / 2) - y| ≤ 5 / 10 ^ 6 * y := by
  have hG := norm_pos
  rcases lt_or_ge (y * Gamma (1 / 2 + 1)) 1.22 with h | h
  · exact (inverse_accurate_first y h0 h).trans (by linarith)
  rw [inverse_eq]
  have key : |unnorm (scaledInverse (y * Gamma (1 / 2 + 1))) - y * Gamma (1 / 2 + 1)| ≤
      5 / 10 ^ 6 * (y * Gamma (1 / 2 + 1)) := by
    generalize y * Gamma (1 / 2 + 1) = x at *
    rcases lt_or_ge x 3.43 with h1 | h1
    · rw [scaled1 x h h1]; exact piece1_close x h h1.le
    rcases lt_or_ge x 10.5 with h2 | h2
    · rw [scaled2 x h1 h2]; exact piece2_close x h1 h2.le
    rcases lt_or_ge x 34.3 with h3 | h3
    · rw [scaled3 x h2 h3]; exact piece3_close x h2 h3.le
    rcases lt_or_ge x 117 with h4 | h4
    · rw [scaled4 x h3 h4]; exact piece4_close x h3 h4.le
    · rw [scaled5 x h4]; exact piece5_close x h4
  unfold unnorm at key
  rw [mul_comm (Gamma (1 / 2 + 1)), ← sub_mul, abs_mul, abs_of_pos hG, ← mul_assoc] at key
  exact le_of_mul_le_mul_right key hG

example : |fermiIntegral (inverseFermi12 40) (1 / 2) - 40| ≤ 5 / 10 ^ 6 * 40 :=
  inverse_accurate 40 (by norm_num)

/-- C79.  At each degeneracy parameter, the chemical potential from the inverse reproduces the density. -/
theorem dandrea_density (θ : ℝ) (hθ : 0 < θ) :
    |(∫ t in Set.Ioi (0 : ℝ), t ^ (1 / 2 : ℝ) /
        (exp (t - inverseFermi12 ((2 / 3 * θ ^ (-3 / 2 : ℝ)) / Gamma (1 / 2 + 1))) + 1)) -
      2 / 3 * θ ^ (-3 / 2 : ℝ)| ≤ 5 / 10 ^ 6 * (2 / 3 * θ ^ (-3 / 2 : ℝ)) := by
  have hp := rpow_pos_of_pos hθ (-3 / 2)
  have hG := norm_pos
  have h := inverse_accurate ((2 / 3 * θ ^ (-3 / 2 : ℝ)) / Gamma (1 / 2 + 1)) (by positivity)
  unfold fermiIntegral at h
  rw [← sub_div, abs_div, abs_of_pos hG, ← mul_div_assoc] at h
  exact (div_le_div_iff_of_pos_right hG).1 h

end Verif.FermiInt
