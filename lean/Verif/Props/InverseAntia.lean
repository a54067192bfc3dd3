/-
C107: the other approximate inverse of the Fermi integral of order 1/2, which no other function calls.
-/
import Verif.Props.InverseAll

set_option autoImplicit false

namespace Verif.FermiInt
open Real Verif.RatPoly

/-- `x a(x)`. -/
def rA : List ℚ := 0 :: ci12.a

def antiaUp : List ℚ :=
  add (scale (1 + 1 / 10 ^ 7) (mul ci12.b (hom rA ci12.b c12.b))) (scale (-1) (mul ci12.a (hom rA ci12.b c12.a)))
def antiaLow : List ℚ :=
  add (mul ci12.a (hom rA ci12.b c12.a)) (scale (-(1 - 1 / 10 ^ 7)) (mul ci12.b (hom rA ci12.b c12.b)))
def antiaExp : List ℚ := add (scale (37 / 5) ci12.b) (scale (-1) rA)

set_option maxRecDepth 100000 in
theorem antia_tests : check 25 (toInt 10 (3 ^ 90) antiaUp) = true ∧ check 25 (toInt 10 (3 ^ 90) antiaLow) = true ∧
    check 25 (toInt 10 (3 ^ 60) antiaExp) = true ∧ check 25 (toInt 10 (3 ^ 60) ci12.b) = true := by
  decide +kernel

/-- The formula below the border, without the additional norm. -/
theorem antia_composite (x : ℝ) (h0 : 0 < x) (h1 : x < 2.48) :
    0 < x * rational ci12.a ci12.b x ∧ x * rational ci12.a ci12.b x ≤ 37 / 5 ∧
    |x * rational ci12.a ci12.b x * rational c12.a c12.b (x * rational ci12.a ci12.b x) - x| ≤ 1 / 10 ^ 7 * x := by
  norm_num at h1
  have h2 : ((10 : ℕ) : ℝ) * x < (25 : ℕ) := by push_cast; linarith
  have t1 := ev_pos 10 (3 ^ 90) 25 (by norm_num) _ antia_tests.1 x h0.le h2
  have t2 := ev_pos 10 (3 ^ 90) 25 (by norm_num) _ antia_tests.2.1 x h0.le h2
  have t3 := ev_pos 10 (3 ^ 60) 25 (by norm_num) _ antia_tests.2.2.1 x h0.le h2
  have pd := ev_pos 10 (3 ^ 60) 25 (by norm_num) _ antia_tests.2.2.2 x h0.le h2
  have pn : 0 < ev ci12.a x := by
    simp only [ci12, ev]; norm_num; positivity
  have hr0 : ev rA x = x * ev ci12.a x := by simp [rA, ev]
  have et : x * rational ci12.a ci12.b x = ev rA x / ev ci12.b x := by
    rw [rational_ev, hr0]; ring
  have ha := ev_hom rA ci12.b c12.a x pd.ne'
  have hb := ev_hom rA ci12.b c12.b x pd.ne'
  rw [show c12.a.length = 8 from rfl] at ha
  rw [show c12.b.length = 8 from rfl] at hb
  have hT : 0 < ev rA x / ev ci12.b x := by rw [hr0]; positivity
  obtain ⟨qa, qb, -⟩ := b_pos _ hT.le
  simp only [antiaUp, antiaLow, antiaExp, ev_add, ev_scale, ev_mul] at t1 t2 t3
  push_cast at t1 t2 t3
  rw [et, rational_ev]
  refine ⟨hT, by rw [div_le_iff₀ pd]; linarith, ?_⟩
  generalize ev c12.a (ev rA x / ev ci12.b x) = A at *
  generalize ev c12.b (ev rA x / ev ci12.b x) = B at *
  rw [hr0]
  generalize ev (hom rA ci12.b c12.a) x = HA at *
  generalize ev (hom rA ci12.b c12.b) x = HB at *
  generalize ev ci12.a x = N at *
  generalize ev ci12.b x = D at *
  have eHA : HA = D ^ 7 * A := by
    have : HA * D = D ^ 7 * A * D := by rw [ha]; ring
    exact mul_right_cancel₀ pd.ne' this
  have eHB : HB = D ^ 7 * B := by
    have : HB * D = D ^ 7 * B * D := by rw [hb]; ring
    exact mul_right_cancel₀ pd.ne' this
  rw [eHA, eHB] at t1 t2
  have hD7 : 0 < D ^ 7 := by positivity
  have u1 : N * A < (1 + 1 / 10 ^ 7) * (D * B) := by
    by_contra hc
    push Not at hc
    have := mul_le_mul_of_nonneg_left hc hD7.le
    nlinarith
  have u2 : (1 - 1 / 10 ^ 7) * (D * B) < N * A := by
    by_contra hc
    push Not at hc
    have := mul_le_mul_of_nonneg_left hc hD7.le
    nlinarith
  have e : x * N / D * (A / B) - x = x * ((N * A - D * B) / (D * B)) := by field_simp
  have hDB : 0 < D * B := by positivity
  rw [e, abs_mul, abs_of_pos h0, abs_div, abs_of_pos hDB, mul_comm (1 / 10 ^ 7)]
  apply mul_le_mul_of_nonneg_left _ h0.le
  rw [div_le_iff₀ hDB, abs_le]
  constructor <;> linarith

/-- C107.  Up to 2.79 the function is wrong by a constant, the logarithm of the norm: only the value reduced by
it is the chemical potential, and that to five digits.  (Partial: the range above is missing.) -/
theorem inverse_antia_offset_partial (y : ℝ) (h0 : 0 < y) (h1 : y ≤ 2.79) :
    |fermiIntegral (inverseFermi12Antia y - log (Gamma (1 / 2 + 1))) (1 / 2) - y| ≤ 2 / 10 ^ 6 * y := by
  have hG := norm_pos
  obtain ⟨g1, g2⟩ := norm_bounds
  have hx0 : 0 < y * Gamma (1 / 2 + 1) := mul_pos h0 hG
  have hx1 : y * Gamma (1 / 2 + 1) < 2.48 := by
    have := mul_le_mul h1 g2.le hG.le (by norm_num)
    refine lt_of_le_of_lt this (by norm_num)
  obtain ⟨p0, p1, p2⟩ := antia_composite _ hx0 hx1
  have e : inverseFermi12Antia y - log (Gamma (1 / 2 + 1)) =
      log (y * Gamma (1 / 2 + 1) * rational ci12.a ci12.b (y * Gamma (1 / 2 + 1))) := by
    unfold inverseFermi12Antia inverseX
    simp only []
    rw [if_pos (by norm_num at h1; nlinarith), mul_assoc, log_mul hG.ne' p0.ne']
    ring
  rw [e]
  have ex := exp_log p0
  have acc := accurate12 (log (y * Gamma (1 / 2 + 1) * rational ci12.a ci12.b (y * Gamma (1 / 2 + 1))))
    (by rw [ex]; exact p1)
  rw [ex] at acc
  have hF := fermiIntegral_pos (1 / 2) (by norm_num)
    (log (y * Gamma (1 / 2 + 1) * rational ci12.a ci12.b (y * Gamma (1 / 2 + 1))))
  generalize fermiIntegral (log (y * Gamma (1 / 2 + 1) * rational ci12.a ci12.b (y * Gamma (1 / 2 + 1)))) (1 / 2) = F at *
  generalize y * Gamma (1 / 2 + 1) * rational ci12.a ci12.b (y * Gamma (1 / 2 + 1)) *
    rational c12.a c12.b (y * Gamma (1 / 2 + 1) * rational ci12.a ci12.b (y * Gamma (1 / 2 + 1))) = v at *
  obtain ⟨a1, a2⟩ := abs_le.1 p2
  obtain ⟨a3, a4⟩ := abs_le.1 acc
  have b1 : v / Gamma (1 / 2 + 1) ≤ (1 + 1 / 10 ^ 7) * y := by
    rw [div_le_iff₀ hG]; linarith
  have b2 : (1 - 1 / 10 ^ 7) * y ≤ v / Gamma (1 / 2 + 1) := by
    rw [le_div_iff₀ hG]; linarith
  rw [abs_le]; constructor <;> linarith

example : |fermiIntegral (inverseFermi12Antia 2 - log (Gamma (1 / 2 + 1))) (1 / 2) - 2| ≤ 2 / 10 ^ 6 * 2 :=
  inverse_antia_offset_partial 2 (by norm_num) (by norm_num)

/-- A smaller chemical potential: the occupations and the integral decrease by more than one per cent. -/
theorem fermiIntegral_lower (x : ℝ) (hx : exp x ≤ 37 / 5) :
    fermiIntegral (x + log (Gamma (1 / 2 + 1))) (1 / 2) ≤ 989 / 1000 * fermiIntegral x (1 / 2) := by
  have hG := norm_pos
  have g2 : Gamma (1 / 2 + 1) < 8863 / 10000 := by have := norm_bounds.2; norm_num at this ⊢; linarith
  unfold fermiIntegral
  rw [← mul_div_assoc]
  apply div_le_div_of_nonneg_right _ hG.le
  rw [← MeasureTheory.integral_const_mul]
  apply MeasureTheory.setIntegral_mono_on (integrand_integrable _ (by norm_num) _)
    ((integrand_integrable _ (by norm_num) _).const_mul _) measurableSet_Ioi
  intro t ht
  have ht' : (0 : ℝ) < t := ht
  have e : exp (t - (x + log (Gamma (1 / 2 + 1)))) = exp (t - x) / Gamma (1 / 2 + 1) := by
    rw [show t - (x + log (Gamma (1 / 2 + 1))) = t - x - log (Gamma (1 / 2 + 1)) by ring, exp_sub, exp_log hG]
  have hE : 5 / 37 ≤ exp (t - x) := by
    have h1 : exp (t - x) = exp t / exp x := exp_sub t x
    have h2 : 1 ≤ exp t := one_le_exp ht'.le
    rw [h1, le_div_iff₀ (exp_pos x)]
    linarith
  rw [e]
  generalize exp (t - x) = E at *
  have hp := rpow_pos_of_pos ht' (1 / 2)
  generalize Gamma (1 / 2 + 1) = g at *
  generalize t ^ (1 / 2 : ℝ) = r at *
  rw [← mul_div_assoc, div_le_div_iff₀ (by positivity) (by positivity)]
  have : E + 1 ≤ 989 / 1000 * (E / g + 1) := by
    have h3 : E / g ≥ E * (10000 / 8863) := by
      rw [ge_iff_le, le_div_iff₀ hG]
      nlinarith
    linarith
  nlinarith

/-- C107.  For all these arguments the value is too small: the Fermi integral of it is at least one per cent
below the argument. -/
theorem inverse_antia_not_inverse (y : ℝ) (h0 : 0 < y) (h1 : y ≤ 2.79) :
    fermiIntegral (inverseFermi12Antia y) (1 / 2) < 99 / 100 * y := by
  have hG := norm_pos
  obtain ⟨g1, g2⟩ := norm_bounds
  have hx0 : 0 < y * Gamma (1 / 2 + 1) := mul_pos h0 hG
  have hx1 : y * Gamma (1 / 2 + 1) < 2.48 := by
    have := mul_le_mul h1 g2.le hG.le (by norm_num)
    refine lt_of_le_of_lt this (by norm_num)
  obtain ⟨p0, p1, -⟩ := antia_composite _ hx0 hx1
  have e : inverseFermi12Antia y - log (Gamma (1 / 2 + 1)) =
      log (y * Gamma (1 / 2 + 1) * rational ci12.a ci12.b (y * Gamma (1 / 2 + 1))) := by
    unfold inverseFermi12Antia inverseX
    simp only []
    rw [if_pos (by norm_num at h1; nlinarith), mul_assoc, log_mul hG.ne' p0.ne']
    ring
  have a := abs_le.1 (inverse_antia_offset_partial y h0 h1)
  have b := fermiIntegral_lower (inverseFermi12Antia y - log (Gamma (1 / 2 + 1))) (by rw [e, exp_log p0]; exact p1)
  rw [sub_add_cancel] at b
  linarith [a.2]

end Verif.FermiInt
