/-
The Fermi integral below an argument of two: a polynomial in `exp x` with rational coefficients up to a
known relative error, from a Chebyshev approximation of `1 / (1 + u)`.
-/
import Verif.Lemmas.RatPoly
import Verif.Model.FermiInt
import Mathlib.Analysis.SpecialFunctions.Gaussian.GaussianIntegral
import Mathlib.Analysis.SpecialFunctions.Trigonometric.Inverse

set_option autoImplicit false

namespace Verif.FermiInt

open Real MeasureTheory RatPoly

/-! ### Chebyshev polynomials on the interval from 0 to 37/5 -/

/-- The Chebyshev polynomials of degree `n` and `n + 1` in the variable `10 u / 37 - 1`. -/
def cheb : ℕ → List ℚ × List ℚ
  | 0 => ([1], [-1, 10 / 37])
  | n + 1 => ((cheb n).2, add (mul [-2, 20 / 37] (cheb n).2) (scale (-1) (cheb n).1))

theorem cheb_cos (θ u : ℝ) (hu : 10 * u / 37 - 1 = cos θ) (n : ℕ) :
    ev (cheb n).1 u = cos (n * θ) ∧ ev (cheb n).2 u = cos ((n + 1) * θ) := by
  induction n with
  | zero => constructor <;> simp [cheb, ev]; linarith
  | succ n ih =>
    refine ⟨by push_cast; exact ih.2, ?_⟩
    simp only [cheb, ev_add, ev_mul, ev_scale, ih.1, ih.2, ev]
    have h1 : cos ((n + 1 + 1) * θ) = 2 * cos θ * cos ((n + 1) * θ) - cos (n * θ) := by
      have a := cos_add ((n + 1) * θ) θ
      have b := cos_sub ((n + 1) * θ) θ
      have e1 : ((n : ℝ) + 1) * θ + θ = (n + 1 + 1) * θ := by ring
      have e2 : ((n : ℝ) + 1) * θ - θ = n * θ := by ring
      rw [e1] at a; rw [e2] at b
      rw [a, b]; ring
    push_cast
    rw [h1, ← hu]
    ring

theorem cheb_le_one (n : ℕ) (u : ℝ) (h0 : 0 ≤ u) (h1 : u ≤ 37 / 5) : |ev (cheb n).1 u| ≤ 1 := by
  have h : 10 * u / 37 - 1 = cos (arccos (10 * u / 37 - 1)) := by
    rw [cos_arccos] <;> linarith
  rw [(cheb_cos _ u h n).1]
  exact abs_cos_le_one _

/-- The value of a polynomial at a rational number. -/
def evQ : List ℚ → ℚ → ℚ
  | [], _ => 0
  | a :: p, x => forceRat (evQ p x) fun r => a + x * r

/-- The factor in front of the Chebyshev polynomial. -/
def chebC (n : ℕ) : ℚ := 1 / evQ (cheb n).1 (-1)

/-- Division by `1 + u`, lowest coefficient first; `c` is the coefficient found before. -/
def divOne (c : ℚ) : List ℚ → List ℚ
  | [] => []
  | a :: p => forceRat (a - c) fun b => b :: divOne b p

/-- A polynomial that approximates `1 / (1 + u)`. -/
def invPoly (n : ℕ) : List ℚ :=
  (divOne 0 (add [1] (scale (-chebC n) (cheb n).1))).dropLast

/-- `invPoly` is what it should be. -/
def InvOk (n : ℕ) : Prop := mul [1, 1] (invPoly n) = add [1] (scale (-chebC n) (cheb n).1)

theorem invPoly_error (n : ℕ) (h : InvOk n) (u : ℝ) (h0 : 0 ≤ u) (h1 : u ≤ 37 / 5) :
    |ev (invPoly n) u - 1 / (1 + u)| ≤ |(chebC n : ℝ)| * (1 / (1 + u)) := by
  have e := congrArg (fun p => ev p u) h
  simp only [ev_mul, ev_add, ev_scale, ev] at e
  have hp : 0 < 1 + u := by linarith
  have e2 : ev (invPoly n) u - 1 / (1 + u) = -(chebC n * ev (cheb n).1 u) * (1 / (1 + u)) := by
    rw [mul_one_div, eq_div_iff hp.ne', sub_mul, one_div, inv_mul_cancel₀ hp.ne']
    push_cast at e
    linarith
  rw [e2, abs_mul, abs_neg, abs_mul, abs_of_pos (one_div_pos.2 hp)]
  apply mul_le_mul_of_nonneg_right _ (one_div_pos.2 hp).le
  have := cheb_le_one n u h0 h1
  have h3 := abs_nonneg (chebC n : ℝ)
  nlinarith

/-! ### The integral -/

/-- `sum_j p_j t ^ j / (k + j + 1) ^ (n + 1)`. -/
noncomputable def weighted (n : ℝ) : ℕ → List ℚ → ℝ → ℝ
  | _, [], _ => 0
  | k, a :: p, t => a * (1 / ((k : ℝ) + 1)) ^ (n + 1) + t * weighted n (k + 1) p t

theorem term_integrable (n : ℝ) (hn : -1 < n) (t : ℝ) (k : ℕ) :
    IntegrableOn (fun s : ℝ => s ^ n * (t * exp (-s)) ^ (k + 1)) (Set.Ioi 0) := by
  have h := (integrableOn_rpow_mul_exp_neg_mul_rpow (p := 1) hn one_pos
    (by positivity : (0 : ℝ) < k + 1)).const_mul (t ^ (k + 1))
  refine IntegrableOn.congr_fun h (fun s hs => ?_) measurableSet_Ioi
  rw [rpow_one, mul_pow, ← exp_nat_mul]
  push_cast
  rw [show -((k : ℝ) + 1) * s = (k + 1) * -s by ring]
  ring

theorem term_integral (n : ℝ) (hn : -1 < n) (t : ℝ) (k : ℕ) :
    ∫ s in Set.Ioi (0 : ℝ), s ^ n * (t * exp (-s)) ^ (k + 1) =
      Gamma (n + 1) * (t ^ (k + 1) * (1 / ((k : ℝ) + 1)) ^ (n + 1)) := by
  have h := Real.integral_rpow_mul_exp_neg_mul_Ioi (a := n + 1) (by linarith)
    (by positivity : (0 : ℝ) < k + 1)
  rw [add_sub_cancel_right] at h
  rw [show Gamma (n + 1) * (t ^ (k + 1) * (1 / ((k : ℝ) + 1)) ^ (n + 1)) =
    t ^ (k + 1) * ((1 / ((k : ℝ) + 1)) ^ (n + 1) * Gamma (n + 1)) by ring, ← h, ← integral_const_mul]
  apply setIntegral_congr_fun measurableSet_Ioi
  intro s _
  beta_reduce
  rw [mul_pow, ← exp_nat_mul]
  push_cast
  rw [show -(((k : ℝ) + 1) * s) = (k + 1) * -s by ring]
  ring

theorem poly_integral (n : ℝ) (hn : -1 < n) (t : ℝ) (p : List ℚ) : ∀ k : ℕ,
    IntegrableOn (fun s : ℝ => s ^ n * ((t * exp (-s)) ^ (k + 1) * ev p (t * exp (-s)))) (Set.Ioi 0) ∧
    ∫ s in Set.Ioi (0 : ℝ), s ^ n * ((t * exp (-s)) ^ (k + 1) * ev p (t * exp (-s))) =
      Gamma (n + 1) * (t ^ (k + 1) * weighted n k p t) := by
  induction p with
  | nil => intro k; simp [ev, weighted]
  | cons a p ih =>
    intro k
    have e : (fun s : ℝ => s ^ n * ((t * exp (-s)) ^ (k + 1) * ev (a :: p) (t * exp (-s)))) =
        fun s => (a : ℝ) * (s ^ n * (t * exp (-s)) ^ (k + 1)) +
          s ^ n * ((t * exp (-s)) ^ (k + 1 + 1) * ev p (t * exp (-s))) := by
      funext s; simp only [ev]; ring
    obtain ⟨h1, h2⟩ := ih (k + 1)
    have h3 := (term_integrable n hn t k).const_mul (a : ℝ)
    refine ⟨by rw [e]; exact h3.add h1, ?_⟩
    rw [e, integral_add h3 h1, h2, integral_const_mul, term_integral n hn]
    simp only [weighted]
    ring

/-- The integrand of the Fermi integral, with `t = exp x`. -/
theorem integrand_eq (n x s : ℝ) : s ^ n / (exp (s - x) + 1) =
    s ^ n * (exp x * exp (-s) * (1 / (1 + exp x * exp (-s)))) := by
  have h1 := exp_pos x
  have h2 := exp_pos (-s)
  have : exp (s - x) = 1 / (exp x * exp (-s)) := by
    rw [← exp_add, one_div, ← exp_neg]; ring_nf
  rw [this]
  have := mul_pos h1 h2
  generalize exp x * exp (-s) = u at *
  field_simp

theorem integrand_integrable (n : ℝ) (hn : -1 < n) (x : ℝ) :
    IntegrableOn (fun s : ℝ => s ^ n / (exp (s - x) + 1)) (Set.Ioi 0) := by
  have h := term_integrable n hn (exp x) 0
  refine Integrable.mono' h ?_ ?_
  · apply Measurable.aestronglyMeasurable
    fun_prop
  · refine (ae_restrict_iff' measurableSet_Ioi).2 (Filter.Eventually.of_forall fun s hs => ?_)
    have hs' : (0 : ℝ) < s := hs
    have hp : 0 ≤ s ^ n := (rpow_pos_of_pos hs' n).le
    have hu := mul_pos (exp_pos x) (exp_pos (-s))
    rw [integrand_eq, zero_add, pow_one, norm_eq_abs, abs_of_nonneg (by positivity)]
    apply mul_le_mul_of_nonneg_left _ hp
    apply mul_le_of_le_one_right hu.le
    rw [div_le_one (by positivity)]
    linarith

theorem integral_pos (n : ℝ) (hn : -1 < n) (x : ℝ) :
    0 < ∫ s in Set.Ioi (0 : ℝ), s ^ n / (exp (s - x) + 1) := by
  rw [setIntegral_pos_iff_support_of_nonneg_ae]
  · have : Function.support (fun s : ℝ => s ^ n / (exp (s - x) + 1)) ∩ Set.Ioi 0 = Set.Ioi 0 := by
      apply Set.inter_eq_right.2
      intro s hs
      have hs' : (0 : ℝ) < s := hs
      have := rpow_pos_of_pos hs' n
      have := exp_pos (s - x)
      simp only [Function.mem_support]
      positivity
    rw [this]; simp
  · refine (ae_restrict_iff' measurableSet_Ioi).2 (Filter.Eventually.of_forall fun s hs => ?_)
    have hs' : (0 : ℝ) < s := hs
    have := rpow_pos_of_pos hs' n
    have := exp_pos (s - x)
    simp only [Pi.zero_apply]
    positivity
  · exact integrand_integrable n hn x

theorem fermiIntegral_pos (n : ℝ) (hn : -1 < n) (x : ℝ) : 0 < fermiIntegral x n :=
  div_pos (integral_pos n hn x) (Gamma_pos_of_pos (by linarith))

/-- Below `log (37 / 5)`, the Fermi integral is a polynomial in `exp x` up to a relative error. -/
theorem series_bounds (n : ℝ) (hn : -1 < n) (N : ℕ) (ok : InvOk N) (x : ℝ) (hx : exp x ≤ 37 / 5) :
    |exp x * weighted n 0 (invPoly N) (exp x) - fermiIntegral x n| ≤
      |(chebC N : ℝ)| * fermiIntegral x n := by
  have hG : 0 < Gamma (n + 1) := Gamma_pos_of_pos (by linarith)
  obtain ⟨h1, h2⟩ := poly_integral n hn (exp x) (invPoly N) 0
  have h3 := integrand_integrable n hn x
  have e1 : exp x * weighted n 0 (invPoly N) (exp x) - fermiIntegral x n =
      (∫ s in Set.Ioi (0 : ℝ), (s ^ n * ((exp x * exp (-s)) ^ (0 + 1) *
        ev (invPoly N) (exp x * exp (-s))) - s ^ n / (exp (s - x) + 1))) / Gamma (n + 1) := by
    rw [integral_sub h1 h3, h2, sub_div, mul_div_cancel_left₀ _ hG.ne']
    simp [fermiIntegral]
  have e2 : |(chebC N : ℝ)| * fermiIntegral x n =
      (∫ s in Set.Ioi (0 : ℝ), |(chebC N : ℝ)| * (s ^ n / (exp (s - x) + 1))) / Gamma (n + 1) := by
    rw [integral_const_mul, fermiIntegral, mul_div_assoc]
  rw [e1, e2, abs_div, abs_of_pos hG]
  apply div_le_div_of_nonneg_right _ hG.le
  rw [← norm_eq_abs]
  apply norm_integral_le_of_norm_le (h3.const_mul _)
  refine (ae_restrict_iff' measurableSet_Ioi).2 (Filter.Eventually.of_forall fun s hs => ?_)
  have hs' : (0 : ℝ) < s := hs
  have hp : 0 ≤ s ^ n := (rpow_pos_of_pos hs' n).le
  have hu := mul_pos (exp_pos x) (exp_pos (-s))
  have hu1 : exp x * exp (-s) ≤ 37 / 5 := by
    have : exp (-s) ≤ 1 := exp_le_one_iff.2 (by linarith)
    nlinarith [exp_pos x]
  have := invPoly_error N ok _ hu.le hu1
  rw [integrand_eq, zero_add, pow_one, norm_eq_abs, ← mul_sub, ← mul_sub, abs_mul, abs_mul,
    abs_of_nonneg hp, abs_of_pos hu]
  calc s ^ n * (exp x * exp (-s) * |ev (invPoly N) (exp x * exp (-s)) - 1 / (1 + exp x * exp (-s))|)
      ≤ s ^ n * (exp x * exp (-s) * (|(chebC N : ℝ)| * (1 / (1 + exp x * exp (-s))))) := by
        gcongr
    _ = _ := by ring

/-! ### Rational bounds of the weights -/

/-- The number `w / 10 ^ 50` is `(1 / (k + 1)) ^ (m / 2)` rounded down, for all entries of a list, from
`k` on. -/
def weightsOk (m : ℕ) : ℕ → List ℕ → Bool
  | _, [] => true
  | k, w :: l => decide (w ^ 2 * (k + 1) ^ m ≤ (10 ^ 50) ^ 2 ∧ (10 ^ 50) ^ 2 ≤ (w + 1) ^ 2 * (k + 1) ^ m) &&
      weightsOk m (k + 1) l

/-- The polynomial with the weights rounded such that it becomes smaller. -/
def weightedLo : List ℚ → List ℕ → List ℚ
  | a :: p, w :: l => forceRat (if 0 ≤ a then a * (w / 10 ^ 50) else a * ((w + 1) / 10 ^ 50)) fun b =>
      b :: weightedLo p l
  | _, _ => []

/-- The polynomial with the weights rounded such that it becomes larger. -/
def weightedHi : List ℚ → List ℕ → List ℚ
  | a :: p, w :: l => forceRat (if 0 ≤ a then a * ((w + 1) / 10 ^ 50) else a * (w / 10 ^ 50)) fun b =>
      b :: weightedHi p l
  | _, _ => []

theorem weight_bounds (m k w : ℕ) (n : ℝ) (hn : n + 1 = m / 2)
    (h1 : w ^ 2 * (k + 1) ^ m ≤ (10 ^ 50) ^ 2) (h2 : (10 ^ 50) ^ 2 ≤ (w + 1) ^ 2 * (k + 1) ^ m) :
    (w : ℝ) / 10 ^ 50 ≤ (1 / ((k : ℝ) + 1)) ^ (n + 1) ∧
      (1 / ((k : ℝ) + 1)) ^ (n + 1) ≤ ((w : ℝ) + 1) / 10 ^ 50 := by
  have h1' : (w : ℝ) ^ 2 * ((k : ℝ) + 1) ^ m ≤ (10 ^ 50) ^ 2 := by exact_mod_cast h1
  have h2' : ((10 : ℝ) ^ 50) ^ 2 ≤ ((w : ℝ) + 1) ^ 2 * ((k : ℝ) + 1) ^ m := by exact_mod_cast h2
  have hk : (0 : ℝ) < (k : ℝ) + 1 := by positivity
  have hy : 0 < (1 / ((k : ℝ) + 1)) ^ (n + 1) := rpow_pos_of_pos (by positivity) _
  have hsq : ((1 / ((k : ℝ) + 1)) ^ (n + 1)) ^ 2 * ((k : ℝ) + 1) ^ m = 1 := by
    rw [← rpow_natCast _ 2, ← rpow_mul (by positivity), hn]
    rw [show (m : ℝ) / 2 * ((2 : ℕ) : ℝ) = m by push_cast; ring, rpow_natCast, ← mul_pow]
    rw [one_div, inv_mul_cancel₀ hk.ne', one_pow]
  have hD : (0 : ℝ) < 10 ^ 50 := by positivity
  have hkm : (0 : ℝ) < ((k : ℝ) + 1) ^ m := by positivity
  generalize (10 : ℝ) ^ 50 = D at *
  generalize (1 / ((k : ℝ) + 1)) ^ (n + 1) = y at *
  generalize ((k : ℝ) + 1) ^ m = K at *
  have hw : (0 : ℝ) ≤ w := Nat.cast_nonneg w
  constructor
  · rw [div_le_iff₀ hD]
    apply le_of_sq_le_sq _ (by positivity)
    have : (w : ℝ) ^ 2 * K ≤ (y * D) ^ 2 * K := by rw [mul_pow]; nlinarith
    exact le_of_mul_le_mul_right this hkm
  · rw [le_div_iff₀ hD]
    apply le_of_sq_le_sq _ (by positivity)
    have : (y * D) ^ 2 * K ≤ ((w : ℝ) + 1) ^ 2 * K := by rw [mul_pow]; nlinarith
    exact le_of_mul_le_mul_right this hkm

theorem weighted_bounds (m : ℕ) (n : ℝ) (hn : n + 1 = m / 2) (t : ℝ) (ht : 0 ≤ t) (p : List ℚ) :
    ∀ (k : ℕ) (l : List ℕ), l.length = p.length → weightsOk m k l = true →
      ev (weightedLo p l) t ≤ weighted n k p t ∧ weighted n k p t ≤ ev (weightedHi p l) t := by
  induction p with
  | nil => intro k l _ _; cases l <;> simp [weightedLo, weightedHi, weighted, ev]
  | cons a p ih =>
    intro k l hl h
    cases l with
    | nil => simp at hl
    | cons w l =>
      simp only [weightsOk, Bool.and_eq_true, decide_eq_true_eq] at h
      obtain ⟨i1, i2⟩ := ih (k + 1) l (by simpa using hl) h.2
      obtain ⟨b1, b2⟩ := weight_bounds m k w n hn h.1.1 h.1.2
      simp only [weightedLo, weightedHi, forceRat_eq, ev, weighted]
      have j1 := mul_le_mul_of_nonneg_left i1 ht
      have j2 := mul_le_mul_of_nonneg_left i2 ht
      by_cases ha : 0 ≤ a
      · have ha' : (0 : ℝ) ≤ a := by exact_mod_cast ha
        rw [if_pos ha, if_pos ha]
        push_cast
        exact ⟨add_le_add (mul_le_mul_of_nonneg_left b1 ha') j1,
          add_le_add (mul_le_mul_of_nonneg_left b2 ha') j2⟩
      · have ha' : (a : ℝ) ≤ 0 := by exact_mod_cast (not_le.1 ha).le
        rw [if_neg ha, if_neg ha]
        push_cast
        exact ⟨add_le_add (mul_le_mul_of_nonpos_left b2 ha') j1,
          add_le_add (mul_le_mul_of_nonpos_left b1 ha') j2⟩

end Verif.FermiInt
