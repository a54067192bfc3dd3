/-
The direct correlation function of charged hard spheres as a sum of two squares.
-/
import Verif.Model.StaticSf
import Mathlib.Analysis.Calculus.Deriv.MeanValue
import Mathlib.Analysis.SpecialFunctions.Trigonometric.Deriv
import Mathlib.Tactic.FieldSimp
import Mathlib.Tactic.LinearCombination
import Mathlib.Tactic.Linarith
import Mathlib.Tactic.Positivity

set_option autoImplicit false

namespace Verif.Ssf

open Real

/-! ### The two squares

`e` is `η / (1 - η)`, `w` is `- h₀`; `chiOf` is the parameter `χ` in terms of them.  The two functions are
the real and the imaginary part of the Baxter factor, turned by half the phase `q`; `c` and `s` are the
cosine and the sine of `q / 2`. -/

noncomputable def chiOf (e w : ℝ) : ℝ := (1 + e) * (w ^ 2 / 2 + (1 + 3 * e) * w)

noncomputable def reC (e w q : ℝ) : ℝ := 1 - 6 * e * (2 + 6 * e + w) / q ^ 2

noncomputable def reS (e w q : ℝ) : ℝ := (w + 6 * e) / q + 12 * e * (2 + 6 * e + w) / q ^ 3

noncomputable def imC (e w q : ℝ) : ℝ := (w + 6 * e) / q - 12 * (e * (w ^ 2 / 2 + (1 + 3 * e) * w)) / q ^ 3

noncomputable def imS (e w q : ℝ) : ℝ :=
  -1 - 2 * (w + 6 * e - (w ^ 2 / 2 + (1 + 3 * e) * w)) / q ^ 2 +
    24 * (e * (w ^ 2 / 2 + (1 + 3 * e) * w)) / q ^ 4

/-- The two squares have no common zero. -/
theorem squares_det {e w q : ℝ} (hq : q ≠ 0) :
    reC e w q * imS e w q - reS e w q * imC e w q = -1 := by
  unfold reC reS imC imS
  field_simp
  ring

/-- The body of `chsCii`. -/
noncomputable def ciiBody (eta gamma chi h0 h1 q S C : ℝ) : ℝ :=
  let h2 := -(1 + eta - eta ^ 2 / 5) / (12 * eta) - (1 - eta) * h0 / (12 * eta * chi);
  let y0 := -((1 + 2 * eta) ^ 2 / (1 - eta) ^ 4) + h0 ^ 2 / (4 * (1 - eta) ^ 2) -
    (1 + eta) * h0 * chi / (12 * eta) - (5 + eta ^ 2) * chi ^ 2 / (60 * eta);
  let y1 := 6 * eta * h1 ^ 2
  let y2 := chi ^ 2 / 6
  let y3 := eta / 2 * (y0 + chi ^ 2 * h2)
  let y4 := eta * chi ^ 2 / 60
  24 * eta / q ^ 6 *
    (y0 * q ^ 3 * (S - q * C) +
      y1 * q ^ 2 * (2 * q * S - (q ^ 2 - 2) * C - 2) +
      y2 * q * ((3 * q ^ 2 - 6) * S - (q ^ 2 - 6) * q * C) +
      y3 * ((4 * q ^ 2 - 24) * q * S - (q ^ 4 - 12 * q ^ 2 + 24) * C + 24) +
      y4 * (6 * (q ^ 4 - 20 * q ^ 2 + 120) * q * S -
        (q ^ 6 - 30 * q ^ 4 + 360 * q ^ 2 - 720) * C - 720) / q ^ 2 -
      gamma * q ^ 4 * C)

theorem chsCii_body (u : Expt.Consts) (k n Z T sig : ℝ) :
    chsCii u k n Z T sig = ciiBody (g07eta n sig) (g07gamma u Z T sig) (g07chi u n Z T sig)
      (g07h0 u n Z T sig) (g07h1 u n Z T sig) (k * sig) (sin (k * sig)) (cos (k * sig)) := rfl

theorem body_squares {e w q s c : ℝ} (he : 0 < e) (hw : 0 < w) (hq : q ≠ 0) (h : s ^ 2 + c ^ 2 = 1) :
    1 - ciiBody (e / (1 + e)) (chiOf e w ^ 2 / (24 * (e / (1 + e)))) (chiOf e w) (-w)
        (w ^ 2 / (24 * (e / (1 + e))) - (1 + e / (1 + e) / 2) / (1 - e / (1 + e)) ^ 2) q (2 * s * c) (1 - 2 * s ^ 2) =
      (reC e w q * c + reS e w q * s) ^ 2 + (imC e w q * c + imS e w q * s) ^ 2 := by
  have hc : c ^ 2 = 1 - s ^ 2 := by linarith
  have hX : 0 < chiOf e w := by unfold chiOf; positivity
  have h1 : 1 - e / (1 + e) = 1 / (1 + e) := by field_simp; ring
  have e1 : (reC e w q * c + reS e w q * s) ^ 2 + (imC e w q * c + imS e w q * s) ^ 2 =
      (reC e w q ^ 2 + imC e w q ^ 2) * (1 - s ^ 2) + 2 * (reC e w q * reS e w q + imC e w q * imS e w q) * (s * c) +
        (reS e w q ^ 2 + imS e w q ^ 2) * s ^ 2 := by
    rw [← hc]; ring
  rw [e1, h1]
  generalize hz : s * c = z
  have e2 : 2 * s * c = 2 * z := by rw [← hz]; ring
  rw [e2]
  unfold ciiBody reC reS imC imS
  simp only []
  unfold chiOf at *
  field_simp
  ring

/-! ### Inequalities for the sine and the cosine -/

theorem trig_nonneg {f f' : ℝ → ℝ} (hf : ∀ x, HasDerivAt f (f' x) x) (h0 : f 0 = 0)
    (hp : ∀ x, 0 < x → x < π / 2 → 0 < f' x) {x : ℝ} (hx : 0 < x) (hx2 : x ≤ π / 2) : 0 < f x := by
  have hm : StrictMonoOn f (Set.Icc 0 (π / 2)) := by
    refine strictMonoOn_of_deriv_pos (convex_Icc _ _) (fun y _ => (hf y).continuousAt.continuousWithinAt) ?_
    intro y hy
    rw [interior_Icc] at hy
    rw [(hf y).deriv]
    exact hp y hy.1 hy.2
  have := hm ⟨le_rfl, by positivity⟩ ⟨hx.le, hx2⟩ hx
  rwa [h0] at this

theorem trig_first {x : ℝ} (hx : 0 < x) (hx2 : x ≤ π / 2) : 0 < sin x - x * cos x := by
  refine trig_nonneg (f := fun x => sin x - x * cos x) (f' := fun x => x * sin x) (fun y => ?_) (by simp) ?_ hx hx2
  · have := (hasDerivAt_sin y).sub ((hasDerivAt_id y).mul (hasDerivAt_cos y))
    refine this.congr_deriv ?_
    simp
  · intro y hy hy2
    have := sin_pos_of_pos_of_lt_pi hy (by linarith [pi_pos])
    positivity

theorem trig_second {x : ℝ} (hx : 0 < x) (hx2 : x ≤ π / 2) :
    0 < 3 * sin x - 3 * (x * cos x) - x ^ 2 * sin x := by
  refine trig_nonneg (f := fun x => 3 * sin x - 3 * (x * cos x) - x ^ 2 * sin x)
    (f' := fun x => x * (sin x - x * cos x)) (fun y => ?_) (by simp) ?_ hx hx2
  · have := (((hasDerivAt_sin y).const_mul 3).sub (((hasDerivAt_id y).mul (hasDerivAt_cos y)).const_mul 3)).sub
      ((hasDerivAt_pow 2 y).mul (hasDerivAt_sin y))
    refine this.congr_deriv ?_
    simp; ring
  · intro y hy hy2
    exact mul_pos hy (trig_first hy hy2.le)

theorem trig_third {x : ℝ} (hx : 0 < x) (hx2 : x ≤ π / 2) :
    0 < 4 * (x ^ 2 * sin x) - 3 * (x ^ 3 * cos x) - 3 * sin x + 3 * (x * cos x) := by
  refine trig_nonneg (f := fun x => 4 * (x ^ 2 * sin x) - 3 * (x ^ 3 * cos x) - 3 * sin x + 3 * (x * cos x))
    (f' := fun x => 5 * x * (sin x - x * cos x) + 3 * x ^ 3 * sin x) (fun y => ?_) (by simp) ?_ hx hx2
  · have := (((((hasDerivAt_pow 2 y).mul (hasDerivAt_sin y)).const_mul 4).sub
      (((hasDerivAt_pow 3 y).mul (hasDerivAt_cos y)).const_mul 3)).sub ((hasDerivAt_sin y).const_mul 3)).add
      (((hasDerivAt_id y).mul (hasDerivAt_cos y)).const_mul 3)
    refine this.congr_deriv ?_
    simp; ring
  · intro y hy hy2
    have h1 := trig_first hy hy2.le
    have := sin_pos_of_pos_of_lt_pi hy (by linarith [pi_pos])
    positivity

/-! ### Screening leaves the structure factor positive -/

theorem quadratic_nonneg {A B C t : ℝ} (hA : 0 < A) (h : B ^ 2 ≤ 4 * A * C) : 0 ≤ A - B * t + C * t ^ 2 := by
  have h1 : 0 ≤ 4 * A * (A - B * t + C * t ^ 2) := by
    have h2 : 0 ≤ (4 * A * C - B ^ 2) * t ^ 2 := mul_nonneg (by linarith) (sq_nonneg t)
    nlinarith [sq_nonneg (2 * A - B * t)]
  exact nonneg_of_mul_nonneg_right h1 (by linarith)

theorem screened_zero {w σ a c : ℝ} (hw : 0 < w) (ha : 0 < a) (hc : 0 ≤ c) (hσ : 0 < σ) (hσ2 : σ ≤ 1 / 2)
    (hσa : σ ≤ 6 * a) : 0 < 1 - σ ^ 2 * w ^ 2 + c * a * w ^ 3 + a * (2 * σ + c) / 4 * w ^ 4 := by
  have h3 : 0 ≤ c * a * w ^ 3 := by positivity
  have h4 : 0 ≤ a * c / 4 * w ^ 4 := by positivity
  have h5 : σ ^ 3 ≤ 3 / 2 * a := by
    have : σ ^ 2 ≤ 1 / 4 := by nlinarith
    nlinarith
  have h6 : σ ^ 4 / 3 * w ^ 4 ≤ a * σ / 2 * w ^ 4 := by
    apply mul_le_mul_of_nonneg_right _ (by positivity)
    nlinarith
  have h7 : 0 < 1 - σ ^ 2 * w ^ 2 + σ ^ 4 / 3 * w ^ 4 := by nlinarith [sq_nonneg (σ ^ 2 * w ^ 2 - 3 / 2)]
  linarith

theorem screened_one {w Q σ a b c : ℝ} (hw : 0 < w) (hb : 0 < b) (hba : b ≤ 3 / 2 * a)
    (ha : 0 < a) (hc : 0 ≤ c) (hσ : 0 < σ) (hσa : σ ≤ 6 * a) (hQ : 0 ≤ Q) :
    0 ≤ (12 * c * σ + 24 * c * a + 12 * Q * σ * a) +
      (8 * c * a + 4 * c * b - Q * σ * (a + 2 * b) - c * σ) * w ^ 2 +
      (Q * (4 * a ^ 2 + 2 * a * b) + c * (9 * a + 4 * b)) * w ^ 3 +
      (Q * (a ^ 2 / 2 + a * b) + c * (a + b)) * w ^ 4 := by
  have h3 : 0 ≤ c * (8 * a - σ) := mul_nonneg hc (by linarith)
  have h4 : 0 ≤ (c * (8 * a - σ) + 4 * c * b) * w ^ 2 := by positivity
  have h5 : 0 ≤ (Q * (4 * a ^ 2 + 2 * a * b) + c * (9 * a + 4 * b)) * w ^ 3 := by positivity
  have h6 : 0 ≤ c * (a + b) * w ^ 4 := by positivity
  have h12 : 0 ≤ 12 * c * σ + 24 * c * a := by positivity
  have h7 : 0 ≤ 12 * σ * a - σ * (a + 2 * b) * w ^ 2 + a * (a + 2 * b) / 2 * (w ^ 2) ^ 2 := by
    apply quadratic_nonneg (by positivity)
    have h8 : σ * (a + 2 * b) ≤ 6 * a * (4 * a) := mul_le_mul hσa (by linarith) (by positivity) (by positivity)
    have h9 : σ * (a + 2 * b) * (σ * (a + 2 * b)) ≤ 6 * a * (4 * a) * (σ * (a + 2 * b)) :=
      mul_le_mul_of_nonneg_right h8 (by positivity)
    linarith
  have h11 := mul_nonneg hQ h7
  linarith

/-- The polynomial in `w` and `e` with the screening term subtracted.  `σ = s / q`, and `a`, `b` come from
the second and the third inequality. -/
theorem screened_poly {e w q σ a b c : ℝ} (he : 0 ≤ e) (hw : 0 < w) (hb : 0 < b) (hba : b ≤ 3 / 2 * a)
    (ha : 0 < a) (hc : 0 ≤ c) (hσ : 0 < σ) (hσ2 : σ ≤ 1 / 2) (e1 : σ = 6 * a - q ^ 2 * b) (e2 : c = 2 * σ - q ^ 2 * a)
    (h1 : c ^ 2 + q ^ 2 * σ ^ 2 = 1) :
    let χ := chiOf e w
    let m := σ + (w + 6 * e) * a - χ * a - 2 * (e * (w ^ 2 / 2 + (1 + 3 * e) * w)) * b
    0 < (c + (w + 6 * e) * σ + 6 * e * (2 + 6 * e + w) * a) ^ 2 + q ^ 2 * m ^ 2 - 2 * χ * c * m := by
  intro χ m
  have hQ : 0 ≤ q ^ 2 := sq_nonneg q
  set Q := q ^ 2 with hQd
  have key : (c + (w + 6 * e) * σ + 6 * e * (2 + 6 * e + w) * a) ^ 2 + Q * m ^ 2 - 2 * χ * c * m =
      (1 - σ ^ 2 * w ^ 2 + c * a * w ^ 3 + a * (2 * σ + c) / 4 * w ^ 4) +
      e * ((12 * c * σ + 24 * c * a + 12 * Q * σ * a) + (8 * c * a + 4 * c * b - Q * σ * (a + 2 * b) - c * σ) * w ^ 2 +
        (Q * (4 * a ^ 2 + 2 * a * b) + c * (9 * a + 4 * b)) * w ^ 3 +
        (Q * (a ^ 2 / 2 + a * b) + c * (a + b)) * w ^ 4) +
      e ^ 2 * ((72 * a * c + (6 * σ + 12 * a) ^ 2 + 36 * Q * a ^ 2) +
        (36 * a ^ 2 + Q * (10 * a ^ 2 + 4 * a * b + 4 * b ^ 2) + c * (32 * a + 28 * b)) * w ^ 2 +
        (Q * (3 * a * (a + 2 * b) + 2 * (4 * a + 2 * b) * (a / 2 + b)) + c * (14 * a + 16 * b)) * w ^ 3 +
        (Q * (a / 2 + b) ^ 2 + c * (a / 2 + b)) * w ^ 4) +
      e ^ 3 * (72 * a * (6 * σ + 12 * a) +
        (6 * Q * (4 * a + 2 * b) * (a + 2 * b) + 24 * c * (a + 2 * b) + 6 * c * (4 * a + 2 * b)) * w ^ 2 +
        (6 * Q * (a / 2 + b) * (a + 2 * b) + 3 * c * (a + 2 * b) + 6 * c * (a / 2 + b)) * w ^ 3) +
      e ^ 4 * (1296 * a ^ 2 + (9 * Q * (a + 2 * b) ^ 2 + 18 * c * (a + 2 * b)) * w ^ 2) := by
    have h2 : (1 : ℝ) = (2 * (6 * a - Q * b) - Q * a) ^ 2 + Q * (6 * a - Q * b) ^ 2 := by
      rw [← h1, e2, e1]
    rw [show (1 : ℝ) - σ ^ 2 * w ^ 2 = (2 * (6 * a - Q * b) - Q * a) ^ 2 + Q * (6 * a - Q * b) ^ 2 - σ ^ 2 * w ^ 2 by
      rw [← h2]]
    simp only [m, χ]
    unfold chiOf
    rw [e2, e1]
    ring
  rw [key]
  have hσa : σ ≤ 6 * a := by
    have : 0 ≤ Q * b := by positivity
    linarith
  have F0 := screened_zero hw ha hc hσ hσ2 hσa
  have F1 := screened_one hw hb hba ha hc hσ hσa hQ
  have F2 : 0 ≤ (72 * a * c + (6 * σ + 12 * a) ^ 2 + 36 * Q * a ^ 2) +
        (36 * a ^ 2 + Q * (10 * a ^ 2 + 4 * a * b + 4 * b ^ 2) + c * (32 * a + 28 * b)) * w ^ 2 +
        (Q * (3 * a * (a + 2 * b) + 2 * (4 * a + 2 * b) * (a / 2 + b)) + c * (14 * a + 16 * b)) * w ^ 3 +
        (Q * (a / 2 + b) ^ 2 + c * (a / 2 + b)) * w ^ 4 := by positivity
  have F3 : 0 ≤ 72 * a * (6 * σ + 12 * a) +
        (6 * Q * (4 * a + 2 * b) * (a + 2 * b) + 24 * c * (a + 2 * b) + 6 * c * (4 * a + 2 * b)) * w ^ 2 +
        (6 * Q * (a / 2 + b) * (a + 2 * b) + 3 * c * (a + 2 * b) + 6 * c * (a / 2 + b)) * w ^ 3 := by positivity
  have F4 : 0 ≤ 1296 * a ^ 2 + (9 * Q * (a + 2 * b) ^ 2 + 18 * c * (a + 2 * b)) * w ^ 2 := by positivity
  have := mul_nonneg he F1
  have := mul_nonneg (pow_nonneg he 2) F2
  have := mul_nonneg (pow_nonneg he 3) F3
  have := mul_nonneg (pow_nonneg he 4) F4
  linarith

end Verif.Ssf
