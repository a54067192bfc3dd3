/-
Property C80: the pole of one of the fits of Dandrea et al.
-/
import Verif.Props.Dandrea

set_option autoImplicit false

namespace Verif.Resp

open Real Verif.Expt Verif.FermiInt Verif.RatPoly Filter Topology

/-! ### The denominator of `J` has exactly one zero -/

theorem rpow_half_odd {θ : ℝ} (h : 0 < θ) : θ ^ (15 / 2 : ℝ) = θ ^ 7 * sqrt θ := by
  rw [show (15 / 2 : ℝ) = (7 : ℕ) + 1 / 2 by norm_num, rpow_add h, rpow_natCast, sqrt_eq_rpow]

/-- The denominator over `θ²`, a sum of decreasing terms. -/
theorem jDen_eq {θ : ℝ} (h : 0 < θ) : danJDen θ = θ ^ 2 * ((θ ^ 2)⁻¹ + (3248.8 - π ^ 2 / 6) -
    (4535.6 * θ ^ 2 + 462400 * θ ^ 4 + 3202700 * (3 * sqrt 2 / (4 * sqrt π) * (θ ^ 5 * sqrt θ) + 3 / 4 * θ ^ 7))) := by
  unfold danJDen
  rw [rpow_half_odd h]
  have hp := sqrt_pos.2 pi_pos
  field_simp
  ring

theorem jDen_anti {x y : ℝ} (hx : 0 < x) (hxy : x < y) : danJDen y / y ^ 2 < danJDen x / x ^ 2 := by
  have hy := hx.trans hxy
  rw [jDen_eq hy, jDen_eq hx, mul_div_cancel_left₀ _ (by positivity), mul_div_cancel_left₀ _ (by positivity)]
  have i1 : (y ^ 2)⁻¹ < (x ^ 2)⁻¹ := inv_strictAnti₀ (by positivity) (by gcongr)
  have i2 : x ^ 2 ≤ y ^ 2 := by gcongr
  have i3 : x ^ 4 ≤ y ^ 4 := by gcongr
  have i4 : x ^ 7 ≤ y ^ 7 := by gcongr
  have i5 : x ^ 5 * sqrt x ≤ y ^ 5 * sqrt y := by gcongr
  have hp := sqrt_pos.2 pi_pos
  have i6 : 3 * sqrt 2 / (4 * sqrt π) * (x ^ 5 * sqrt x) ≤ 3 * sqrt 2 / (4 * sqrt π) * (y ^ 5 * sqrt y) :=
    mul_le_mul_of_nonneg_left i5 (by positivity)
  linarith

theorem jDen_continuous : Continuous danJDen := by
  unfold danJDen
  have : Continuous fun θ : ℝ => θ ^ (15 / 2 : ℝ) := Real.continuous_rpow_const (by norm_num)
  fun_prop

/-- Bounds of the factor in the denominator. -/
theorem jFactor_bounds : 0.59841 ≤ 3 * sqrt 2 / (4 * sqrt π) ∧ 3 * sqrt 2 / (4 * sqrt π) ≤ 0.59842 := by
  have hp := sqrt_pos.2 pi_pos
  obtain ⟨s1, s2⟩ := sqrt_two_close
  have p1 : (1.77245 : ℝ) ≤ sqrt π := by
    apply le_sqrt_of_sq_le
    have := pi_gt_d6; norm_num at this ⊢; linarith
  have p2 : sqrt π ≤ 1.7724540 := by
    rw [sqrt_le_left (by norm_num)]
    have := pi_lt_d6; norm_num at this ⊢; linarith
  rw [le_div_iff₀ (by positivity), div_le_iff₀ (by positivity)]
  norm_num at s1 s2 p1 p2 ⊢
  constructor <;> linarith

theorem pi_sq_bounds : 9.8696 ≤ π ^ 2 ∧ π ^ 2 ≤ 9.8697 := by
  have h1 := pi_gt_d6
  have h2 := pi_lt_d6
  norm_num at h1 h2 ⊢
  constructor <;> nlinarith

theorem jDen_left : 0 < danJDen 0.2515 := by
  unfold danJDen
  rw [rpow_half_odd (by norm_num)]
  obtain ⟨f1, f2⟩ := jFactor_bounds
  obtain ⟨p1, p2⟩ := pi_sq_bounds
  have hs : sqrt 0.2515 ≤ 0.5014978 := by rw [sqrt_le_left (by norm_num)]; norm_num
  have hs0 : 0 ≤ sqrt 0.2515 := sqrt_nonneg _
  have hm : 3 * sqrt 2 / (4 * sqrt π) * sqrt 0.2515 ≤ 0.59842 * 0.5014978 :=
    mul_le_mul f2 hs hs0 (by norm_num)
  have e : 3 * sqrt 2 * -3202700 / (4 * sqrt π) * (0.2515 ^ 7 * sqrt 0.2515) =
      -3202700 * 0.2515 ^ 7 * (3 * sqrt 2 / (4 * sqrt π) * sqrt 0.2515) := by ring
  rw [e]
  generalize 3 * sqrt 2 / (4 * sqrt π) * sqrt 0.2515 = w at *
  norm_num at hm p2 ⊢
  linarith

theorem jDen_right : danJDen 0.252 < 0 := by
  unfold danJDen
  rw [rpow_half_odd (by norm_num)]
  obtain ⟨f1, f2⟩ := jFactor_bounds
  obtain ⟨p1, p2⟩ := pi_sq_bounds
  have hs : 0.50199 ≤ sqrt 0.252 := by apply le_sqrt_of_sq_le; norm_num
  have hm : 0.59841 * 0.50199 ≤ 3 * sqrt 2 / (4 * sqrt π) * sqrt 0.252 :=
    mul_le_mul f1 hs (by norm_num) (le_trans (by norm_num) f1)
  have e : 3 * sqrt 2 * -3202700 / (4 * sqrt π) * (0.252 ^ 7 * sqrt 0.252) =
      -3202700 * 0.252 ^ 7 * (3 * sqrt 2 / (4 * sqrt π) * sqrt 0.252) := by ring
  rw [e]
  generalize 3 * sqrt 2 / (4 * sqrt π) * sqrt 0.252 = w at *
  norm_num at hm p1 ⊢
  linarith

/-- The numerator is negative there. -/
theorem jNum_neg {θ : ℝ} (h1 : 0.2515 ≤ θ) (h2 : θ ≤ 0.252) : danJNum θ < 0 := by
  have hθ : 0 < θ := by norm_num at h1; linarith
  unfold danJNum
  have i1 : (0.2515 : ℝ) ^ 5 ≤ θ ^ 5 := by gcongr
  have i2 : (0.2515 : ℝ) ^ 2 ≤ θ ^ 2 := by gcongr
  have i3 : (0.2515 : ℝ) ^ 4 ≤ θ ^ 4 := by gcongr
  have e : 1 + 3248.8 * θ ^ 2 - 691.47 * θ ^ 4 - 3202700 * θ ^ 7 =
      1 + θ ^ 2 * (3248.8 - 3202700 * θ ^ 5) - 691.47 * θ ^ 4 := by ring
  rw [e]
  have i4 : θ ^ 2 * (3248.8 - 3202700 * θ ^ 5) ≤ θ ^ 2 * (3248.8 - 3202700 * 0.2515 ^ 5) :=
    mul_le_mul_of_nonneg_left (by linarith) (by positivity)
  norm_num at i2 i3 i4 ⊢
  nlinarith

/-- The denominator of `J` has one zero for positive arguments, and it is not a zero of the numerator. -/
theorem pole_exists : ∃ θ₀ : ℝ, 0.2515 < θ₀ ∧ θ₀ < 0.252 ∧ danJNum θ₀ < 0 ∧
    ∀ θ, 0 < θ → (danJDen θ = 0 ↔ θ = θ₀) := by
  have hle : (0.2515 : ℝ) ≤ 0.252 := by norm_num
  obtain ⟨t, ⟨ht1, ht2⟩, h0⟩ := intermediate_value_Icc' hle jDen_continuous.continuousOn
    (⟨jDen_right.le, jDen_left.le⟩ : (0 : ℝ) ∈ Set.Icc (danJDen 0.252) (danJDen 0.2515))
  have ht : 0 < t := by norm_num at ht1; linarith
  refine ⟨t, lt_of_le_of_ne ht1 fun h => ?_, lt_of_le_of_ne ht2 fun h => ?_, jNum_neg ht1 ht2, ?_⟩
  · have := jDen_left; rw [h, h0] at this; exact lt_irrefl _ this
  · have := jDen_right; rw [← h, h0] at this; exact lt_irrefl _ this
  · intro θ hθ
    refine ⟨fun h => ?_, fun h => by rw [h, h0]⟩
    rcases lt_trichotomy θ t with hlt | heq | hgt
    · have := jDen_anti hθ hlt
      rw [h, h0] at this; simp at this
    · exact heq
    · have := jDen_anti ht hgt
      rw [h, h0] at this; simp at this

/-! ### The other coefficients are continuous there -/

theorem eta_above {θ : ℝ} (h1 : 0.2515 < θ) (h2 : θ < 0.252) :
    ContinuousAt danEta θ ∧ 2 < danEta θ := by
  have hθ : 0 < θ := by norm_num at h1; linarith
  have s1 : 0.501 ≤ sqrt θ := by
    apply le_sqrt_of_sq_le; norm_num at h1 ⊢; linarith
  have s2 : sqrt θ ≤ 0.502 := by
    rw [sqrt_le_left (by norm_num)]; norm_num at h2 ⊢; linarith
  have hs : 0 < sqrt θ := sqrt_pos.2 hθ
  have m1 : (0.126 : ℝ) ≤ θ * sqrt θ := by
    calc (0.126 : ℝ) ≤ 0.2515 * 0.501 := by norm_num
      _ ≤ _ := mul_le_mul h1.le s1 (by norm_num) hθ.le
  have m2 : θ * sqrt θ ≤ 0.127 := by
    calc θ * sqrt θ ≤ 0.252 * 0.502 := mul_le_mul h2.le s2 hs.le (by norm_num)
      _ ≤ _ := by norm_num
  have x1 : (5 : ℝ) < 2 / 3 * (1 / (θ * sqrt θ)) := by
    rw [mul_one_div, lt_div_iff₀ (by positivity)]; norm_num at m2 ⊢; linarith
  have x2 : 2 / 3 * (1 / (θ * sqrt θ)) < (6 : ℝ) := by
    rw [mul_one_div, div_lt_iff₀ (by positivity)]; norm_num at m1 ⊢; linarith
  have hxc : ContinuousAt (fun θ : ℝ => 2 / 3 * (1 / (θ * sqrt θ))) θ := by
    apply ContinuousAt.mul continuousAt_const
    exact ContinuousAt.div (by fun_prop) (by fun_prop) (by positivity)
  constructor
  · have hp : ContinuousAt fukushimaPiece2 (2 / 3 * (1 / (θ * sqrt θ))) := by
      generalize 2 / 3 * (1 / (θ * sqrt θ)) = x at x1 x2
      unfold fukushimaPiece2
      refine ContinuousAt.comp (g := rational [74.0135089, 294.367987, 294.232354, 64.9306737]
        [27.8728584, 62.0649704, 27.1148810, 1.0]) (f := fun x : ℝ => -0.482411581 + 0.140636120 * x) ?_ (by fun_prop)
      refine (hasDerivAt_quot _ _ _ ?_).continuousAt
      have hy : (0 : ℝ) < -0.482411581 + 0.140636120 * x := by norm_num; linarith
      generalize -0.482411581 + 0.140636120 * x = y at hy
      simp only [ev]
      push_cast
      positivity
    have hcomp := hp.comp_of_eq hxc rfl
    refine hcomp.congr ?_
    have ev1 : ∀ᶠ t in 𝓝 θ, (5 : ℝ) < 2 / 3 * (1 / (t * sqrt t)) := hxc.eventually (lt_mem_nhds x1)
    have ev2 : ∀ᶠ t in 𝓝 θ, 2 / 3 * (1 / (t * sqrt t)) < (6 : ℝ) := hxc.eventually (gt_mem_nhds x2)
    filter_upwards [ev1, ev2, lt_mem_nhds hθ] with t e1 e2 e3
    rw [danEta_eq e3, scaled2 _ (le_trans (by norm_num) e1.le) (lt_trans e2 (by norm_num))]
    rfl
  · rw [danEta_eq hθ, scaled2 _ (le_trans (by norm_num) x1.le) (lt_trans x2 (by norm_num))]
    refine lt_of_lt_of_le ?_ (piece2_mono.monotoneOn (⟨by norm_num, by norm_num⟩ : (5 : ℝ) ∈ Set.Icc 3.43 10.5)
      ⟨le_trans (by norm_num) x1.le, le_trans x2.le (by norm_num)⟩ x1.le)
    unfold fukushimaPiece2
    rw [rational_ev]
    simp only [ev]
    norm_num

theorem integrals_continuous {θ : ℝ} (h1 : 0.2515 < θ) (h2 : θ < 0.252) :
    ContinuousAt (fun t => danI0 (danEta t)) θ ∧ ContinuousAt (fun t => danI15 (danEta t)) θ ∧
      ContinuousAt (fun t => danI25 (danEta t)) θ := by
  obtain ⟨hc, h⟩ := eta_above h1 h2
  refine ⟨?_, ?_, ?_⟩
  · unfold danI0
    exact ((deriv_above cm12 (1 / 2) (-1 / 2) _ (by norm_num) h (dm12_neg _ h.le).2.ne).continuousAt.comp hc).mul
      continuousAt_const
  · unfold danI15
    exact ((deriv_above c32 (5 / 2) (3 / 2) _ (by norm_num) h (d32_pos _ h.le).2.ne').continuousAt.comp hc).mul
      continuousAt_const
  · unfold danI25
    exact ((deriv_above c52 (7 / 2) (5 / 2) _ (by norm_num) h (d52_pos _ h.le).2.ne').continuousAt.comp hc).mul
      continuousAt_const

theorem a_continuous {θ : ℝ} (h1 : 0.2515 < θ) (h2 : θ < 0.252) :
    ContinuousAt danA2 θ ∧ ContinuousAt danA4 θ ∧ ContinuousAt danA6 θ ∧ ContinuousAt danA8 θ ∧
      ContinuousAt danK θ := by
  have hθ : 0 < θ := by norm_num at h1; linarith
  have cr : ∀ r : ℝ, 0 < r → ContinuousAt (fun t : ℝ => t ^ r) θ := fun r hr =>
    continuousAt_rpow_const _ _ (Or.inr hr.le)
  have l2 : (0.2515 : ℝ) ^ 2 ≤ θ ^ 2 := by gcongr
  have l3 : (0.2515 : ℝ) ^ 3 ≤ θ ^ 3 := by gcongr
  have l4 : (0.2515 : ℝ) ^ 4 ≤ θ ^ 4 := by gcongr
  have l6 : (0.2515 : ℝ) ^ 6 ≤ θ ^ 6 := by gcongr
  have u2 : θ ^ 2 ≤ (0.252 : ℝ) ^ 2 := by gcongr
  have u3 : θ ^ 3 ≤ (0.252 : ℝ) ^ 3 := by gcongr
  have u4 : θ ^ 4 ≤ (0.252 : ℝ) ^ 4 := by gcongr
  have u5 : θ ^ 5 ≤ (0.252 : ℝ) ^ 5 := by gcongr
  norm_num at h1 h2 l2 l3 l4 l6 u2 u3 u4 u5
  refine ⟨?_, ?_, ?_, ?_, ?_⟩
  · unfold danA2
    have := cr 0.70572 (by norm_num)
    refine ContinuousAt.div (by fun_prop) (by fun_prop) ?_
    have hle : θ ^ (0.70572 : ℝ) ≤ 0.502 := by
      calc θ ^ (0.70572 : ℝ) ≤ θ ^ (1 / 2 : ℝ) := rpow_le_rpow_of_exponent_ge hθ (by linarith) (by norm_num)
        _ = sqrt θ := (sqrt_eq_rpow θ).symm
        _ ≤ 0.502 := by rw [sqrt_le_left (by norm_num)]; norm_num; linarith
    have : 0 < θ ^ 2 := by positivity
    norm_num at hle ⊢
    apply ne_of_gt
    linarith
  · unfold danA4
    refine ContinuousAt.div (by fun_prop) (by fun_prop) ?_
    norm_num
    apply ne_of_gt
    linarith
  · unfold danA6
    refine ContinuousAt.div (by fun_prop) (by fun_prop) ?_
    norm_num
    apply ne_of_gt
    linarith
  · unfold danA8
    refine ContinuousAt.div (by fun_prop) (by fun_prop) ?_
    norm_num
    apply ne_of_gt
    linarith
  · unfold danK danKNum danKDen
    have := cr (17 / 2) (by norm_num)
    refine ContinuousAt.div (by fun_prop) (by fun_prop) ?_
    have hp := sqrt_pos.2 pi_pos
    have q1 : 0 < 7 * sqrt 2 * 2337.5 / (8 * sqrt π) * θ ^ (17 / 2 : ℝ) := by positivity
    have q2 : 0 < θ ^ 10 := by positivity
    have q3 : 0 < θ ^ 7 := by positivity
    have p2 := pi_sq_bounds.2
    have q4 : π ^ 2 * θ ^ 2 ≤ 9.8697 * θ ^ 2 := mul_le_mul_of_nonneg_right p2 (by positivity)
    have e : 7 * sqrt 2 * -2337.5 / (8 * sqrt π) * θ ^ (17 / 2 : ℝ) =
      -(7 * sqrt 2 * 2337.5 / (8 * sqrt π) * θ ^ (17 / 2 : ℝ)) := by ring
    rw [e]
    generalize 7 * sqrt 2 * 2337.5 / (8 * sqrt π) * θ ^ (17 / 2 : ℝ) = w at *
    norm_num at q4 ⊢
    apply ne_of_gt
    linarith

/-! ### The fit close to the pole -/

theorem phi_vanishes {ι : Type*} {l : Filter ι} {co : ι → DandreaCoeffs} {th c : ι → ℝ} {x A2 A4 A6 A8 B6 B8 B10 S C : ℝ}
    (hx : x ≠ 0) (hS : Tendsto (fun i => sqrt (th i) * (co i).i0) l (𝓝 S))
    (h2 : Tendsto (fun i => (co i).a2) l (𝓝 A2)) (h4 : Tendsto (fun i => (co i).a4) l (𝓝 A4))
    (h6 : Tendsto (fun i => (co i).a6) l (𝓝 A6)) (h8 : Tendsto (fun i => (co i).a8) l (𝓝 A8))
    (k6 : Tendsto (fun i => (co i).b6) l (𝓝 B6)) (k8 : Tendsto (fun i => (co i).b8) l (𝓝 B8))
    (k10 : Tendsto (fun i => (co i).b10) l (𝓝 B10)) (hc : Tendsto c l (𝓝 C))
    (k4 : ∀ i, (co i).b4 = (co i).b2 ^ 2 - (co i).a2 * (co i).b2 + (co i).a4 + c i)
    (k2 : Tendsto (fun i => ((co i).b2)⁻¹) l (𝓝 0)) (kne : ∀ᶠ i in l, (co i).b2 ≠ 0) :
    Tendsto (fun i => phiDandrea (co i) x (th i)) l (𝓝 0) ∧
      (0 < x → 0 < S → 0 < 1 + A2 * x ^ 2 + A4 * x ^ 4 + A6 * x ^ 6 + A8 * x ^ 8 →
        ∀ᶠ i in l, 0 < phiDandrea (co i) x (th i)) := by
  have hnum : Tendsto (fun i => 1 + (co i).a2 * x ^ 2 + (co i).a4 * x ^ 4 + (co i).a6 * x ^ 6 + (co i).a8 * x ^ 8) l
      (𝓝 (1 + A2 * x ^ 2 + A4 * x ^ 4 + A6 * x ^ 6 + A8 * x ^ 8)) :=
    ((((tendsto_const_nhds).add (h2.mul_const _)).add (h4.mul_const _)).add (h6.mul_const _)).add (h8.mul_const _)
  have hR : Tendsto (fun i => 1 + ((co i).a4 + c i) * x ^ 4 + (co i).b6 * x ^ 6 + (co i).b8 * x ^ 8 +
      (co i).b10 * x ^ 10) l (𝓝 (1 + (A4 + C) * x ^ 4 + B6 * x ^ 6 + B8 * x ^ 8 + B10 * x ^ 10)) :=
    ((((tendsto_const_nhds).add ((h4.add hc).mul_const _)).add (k6.mul_const _)).add (k8.mul_const _)).add
      (k10.mul_const _)
  have hden : Tendsto (fun i => x ^ 4 + ((co i).b2)⁻¹ * (x ^ 2 - (co i).a2 * x ^ 4) + (1 + ((co i).a4 + c i) * x ^ 4 +
      (co i).b6 * x ^ 6 + (co i).b8 * x ^ 8 + (co i).b10 * x ^ 10) * ((co i).b2)⁻¹ ^ 2) l
      (𝓝 (x ^ 4 + 0 * (x ^ 2 - A2 * x ^ 4) + (1 + (A4 + C) * x ^ 4 + B6 * x ^ 6 + B8 * x ^ 8 + B10 * x ^ 10) * 0 ^ 2)) :=
    ((tendsto_const_nhds).add (k2.mul ((tendsto_const_nhds).sub (h2.mul_const _)))).add (hR.mul (k2.pow 2))
  have h := (hS.mul_const x).mul ((hnum.mul (k2.pow 2)).div hden (by simpa using hx))
  have e : S * x * ((1 + A2 * x ^ 2 + A4 * x ^ 4 + A6 * x ^ 6 + A8 * x ^ 8) * 0 ^ 2 / (x ^ 4 + 0 * (x ^ 2 - A2 * x ^ 4) +
      (1 + (A4 + C) * x ^ 4 + B6 * x ^ 6 + B8 * x ^ 8 + B10 * x ^ 10) * 0 ^ 2)) = 0 := by simp
  rw [e] at h
  have hphi : ∀ i, (co i).b2 ≠ 0 → phiDandrea (co i) x (th i) = sqrt (th i) * (co i).i0 * x *
      ((1 + (co i).a2 * x ^ 2 + (co i).a4 * x ^ 4 + (co i).a6 * x ^ 6 + (co i).a8 * x ^ 8) * ((co i).b2)⁻¹ ^ 2 /
        (x ^ 4 + ((co i).b2)⁻¹ * (x ^ 2 - (co i).a2 * x ^ 4) + (1 + ((co i).a4 + c i) * x ^ 4 +
      (co i).b6 * x ^ 6 + (co i).b8 * x ^ 8 + (co i).b10 * x ^ 10) * ((co i).b2)⁻¹ ^ 2)) := by
    intro i hi
    simp only [phiDandrea]
    rw [k4 i]
    congr 1
    have hs : ((co i).b2)⁻¹ ^ 2 ≠ 0 := pow_ne_zero _ (inv_ne_zero hi)
    rw [← mul_div_mul_right _ (1 + (co i).b2 * x ^ 2 + _ + _ + _ + _) hs]
    congr 1
    field_simp
    ring
  constructor
  · refine h.congr' ?_
    filter_upwards [kne] with i hi
    rw [hphi i hi]
    rfl
  · intro hx0 hS0 hA
    have hx4 : (0 : ℝ) < x ^ 4 + 0 * (x ^ 2 - A2 * x ^ 4) +
        (1 + (A4 + C) * x ^ 4 + B6 * x ^ 6 + B8 * x ^ 8 + B10 * x ^ 10) * 0 ^ 2 := by
      simp only [zero_mul, add_zero, ne_eq, OfNat.ofNat_ne_zero, not_false_eq_true, zero_pow, mul_zero]
      positivity
    filter_upwards [kne, hS.eventually (lt_mem_nhds hS0), hnum.eventually (lt_mem_nhds hA),
      hden.eventually (lt_mem_nhds hx4)] with i hi g1 g2 g3
    rw [hphi i hi]
    have : 0 < ((co i).b2)⁻¹ ^ 2 := by positivity
    exact mul_pos (mul_pos g1 hx0) (div_pos (mul_pos g2 this) g3)

/-- The coefficients of the numerator are positive. -/
theorem a_pos {θ : ℝ} (h1 : 0.2515 < θ) (h2 : θ < 0.252) : 0 < danA2 θ ∧ 0 < danA4 θ ∧ 0 < danA6 θ ∧ 0 < danA8 θ := by
  have hθ : 0 < θ := by norm_num at h1; linarith
  have l2 : (0.2515 : ℝ) ^ 2 ≤ θ ^ 2 := by gcongr
  have l3 : (0.2515 : ℝ) ^ 3 ≤ θ ^ 3 := by gcongr
  have l4 : (0.2515 : ℝ) ^ 4 ≤ θ ^ 4 := by gcongr
  have l6 : (0.2515 : ℝ) ^ 6 ≤ θ ^ 6 := by gcongr
  have u2 : θ ^ 2 ≤ (0.252 : ℝ) ^ 2 := by gcongr
  have u3 : θ ^ 3 ≤ (0.252 : ℝ) ^ 3 := by gcongr
  have u4 : θ ^ 4 ≤ (0.252 : ℝ) ^ 4 := by gcongr
  have u5 : θ ^ 5 ≤ (0.252 : ℝ) ^ 5 := by gcongr
  have hle : θ ^ (0.70572 : ℝ) ≤ 0.502 := by
    calc θ ^ (0.70572 : ℝ) ≤ θ ^ (1 / 2 : ℝ) :=
          rpow_le_rpow_of_exponent_ge hθ (by norm_num at h2; linarith) (by norm_num)
      _ = sqrt θ := (sqrt_eq_rpow θ).symm
      _ ≤ 0.502 := by rw [sqrt_le_left (by norm_num)]; norm_num at h2 ⊢; linarith
  norm_num at h1 h2 l2 l3 l4 l6 u2 u3 u4 u5 hle
  refine ⟨?_, ?_, ?_, ?_⟩
  · unfold danA2
    norm_num
    exact div_pos (by linarith) (by linarith)
  · unfold danA4
    norm_num
    exact div_pos (by linarith) (by linarith)
  · unfold danA6
    norm_num
    exact div_pos (by linarith) (by linarith)
  · unfold danA8
    norm_num
    exact div_pos (by linarith) (by linarith)

/-- Away from the pole, the two arguments of the fit may not vanish. -/
theorem phi_pole : ∃ θ₀ : ℝ, 0.2515 < θ₀ ∧ θ₀ < 0.252 ∧ ∀ x, x ≠ 0 →
    Tendsto (fun θ => phiDandrea (danCoeffs θ (danEta θ)) x θ) (𝓝[≠] θ₀) (𝓝 0) ∧
      (0 < x → ∀ᶠ θ in 𝓝[≠] θ₀, 0 < phiDandrea (danCoeffs θ (danEta θ)) x θ) := by
  obtain ⟨t, t1, t2, hN, huniq⟩ := pole_exists
  have ht : 0 < t := by norm_num at t1; linarith
  refine ⟨t, t1, t2, fun x hx => ?_⟩
  obtain ⟨c2, c4, c6, c8, cK⟩ := a_continuous t1 t2
  obtain ⟨i0, i15, i25⟩ := integrals_continuous t1 t2
  have cs : ContinuousAt (fun θ : ℝ => sqrt θ) t := by fun_prop
  have cr : ∀ r : ℝ, 0 < r → ContinuousAt (fun t : ℝ => t ^ r) t := fun r hr =>
    continuousAt_rpow_const _ _ (Or.inr hr.le)
  have hs0 : 0 < sqrt t := sqrt_pos.2 ht
  have hI := danI0_pos (danEta t)
  have hle : 𝓝[≠] t ≤ 𝓝 t := nhdsWithin_le_nhds
  have b10 : ContinuousAt (fun θ => 3 / 2 * sqrt θ * danI0 (danEta θ) * danA8 θ) t := by fun_prop
  have r52 := cr (5 / 2) (by norm_num)
  have r72 := cr (7 / 2) (by norm_num)
  have b8 : ContinuousAt (fun θ => 3 / 2 * sqrt θ * danI0 (danEta θ) * danA6 θ -
      1 / 2 * θ ^ (5 / 2 : ℝ) * danI15 (danEta θ) * (3 / 2 * sqrt θ * danI0 (danEta θ) * danA8 θ)) t := by fun_prop
  have b6 : ContinuousAt (fun θ => 3 / 2 * sqrt θ * danI0 (danEta θ) * danA4 θ -
      1 / 2 * θ ^ (5 / 2 : ℝ) * danI15 (danEta θ) * (3 / 2 * sqrt θ * danI0 (danEta θ) * danA6 θ -
      1 / 2 * θ ^ (5 / 2 : ℝ) * danI15 (danEta θ) * (3 / 2 * sqrt θ * danI0 (danEta θ) * danA8 θ)) -
      3 / 10 * θ ^ (7 / 2 : ℝ) * danI25 (danEta θ) * (3 / 2 * sqrt θ * danI0 (danEta θ) * danA8 θ)) t := by fun_prop
  have cc : ContinuousAt (fun θ => 2 * danK θ / (15 * sqrt θ * danI0 (danEta θ))) t :=
    ContinuousAt.div (by fun_prop) (by fun_prop) (by positivity)
  have cD : ContinuousAt danJDen t := jDen_continuous.continuousAt
  have cN : ContinuousAt danJNum t := by unfold danJNum; fun_prop
  have hD0 : danJDen t = 0 := (huniq t ht).2 rfl
  have hcomb : ContinuousAt (fun θ => danA2 θ * (3 * sqrt θ * danI0 (danEta θ)) * danJDen θ + 2 * danJNum θ) t := by
    fun_prop
  have hcomb0 : danA2 t * (3 * sqrt t * danI0 (danEta t)) * danJDen t + 2 * danJNum t ≠ 0 := by
    rw [hD0, mul_zero, zero_add]; linarith
  have hev : ∀ᶠ θ in 𝓝[≠] t, 0 < θ ∧ danJDen θ ≠ 0 ∧
      danA2 θ * (3 * sqrt θ * danI0 (danEta θ)) * danJDen θ + 2 * danJNum θ ≠ 0 := by
    filter_upwards [hle (lt_mem_nhds ht), hle (hcomb.eventually_ne hcomb0), self_mem_nhdsWithin] with θ g1 g2 g3
    exact ⟨g1, fun h => g3 ((huniq θ g1).1 h), g2⟩
  have hb2 : ∀ θ, 0 < θ → danJDen θ ≠ 0 → (danCoeffs θ (danEta θ)).b2 =
      (danA2 θ * (3 * sqrt θ * danI0 (danEta θ)) * danJDen θ + 2 * danJNum θ) /
        (3 * sqrt θ * danI0 (danEta θ) * danJDen θ) := by
    intro θ g1 g2
    have g3 := sqrt_pos.2 g1
    have g4 := danI0_pos (danEta θ)
    simp only [danCoeffs, danJ]
    field_simp
  have hfin := phi_vanishes (co := fun θ => danCoeffs θ (danEta θ)) (th := fun θ => θ)
    (c := fun θ => 2 * danK θ / (15 * sqrt θ * danI0 (danEta θ))) hx
    ((cs.mul i0).tendsto.mono_left hle) (c2.tendsto.mono_left hle) (c4.tendsto.mono_left hle)
    (c6.tendsto.mono_left hle) (c8.tendsto.mono_left hle) (b6.tendsto.mono_left hle) (b8.tendsto.mono_left hle)
    (b10.tendsto.mono_left hle) (cc.tendsto.mono_left hle) (fun θ => rfl) ?_ ?_
  · refine ⟨hfin.1, fun hx0 => hfin.2 hx0 (mul_pos hs0 hI) ?_⟩
    obtain ⟨p2, p4, p6, p8⟩ := a_pos t1 t2
    positivity
  · have hq : ContinuousAt (fun θ => 3 * sqrt θ * danI0 (danEta θ) * danJDen θ /
        (danA2 θ * (3 * sqrt θ * danI0 (danEta θ)) * danJDen θ + 2 * danJNum θ)) t :=
      ContinuousAt.div (by fun_prop) hcomb hcomb0
    have h := hq.tendsto.mono_left hle
    rw [hD0, mul_zero, zero_div] at h
    refine h.congr' ?_
    filter_upwards [hev] with θ g
    rw [hb2 θ g.1 g.2.1, inv_div]
  · filter_upwards [hev] with θ g
    rw [hb2 θ g.1 g.2.1]
    have g3 := sqrt_pos.2 g.1
    have g4 := danI0_pos (danEta θ)
    have := g.2.1
    exact div_ne_zero g.2.2 (by positivity)

variable (u : Consts)

/-- C80 is false at a quarter of the Fermi temperature: one of the fits has a pole there.  For every density
there is a temperature, close to a quarter of the Fermi temperature, such that the dielectric function tends
to one as the temperature approaches it: electrons of any density neither screen nor oscillate, whatever the
momentum transfer `k` and the energy transfer `E` (unless the energy transfer is exactly the recoil energy).
The static value approaches one from above. -/
theorem epsDandrea_pole {n : ℝ} (hn : 0 < n) : ∃ T₀, 0.2515 * fermiTemperature u n < T₀ ∧
    T₀ < 0.252 * fermiTemperature u n ∧ ∀ k E : ℝ, 0 < k → E ≠ kinEnergy u k → E ≠ -kinEnergy u k →
      Tendsto (fun T => (epsDandrea u danFits k E T n).re) (𝓝[≠] T₀) (𝓝 1) ∧
        (E = 0 → ∀ᶠ T in 𝓝[≠] T₀, 1 < (epsDandrea u danFits k E T n).re) := by
  obtain ⟨t, t1, t2, h⟩ := phi_pole
  have hE := fermiEnergy_pos u hn
  have hkB := u.kB_pos
  have hF : 0 < fermiTemperature u n := div_pos hE hkB
  have hkF := fermiWavenumber_pos hn
  refine ⟨t * fermiTemperature u n, by nlinarith, by nlinarith, fun k E hk hE1 hE2 => ?_⟩
  have hm : Tendsto (fun T : ℝ => T * u.kB / fermiEnergy u n) (𝓝[≠] (t * fermiTemperature u n)) (𝓝[≠] t) := by
    refine tendsto_nhdsWithin_of_tendsto_nhds_of_eventually_within _ ?_ ?_
    · have : ContinuousAt (fun T : ℝ => T * u.kB / fermiEnergy u n) (t * fermiTemperature u n) := by fun_prop
      have h2 := this.tendsto.mono_left (nhdsWithin_le_nhds (s := {t * fermiTemperature u n}ᶜ))
      have e : t * fermiTemperature u n * u.kB / fermiEnergy u n = t := by unfold fermiTemperature; field_simp
      rw [e] at h2
      exact h2
    · filter_upwards [self_mem_nhdsWithin] with T hT
      intro hc
      apply hT
      have hc' : T * u.kB / fermiEnergy u n = t := hc
      show T = t * fermiTemperature u n
      rw [← hc']; unfold fermiTemperature; field_simp
  have hkin : kinEnergy u k = 4 * fermiEnergy u n * (k / (2 * fermiWavenumber n)) ^ 2 := by
    rw [← kinEnergy_fermiWavenumber u hn]
    have hm := u.me_pos
    unfold kinEnergy
    field_simp
    norm_num
  have hQ : 0 < k / (2 * fermiWavenumber n) := by positivity
  have x1 : E / (4 * fermiEnergy u n) / (k / (2 * fermiWavenumber n)) + k / (2 * fermiWavenumber n) ≠ 0 := by
    intro hc
    apply hE2
    rw [hkin]
    generalize k / (2 * fermiWavenumber n) = Q at *
    field_simp at hc
    linarith
  have x2 : E / (4 * fermiEnergy u n) / (k / (2 * fermiWavenumber n)) - k / (2 * fermiWavenumber n) ≠ 0 := by
    intro hc
    apply hE1
    rw [hkin]
    generalize k / (2 * fermiWavenumber n) = Q at *
    field_simp at hc
    linarith
  have l := (((h _ x1).1.comp hm).sub ((h _ x2).1.comp hm)).const_mul
    (-(4 / (9 * π)) ^ (1 / 3 : ℝ) * (wignerSeitz n / bohr u) / (4 * π * (k / (2 * fermiWavenumber n)) ^ 3))
  rw [sub_zero, mul_zero] at l
  have l' := l.const_sub 1
  rw [sub_zero] at l'
  refine ⟨l'.congr fun T => ?_, fun hE0 => ?_⟩
  · rw [epsDandrea_re u danFits E hk]
    rfl
  · subst hE0
    filter_upwards [hm.eventually ((h _ hQ.ne').2 hQ)] with T hT
    rw [epsDandrea_re u danFits 0 hk]
    have hodd : ∀ (co : DandreaCoeffs) (x θ : ℝ), phiDandrea co (-x) θ = -phiDandrea co x θ := by
      intro co x θ
      simp only [phiDandrea]
      have e2 : ∀ m : ℕ, (-x) ^ (2 * m) = x ^ (2 * m) := fun m => by rw [pow_mul, pow_mul, neg_sq]
      rw [e2 1, e2 2, e2 3, e2 4, e2 5]
      ring
    simp only [realDandrea, zero_div, zero_add, zero_sub, hodd, danFits]
    have hws : 0 < wignerSeitz n / bohr u := by
      have := u.hbar_pos; have := u.me_pos; have := u.e_pos; have := u.eps0_pos
      unfold wignerSeitz bohr
      positivity
    have ha : 0 < (4 / (9 * π)) ^ (1 / 3 : ℝ) := by positivity
    generalize (4 / (9 * π)) ^ (1 / 3 : ℝ) = a at *
    generalize wignerSeitz n / bohr u = r at *
    generalize k / (2 * fermiWavenumber n) = Q at *
    generalize phiDandrea _ Q _ = f at *
    have : 0 < a * r / (4 * π * Q ^ 3) * (2 * f) := by positivity
    have e : -a * r / (4 * π * Q ^ 3) * (f - -f) = -(a * r / (4 * π * Q ^ 3) * (2 * f)) := by ring
    rw [e]
    linarith

/-! ### The classical limit of the coefficients -/

theorem inv_pow_tendsto (n : ℕ) (hn : n ≠ 0) : Tendsto (fun θ : ℝ => (θ⁻¹) ^ n) atTop (𝓝 0) := by
  have := (tendsto_inv_atTop_zero (𝕜 := ℝ)).pow n
  rwa [zero_pow hn] at this

/-- C80: at high temperatures the coefficients of the fit scale with powers of the temperature, as needed for a function of
the thermal velocity only. -/
theorem dan_classical : Tendsto (fun θ : ℝ => θ ^ 2 * danA4 θ) atTop (𝓝 (1 / 20.833)) ∧
    Tendsto (fun θ : ℝ => θ ^ 3 * danA6 θ) atTop (𝓝 (1 / 106.40)) ∧
    Tendsto (fun θ : ℝ => θ ^ 4 * danA8 θ) atTop (𝓝 (12.2324 / 4912.9)) := by
  have c : ∀ (a : ℝ) (n : ℕ), n ≠ 0 → Tendsto (fun θ : ℝ => a * (θ⁻¹) ^ n) atTop (𝓝 0) := fun a n hn => by
    simpa using (inv_pow_tendsto n hn).const_mul a
  refine ⟨?_, ?_, ?_⟩
  · have h : Tendsto (fun θ : ℝ => (1 * θ⁻¹ ^ 2 + -3.0375 * θ⁻¹ ^ 1 + 64.646) /
        (19.608 * θ⁻¹ ^ 4 + -96.978 * θ⁻¹ ^ 3 + 423.66 * θ⁻¹ ^ 2 + -331.01 * θ⁻¹ ^ 1 + 20.833 * 64.646)) atTop
        (𝓝 ((0 + 0 + 64.646) / (0 + 0 + 0 + 0 + 20.833 * 64.646))) :=
      ((((c _ 2 (by norm_num)).add (c _ 1 (by norm_num))).add_const _)).div
        (((((c _ 4 (by norm_num)).add (c _ 3 (by norm_num))).add (c _ 2 (by norm_num))).add (c _ 1 (by norm_num))).add_const _) (by norm_num)
    rw [show (0 + 0 + 64.646) / (0 + 0 + 0 + 0 + 20.833 * 64.646) = (1 / 20.833 : ℝ) by norm_num] at h
    refine h.congr' ?_
    filter_upwards [eventually_gt_atTop 0] with θ hθ
    unfold danA4
    rw [← mul_div_mul_right (1 * θ⁻¹ ^ 2 + -3.0375 * θ⁻¹ ^ 1 + 64.646) _ (pow_ne_zero 4 hθ.ne'), ← mul_div_assoc]
    congr 1 <;> field_simp <;> ring
  · have h : Tendsto (fun θ : ℝ => (-0.1900 * θ⁻¹ ^ 1 + 1) /
        (0.36538 * θ⁻¹ ^ 4 + -2.2575 * θ⁻¹ ^ 3 + 22.942 * θ⁻¹ ^ 2 + -43.492 * θ⁻¹ ^ 1 + 106.40)) atTop
        (𝓝 ((0 + 1) / (0 + 0 + 0 + 0 + 106.40))) :=
      (((c _ 1 (by norm_num)).add_const _)).div
        (((((c _ 4 (by norm_num)).add (c _ 3 (by norm_num))).add (c _ 2 (by norm_num))).add (c _ 1 (by norm_num))).add_const _) (by norm_num)
    rw [show (0 + 1) / (0 + 0 + 0 + 0 + 106.40) = (1 / 106.40 : ℝ) by norm_num] at h
    refine h.congr' ?_
    filter_upwards [eventually_gt_atTop 0] with θ hθ
    unfold danA6
    rw [← mul_div_mul_right (-0.1900 * θ⁻¹ ^ 1 + 1) _ (pow_ne_zero 4 hθ.ne'), ← mul_div_assoc]
    congr 1
    · field_simp
    · field_simp
      ring
  · have h : Tendsto (fun θ : ℝ => (0.91 * θ⁻¹ ^ 2 + -6.4453 * θ⁻¹ ^ 1 + 12.2324) /
        (1 * θ⁻¹ ^ 6 + -7.1316 * θ⁻¹ ^ 5 + 22.725 * θ⁻¹ ^ 4 + 58.092 * θ⁻¹ ^ 3 + -436.02 * θ⁻¹ ^ 2 + -826.51 * θ⁻¹ ^ 1 + 4912.9)) atTop
        (𝓝 ((0 + 0 + 12.2324) / (0 + 0 + 0 + 0 + 0 + 0 + 4912.9))) :=
      ((((c _ 2 (by norm_num)).add (c _ 1 (by norm_num))).add_const _)).div
        (((((((c _ 6 (by norm_num)).add (c _ 5 (by norm_num))).add (c _ 4 (by norm_num))).add (c _ 3 (by norm_num))).add
          (c _ 2 (by norm_num))).add (c _ 1 (by norm_num))).add_const _) (by norm_num)
    rw [show (0 + 0 + 12.2324) / (0 + 0 + 0 + 0 + 0 + 0 + 4912.9) = (12.2324 / 4912.9 : ℝ) by norm_num] at h
    refine h.congr' ?_
    filter_upwards [eventually_gt_atTop 0] with θ hθ
    unfold danA8
    rw [← mul_div_mul_right (0.91 * θ⁻¹ ^ 2 + -6.4453 * θ⁻¹ ^ 1 + 12.2324) _ (pow_ne_zero 6 hθ.ne'), ← mul_div_assoc]
    congr 1 <;> field_simp <;> ring

end Verif.Resp
