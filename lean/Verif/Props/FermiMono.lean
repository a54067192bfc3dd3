/-
Property C78 (continued): monotonicity, the point where the formulas change, and the degenerate limit.
-/
import Verif.Props.FermiInt
import Mathlib.Analysis.SpecialFunctions.ImproperIntegrals
import Mathlib.Analysis.SpecialFunctions.Integrals.Basic
import Mathlib.MeasureTheory.Integral.DominatedConvergence

set_option autoImplicit false

namespace Verif.FermiInt

open Real RatPoly MeasureTheory Filter Topology

/-! ### Monotonicity -/

theorem increasing_below (k : Coef) (n : ℝ) (hn : -1 < n) (hb : ∀ t, 0 ≤ t → 0 < ev k.b t)
    (h : check 8 (toInt 1 (3 ^ 190) (incr1 k.a k.b)) = true) :
    StrictMonoOn (fermiF k n) (Set.Iio 2) := by
  have hG : 0 < Gamma (n + 1) := Gamma_pos_of_pos (by linarith)
  have hd := fun x (hx : x < 2) => deriv_below k n x hx (hb (exp x) (exp_pos x).le).ne'
  apply strictMonoOn_of_deriv_pos (convex_Iio 2)
  · exact fun x hx => (hd x hx).continuousAt.continuousWithinAt
  · intro x hx
    rw [interior_Iio] at hx
    rw [(hd x hx).deriv]
    have := posT _ h x (le_of_lt hx)
    have := hb (exp x) (exp_pos x).le
    have := exp_pos x
    positivity

theorem increasing_above (k : Coef) (s : ℚ) (n : ℝ) (hn : -1 < n) (hs : n + 1 = s)
    (hd : ∀ x, 2 ≤ x → ev k.d (x ^ (-2 : ℝ)) ≠ 0)
    (h : check 17 (toInt 63 (3 ^ 190) (incr2 s k.c k.d)) = true) :
    StrictMonoOn (fermiF k n) (Set.Ici 2) := by
  have hG : 0 < Gamma (n + 1) := Gamma_pos_of_pos (by linarith)
  apply strictMonoOn_of_deriv_pos (convex_Ici 2)
  · have e : Set.EqOn (fermiF k n)
        (fun x => x ^ (s : ℝ) * rational k.c k.d (x ^ (-2 : ℝ)) / Gamma (n + 1)) (Set.Ici 2) := by
      intro x hx
      simp only [fermiF]
      rw [if_neg (not_lt.2 (Set.mem_Ici.1 hx)), hs]
    refine ContinuousOn.congr (fun x hx => ?_) e
    have hx' : (2 : ℝ) ≤ x := hx
    exact (((hasDerivAt_branch2 s k.c k.d x (by linarith) (hd x hx')).div_const
      (Gamma (n + 1))).continuousAt).continuousWithinAt
  · intro x hx
    rw [interior_Ici] at hx
    have hx' : (2 : ℝ) < x := hx
    rw [(deriv_above k s n x hs hx' (hd x hx'.le)).deriv]
    have h1 := posW _ h x hx'.le
    have h2 := hd x hx'.le
    have h3 : 0 < x ^ n := rpow_pos_of_pos (by linarith) n
    have h4 : 0 < ev k.d (x ^ (-2 : ℝ)) ^ 2 := by positivity
    positivity

/-- C78.  As Fermi integrals, the approximations of the orders 1/2, -1/2 and 5/2 increase, below and above
the point where the formula changes; the one of order 3/2 increases above.  (Partial: the order 3/2 below,
see `fermi32_decreases`.) -/
theorem fermi_increasing_partial :
    (StrictMonoOn fermi12 (Set.Iio 2) ∧ StrictMonoOn fermi12 (Set.Ici 2)) ∧
    (StrictMonoOn fermiNeg12 (Set.Iio 2) ∧ StrictMonoOn fermiNeg12 (Set.Ici 2)) ∧
    (StrictMonoOn fermi52 (Set.Iio 2) ∧ StrictMonoOn fermi52 (Set.Ici 2)) ∧
    StrictMonoOn fermi32 (Set.Ici 2) := by
  have e12 : fermi12 = fermiF c12 (1 / 2) := rfl
  have em12 : fermiNeg12 = fermiF cm12 (-1 / 2) := rfl
  have e32 : fermi32 = fermiF c32 (3 / 2) := rfl
  have e52 : fermi52 = fermiF c52 (5 / 2) := rfl
  rw [e12, em12, e32, e52]
  refine ⟨⟨?_, ?_⟩, ⟨?_, ?_⟩, ⟨?_, ?_⟩, ?_⟩
  · exact increasing_below c12 (1 / 2) (by norm_num) (fun t ht => (b_pos t ht).2.1) (by decide +kernel)
  · exact increasing_above c12 (3 / 2) (1 / 2) (by norm_num) (by norm_num)
      (fun x hx => (d12_pos x hx).2.ne') (by decide +kernel)
  · exact increasing_below cm12 (-1 / 2) (by norm_num) (fun t ht => (b_pos t ht).2.2.2.1)
      (by decide +kernel)
  · exact increasing_above cm12 (1 / 2) (-1 / 2) (by norm_num) (by norm_num)
      (fun x hx => (dm12_neg x hx).2.ne) (by decide +kernel)
  · exact increasing_below c52 (5 / 2) (by norm_num) (fun t ht => (b_pos t ht).2.2.2.2.2)
      (by decide +kernel)
  · exact increasing_above c52 (7 / 2) (5 / 2) (by norm_num) (by norm_num)
      (fun x hx => (d52_pos x hx).2.ne') (by decide +kernel)
  · exact increasing_above c32 (5 / 2) (3 / 2) (by norm_num) (by norm_num)
      (fun x hx => (d32_pos x hx).2.ne') (by decide +kernel)

/-- C78 is false for the order 3/2: the approximation decreases between 5/4 and 2. -/
theorem fermi32_decreases : StrictAntiOn fermi32 (Set.Ico (5 / 4) 2) := by
  have hG : 0 < Gamma (3 / 2 + 1) := Gamma_pos_of_pos (by norm_num)
  have hd := fun x (hx : x < 2) => deriv_below c32 (3 / 2) x hx (b32_pos (exp x) (exp_pos x).le).2.1.ne'
  apply strictAntiOn_of_deriv_neg (convex_Ico _ _)
  · exact fun x hx => (hd x hx.2).continuousAt.continuousWithinAt
  · intro x hx
    rw [interior_Ico] at hx
    have hlow : (33 / 10 : ℝ) ≤ exp x := by
      have a := exp_le_exp.2 hx.1.le
      have b := exp_one_gt_d9
      have c := add_one_le_exp (1 / 4 : ℝ)
      have e : exp (5 / 4) = exp 1 * exp (1 / 4) := by rw [← exp_add]; norm_num
      rw [e] at a
      norm_num at b c
      nlinarith
    have hup := exp_le_of_le_two x hx.2.le
    have h1 := ev_pos_from (33 / 10) 1 (3 ^ 130) 5 (by norm_num) (scale (-1) (incr1 c32.a c32.b))
      (by decide +kernel) (exp x) (by push_cast; exact hlow) (by push_cast; linarith)
    rw [ev_scale] at h1
    push_cast at h1
    have e : deriv fermi32 x = exp x * (ev (incr1 c32.a c32.b) (exp x) / ev c32.b (exp x) ^ 2) /
      Gamma (3 / 2 + 1) := (hd x hx.2).deriv
    rw [e]
    have h2 : ev (incr1 c32.a c32.b) (exp x) / ev c32.b (exp x) ^ 2 < 0 :=
      div_neg_of_neg_of_pos (by linarith) (pow_pos (b32_pos (exp x) (exp_pos x).le).2.1 2)
    exact div_neg_of_neg_of_pos (mul_neg_of_pos_of_neg (exp_pos x) h2) hG

/-! ### The degenerate limit -/

theorem scaled_integral (n : ℝ) (x : ℝ) (hx : 0 < x) :
    ∫ t in Set.Ioi (0 : ℝ), t ^ n / (exp (t - x) + 1) =
      x ^ (n + 1) * ∫ v in Set.Ioi (0 : ℝ), v ^ n / (exp (x * (v - 1)) + 1) := by
  have h := integral_comp_mul_left_Ioi (fun t : ℝ => t ^ n / (exp (t - x) + 1)) 0 hx
  rw [mul_zero, smul_eq_mul] at h
  rw [← mul_right_inj' (inv_pos.2 hx).ne', ← h, rpow_add_one hx.ne',
    show x⁻¹ * (x ^ n * x * ∫ v in Set.Ioi (0 : ℝ), v ^ n / (exp (x * (v - 1)) + 1)) =
      x ^ n * ∫ v in Set.Ioi (0 : ℝ), v ^ n / (exp (x * (v - 1)) + 1) by field_simp,
    ← integral_const_mul]
  apply setIntegral_congr_fun measurableSet_Ioi
  intro v hv
  have hv' : (0 : ℝ) < v := hv
  beta_reduce
  rw [mul_rpow hx.le hv'.le, show x * v - x = x * (v - 1) by ring]
  ring

theorem scaled_tendsto (n : ℝ) (hn : -1 < n) :
    Tendsto (fun x : ℝ => ∫ v in Set.Ioi (0 : ℝ), v ^ n / (exp (x * (v - 1)) + 1)) atTop
      (𝓝 (1 / (n + 1))) := by
  have e : (1 / (n + 1)) = ∫ v in Set.Ioi (0 : ℝ), (Set.Ioc (0 : ℝ) 1).indicator (fun v => v ^ n) v := by
    rw [setIntegral_indicator measurableSet_Ioc,
      Set.inter_eq_right.2 (Set.Ioc_subset_Ioi_self), ← intervalIntegral.integral_of_le zero_le_one,
      integral_rpow (Or.inl hn), one_rpow, zero_rpow (by linarith)]
    ring
  rw [e]
  apply tendsto_integral_filter_of_dominated_convergence (fun v => exp 1 * (v ^ n * exp (-v)))
  · exact Eventually.of_forall fun x => Measurable.aestronglyMeasurable (by fun_prop)
  · filter_upwards [eventually_ge_atTop 1] with x hx
    refine (ae_restrict_iff' measurableSet_Ioi).2 (Eventually.of_forall fun v hv => ?_)
    have hv' : (0 : ℝ) < v := hv
    have hp := rpow_pos_of_pos hv' n
    have hE := exp_pos (x * (v - 1))
    rw [norm_eq_abs, abs_of_pos (by positivity), div_eq_mul_inv, mul_left_comm]
    apply mul_le_mul_of_nonneg_left _ hp.le
    rw [← exp_add, inv_le_comm₀ (by positivity) (exp_pos _), ← exp_neg]
    rcases le_total v 1 with h | h
    · have : exp (-(1 + -v)) ≤ 1 := exp_le_one_iff.2 (by linarith)
      linarith
    · have : exp (-(1 + -v)) ≤ exp (x * (v - 1)) := exp_le_exp.2 (by nlinarith)
      linarith
  · have h := term_integrable n hn 1 0
    simp only [zero_add, pow_one, one_mul] at h
    exact h.const_mul _
  · refine (ae_restrict_iff' measurableSet_Ioi).2 ?_
    have : ∀ᵐ v : ℝ, v ≠ 1 := by simp [ae_iff, measure_singleton]
    filter_upwards [this] with v hv1 hv
    have hv' : (0 : ℝ) < v := hv
    rcases lt_or_gt_of_ne hv1 with h | h
    · rw [Set.indicator_of_mem (Set.mem_Ioc.2 ⟨hv', h.le⟩)]
      have a : Tendsto (fun x : ℝ => x * (v - 1)) atTop atBot :=
        tendsto_id.atTop_mul_const_of_neg (by linarith)
      have b := (tendsto_exp_atBot.comp a).add_const 1
      have c := (tendsto_const_nhds (x := v ^ n)).div b (by norm_num)
      simp only [zero_add, div_one] at c
      exact c
    · rw [Set.indicator_of_notMem (fun hc => absurd hc.2 (not_le.2 h))]
      have a : Tendsto (fun x : ℝ => x * (v - 1)) atTop atTop :=
        tendsto_id.atTop_mul_const (by linarith)
      have b := tendsto_atTop_add_const_right atTop 1 (tendsto_exp_atTop.comp a)
      exact (tendsto_const_nhds (x := v ^ n)).div_atTop b

theorem w_tendsto : Tendsto (fun x : ℝ => x ^ (-2 : ℝ)) atTop (𝓝 0) :=
  tendsto_rpow_neg_atTop (by norm_num)

theorem ev_tendsto_zero (p : List ℚ) : Tendsto (fun x : ℝ => ev p (x ^ (-2 : ℝ))) atTop (𝓝 (p.getD 0 0 : ℚ)) := by
  have h := ((hasDerivAt_ev p 0).continuousAt.tendsto).comp w_tendsto
  have e : ev p 0 = ((p.getD 0 0 : ℚ) : ℝ) := by cases p <;> simp [ev]
  rw [← e]; exact h

theorem degenerate (k : Coef) (n : ℝ) (hn : -1 < n) (hd : k.d.getD 0 0 ≠ 0) :
    Tendsto (fun x => fermiF k n x / fermiIntegral x n) atTop
      (𝓝 ((k.c.getD 0 0 : ℚ) / (k.d.getD 0 0 : ℚ) * (n + 1))) := by
  have hG : 0 < Gamma (n + 1) := Gamma_pos_of_pos (by linarith)
  have hd' : ((k.d.getD 0 0 : ℚ) : ℝ) ≠ 0 := by exact_mod_cast hd
  have h := ((ev_tendsto_zero k.c).div (ev_tendsto_zero k.d) hd').div (scaled_tendsto n hn)
    (by have : 0 < n + 1 := by linarith
        positivity)
  rw [div_div_eq_mul_div, div_one] at h
  refine h.congr' ?_
  filter_upwards [eventually_ge_atTop 2] with x hx
  have hx0 : 0 < x := by linarith
  have hp := rpow_pos_of_pos hx0 (n + 1)
  simp only [Pi.div_apply, fermiF, fermiIntegral]
  rw [if_neg (not_lt.2 hx), rational_ev, scaled_integral n x hx0]
  field_simp

/-- C78.  In the degenerate limit, the ratios of the approximations to the Fermi integrals converge to one,
to eleven digits. -/
theorem fermi_degenerate :
    (∃ L, |L - 1| ≤ 1 / 10 ^ 11 ∧ Tendsto (fun x => fermi12 x / fermiIntegral x (1 / 2)) atTop (𝓝 L)) ∧
    (∃ L, |L - 1| ≤ 1 / 10 ^ 11 ∧ Tendsto (fun x => fermiNeg12 x / fermiIntegral x (-1 / 2)) atTop (𝓝 L)) ∧
    (∃ L, |L - 1| ≤ 1 / 10 ^ 11 ∧ Tendsto (fun x => fermi32 x / fermiIntegral x (3 / 2)) atTop (𝓝 L)) ∧
    (∃ L, |L - 1| ≤ 1 / 10 ^ 11 ∧ Tendsto (fun x => fermi52 x / fermiIntegral x (5 / 2)) atTop (𝓝 L)) := by
  refine ⟨⟨_, ?_, degenerate c12 (1 / 2) (by norm_num) (by decide +kernel)⟩,
    ⟨_, ?_, degenerate cm12 (-1 / 2) (by norm_num) (by decide +kernel)⟩,
    ⟨_, ?_, degenerate c32 (3 / 2) (by norm_num) (by decide +kernel)⟩,
    ⟨_, ?_, degenerate c52 (5 / 2) (by norm_num) (by decide +kernel)⟩⟩
  all_goals
    simp only [c12, cm12, c32, c52, List.getD_cons_zero]
    rw [abs_le]
    norm_num

/-! ### The point where the formula changes -/

theorem ev_mono_of_pos (p : List ℚ) (h : ∀ q ∈ p, 0 < q) (s t : ℝ) (hs : 0 ≤ s) (hst : s ≤ t) :
    ev p s ≤ ev p t ∧ 0 ≤ ev p s := by
  induction p with
  | nil => simp [ev]
  | cons a p ih =>
    obtain ⟨h1, h2⟩ := ih fun q hq => h q (by simp [hq])
    have ha : (0 : ℝ) < a := by exact_mod_cast h a (by simp)
    simp only [ev]
    have := mul_le_mul hst h1 h2 (hs.trans hst)
    exact ⟨by linarith, by positivity⟩

theorem evQ_eq (p : List ℚ) (q : ℚ) : ((evQ p q : ℚ) : ℝ) = ev p q := by
  induction p with
  | nil => simp [evQ, ev]
  | cons a p ih =>
    simp only [evQ, forceRat_eq, ev]
    push_cast
    rw [ih]

/-- Bounds of `exp 2`. -/
def expLo : ℚ := 7.38905609893065022
def expHi : ℚ := 7.38905609893065024

theorem exp_two_close : (expLo : ℝ) ≤ exp 2 ∧ exp 2 ≤ expHi := by
  have h := abs_le.1 exp_one_near_20
  have e : exp 2 = exp 1 * exp 1 := by rw [← exp_add]; norm_num
  have l1 : (2.71828182845904523 : ℝ) ≤ exp 1 := by norm_num at h ⊢; linarith
  have l2 : exp 1 ≤ 2.718281828459045236 := by norm_num at h ⊢; linarith
  have l3 : (2.718281828459045235 : ℝ) ≤ exp 1 := by norm_num at h ⊢; linarith
  rw [e]
  unfold expLo expHi
  constructor
  · have := mul_le_mul l3 l3 (by norm_num) (exp_pos 1).le
    norm_num at this ⊢; linarith
  · have := mul_le_mul l2 l2 (exp_pos 1).le (by norm_num)
    norm_num at this ⊢; linarith

theorem sqrt_two_close : (1.41421356237309504 : ℝ) ≤ √2 ∧ √2 ≤ 1.41421356237309505 := by
  constructor
  · apply Real.le_sqrt_of_sq_le; norm_num
  · apply Real.sqrt_le_iff.2; constructor <;> norm_num

/-- The formula for arguments below two, at two. -/
noncomputable def below2 (k : Coef) (n : ℝ) : ℝ := exp 2 * rational k.a k.b (exp 2) / Gamma (n + 1)

/-- The smallest and largest quotient of the two formulas at two, for `2 ^ (n + 1) = f √2`. -/
def stepLo (f : ℚ) (k : Coef) : ℚ :=
  f * 1.41421356237309504 * (evQ k.c (1 / 4) / evQ k.d (1 / 4)) /
    (expHi * evQ k.a expHi / evQ k.b expLo)
def stepHi (f : ℚ) (k : Coef) : ℚ :=
  f * 1.41421356237309505 * (evQ k.c (1 / 4) / evQ k.d (1 / 4)) /
    (expLo * evQ k.a expLo / evQ k.b expHi)

theorem step_bounds (f : ℚ) (k : Coef) (n : ℝ) (hn : -1 < n) (hf : 0 < f) (hfn : (2 : ℝ) ^ (n + 1) = f * √2)
    (ha : k.a ≠ [] ∧ ∀ q ∈ k.a, 0 < q) (hb : k.b ≠ [] ∧ ∀ q ∈ k.b, 0 < q)
    (hcd : 0 < evQ k.c (1 / 4) / evQ k.d (1 / 4)) :
    0 < below2 k n ∧ (stepLo f k : ℝ) * below2 k n ≤ fermiF k n 2 ∧
      fermiF k n 2 ≤ (stepHi f k : ℝ) * below2 k n := by
  have hG : 0 < Gamma (n + 1) := Gamma_pos_of_pos (by linarith)
  obtain ⟨e1, e2⟩ := exp_two_close
  obtain ⟨s1, s2⟩ := sqrt_two_close
  have hlo : (0 : ℝ) < expLo := by unfold expLo; norm_num
  have hhi : (0 : ℝ) < expHi := by unfold expHi; norm_num
  have hE := exp_pos 2
  have a0 := ev_pos_of_pos k.a ha.1 ha.2 (exp 2) hE.le
  have b0 := ev_pos_of_pos k.b hb.1 hb.2 (exp 2) hE.le
  have a1 := (ev_mono_of_pos k.a ha.2 expLo (exp 2) hlo.le e1).1
  have a2 := (ev_mono_of_pos k.a ha.2 (exp 2) expHi hE.le e2).1
  have b1 := (ev_mono_of_pos k.b hb.2 expLo (exp 2) hlo.le e1).1
  have b2 := (ev_mono_of_pos k.b hb.2 (exp 2) expHi hE.le e2).1
  have a3 := ev_pos_of_pos k.a ha.1 ha.2 expLo hlo.le
  have b3 := ev_pos_of_pos k.b hb.1 hb.2 expLo hlo.le
  have a4 := ev_pos_of_pos k.a ha.1 ha.2 expHi hhi.le
  have b4 := ev_pos_of_pos k.b hb.1 hb.2 expHi hhi.le
  have hf' : (0 : ℝ) < f := by exact_mod_cast hf
  have hcd' : (0 : ℝ) < ((evQ k.c (1 / 4) / evQ k.d (1 / 4) : ℚ) : ℝ) := by exact_mod_cast hcd
  push_cast [evQ_eq] at hcd'
  unfold below2 stepLo stepHi fermiF
  rw [if_neg (lt_irrefl _), rational_ev, rational_ev, hfn,
    show (2 : ℝ) ^ (-2 : ℝ) = 1 / 4 by rw [rpow_neg (by norm_num), rpow_two]; norm_num]
  push_cast [evQ_eq]
  norm_num only at *
  generalize ev k.c (1 / 4) / ev k.d (1 / 4) = R at *
  generalize ev k.a (exp 2) = A at *
  generalize ev k.b (exp 2) = B at *
  generalize exp 2 = E at *
  generalize ev k.a expLo = Al at *
  generalize ev k.b expLo = Bl at *
  generalize ev k.a expHi = Ah at *
  generalize ev k.b expHi = Bh at *
  generalize (expLo : ℝ) = El at *
  generalize (expHi : ℝ) = Eh at *
  generalize Gamma (n + 1) = G at *
  generalize (f : ℝ) = F at *
  generalize √2 = q at *
  have up : E * (A / B) ≤ Eh * Ah / Bl := by
    rw [mul_div_assoc']
    exact div_le_div₀ (by positivity) (mul_le_mul e2 a2 a0.le hhi.le) b3 b1
  have low : El * Al / Bh ≤ E * (A / B) := by
    rw [mul_div_assoc']
    exact div_le_div₀ (by positivity) (mul_le_mul e1 a1 a3.le hE.le) b0 b2
  refine ⟨by positivity, ?_, ?_⟩
  · rw [mul_div_assoc']
    apply div_le_div_of_nonneg_right _ hG.le
    rw [div_mul_eq_mul_div, div_le_iff₀ (by positivity)]
    apply mul_le_mul _ up (by positivity) (by positivity)
    exact mul_le_mul_of_nonneg_right (mul_le_mul_of_nonneg_left s1 hf'.le) hcd'.le
  · rw [mul_div_assoc']
    apply div_le_div_of_nonneg_right _ hG.le
    rw [div_mul_eq_mul_div, le_div_iff₀ (by positivity)]
    apply mul_le_mul _ low (by positivity) (by positivity)
    exact mul_le_mul_of_nonneg_right (mul_le_mul_of_nonneg_left s2 hf'.le) hcd'.le

theorem two_pow_half : (2 : ℝ) ^ (1 / 2 : ℝ) = √2 := (Real.sqrt_eq_rpow 2).symm

theorem two_pow (m : ℕ) : (2 : ℝ) ^ (m + 1 / 2 : ℝ) = ((2 ^ m : ℚ) : ℝ) * √2 := by
  rw [rpow_add (by norm_num), rpow_natCast, two_pow_half]; push_cast; rfl

theorem step12 : 0 < below2 c12 (1 / 2) ∧ (stepLo 2 c12 : ℝ) * below2 c12 (1 / 2) ≤ fermiF c12 (1 / 2) 2 ∧
    fermiF c12 (1 / 2) 2 ≤ (stepHi 2 c12 : ℝ) * below2 c12 (1 / 2) :=
  step_bounds 2 c12 (1 / 2) (by norm_num) (by norm_num)
    (by have := two_pow 1; norm_num at this ⊢; exact this)
    (by decide +kernel) (by decide +kernel) (by decide +kernel)

theorem stepNeg12 : 0 < below2 cm12 (-1 / 2) ∧
    (stepLo 1 cm12 : ℝ) * below2 cm12 (-1 / 2) ≤ fermiF cm12 (-1 / 2) 2 ∧
    fermiF cm12 (-1 / 2) 2 ≤ (stepHi 1 cm12 : ℝ) * below2 cm12 (-1 / 2) :=
  step_bounds 1 cm12 (-1 / 2) (by norm_num) (by norm_num)
    (by have := two_pow 0; norm_num at this ⊢; exact this)
    (by decide +kernel) (by decide +kernel) (by decide +kernel)

theorem step52 : 0 < below2 c52 (5 / 2) ∧ (stepLo 8 c52 : ℝ) * below2 c52 (5 / 2) ≤ fermiF c52 (5 / 2) 2 ∧
    fermiF c52 (5 / 2) 2 ≤ (stepHi 8 c52 : ℝ) * below2 c52 (5 / 2) :=
  step_bounds 8 c52 (5 / 2) (by norm_num) (by norm_num)
    (by have := two_pow 3; norm_num at this ⊢; exact this)
    (by decide +kernel) (by decide +kernel) (by decide +kernel)

theorem step32 : 0 < below2 c32 (3 / 2) ∧ (stepLo 4 c32 : ℝ) * below2 c32 (3 / 2) ≤ fermiF c32 (3 / 2) 2 ∧
    fermiF c32 (3 / 2) 2 ≤ (stepHi 4 c32 : ℝ) * below2 c32 (3 / 2) :=
  step_bounds 4 c32 (3 / 2) (by norm_num) (by norm_num)
    (by have := two_pow 2; norm_num at this ⊢; exact this)
    (by decide +kernel) (by decide +kernel) (by decide +kernel)

/-- The bounds of the quotients: they agree to twelve digits, except for the order 3/2. -/
theorem steps :
    (1 < stepLo 2 c12 ∧ stepHi 2 c12 < 1 + 1 / 10 ^ 12) ∧
    (1 < stepLo 1 cm12 ∧ stepHi 1 cm12 < 1 + 1 / 10 ^ 12) ∧
    (1 - 1 / 10 ^ 12 < stepLo 8 c52 ∧ stepHi 8 c52 < 1) ∧ 9 < stepLo 4 c32 := by
  decide +kernel

theorem fermiF_below_le (k : Coef) (n : ℝ) (hn : -1 < n) (hb : ∀ t, 0 ≤ t → 0 < ev k.b t)
    (h : check 8 (toInt 1 (3 ^ 190) (incr1 k.a k.b)) = true) (x : ℝ) (hx : x < 2) :
    fermiF k n x < below2 k n := by
  have hG : 0 < Gamma (n + 1) := Gamma_pos_of_pos (by linarith)
  have hd := fun x => hasDerivAt_branch1 k.a k.b x (hb (exp x) (exp_pos x).le).ne'
  have hm : StrictMonoOn (fun x => exp x * rational k.a k.b (exp x)) (Set.Iic 2) := by
    apply strictMonoOn_of_deriv_pos (convex_Iic 2)
    · exact fun x _ => (hd x).continuousAt.continuousWithinAt
    · intro x hx
      rw [interior_Iic] at hx
      rw [(hd x).deriv]
      have := posT _ h x (le_of_lt hx)
      have := hb (exp x) (exp_pos x).le
      have := exp_pos x
      positivity
  unfold fermiF below2
  rw [if_pos hx]
  exact div_lt_div_of_pos_right (hm (Set.mem_Iic.2 hx.le) (Set.mem_Iic.2 le_rfl) hx) hG

theorem fermiF_tendsto (k : Coef) (n : ℝ) (hb : ∀ t, 0 ≤ t → 0 < ev k.b t) :
    Tendsto (fermiF k n) (𝓝[<] 2) (𝓝 (below2 k n)) := by
  have hd := (hasDerivAt_branch1 k.a k.b 2 (hb (exp 2) (exp_pos 2).le).ne').div_const (Gamma (n + 1))
  have h := hd.continuousAt.tendsto.mono_left (nhdsWithin_le_nhds (s := Set.Iio 2))
  refine h.congr' ?_
  filter_upwards [self_mem_nhdsWithin] with x hx
  unfold fermiF
  rw [if_pos (Set.mem_Iio.1 hx)]

/-- A function that increases on both sides and does not step down is increasing. -/
theorem strictMono_of_sides (f : ℝ → ℝ) (c : ℝ) (h1 : StrictMonoOn f (Set.Iio c))
    (h2 : StrictMonoOn f (Set.Ici c)) (h3 : ∀ x < c, f x < f c) : StrictMono f := by
  intro x y hxy
  rcases lt_or_ge y c with h | h
  · exact h1 (Set.mem_Iio.2 (hxy.trans h)) (Set.mem_Iio.2 h) hxy
  · rcases lt_or_ge x c with h' | h'
    · exact (h3 x h').trans_le (h2.monotoneOn (Set.mem_Ici.2 le_rfl) (Set.mem_Ici.2 h) h)
    · exact h2 (Set.mem_Ici.2 h') (Set.mem_Ici.2 h) hxy

/-- C78.  The approximations of the orders 1/2 and -1/2 increase for all arguments: each has one inverse,
and the step where the formula changes is upward. -/
theorem fermi_strictMono : StrictMono fermi12 ∧ StrictMono fermiNeg12 := by
  obtain ⟨⟨i1, i2⟩, ⟨i3, i4⟩, -⟩ := fermi_increasing_partial
  obtain ⟨⟨s1, -⟩, ⟨s2, -⟩, -⟩ := steps
  constructor
  · refine strictMono_of_sides _ 2 i1 i2 fun x hx => ?_
    obtain ⟨p, q, -⟩ := step12
    have := fermiF_below_le c12 (1 / 2) (by norm_num) (fun t ht => (b_pos t ht).2.1) (by decide +kernel) x hx
    have hs : (1 : ℝ) ≤ stepLo 2 c12 := by exact_mod_cast s1.le
    have e := mul_le_mul_of_nonneg_right hs p.le
    show fermiF c12 (1 / 2) x < fermiF c12 (1 / 2) 2
    linarith
  · refine strictMono_of_sides _ 2 i3 i4 fun x hx => ?_
    obtain ⟨p, q, -⟩ := stepNeg12
    have := fermiF_below_le cm12 (-1 / 2) (by norm_num) (fun t ht => (b_pos t ht).2.2.2.1)
      (by decide +kernel) x hx
    have hs : (1 : ℝ) ≤ stepLo 1 cm12 := by exact_mod_cast s2.le
    have e := mul_le_mul_of_nonneg_right hs p.le
    show fermiF cm12 (-1 / 2) x < fermiF cm12 (-1 / 2) 2
    linarith

/-- C78.  Where the formula changes, the approximations of the orders 1/2, -1/2 and 5/2 step by less than a
part in `10 ^ 12`; the one of order 3/2 is nine times as large there as just before. -/
theorem fermi_step :
    (∃ L, Tendsto fermi12 (𝓝[<] 2) (𝓝 L) ∧ |fermi12 2 - L| ≤ 1 / 10 ^ 12 * L) ∧
    (∃ L, Tendsto fermiNeg12 (𝓝[<] 2) (𝓝 L) ∧ |fermiNeg12 2 - L| ≤ 1 / 10 ^ 12 * L) ∧
    (∃ L, Tendsto fermi52 (𝓝[<] 2) (𝓝 L) ∧ |fermi52 2 - L| ≤ 1 / 10 ^ 12 * L ∧ fermi52 2 < L) ∧
    (∃ L, Tendsto fermi32 (𝓝[<] 2) (𝓝 L) ∧ 0 < L ∧ 9 * L < fermi32 2) := by
  obtain ⟨⟨s1, t1⟩, ⟨s2, t2⟩, ⟨s3, t3⟩, s4⟩ := steps
  refine ⟨⟨_, fermiF_tendsto c12 (1 / 2) (fun t ht => (b_pos t ht).2.1), ?_⟩,
    ⟨_, fermiF_tendsto cm12 (-1 / 2) (fun t ht => (b_pos t ht).2.2.2.1), ?_⟩,
    ⟨_, fermiF_tendsto c52 (5 / 2) (fun t ht => (b_pos t ht).2.2.2.2.2), ?_⟩,
    ⟨_, fermiF_tendsto c32 (3 / 2) (fun t ht => (b32_pos t ht).2.1), ?_⟩⟩
  · obtain ⟨p, q, r⟩ := step12
    have hs : (1 : ℝ) ≤ stepLo 2 c12 := by exact_mod_cast s1.le
    have ht : (stepHi 2 c12 : ℝ) ≤ ((1 + 1 / 10 ^ 12 : ℚ) : ℝ) := Rat.cast_le.2 t1.le
    push_cast at ht
    have e1 := mul_le_mul_of_nonneg_right hs p.le
    have e2 := mul_le_mul_of_nonneg_right ht p.le
    show |fermiF c12 (1 / 2) 2 - _| ≤ _
    rw [abs_le]; constructor <;> linarith
  · obtain ⟨p, q, r⟩ := stepNeg12
    have hs : (1 : ℝ) ≤ stepLo 1 cm12 := by exact_mod_cast s2.le
    have ht : (stepHi 1 cm12 : ℝ) ≤ ((1 + 1 / 10 ^ 12 : ℚ) : ℝ) := Rat.cast_le.2 t2.le
    push_cast at ht
    have e1 := mul_le_mul_of_nonneg_right hs p.le
    have e2 := mul_le_mul_of_nonneg_right ht p.le
    show |fermiF cm12 (-1 / 2) 2 - _| ≤ _
    rw [abs_le]; constructor <;> linarith
  · obtain ⟨p, q, r⟩ := step52
    have hs : ((1 - 1 / 10 ^ 12 : ℚ) : ℝ) ≤ (stepLo 8 c52 : ℝ) := Rat.cast_le.2 s3.le
    have ht : (stepHi 8 c52 : ℝ) < 1 := by exact_mod_cast t3
    push_cast at hs
    have e1 := mul_le_mul_of_nonneg_right hs p.le
    have e2 := mul_lt_mul_of_pos_right ht p
    show |fermiF c52 (5 / 2) 2 - _| ≤ _ ∧ fermiF c52 (5 / 2) 2 < _
    refine ⟨?_, by linarith⟩
    rw [abs_le]; constructor <;> linarith
  · obtain ⟨p, q, -⟩ := step32
    have hs : (9 : ℝ) < stepLo 4 c32 := by exact_mod_cast s4
    have e1 := mul_lt_mul_of_pos_right hs p
    refine ⟨p, ?_⟩
    show _ < fermiF c32 (3 / 2) 2
    linarith

/-- C78.  At two all four approximations agree with the Fermi integral to 1.1e-6: the order 3/2 is
wrong below two only. -/
theorem fermi_accurate_at_two :
    |fermi12 2 - fermiIntegral 2 (1 / 2)| ≤ 11 / 10 ^ 7 * fermiIntegral 2 (1 / 2) ∧
    |fermiNeg12 2 - fermiIntegral 2 (-1 / 2)| ≤ 11 / 10 ^ 7 * fermiIntegral 2 (-1 / 2) ∧
    |fermi52 2 - fermiIntegral 2 (5 / 2)| ≤ 11 / 10 ^ 7 * fermiIntegral 2 (5 / 2) ∧
    |fermi32 2 - fermiIntegral 2 (3 / 2)| ≤ 11 / 10 ^ 7 * fermiIntegral 2 (3 / 2) := by
  have h2 := exp_le_of_le_two 2 le_rfl
  have gen : ∀ L v F lo hi : ℝ, 0 < L → lo * L ≤ v → v ≤ hi * L → 1 - 1 / 10 ^ 12 ≤ lo →
      hi ≤ 1 + 1 / 10 ^ 12 → |L - F| ≤ 1 / 10 ^ 6 * F → |v - F| ≤ 11 / 10 ^ 7 * F := by
    intro L v F lo hi hL h1 h2 h3 h4 h5
    obtain ⟨h6, h7⟩ := abs_le.1 h5
    have e1 := mul_le_mul_of_nonneg_right h3 hL.le
    have e2 := mul_le_mul_of_nonneg_right h4 hL.le
    rw [abs_le]; constructor <;> linarith
  obtain ⟨⟨s1, t1⟩, ⟨s2, t2⟩, ⟨s3, t3⟩, -⟩ := steps
  refine ⟨?_, ?_, ?_, ?_⟩
  · obtain ⟨p, q, r⟩ := step12
    have hs : (1 : ℝ) ≤ stepLo 2 c12 := by exact_mod_cast s1.le
    have ht : (stepHi 2 c12 : ℝ) ≤ ((1 + 1 / 10 ^ 12 : ℚ) : ℝ) := Rat.cast_le.2 t1.le
    push_cast at ht
    exact gen _ _ _ _ _ p q r (by linarith) ht (accurate12 2 h2)
  · obtain ⟨p, q, r⟩ := stepNeg12
    have hs : (1 : ℝ) ≤ stepLo 1 cm12 := by exact_mod_cast s2.le
    have ht : (stepHi 1 cm12 : ℝ) ≤ ((1 + 1 / 10 ^ 12 : ℚ) : ℝ) := Rat.cast_le.2 t2.le
    push_cast at ht
    exact gen _ _ _ _ _ p q r (by linarith) ht (accurateNeg12 2 h2)
  · obtain ⟨p, q, r⟩ := step52
    have hs : ((1 - 1 / 10 ^ 12 : ℚ) : ℝ) ≤ (stepLo 8 c52 : ℝ) := Rat.cast_le.2 s3.le
    have ht : (stepHi 8 c52 : ℝ) ≤ 1 := by exact_mod_cast t3.le
    push_cast at hs
    exact gen _ _ _ _ _ p q r hs (by linarith) (accurate52 2 h2)
  · obtain ⟨p, q, r⟩ := step_bounds 4 { c32 with b := b32Repaired } (3 / 2) (by norm_num) (by norm_num)
      (by have := two_pow 2; norm_num at this ⊢; exact this)
      (by decide +kernel) (by decide +kernel) (by decide +kernel)
    have hs : ((1 - 1 / 10 ^ 12 : ℚ) : ℝ) ≤ (stepLo 4 { c32 with b := b32Repaired } : ℝ) :=
      Rat.cast_le.2 (by decide +kernel)
    have ht : (stepHi 4 { c32 with b := b32Repaired } : ℝ) ≤ ((1 + 1 / 10 ^ 12 : ℚ) : ℝ) :=
      Rat.cast_le.2 (by decide +kernel)
    push_cast at hs ht
    have e : fermiF { c32 with b := b32Repaired } (3 / 2) 2 = fermi32 2 := by
      unfold fermi32 fermiF
      rw [if_neg (lt_irrefl _), if_neg (lt_irrefl _)]
    rw [e] at q r
    exact gen _ _ _ _ _ p q r hs ht (accurate32 2 h2)

/-- The approximation of order 1/2 is larger at three than at one. -/
example : fermi12 1 < fermi12 3 := fermi_strictMono.1 (by norm_num)

end Verif.FermiInt
