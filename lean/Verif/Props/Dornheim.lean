/-
Properties of the static local field correction of Dornheim et al.
-/
import Verif.Model.Dornheim
import Verif.Props.Setup
import Mathlib.Analysis.SpecialFunctions.Pow.Asymptotics
import Mathlib.Analysis.SpecialFunctions.Exp
import Mathlib.Analysis.Complex.ExponentialBounds
import Mathlib.Tactic.Positivity
import Mathlib.Tactic.FieldSimp

set_option autoImplicit false

namespace Verif.Dornheim

open Real Filter Topology Verif.Expt Verif.Resp

variable {dbl : ℝ → ℝ → ℝ}

/-! ### The activation function -/

theorem activation_eq (x a b : ℝ) : activation x a b = 1 / (1 + exp (-(2 * (b * (x - a))))) := by
  unfold activation
  rw [tanh_eq]
  have h1 := exp_pos (b * (x - a))
  have h2 : exp (-(2 * (b * (x - a)))) = exp (-(b * (x - a))) ^ 2 := by
    rw [← exp_nat_mul]; congr 1; push_cast; ring
  rw [h2, exp_neg, show (0.5 : ℝ) = 1 / 2 by norm_num, show (1.0 : ℝ) = 1 by norm_num]
  generalize exp (b * (x - a)) = y at h1 ⊢
  field_simp
  ring

theorem activation_pos (x a b : ℝ) : 0 < activation x a b := by
  rw [activation_eq]; positivity

theorem activation_lt_one (x a b : ℝ) : activation x a b < 1 := by
  rw [activation_eq, div_lt_one (by positivity)]
  linarith [exp_pos (-(2 * (b * (x - a))))]

theorem activation_continuous (a b : ℝ) : Continuous fun x => activation x a b := by
  have : (fun x => activation x a b) = fun x => 1 / (1 + exp (-(2 * (b * (x - a))))) := by
    funext x; exact activation_eq x a b
  rw [this]
  exact continuous_const.div (by fun_prop) fun x => by positivity

theorem xM_ge {theta : ℝ} (h : 0 ≤ theta) : 2.64 ≤ xM theta := by
  unfold xM
  nlinarith [sq_nonneg theta]

/-! ### The limit of small wave numbers -/

variable {rs theta alpha beta gamma delta A : ℝ}

theorem tendsto_rpow_zero {p : ℝ} (hp : 0 < p) : Tendsto (fun x : ℝ => x ^ p) (𝓝[>] 0) (𝓝 0) := by
  have := (continuousAt_rpow_const 0 p (Or.inr hp.le)).tendsto
  rw [zero_rpow hp.ne'] at this
  exact this.mono_left nhdsWithin_le_nhds

theorem gFit_eq (x : ℝ) : gFit A alpha beta gamma delta x = A * (1 + alpha * x + beta * x ^ (1 / 2 : ℝ)) * x ^ 2 /
    (1 + gamma * x + delta * x ^ (5 / 4 : ℝ) + A * x ^ 2) := by
  unfold gFit
  rw [show (1.0 : ℝ) = 1 by norm_num, show (0.5 : ℝ) = 1 / 2 by norm_num, show (1.25 : ℝ) = 5 / 4 by norm_num]
  congr 1
  ring

/-- C93: the compressibility sum rule.  It holds for the fit alone; missing is the same for the correction,
which is false (`dornheim_sum_rule_fails`). -/
theorem gFit_small_partial : Tendsto (fun x => gFit A alpha beta gamma delta x / x ^ 2) (𝓝[>] 0) (𝓝 A) := by
  have hx : Tendsto (fun x : ℝ => x) (𝓝[>] 0) (𝓝 0) := tendsto_id.mono_left nhdsWithin_le_nhds
  have h1 : Tendsto (fun x : ℝ => A * (1 + alpha * x + beta * x ^ (1 / 2 : ℝ)) /
      (1 + gamma * x + delta * x ^ (5 / 4 : ℝ) + A * x ^ 2)) (𝓝[>] 0)
      (𝓝 (A * (1 + alpha * 0 + beta * 0) / (1 + gamma * 0 + delta * 0 + A * 0 ^ 2))) := by
    refine Tendsto.div ?_ ?_ (by norm_num)
    · exact ((tendsto_const_nhds.add (hx.const_mul _)).add ((tendsto_rpow_zero (by norm_num)).const_mul _)).const_mul _
    · exact ((tendsto_const_nhds.add (hx.const_mul _)).add ((tendsto_rpow_zero (by norm_num)).const_mul _)).add
        ((hx.pow 2).const_mul _)
  have e : A * (1 + alpha * 0 + beta * 0) / (1 + gamma * 0 + delta * 0 + A * 0 ^ 2) = A := by norm_num
  rw [e] at h1
  refine h1.congr' ?_
  filter_upwards [self_mem_nhdsWithin] with x hx
  have : x ≠ 0 := (Set.mem_Ioi.1 hx).ne'
  rw [gFit_eq, div_right_comm, mul_div_cancel_right₀ _ (pow_ne_zero 2 this)]

/-- The correction does not vanish with the wave number, because the activation function does not. -/
theorem gWrap_zero : gWrap dbl 0 rs theta alpha beta gamma delta =
    activation 0 (xM theta) 3 * (1 - onTop rs theta / 2) := by
  have h3 : (3.0 : ℝ) = 3 := by norm_num
  unfold gWrap gFit
  simp only [h3]
  norm_num
  left
  ring

theorem gWrap_small : Tendsto (fun x => gWrap dbl x rs theta alpha beta gamma delta) (𝓝[>] 0)
    (𝓝 (activation 0 (xM theta) 3 * (1 - onTop rs theta / 2))) := by
  have h3 : (3.0 : ℝ) = 3 := by norm_num
  have hx : Tendsto (fun x : ℝ => x) (𝓝[>] 0) (𝓝 0) := tendsto_id.mono_left nhdsWithin_le_nhds
  have hG : Tendsto (fun x => gFit (grothA dbl rs theta) alpha beta gamma delta x) (𝓝[>] 0) (𝓝 0) := by
    have := (gFit_small_partial (A := grothA dbl rs theta) (alpha := alpha) (beta := beta) (gamma := gamma) (delta := delta)).mul
      (hx.pow 2)
    rw [zero_pow two_ne_zero, mul_zero] at this
    refine this.congr' ?_
    filter_upwards [self_mem_nhdsWithin] with x hx
    have : x ≠ 0 := (Set.mem_Ioi.1 hx).ne'
    field_simp
  have hA : Tendsto (fun x => activation x (xM theta) 3) (𝓝[>] 0) (𝓝 (activation 0 (xM theta) 3)) :=
    ((activation_continuous (xM theta) 3).tendsto 0).mono_left nhdsWithin_le_nhds
  have := (hG.mul (hA.const_sub 1)).add (hA.mul_const (1 - onTop rs theta / 2))
  rw [zero_mul, zero_add] at this
  refine this.congr fun x => ?_
  unfold gWrap
  simp only [h3]
  norm_num
  left
  ring

/-! ### The pair distribution of electrons at contact -/

section

variable {t : ℝ}

theorem onTop_denominators (ht : 0 ≤ t) :
    0 < 1 + t * 24.1339 + t * t * t * 1.86499 ∧ 0 < 1 + t * 0.252577 + t * t * 0.127043 ∧
      0 < 1 + t * 0.445526 + t * t * 0.408504 ∧ 0 < 1 + t * -0.598508 + t * t * 0.513162 := by
  refine ⟨by positivity, by positivity, by positivity, ?_⟩
  nlinarith [sq_nonneg (t - 0.58)]

/-- The coefficient of the square root is bounded by that of the density parameter in the denominator. -/
theorem onTop_lt_two (hr : 0 < rs) (ht : 0 ≤ t) : onTop rs t < 2 := by
  obtain ⟨d1, d2, d3, d4⟩ := onTop_denominators ht
  have hs := sqrt_nonneg t
  have hq := sqrt_nonneg rs
  have hq2 : sqrt rs ^ 2 = rs := sq_sqrt hr.le
  have hs2 : sqrt t ^ 2 = t := sq_sqrt ht
  unfold onTop
  simp only [show (1.0 : ℝ) = 1 by norm_num]
  have hb : (-0.0784043 + -0.24368 * sqrt t) / (1 + t * 0.252577 + t * t * 0.127043) * rs ≤ 0 := by
    apply mul_nonpos_of_nonpos_of_nonneg _ hr.le
    exact div_nonpos_of_nonpos_of_nonneg (by linarith) d2.le
  have hd : 0 ≤ (0.0837741 + 0.0589015 * sqrt t) / (1 + t * -0.598508 + t * t * 0.513162) * rs * rs * rs := by
    positivity
  have ha0 : 0 ≤ (0.18315 + 18.4377 * t) / (1 + t * 24.1339 + t * t * t * 1.86499) := by positivity
  have hc0 : 0 ≤ (1.02232 + 2.23663 * sqrt t + 0.448937 * t * sqrt t) / (1 + t * 0.445526 + t * t * 0.408504) := by positivity
  have ha : (0.18315 + 18.4377 * t) / (1 + t * 24.1339 + t * t * t * 1.86499) ≤ 0.78 := by
    rw [div_le_iff₀ d1]
    nlinarith [mul_nonneg (mul_nonneg ht ht) ht]
  have hac : (0.18315 + 18.4377 * t) / (1 + t * 24.1339 + t * t * t * 1.86499) ≤
      10 * ((1.02232 + 2.23663 * sqrt t + 0.448937 * t * sqrt t) / (1 + t * 0.445526 + t * t * 0.408504)) := by
    rw [← mul_div_assoc, div_le_div_iff₀ d1 d3]
    by_cases h1 : t ≤ 1
    · have h2 : 10.2232 ≤ 10 * (1.02232 + 2.23663 * sqrt t + 0.448937 * t * sqrt t) := by
        have := mul_nonneg ht hs
        nlinarith
      have h3 := mul_le_mul_of_nonneg_right h2 d1.le
      nlinarith [mul_nonneg ht ht, mul_nonneg (mul_nonneg ht ht) ht, mul_nonneg ht (sub_nonneg.2 h1)]
    · push Not at h1
      have hs1 : 1 ≤ sqrt t := one_le_sqrt.2 h1.le
      have h2 : 32 ≤ 10 * (1.02232 + 2.23663 * sqrt t + 0.448937 * t * sqrt t) := by
        have := mul_le_mul h1.le hs1 zero_le_one ht
        nlinarith
      have h3 := mul_le_mul_of_nonneg_right h2 d1.le
      nlinarith [mul_nonneg ht ht, mul_nonneg (mul_nonneg ht ht) ht]
  generalize (0.18315 + 18.4377 * t) / (1 + t * 24.1339 + t * t * t * 1.86499) = a at *
  generalize (1.02232 + 2.23663 * sqrt t + 0.448937 * t * sqrt t) / (1 + t * 0.445526 + t * t * 0.408504) = c at *
  generalize (-0.0784043 + -0.24368 * sqrt t) / (1 + t * 0.252577 + t * t * 0.127043) * rs = b at *
  generalize (0.0837741 + 0.0589015 * sqrt t) / (1 + t * -0.598508 + t * t * 0.513162) * rs * rs * rs = d at *
  have hD : 0 < 1 + c * rs + d := by positivity
  rw [div_lt_iff₀ hD]
  have h1 : a * sqrt rs ≤ 1 / 1.01 + 1.01 * a ^ 2 / 4 * rs := by nlinarith [sq_nonneg (1.01 * a * sqrt rs / 2 - 1)]
  have h2 : 1.01 * a ^ 2 / 4 ≤ 2 * c := by nlinarith
  have h3 := mul_le_mul_of_nonneg_right h2 hr.le
  linarith

/-- C93: the correction of Dornheim et al. has a finite value at vanishing wave number, positive for all
densities and temperatures. -/
theorem dornheim_offset (u : Consts) {T n : ℝ} (hT : 0 ≤ T) (hn : 0 < n) :
    ∃ g, 0 < g ∧ Tendsto (fun k => eelfcDornheim u dbl k T n) (𝓝[>] 0) (𝓝 g) ∧
      g = (1 - onTop (wignerSeitz n / bohr u) (T / (fermiEnergy u n / u.kB)) / 2) /
        (1 + exp (6 * xM (T / (fermiEnergy u n / u.kB)))) := by
  have := u.me_pos; have := u.eps0_pos; have := u.hbar_pos; have := u.e_pos; have := u.kB_pos
  have hth : 0 ≤ T / (fermiEnergy u n / u.kB) := by unfold fermiEnergy; positivity
  have hrs : 0 < wignerSeitz n / bohr u := by unfold wignerSeitz bohr; positivity
  have hkF : 0 < fermiWavenumber n := by unfold fermiWavenumber; positivity
  refine ⟨_, ?_, ?_, rfl⟩
  · have := onTop_lt_two hrs hth
    have h2 : 0 < 1 - onTop (wignerSeitz n / bohr u) (T / (fermiEnergy u n / u.kB)) / 2 := by linarith
    positivity
  · have h1 : Tendsto (fun k : ℝ => k / fermiWavenumber n) (𝓝[>] 0) (𝓝[>] 0) := by
      refine tendsto_nhdsWithin_of_tendsto_nhds_of_eventually_within _ ?_ ?_
      · have : Tendsto (fun k : ℝ => k / fermiWavenumber n) (𝓝 0) (𝓝 (0 / fermiWavenumber n)) :=
          tendsto_id.div_const _
        rw [zero_div] at this
        exact this.mono_left nhdsWithin_le_nhds
      · filter_upwards [self_mem_nhdsWithin] with k hk
        exact div_pos hk hkF
    have h2 := (gWrap_small (dbl := dbl) (rs := wignerSeitz n / bohr u) (theta := T / (fermiEnergy u n / u.kB))
      (alpha := param 0 (wignerSeitz n / bohr u) (T / (fermiEnergy u n / u.kB)))
      (beta := param 9 (wignerSeitz n / bohr u) (T / (fermiEnergy u n / u.kB)))
      (gamma := param 18 (wignerSeitz n / bohr u) (T / (fermiEnergy u n / u.kB)))
      (delta := param 27 (wignerSeitz n / bohr u) (T / (fermiEnergy u n / u.kB)))).comp h1
    rw [activation_eq, one_div_mul_eq_div,
      show -(2 * (3 * (0 - xM (T / (fermiEnergy u n / u.kB))))) = 6 * xM (T / (fermiEnergy u n / u.kB)) by ring] at h2
    exact h2

/-- C93: so the compressibility sum rule, `G / k²` finite, fails for every state. -/
theorem dornheim_sum_rule_fails (u : Consts) {T n : ℝ} (hT : 0 ≤ T) (hn : 0 < n) :
    Tendsto (fun k => eelfcDornheim u dbl k T n / k ^ 2) (𝓝[>] 0) atTop := by
  obtain ⟨g, hg, h, -⟩ := dornheim_offset (dbl := dbl) u hT hn
  have h2 : Tendsto (fun k : ℝ => (k ^ 2)⁻¹) (𝓝[>] 0) atTop := by
    refine tendsto_inv_nhdsGT_zero.comp ?_
    refine tendsto_nhdsWithin_of_tendsto_nhds_of_eventually_within _ ?_ ?_
    · have := ((continuous_pow 2 (M := ℝ)).tendsto 0).mono_left (nhdsWithin_le_nhds (s := Set.Ioi 0))
      simpa using this
    · filter_upwards [self_mem_nhdsWithin] with k hk
      exact pow_pos (Set.mem_Ioi.1 hk) 2
  exact (h.pos_mul_atTop hg h2).congr fun k => (div_eq_mul_inv _ _).symm

/-- C93: the offset is below 1.4e-7 times `1 - g(0) / 2`. -/
theorem dornheim_offset_small (ht : 0 ≤ t) : 1 / (1 + exp (6 * xM t)) < 1.4e-7 := by
  have h1 := xM_ge ht
  have h2 : exp 15.84 ≤ exp (6 * xM t) := exp_le_exp.2 (by norm_num at h1 ⊢; linarith)
  have h3 : (7.15e6 : ℝ) < exp 15.84 := by
    have e1 := exp_one_gt_d9
    have h4 : exp (15.84 : ℝ) = exp 1 ^ 15 * exp 0.84 := by
      rw [← exp_nat_mul, ← exp_add]; congr 1; norm_num
    have h5 := quadratic_le_exp_of_nonneg (show (0 : ℝ) ≤ 0.84 by norm_num)
    have h6 : (2.7182818283 : ℝ) ^ 15 ≤ exp 1 ^ 15 := pow_le_pow_left₀ (by norm_num) e1.le 15
    rw [h4]
    have h7 : (2.7182818283 : ℝ) ^ 15 * 2.1928 ≤ exp 1 ^ 15 * exp 0.84 :=
      mul_le_mul h6 (by norm_num at h5 ⊢; linarith) (by norm_num) (by positivity)
    norm_num at h7 ⊢
    linarith
  rw [div_lt_iff₀ (by positivity)]
  norm_num at h3 ⊢
  linarith

/-! ### The limit of large wave numbers -/

theorem gFit_large (hA : A ≠ 0) :
    Tendsto (fun x => gFit A alpha beta gamma delta x / x) atTop (𝓝 alpha) := by
  have i1 : Tendsto (fun x : ℝ => x⁻¹) atTop (𝓝 0) := tendsto_inv_atTop_zero
  have i2 : ∀ {p : ℝ}, 0 < p → Tendsto (fun x : ℝ => x ^ (-p)) atTop (𝓝 0) := fun hp => tendsto_rpow_neg_atTop hp
  have h1 : Tendsto (fun x : ℝ => A * (x⁻¹ + alpha + beta * x ^ (-(1 / 2) : ℝ)) /
      (x⁻¹ ^ 2 + gamma * x⁻¹ + delta * x ^ (-(3 / 4) : ℝ) + A)) atTop
      (𝓝 (A * (0 + alpha + beta * 0) / (0 ^ 2 + gamma * 0 + delta * 0 + A))) := by
    refine Tendsto.div ?_ ?_ (by simpa using hA)
    · exact ((i1.add_const _).add ((i2 (by norm_num)).const_mul _)).const_mul _
    · exact (((i1.pow 2).add (i1.const_mul _)).add ((i2 (by norm_num)).const_mul _)).add_const _
  have e : A * (0 + alpha + beta * 0) / (0 ^ 2 + gamma * 0 + delta * 0 + A) = alpha := by
    simp [hA]
  rw [e] at h1
  refine h1.congr' ?_
  filter_upwards [eventually_gt_atTop 0] with x hx
  have e1 : x ^ (1 / 2 : ℝ) = x * x ^ (-(1 / 2) : ℝ) := by
    conv_rhs => rw [← rpow_one x, ← rpow_mul hx.le, ← rpow_add hx]
    norm_num
  have e2 : x ^ (5 / 4 : ℝ) = x ^ 2 * x ^ (-(3 / 4) : ℝ) := by
    rw [← rpow_natCast, ← rpow_add hx]
    norm_num
  rw [gFit_eq, e1, e2]
  generalize x ^ (-(1 / 2) : ℝ) = y
  generalize x ^ (-(3 / 4) : ℝ) = z
  have hx0 := hx.ne'
  have n1 : x⁻¹ ^ 2 + gamma * x⁻¹ + delta * z + A = (1 + gamma * x + delta * (x ^ 2 * z) + A * x ^ 2) / x ^ 2 := by
    field_simp
  have n2 : A * (x⁻¹ + alpha + beta * y) = A * (1 + alpha * x + beta * (x * y)) / x := by
    field_simp
  rw [n1, n2, div_div_eq_mul_div, div_right_comm, div_mul_eq_mul_div]

theorem activation_large (a : ℝ) : Tendsto (fun x => activation x a 3) atTop (𝓝 1) := by
  have h1 : Tendsto (fun x : ℝ => exp (-(2 * (3 * (x - a))))) atTop (𝓝 0) := by
    refine tendsto_exp_neg_atTop_nhds_zero.comp ?_
    exact (Tendsto.const_mul_atTop two_pos (Tendsto.const_mul_atTop three_pos (tendsto_atTop_add_const_right _ (-a) tendsto_id)))
  have h2 : Tendsto (fun x : ℝ => 1 / (1 + exp (-(2 * (3 * (x - a)))))) atTop (𝓝 (1 / (1 + 0))) :=
    tendsto_const_nhds.div (h1.const_add 1) (by norm_num)
  rw [add_zero, div_one] at h2
  exact h2.congr fun x => (activation_eq x a 3).symm

theorem activation_tail (a : ℝ) : Tendsto (fun x => x * (1 - activation x a 3)) atTop (𝓝 0) := by
  have h1 : Tendsto (fun x : ℝ => exp (6 * a) * (x * exp (-x))) atTop (𝓝 (exp (6 * a) * 0)) := by
    have := tendsto_pow_mul_exp_neg_atTop_nhds_zero 1
    simp only [pow_one] at this
    exact this.const_mul _
  rw [mul_zero] at h1
  refine squeeze_zero' ?_ ?_ h1
  · filter_upwards [eventually_ge_atTop 0] with x hx
    exact mul_nonneg hx (by linarith [activation_lt_one x a 3])
  · filter_upwards [eventually_ge_atTop 0] with x hx
    rw [activation_eq]
    have hE := exp_pos (-(2 * (3 * (x - a))))
    have h2 : 1 - 1 / (1 + exp (-(2 * (3 * (x - a))))) ≤ exp (-(2 * (3 * (x - a)))) := by
      rw [sub_le_comm, le_div_iff₀ (by positivity)]
      nlinarith
    have h3 : exp (-(2 * (3 * (x - a)))) ≤ exp (6 * a) * exp (-x) := by
      rw [← exp_add]
      exact exp_le_exp.2 (by linarith)
    calc x * (1 - 1 / (1 + exp (-(2 * (3 * (x - a)))))) ≤ x * (exp (6 * a) * exp (-x)) :=
          mul_le_mul_of_nonneg_left (h2.trans h3) hx
      _ = exp (6 * a) * (x * exp (-x)) := by ring

/-- C93: at large wave numbers the correction tends to `1 - g(0)`, where `g(0)` is half of the pair
distribution of electrons of opposite spin, unless the factor from the compressibility is zero. -/
theorem dornheim_large (u : Consts) {T n : ℝ} (hn : 0 < n)
    (hA : grothA dbl (wignerSeitz n / bohr u) (T / (fermiEnergy u n / u.kB)) ≠ 0) :
    Tendsto (fun k => eelfcDornheim u dbl k T n) atTop
      (𝓝 (1 - onTop (wignerSeitz n / bohr u) (T / (fermiEnergy u n / u.kB)) / 2)) := by
  have hkF : 0 < fermiWavenumber n := by unfold fermiWavenumber; positivity
  have h1 : Tendsto (fun k : ℝ => k / fermiWavenumber n) atTop atTop := tendsto_id.atTop_div_const hkF
  unfold eelfcDornheim gAnalytical
  simp only []
  generalize T / (fermiEnergy u n / u.kB) = theta at *
  generalize wignerSeitz n / bohr u = rs at *
  have h3 : (3.0 : ℝ) = 3 := by norm_num
  have key : ∀ alpha beta gamma delta, Tendsto (fun x => gWrap dbl x rs theta alpha beta gamma delta) atTop
      (𝓝 (1 - onTop rs theta / 2)) := by
    intro alpha beta gamma delta
    have h2 := ((gFit_large (alpha := alpha) (beta := beta) (gamma := gamma) (delta := delta) hA).mul
      (activation_tail (xM theta))).add ((activation_large (xM theta)).mul_const (1 - onTop rs theta / 2))
    rw [mul_zero, zero_add, one_mul] at h2
    refine h2.congr' ?_
    filter_upwards [eventually_gt_atTop 0] with x hx
    unfold gWrap
    simp only [h3]
    have hx0 := hx.ne'
    rw [← mul_assoc, div_mul_cancel₀ _ hx0]
    norm_num
    left
    ring
  exact (key _ _ _ _).comp h1

/-- C93: without interaction electrons of opposite spin are independent. -/
theorem onTop_dense (t : ℝ) : Tendsto (fun rs => onTop rs t) (𝓝[>] 0) (𝓝 1) := by
  have hc : ContinuousAt (fun rs => onTop rs t) 0 := by
    unfold onTop
    refine ContinuousAt.div (by fun_prop) (by fun_prop) ?_
    simp
    norm_num
  have h0 : onTop 0 t = 1 := by unfold onTop; simp; norm_num
  rw [← h0]
  exact hc.tendsto.mono_left nhdsWithin_le_nhds

/-- C93: but the pair distribution is negative at the density parameter 20 and the Fermi temperature,
which `check` accepts. -/
theorem onTop_negative : onTop 20 1 < 0 := by
  unfold onTop
  rw [sqrt_one]
  have h : sqrt 20 < 4.48 := by rw [sqrt_lt' (by norm_num)]; norm_num
  apply div_neg_of_neg_of_pos
  · norm_num
    linarith
  · norm_num

end

/-! ### Units -/

/-- C93: density, Fermi wave number and temperature that enter the fits are those of the plasma, in atomic
units. -/
theorem dornheim_units (u : Consts) {T n : ℝ} (hT : 0 < T) (hn : 0 < n) :
    density (wignerSeitz n / bohr u) = n * bohr u ^ 3 ∧
      qf (wignerSeitz n / bohr u) = fermiWavenumber n * bohr u ∧
      inverseTemperature (wignerSeitz n / bohr u) (T / (fermiEnergy u n / u.kB)) =
        u.e ^ 2 / (4 * π * u.eps0 * bohr u) / (u.kB * T) := by
  have := u.me_pos; have := u.eps0_pos; have := u.hbar_pos; have := u.e_pos; have := u.kB_pos
  have ha : 0 < bohr u := by unfold bohr; positivity
  have hw : 0 < wignerSeitz n := by unfold wignerSeitz; positivity
  have hw3 : wignerSeitz n ^ 3 = 3 / (4 * π * n) := by
    unfold wignerSeitz
    rw [← rpow_natCast, ← rpow_mul (by positivity)]
    norm_num
  have hk : 0 < fermiWavenumber n := by unfold fermiWavenumber; positivity
  have hk3 : fermiWavenumber n ^ 3 = 3 * π ^ 2 * n := by
    unfold fermiWavenumber
    rw [← rpow_natCast, ← rpow_mul (by positivity)]
    norm_num
  have hq : qf (wignerSeitz n / bohr u) = fermiWavenumber n * bohr u := by
    have h1 : (9 / 4 * π) ^ ((1.0 : ℝ) / 3.0) = fermiWavenumber n * wignerSeitz n := by
      have h2 : fermiWavenumber n * wignerSeitz n = ((fermiWavenumber n * wignerSeitz n) ^ 3) ^ ((1.0 : ℝ) / 3.0) := by
        rw [← rpow_natCast, ← rpow_mul (by positivity)]
        norm_num
      rw [h2, mul_pow, hk3, hw3]
      congr 1
      field_simp
      norm_num
    unfold qf
    rw [h1]
    field_simp
  refine ⟨?_, hq, ?_⟩
  · unfold density
    rw [div_pow, hw3]
    field_simp
    norm_num
  · unfold inverseTemperature ef
    rw [hq]
    have hE : fermiEnergy u n = u.hbar ^ 2 / (2 * u.me) * fermiWavenumber n ^ 2 := by
      unfold fermiEnergy fermiWavenumber
      rw [← rpow_natCast ((3 * π ^ 2 * n) ^ (1 / 3 : ℝ)), ← rpow_mul (by positivity)]
      norm_num
    rw [hE]
    have hb : bohr u = 4 * π * u.eps0 * u.hbar ^ 2 / (u.me * u.e ^ 2) := rfl
    generalize fermiWavenumber n = kF at *
    rw [hb]
    field_simp
    norm_num

example : ∃ g, 0 < g ∧ Tendsto (fun k => eelfcDornheim unitConsts dbl k 2 3) (𝓝[>] 0) (𝓝 g) := by
  obtain ⟨g, h1, h2, -⟩ := dornheim_offset (dbl := dbl) unitConsts (T := 2) (n := 3) (by norm_num) (by norm_num)
  exact ⟨g, h1, h2⟩

example : grothA (fun _ _ => -1) 2 3 ≠ 0 := by
  have : 0 < qf 2 := by unfold qf; positivity
  unfold grothA
  simp only []
  have h : -qf 2 ^ 2 / (4.0 * π) * -1 = qf 2 ^ 2 / (4.0 * π) := by
    rw [mul_neg_one, neg_div, neg_neg]
  rw [h]
  positivity

/-! ### The parameters of the fit -/

/-- The coefficients of one parameter for the temperature `theta`, as published. -/
noncomputable def poly3 (a b c theta : ℝ) : ℝ := a + b * theta + c * (theta * sqrt theta)

theorem fExtended_eq {t : ℝ} (ht : 0 ≤ t) (a b c : ℝ) : fExtended t a b c = poly3 a b c t := by
  unfold fExtended poly3
  rw [show (1.5 : ℝ) = 1 + 1 / 2 by norm_num, rpow_add_of_nonneg ht (by norm_num) (by norm_num), rpow_one, sqrt_eq_rpow]

/-- C93: the four parameters of the fit are ratios of linear functions of the density parameter; their coefficients are
polynomials in the square root of the temperature, with the numbers of the publication. -/
theorem params {t : ℝ} (ht : 0 ≤ t) (rs : ℝ) :
    param 0 rs t = (poly3 0.66477593 (-4.59280227) 1.24649624 t + poly3 (-1.27089927) 1.26706839 (-0.4327608) t * rs) /
        (1 + poly3 2.09717766 1.15424724 (-0.65356955) t * rs) ∧
      param 9 rs t = (poly3 (-1.0206202) 5.16041218 (-0.23880981) t + poly3 1.07356921 (-1.67311761) 0.58928105 t * rs) /
        (1 + poly3 0.8469662 1.54029035 (-0.71145445) t * rs) ∧
      param 18 rs t = (poly3 (-2.31252076) 5.83181391 2.29489749 t + poly3 1.76614589 (-0.09710839) (-0.33180686) t * rs) /
        (1 + poly3 0.56560236 1.10948188 (-0.43213648) t * rs) ∧
      param 27 rs t = (poly3 1.3742155 (-4.01393906) (-1.65187145) t + poly3 (-1.75381153) (-1.17022854) 0.76772906 t * rs) /
        (1 + poly3 0.63867766 1.07863273 (-0.35630091) t * rs) := by
  refine ⟨?_, ?_, ?_, ?_⟩
  all_goals
    unfold param rsExtended
    simp only [fExtended_eq ht]
    norm_num [abcd]

theorem poly3_pos {a b c t : ℝ} (ha : 0 < a) (hb : 0 < b) (hc : 2 * c + b ≥ 0) (h0 : 0 ≤ t) (h4 : t ≤ 4) : 0 < poly3 a b c t := by
  unfold poly3
  have h1 : sqrt t ≤ 2 := by
    rw [show (2 : ℝ) = sqrt 4 by rw [show (4 : ℝ) = 2 ^ 2 by norm_num, sqrt_sq (by norm_num)]]
    exact sqrt_le_sqrt h4
  have h2 := sqrt_nonneg t
  have h3 : 0 ≤ t * (b + c * sqrt t) := by
    refine mul_nonneg h0 ?_
    nlinarith
  nlinarith

/-- C93: up to four Fermi temperatures, the range in which the fit was made, no parameter has a pole, whatever the density. -/
theorem params_regular {rs t : ℝ} (hr : 0 ≤ rs) (h0 : 0 ≤ t) (h4 : t ≤ 4) :
    1 ≤ 1 + poly3 2.09717766 1.15424724 (-0.65356955) t * rs ∧ 1 ≤ 1 + poly3 0.8469662 1.54029035 (-0.71145445) t * rs ∧
      1 ≤ 1 + poly3 0.56560236 1.10948188 (-0.43213648) t * rs ∧ 1 ≤ 1 + poly3 0.63867766 1.07863273 (-0.35630091) t * rs := by
  have h1 : 0 < poly3 2.09717766 1.15424724 (-0.65356955) t := by
    unfold poly3
    have e : t * sqrt t = sqrt t ^ 3 := by
      have := sq_sqrt h0
      calc t * sqrt t = sqrt t ^ 2 * sqrt t := by rw [this]
        _ = sqrt t ^ 3 := by ring
    have hs : sqrt t ≤ 2 := by
      rw [show (2 : ℝ) = sqrt 4 by rw [show (4 : ℝ) = 2 ^ 2 by norm_num, sqrt_sq (by norm_num)]]
      exact sqrt_le_sqrt h4
    have h2 := sqrt_nonneg t
    have h3 := sq_sqrt h0
    rw [e]
    nlinarith [mul_nonneg h2 h2, mul_nonneg (mul_nonneg h2 h2) (sub_nonneg.2 hs)]
  have h2 := poly3_pos (a := 0.8469662) (b := 1.54029035) (c := -0.71145445) (by norm_num) (by norm_num) (by norm_num) h0 h4
  have h3 := poly3_pos (a := 0.56560236) (b := 1.10948188) (c := -0.43213648) (by norm_num) (by norm_num) (by norm_num) h0 h4
  have h5 := poly3_pos (a := 0.63867766) (b := 1.07863273) (c := -0.35630091) (by norm_num) (by norm_num) (by norm_num) h0 h4
  refine ⟨?_, ?_, ?_, ?_⟩ <;> nlinarith

/-- C93: at every temperature of at least six Fermi temperatures there is a density at which the denominator of the
first parameter vanishes; the function has no check of its range. -/
theorem params_pole {t : ℝ} (h6 : 6 ≤ t) : ∃ rs : ℝ, 0 < rs ∧ 1 + poly3 2.09717766 1.15424724 (-0.65356955) t * rs = 0 := by
  have hs : 2.44 ≤ sqrt t := by
    refine le_sqrt_of_sq_le ?_
    norm_num
    linarith
  have hneg : poly3 2.09717766 1.15424724 (-0.65356955) t < 0 := by
    unfold poly3
    nlinarith [mul_nonneg (show (0 : ℝ) ≤ t - 6 by linarith) (show (0 : ℝ) ≤ sqrt t - 2.44 by linarith)]
  refine ⟨-1 / poly3 2.09717766 1.15424724 (-0.65356955) t, div_pos_of_neg_of_neg (by norm_num) hneg, ?_⟩
  rw [mul_div_cancel₀ _ hneg.ne]
  norm_num

/-- At the Fermi temperature and with a density parameter of two. -/
example : param 0 2 1 = (poly3 0.66477593 (-4.59280227) 1.24649624 1 + poly3 (-1.27089927) 1.26706839 (-0.4327608) 1 * 2) /
    (1 + poly3 2.09717766 1.15424724 (-0.65356955) 1 * 2) := (params zero_le_one 2).1

end Verif.Dornheim
