/-
Property C10: bisection.
-/
import Verif.Model.Bisection
import Mathlib.Topology.Order.IntermediateValue
import Mathlib.Topology.Instances.Real.Lemmas
import Mathlib.Order.Interval.Set.UnorderedInterval
import Mathlib.Tactic.Linarith
import Mathlib.Tactic.Ring
import Mathlib.Tactic.FieldSimp
import Mathlib.Tactic.Positivity
import Mathlib.Tactic.NormNum

set_option autoImplicit false

namespace Verif.Bisection

open Set

variable {f : ℝ → ℝ} {o : Options}

/-- The loop runs at most until the larger of the two iteration numbers. -/
theorem condition_count {s : State} (h : condition f o s = true) :
    s.count < max o.maxIter o.minIter := by
  simp only [condition, Bool.or_eq_true, Bool.and_eq_true, decide_eq_true_eq] at h
  rcases h with ⟨⟨h, -⟩, -⟩ | h
  · exact lt_max_of_lt_left h
  · exact lt_max_of_lt_right h

theorem while_total (s : State) : ∃ s', While f o s s' := by
  generalize hk : max o.maxIter o.minIter - s.count = k
  induction k generalizing s with
  | zero =>
    refine ⟨s, .stop ?_⟩
    by_contra h
    have := condition_count (Bool.eq_true_of_not_eq_false h)
    omega
  | succ k ih =>
    by_cases h : condition f o s = true
    · obtain ⟨s', hs⟩ := ih (body f s) (by simp only [body]; omega)
      exact ⟨s', .step h hs⟩
    · exact ⟨s, .stop (Bool.eq_false_iff.2 h)⟩

theorem while_det {s s' : State} (h : While f o s s') : ∀ {t}, While f o s t → s' = t := by
  induction h with
  | stop h0 =>
    intro t ht
    cases ht with
    | stop _ => rfl
    | step h1 _ => rw [h0] at h1; cases h1
  | step h0 _ ih =>
    intro t ht
    cases ht with
    | stop h1 => rw [h0] at h1; cases h1
    | step _ h2 => exact ih h2

theorem while_final {s s' : State} (h : While f o s s') : condition f o s' = false := by
  induction h with
  | stop h => exact h
  | step _ _ ih => exact ih

theorem while_count {s s' : State} (h : While f o s s')
    (h0 : s.count ≤ max o.maxIter o.minIter) : s'.count ≤ max o.maxIter o.minIter := by
  induction h with
  | stop _ => exact h0
  | step hc _ ih => exact ih (condition_count hc)

/-- The loop invariant. -/
structure Inv (f : ℝ → ℝ) (a b : ℝ) (s : State) : Prop where
  width : |s.prev - s.next| * 2 ^ s.count = |a - b|
  prev_mem : s.prev ∈ uIcc a b
  next_mem : s.next ∈ uIcc a b
  sign : f a * f b ≤ 0 → f s.prev * f s.next ≤ 0

theorem mid_mem {a b x y : ℝ} (hx : x ∈ uIcc a b) (hy : y ∈ uIcc a b) :
    (x + y) / 2 ∈ uIcc a b := by
  rw [mem_uIcc] at *
  rcases le_total a b with h | h
  · have h1 : a ≤ x ∧ x ≤ b := hx.elim id (fun h2 => ⟨by linarith [h2.1], by linarith [h2.2]⟩)
    have h2 : a ≤ y ∧ y ≤ b := hy.elim id (fun h2 => ⟨by linarith [h2.1], by linarith [h2.2]⟩)
    exact Or.inl ⟨by linarith [h1.1, h2.1], by linarith [h1.2, h2.2]⟩
  · have h1 : b ≤ x ∧ x ≤ a := hx.elim (fun h2 => ⟨by linarith [h2.1], by linarith [h2.2]⟩) id
    have h2 : b ≤ y ∧ y ≤ a := hy.elim (fun h2 => ⟨by linarith [h2.1], by linarith [h2.2]⟩) id
    exact Or.inr ⟨by linarith [h1.1, h2.1], by linarith [h1.2, h2.2]⟩

theorem mul_nonpos_of_sign {u v w : ℝ} (h : Real.sign u = Real.sign w) (hv : v * w ≤ 0) :
    v * u ≤ 0 := by
  rcases lt_trichotomy w 0 with hw | rfl | hw
  · have hu : u < 0 := by
      rcases lt_trichotomy u 0 with hu | rfl | hu
      · exact hu
      · rw [Real.sign_of_neg hw, Real.sign_zero] at h; norm_num at h
      · rw [Real.sign_of_neg hw, Real.sign_of_pos hu] at h; norm_num at h
    nlinarith [mul_nonneg_of_nonpos_of_nonpos hw.le hw.le,
      (by by_contra hh; push Not at hh; nlinarith : (0 : ℝ) ≤ v)]
  · have hu : u = 0 := by
      rwa [Real.sign_zero, Real.sign_eq_zero_iff] at h
    simp [hu]
  · have hu : 0 < u := by
      rcases lt_trichotomy u 0 with hu | rfl | hu
      · rw [Real.sign_of_pos hw, Real.sign_of_neg hu] at h; norm_num at h
      · rw [Real.sign_of_pos hw, Real.sign_zero] at h; norm_num at h
      · exact hu
    have hv' : v ≤ 0 := by by_contra hh; push Not at hh; nlinarith
    nlinarith

theorem mul_nonpos_of_sign_ne {u w : ℝ} (h : Real.sign u ≠ Real.sign w) : w * u ≤ 0 := by
  by_contra hh
  push Not at hh
  rcases pos_and_pos_or_neg_and_neg_of_mul_pos hh with ⟨h1, h2⟩ | ⟨h1, h2⟩
  · exact h (by rw [Real.sign_of_pos h1, Real.sign_of_pos h2])
  · exact h (by rw [Real.sign_of_neg h1, Real.sign_of_neg h2])

theorem inv_body {a b : ℝ} {s : State} (h : Inv f a b s) : Inv f a b (body f s) := by
  have hw := h.width
  constructor
  · simp only [body]
    split_ifs
    · have : s.prev - (s.prev + s.next) / 2 = (s.prev - s.next) / 2 := by ring
      rw [this, abs_div, abs_two, pow_succ, ← hw]; ring
    · have : s.next - (s.prev + s.next) / 2 = -((s.prev - s.next) / 2) := by ring
      rw [this, abs_neg, abs_div, abs_two, pow_succ, ← hw]; ring
  · simp only [body]
    split_ifs
    · exact h.prev_mem
    · exact h.next_mem
  · exact mid_mem h.prev_mem h.next_mem
  · intro hab
    simp only [body]
    split_ifs with hs
    · exact mul_nonpos_of_sign hs (h.sign hab)
    · exact mul_nonpos_of_sign_ne hs

theorem while_inv {a b : ℝ} {s s' : State} (h : While f o s s') (hi : Inv f a b s) :
    Inv f a b s' := by
  induction h with
  | stop _ => exact hi
  | step _ _ ih => exact ih (inv_body hi)

theorem inv_start (a b : ℝ) : Inv f a b ⟨a, b, 0⟩ :=
  ⟨by simp, left_mem_uIcc, right_mem_uIcc, id⟩

/-- The value zero is attained between two points where the function has opposite signs. -/
theorem root_between {a b : ℝ} (hc : ContinuousOn f (uIcc a b)) (h : f a * f b ≤ 0) :
    ∃ x ∈ uIcc a b, f x = 0 := by
  have h0 : (0 : ℝ) ∈ uIcc (f a) (f b) := by
    rw [mem_uIcc]
    rcases le_total (f a) 0 with ha | ha <;> rcases le_total (f b) 0 with hb | hb
    · rcases mul_eq_zero.1 (le_antisymm h (mul_nonneg_of_nonpos_of_nonpos ha hb)) with h2 | h2
      · right; exact ⟨hb, h2.ge⟩
      · left; exact ⟨ha, h2.ge⟩
    · exact Or.inl ⟨ha, hb⟩
    · exact Or.inr ⟨hb, ha⟩
    · rcases mul_eq_zero.1 (le_antisymm h (mul_nonneg ha hb)) with h2 | h2
      · left; exact ⟨h2.le, hb⟩
      · right; exact ⟨h2.le, ha⟩
  obtain ⟨x, hx, hfx⟩ := intermediate_value_uIcc hc h0
  exact ⟨x, hx, hfx⟩

/-- C10.  Bisection returns, with one result, after at least `minIter` and at most
`max maxIter minIter` iterations, a point between the bounds. -/
theorem bisection_returns (f : ℝ → ℝ) (o : Options) (a b : ℝ) :
    ∃ x n, Returns f o a b x n ∧ (∀ x' n', Returns f o a b x' n' → x' = x ∧ n' = n) ∧
      o.minIter ≤ n ∧ n ≤ max o.maxIter o.minIter ∧ x ∈ uIcc a b := by
  obtain ⟨s, hs⟩ := while_total (f := f) (o := o) ⟨a, b, 0⟩
  have hf := while_final hs
  simp only [condition, Bool.or_eq_false_iff, decide_eq_false_iff_not, not_lt] at hf
  refine ⟨s.next, s.count, ⟨s, hs, rfl, rfl⟩, ?_, hf.2, while_count hs (Nat.zero_le _),
    (while_inv hs (inv_start a b)).next_mem⟩
  rintro x n ⟨t, ht, rfl, rfl⟩
  rw [while_det hs ht]
  exact ⟨rfl, rfl⟩

/-- C10.  If a continuous function changes its sign between the bounds (given in either order), the
returned point is within `|b - a| / 2^n` of a root between the bounds, where `n` is the returned
number of iterations. -/
theorem bisection_encloses_root (f : ℝ → ℝ) (o : Options) (a b x : ℝ) (n : ℕ)
    (hc : ContinuousOn f (uIcc a b)) (hs : f a * f b ≤ 0) (h : Returns f o a b x n) :
    ∃ r ∈ uIcc a b, f r = 0 ∧ |x - r| ≤ |b - a| / 2 ^ n := by
  obtain ⟨s, hw, rfl, rfl⟩ := h
  have hi := while_inv hw (inv_start a b)
  have hsub : uIcc s.prev s.next ⊆ uIcc a b := uIcc_subset_uIcc hi.prev_mem hi.next_mem
  obtain ⟨r, hr, hfr⟩ := root_between (hc.mono hsub) (hi.sign hs)
  refine ⟨r, hsub hr, hfr, ?_⟩
  rw [le_div_iff₀ (by positivity), abs_sub_comm b a, ← hi.width]
  refine mul_le_mul_of_nonneg_right ?_ (by positivity)
  rw [uIcc_comm] at hr
  rw [abs_sub_comm]
  exact abs_sub_left_of_mem_uIcc hr

/-- C10.  When bisection stops before `maxIter` iterations, the function is at most `tolerance` at
the returned point or the root is at most `tolerance` away. -/
theorem bisection_accuracy (f : ℝ → ℝ) (o : Options) (a b x : ℝ) (n : ℕ)
    (hc : ContinuousOn f (uIcc a b)) (hs : f a * f b ≤ 0) (h : Returns f o a b x n)
    (hn : n < o.maxIter) :
    |f x| ≤ o.tolerance ∨ ∃ r ∈ uIcc a b, f r = 0 ∧ |x - r| ≤ o.tolerance := by
  obtain ⟨s, hw, rfl, rfl⟩ := h
  have hi := while_inv hw (inv_start a b)
  have hf := while_final hw
  simp only [condition, Bool.or_eq_false_iff, Bool.and_eq_false_iff, decide_eq_false_iff_not,
    not_lt, gt_iff_lt] at hf
  rcases hf.1 with (h1 | h1) | h1
  · omega
  · exact Or.inl h1
  · right
    have hsub : uIcc s.prev s.next ⊆ uIcc a b := uIcc_subset_uIcc hi.prev_mem hi.next_mem
    obtain ⟨r, hr, hfr⟩ := root_between (hc.mono hsub) (hi.sign hs)
    refine ⟨r, hsub hr, hfr, le_trans ?_ h1⟩
    rw [abs_sub_comm s.next r]
    rw [uIcc_comm] at hr
    exact abs_sub_left_of_mem_uIcc hr

/-- C10.  It is enough to ask for `log2(width / tolerance)` iterations: if `2^n * tolerance` is at
least the distance of the bounds, the root is found to within the tolerance. -/
theorem bisection_rate (f : ℝ → ℝ) (o : Options) (a b x : ℝ) (n : ℕ)
    (hc : ContinuousOn f (uIcc a b)) (hs : f a * f b ≤ 0) (h : Returns f o a b x n) (ε : ℝ)
    (hε : |b - a| ≤ 2 ^ o.minIter * ε) : ∃ r ∈ uIcc a b, f r = 0 ∧ |x - r| ≤ ε := by
  obtain ⟨r, hr, hfr, hd⟩ := bisection_encloses_root f o a b x n hc hs h
  refine ⟨r, hr, hfr, hd.trans ?_⟩
  have hmin : o.minIter ≤ n := by
    obtain ⟨x', n', -, h1, h2, -⟩ := bisection_returns f o a b
    rw [(h1 x n h).2]; exact h2
  rw [div_le_iff₀ (by positivity), mul_comm ε]
  refine hε.trans (mul_le_mul_of_nonneg_right (pow_le_pow_right₀ (by norm_num) hmin) ?_)
  by_contra hh
  push Not at hh
  have : (2 : ℝ) ^ o.minIter * ε < 0 := mul_neg_of_pos_of_neg (by positivity) hh
  linarith [abs_nonneg (b - a)]

/-- The hypotheses are met by `x³ - 2` on `[0, 2]`, which has no rational root. -/
example : ContinuousOn (fun x : ℝ => x ^ 3 - 2) (uIcc 0 2) ∧
    ((0 : ℝ) ^ 3 - 2) * ((2 : ℝ) ^ 3 - 2) ≤ 0 ∧
    ∃ x n, Returns (fun x : ℝ => x ^ 3 - 2) ⟨1 / 10000, 10000, 100⟩ 0 2 x n := by
  refine ⟨by fun_prop, by norm_num, ?_⟩
  obtain ⟨x, n, h, -⟩ := bisection_returns (fun x : ℝ => x ^ 3 - 2) ⟨1 / 10000, 10000, 100⟩ 0 2
  exact ⟨_, _, h⟩

end Verif.Bisection
