/-
Property C73: the search for extrema with the secant method, `secant_extrema_finding`, and the temperature found
with it.
-/
import Verif.Props.ItcfGrid
import Mathlib.Analysis.Calculus.Deriv.Pow
import Mathlib.Analysis.Calculus.Deriv.Add
import Mathlib.Analysis.Calculus.Deriv.Mul
import Mathlib.Tactic.Linarith

set_option autoImplicit false

namespace Verif.Itcf

open Real

variable {f : ℝ → ℝ} {xmin xmax tol : ℝ} {maxIter : ℕ}

theorem cond_true {s : ℝ × ℝ × ℕ} : secantCond f tol maxIter s = true ↔ tol ≤ |f s.1 - f s.2.1| ∧ s.2.2 < maxIter := by
  unfold secantCond
  simp

theorem cond_false {s : ℝ × ℝ × ℕ} : secantCond f tol maxIter s = false ↔ |f s.1 - f s.2.1| < tol ∨ maxIter ≤ s.2.2 := by
  unfold secantCond
  rw [Bool.and_eq_false_iff]
  simp

/-! ### The loop ends, with one result -/

theorem while_exists (f : ℝ → ℝ) (xmin xmax tol : ℝ) (maxIter : ℕ) : ∀ (n : ℕ) (s : ℝ × ℝ × ℕ), maxIter - s.2.2 = n →
    ∃ t, SecantWhile f xmin xmax tol maxIter s t := by
  intro n
  induction n with
  | zero =>
    intro s hs
    exact ⟨s, .stop (cond_false.2 (Or.inr (by omega)))⟩
  | succ n ih =>
    intro s hs
    cases hc : secantCond f tol maxIter s with
    | false => exact ⟨s, .stop hc⟩
    | true =>
      obtain ⟨t, ht⟩ := ih (secantBody f xmin xmax s) (by simp only [secantBody]; omega)
      exact ⟨t, .step hc ht⟩

theorem while_unique {s t u : ℝ × ℝ × ℕ} (ht : SecantWhile f xmin xmax tol maxIter s t) (hu : SecantWhile f xmin xmax tol maxIter s u) : t = u := by
  induction ht with
  | stop hc =>
    cases hu with
    | stop _ => rfl
    | step hc' _ => rw [hc] at hc'; exact absurd hc' (by simp)
  | step hc _ ih =>
    cases hu with
    | stop hc' => rw [hc] at hc'; exact absurd hc' (by simp)
    | step _ h => exact ih h

theorem while_invariant {P : ℝ × ℝ × ℕ → Prop} (hstep : ∀ s, secantCond f tol maxIter s = true → P s → P (secantBody f xmin xmax s))
    {s t : ℝ × ℝ × ℕ} (h : SecantWhile f xmin xmax tol maxIter s t) : P s → P t ∧ secantCond f tol maxIter t = false := by
  induction h with
  | stop hc => exact fun hp => ⟨hp, hc⟩
  | step hc _ ih => exact fun hp => ih (hstep _ hc hp)

/-- C73: the function returns, with exactly one result. -/
theorem secant_returns (func : ℝ → ℝ) (xmin xmax tol : ℝ) (maxIter : ℕ) : ∃! r : ℝ × ℕ, Secant func xmin xmax tol maxIter r.1 r.2 := by
  obtain ⟨t, ht⟩ := while_exists (deriv func) xmin xmax tol maxIter _ ((xmin + xmax) / 2, xmax, 0) rfl
  refine ⟨(t.2.1, t.2.2), ⟨t, ht, rfl, rfl⟩, ?_⟩
  rintro ⟨x, i⟩ ⟨u, hu, h1, h2⟩
  have := while_unique ht hu
  subst this
  simp only at h1 h2
  rw [h1, h2]

/-- C73: the result lies between the bounds, and the number of iterations is not exceeded. -/
theorem secant_range {func : ℝ → ℝ} (hb : xmin ≤ xmax) {x : ℝ} {i : ℕ} (h : Secant func xmin xmax tol maxIter x i) :
    xmin ≤ x ∧ x ≤ xmax ∧ i ≤ maxIter := by
  obtain ⟨t, ht, rfl, rfl⟩ := h
  refine (while_invariant (P := fun s => xmin ≤ s.2.1 ∧ s.2.1 ≤ xmax ∧ s.2.2 ≤ maxIter) ?_ ht ⟨hb, le_rfl, Nat.zero_le _⟩).1
  intro s hc _
  have := (cond_true.1 hc).2
  refine ⟨?_, min_le_right _ _, this⟩
  exact le_min (le_max_right _ _) hb

/-- C73: no division by zero in the loop. -/
theorem secant_denominator (ht : 0 < tol) {s : ℝ × ℝ × ℕ} (h : secantCond f tol maxIter s = true) : f s.2.1 - f s.1 ≠ 0 := by
  have := (cond_true.1 h).1
  intro h0
  rw [abs_sub_comm, h0, abs_zero] at this
  linarith

/-! ### Accuracy -/

/-- C73: if the loop stops before the maximal number of iterations, the result is close to the extremum,
for all gradients which grow at least with the rate `m`, at most with the rate `L`, and have a root between the bounds.
(Partial: for gradients that grow with rates between `m` and `L`, and if the loop stops before the maximal number of iterations; it fails without a lower bound on the rate, see `secant_small_scale`.) -/
theorem secant_accurate_partial {func : ℝ → ℝ} {m L xs : ℝ} (hm : 0 < m) (htol : 0 < tol)
    (hlow : ∀ x y, x ≤ y → m * (y - x) ≤ deriv func y - deriv func x) (hup : ∀ x y, x ≤ y → deriv func y - deriv func x ≤ L * (y - x))
    (hroot : deriv func xs = 0) (h1 : xmin ≤ xs) (h2 : xs ≤ xmax) {x : ℝ} {i : ℕ} (h : Secant func xmin xmax tol maxIter x i) (hi : i < maxIter) :
    |x - xs| ≤ tol * (L / m ^ 2 + 2 / m) := by
  generalize hg : deriv func = g at *
  have hmL : m ≤ L := by
    have a := hlow 0 1 zero_le_one
    have b := hup 0 1 zero_le_one
    linarith
  have hL : 0 < L := lt_of_lt_of_le hm hmL
  have hdist : ∀ x y, m * |y - x| ≤ |g y - g x| := by
    intro x y
    rcases le_total x y with hxy | hxy
    · rw [abs_of_nonneg (by linarith : 0 ≤ y - x)]
      exact (hlow x y hxy).trans (le_abs_self _)
    · rw [abs_of_nonpos (by linarith : y - x ≤ 0), abs_sub_comm, neg_sub]
      exact (hlow y x hxy).trans (le_abs_self _)
  obtain ⟨t, ht, rfl, rfl⟩ := h
  rw [hg] at ht
  -- the invariant
  have hinv := while_invariant (f := g) (xmin := xmin) (xmax := xmax) (tol := tol) (maxIter := maxIter)
    (P := fun s => (s = ((xmin + xmax) / 2, xmax, 0)) ∨ ∃ xm, g xm ≠ g s.1 ∧
      s.2.1 = min (max (s.1 - g s.1 * (s.1 - xm) / (g s.1 - g xm)) xmin) xmax) ?_ ht (Or.inl rfl)
  · obtain ⟨hP, hc⟩ := hinv
    have hstop : |g t.1 - g t.2.1| < tol := by
      rcases cond_false.1 hc with h | h
      · exact h
      · omega
    have hclose : |t.1 - t.2.1| < tol / m := by
      rw [lt_div_iff₀ hm, mul_comm]
      exact lt_of_le_of_lt (hdist _ _) hstop
    have htm : 0 < tol / m := div_pos htol hm
    have hgoal : tol * (L / m ^ 2 + 2 / m) = tol * L / m ^ 2 + 2 * (tol / m) := by ring
    rw [hgoal]
    have hpos : 0 < tol * L / m ^ 2 := by positivity
    rcases hP with rfl | ⟨xm, hne, hx⟩
    · simp only at hclose ⊢
      rw [abs_lt] at hclose
      rw [abs_le]
      constructor <;> linarith [hclose.1]
    · generalize t.1 = a at *
      generalize t.2.1 = b at *
      rw [abs_lt] at hclose
      have hne' : g a - g xm ≠ 0 := sub_ne_zero.2 (Ne.symm hne)
      -- the reciprocal slope
      obtain ⟨q, hq⟩ : ∃ q, q = (a - xm) / (g a - g xm) := ⟨_, rfl⟩
      have hq1 : 1 / L ≤ q := by
        rw [hq]
        rcases le_total xm a with hxa | hxa
        · have hl := hlow xm a hxa
          have hu := hup xm a hxa
          have hp : 0 < g a - g xm := lt_of_le_of_ne (le_trans (mul_nonneg hm.le (by linarith)) hl) (Ne.symm hne')
          rw [div_le_div_iff₀ hL hp]
          linarith
        · have hl := hlow a xm hxa
          have hu := hup a xm hxa
          have hp : g a - g xm < 0 := lt_of_le_of_ne (by linarith [mul_nonneg hm.le (by linarith : 0 ≤ xm - a)]) hne'
          rw [← neg_div_neg_eq (a - xm), div_le_div_iff₀ hL (by linarith)]
          linarith
      have hq0 : 0 < q := lt_of_lt_of_le (by positivity) hq1
      have hx' : b = min (max (a - g a * q) xmin) xmax := by rw [hx, hq, mul_div_assoc]
      -- three cases
      rcases lt_trichotomy (g a) 0 with hneg | hzero | hposa
      · -- left of the root
        have hax : a < xs := by
          by_contra hcon
          have := hlow xs a (not_lt.1 hcon)
          rw [hroot] at this
          have := mul_nonneg hm.le (by linarith [not_lt.1 hcon] : 0 ≤ a - xs)
          linarith
        have hb' : min (a - g a * q) xmax ≤ b := by rw [hx']; exact min_le_min_right _ (le_max_left _ _)
        have hstep : g a * q ≤ 0 := mul_nonpos_of_nonpos_of_nonneg hneg.le hq0.le
        rcases le_total (a - g a * q) xmax with hle | hle
        · rw [min_eq_left hle] at hb'
          -- the gradient is small
          have hga : -(g a) / L ≤ b - a := by
            have : -(g a) * (1 / L) ≤ -(g a) * q := mul_le_mul_of_nonneg_left hq1 (by linarith)
            have e : -(g a) / L = -(g a) * (1 / L) := by ring
            linarith
          have hga2 : -(g a) < tol * L / m := by
            have h3 : -(g a) / L < tol / m := by linarith [hclose.1]
            rw [div_lt_iff₀ hL] at h3
            have e : tol / m * L = tol * L / m := by ring
            linarith
          have hdx := hlow a xs hax.le
          rw [hroot] at hdx
          have hdx2 : xs - a ≤ tol * L / m ^ 2 := by
            have h4 : m * (xs - a) ≤ tol * L / m := by linarith
            rw [le_div_iff₀ (by positivity)]
            rw [le_div_iff₀ hm] at h4
            calc (xs - a) * m ^ 2 = m * (xs - a) * m := by ring
              _ ≤ tol * L := h4
          rw [abs_le]
          constructor <;> linarith [hclose.1, hclose.2]
        · rw [min_eq_right hle] at hb'
          rw [abs_le]
          constructor <;> linarith [hclose.1, hclose.2]
      · -- the root
        have hax : a = xs := by
          have := hdist xs a
          rw [hroot, hzero, sub_zero, abs_zero] at this
          have h5 : |a - xs| ≤ 0 := by
            by_contra hcon
            exact absurd this (not_le.2 (mul_pos hm (not_le.1 hcon)))
          exact sub_eq_zero.1 (abs_nonpos_iff.1 h5)
        rw [abs_le]
        constructor <;> linarith [hclose.1, hclose.2]
      · -- right of the root
        have hax : xs < a := by
          by_contra hcon
          have := hlow a xs (not_lt.1 hcon)
          rw [hroot] at this
          have := mul_nonneg hm.le (by linarith [not_lt.1 hcon] : 0 ≤ xs - a)
          linarith
        have hb' : b ≤ max (a - g a * q) xmin := by rw [hx']; exact min_le_left _ _
        have hstep : 0 ≤ g a * q := (mul_pos hposa hq0).le
        rcases le_total (a - g a * q) xmin with hle | hle
        · rw [max_eq_right hle] at hb'
          rw [abs_le]
          constructor <;> linarith [hclose.1, hclose.2]
        · rw [max_eq_left hle] at hb'
          have hga : (g a) / L ≤ a - b := by
            have : (g a) * (1 / L) ≤ (g a) * q := mul_le_mul_of_nonneg_left hq1 hposa.le
            have e : (g a) / L = (g a) * (1 / L) := by ring
            linarith
          have hga2 : g a < tol * L / m := by
            have h3 : (g a) / L < tol / m := by linarith [hclose.2]
            rw [div_lt_iff₀ hL] at h3
            have e : tol / m * L = tol * L / m := by ring
            linarith
          have hdx := hlow xs a hax.le
          rw [hroot] at hdx
          have hdx2 : a - xs ≤ tol * L / m ^ 2 := by
            have h4 : m * (a - xs) ≤ tol * L / m := by linarith
            rw [le_div_iff₀ (by positivity)]
            rw [le_div_iff₀ hm] at h4
            calc (a - xs) * m ^ 2 = m * (a - xs) * m := by ring
              _ ≤ tol * L := h4
          rw [abs_le]
          constructor <;> linarith [hclose.1, hclose.2]
  · intro s hc _
    refine Or.inr ⟨s.1, ?_, rfl⟩
    have := secant_denominator htol hc
    intro h0
    simp only [secantBody] at h0
    exact this (by rw [h0, sub_self])

/-- C73: a parabola with its extremum between the bounds.  The extremum is found exactly, in at most two iterations, if
the gradients at the first two positions differ by the tolerance. -/
theorem secant_parabola {a xs : ℝ} (htol : 0 < tol) (h1 : xmin ≤ xs) (h2 : xs ≤ xmax) (hmax : 2 ≤ maxIter)
    (hbig : tol ≤ |a| * ((xmax - xmin) / 2)) : ∃ i ≤ 2, Secant (fun x => a * (x - xs) ^ 2 / 2) xmin xmax tol maxIter xs i := by
  have hd : deriv (fun x : ℝ => a * (x - xs) ^ 2 / 2) = fun x => a * (x - xs) := by
    funext x
    have := ((((hasDerivAt_id x).sub_const xs).pow 2).const_mul a).div_const 2
    have h3 := this.deriv
    simp only [id, Pi.pow_apply] at h3
    refine Eq.trans ?_ (h3.trans ?_)
    · rfl
    · push_cast; ring
  have ha : a ≠ 0 := by rintro rfl; rw [abs_zero, zero_mul] at hbig; linarith
  have hx : xmin < xmax := by
    by_contra hcon
    have := mul_nonneg (abs_nonneg a) (by linarith [not_lt.1 hcon] : 0 ≤ -((xmax - xmin) / 2))
    linarith
  have hnext : ∀ x y : ℝ, x ≠ y → ∀ n, secantBody (fun x => a * (x - xs)) xmin xmax (x, y, n) = (y, xs, n + 1) := by
    intro x y hxy n
    have e : y - a * (y - xs) * (y - x) / (a * (y - xs) - a * (x - xs)) = xs := by
      have : a * (y - xs) - a * (x - xs) = a * (y - x) := by ring
      rw [this]
      have hyx : y - x ≠ 0 := sub_ne_zero.2 (Ne.symm hxy)
      field_simp
      ring
    simp only [secantBody, e, max_eq_left h1, min_eq_left h2]
  have hc0 : secantCond (fun x => a * (x - xs)) tol maxIter ((xmin + xmax) / 2, xmax, 0) = true := by
    refine cond_true.2 ⟨?_, show 0 < maxIter by omega⟩
    simp only
    have : a * ((xmin + xmax) / 2 - xs) - a * (xmax - xs) = -(a * ((xmax - xmin) / 2)) := by ring
    rw [this, abs_neg, abs_mul, abs_of_pos (by linarith : 0 < (xmax - xmin) / 2)]
    exact hbig
  unfold Secant
  rw [hd]
  cases hc1 : secantCond (fun x => a * (x - xs)) tol maxIter (xmax, xs, 0 + 1) with
  | false =>
    refine ⟨1, by norm_num, (xmax, xs, 0 + 1), .step hc0 ?_, rfl, rfl⟩
    rw [hnext _ _ (by linarith)]
    exact .stop hc1
  | true =>
    have hne : xmax ≠ xs := by
      intro h0
      have := (cond_true.1 hc1).1
      simp only [h0, sub_self, abs_zero] at this
      linarith
    refine ⟨2, le_rfl, (xs, xs, 0 + 1 + 1), .step hc0 ?_, rfl, rfl⟩
    rw [hnext _ _ (by linarith)]
    refine .step hc1 ?_
    rw [hnext _ _ hne]
    refine .stop (cond_false.2 (Or.inl ?_))
    simpa using htol

/-- A case for the theorems above, with the tolerance of the code: the example of its documentation. -/
example : ∃ i ≤ 2, Secant (fun x => 2 * (x - 2) ^ 2 / 2) 0 4 (1 / 10000000) 100000 2 i :=
  secant_parabola (by norm_num) (by norm_num) (by norm_num) (by norm_num) (by norm_num [abs_of_pos])

/-! ### Where it fails -/

/-- C73, where it fails: if the gradients at the middle and at the upper bound differ by less than the tolerance, the
upper bound is returned, after no iteration. -/
theorem secant_stops_at_once {func : ℝ → ℝ} (h : |deriv func ((xmin + xmax) / 2) - deriv func xmax| < tol) {x : ℝ} {i : ℕ} :
    Secant func xmin xmax tol maxIter x i ↔ x = xmax ∧ i = 0 := by
  have hstop : SecantWhile (deriv func) xmin xmax tol maxIter ((xmin + xmax) / 2, xmax, 0) ((xmin + xmax) / 2, xmax, 0) :=
    .stop (cond_false.2 (Or.inl h))
  constructor
  · rintro ⟨t, ht, rfl, rfl⟩
    rw [← while_unique hstop ht]
    exact ⟨rfl, rfl⟩
  · rintro ⟨rfl, rfl⟩
    exact ⟨_, hstop, rfl, rfl⟩

/-- C73, where it fails: a flat parabola.  It has its only extremum at two, and the upper bound is returned. -/
theorem flat_parabola : Secant (fun x => 1 / 100000000 * (x - 2) ^ 2 / 2) 0 4 (1 / 10000000) 100000 4 0 := by
  refine (secant_stops_at_once ?_).2 ⟨rfl, rfl⟩
  have hd : ∀ x, deriv (fun x : ℝ => 1 / 100000000 * (x - 2) ^ 2 / 2) x = 1 / 100000000 * (x - 2) := by
    intro x
    have := ((((hasDerivAt_id x).sub_const 2).pow 2).const_mul (1 / 100000000 : ℝ)).div_const 2
    have h3 := this.deriv
    simp only [id, Pi.pow_apply] at h3
    refine Eq.trans ?_ (h3.trans ?_)
    · rfl
    · push_cast; ring
  rw [hd, hd]
  norm_num [abs_of_pos, abs_of_neg]

/-- C73, where it fails: for every function, on every interval, the upper bound is returned after scaling the
function with a small number. -/
theorem secant_small_scale (func : ℝ → ℝ) (hd : Differentiable ℝ func) (xmin xmax : ℝ) (htol : 0 < tol) (maxIter : ℕ) :
    ∃ a0 > 0, ∀ a, |a| < a0 → Secant (fun x => a * func x) xmin xmax tol maxIter xmax 0 := by
  refine ⟨tol / (|deriv func ((xmin + xmax) / 2) - deriv func xmax| + 1), by positivity, fun a ha => ?_⟩
  refine (secant_stops_at_once ?_).2 ⟨rfl, rfl⟩
  rw [deriv_const_mul _ (hd _), deriv_const_mul _ (hd _), ← mul_sub, abs_mul]
  rw [lt_div_iff₀ (by positivity)] at ha
  have := abs_nonneg a
  nlinarith

theorem laplace_differentiable (hbar : ℝ) (d : List (ℝ × ℝ)) (a b : ℝ) : Differentiable ℝ (fun tau => laplace hbar d tau a b) := by
  have hk : ∀ x, Differentiable ℝ (fun tau => cutKernel hbar d tau a b x) := by
    intro x
    unfold cutKernel
    split_ifs
    · have h1 : Differentiable ℝ (fun tau : ℝ => -tau * x) := (differentiable_id.neg).mul_const x
      exact (h1.exp.const_mul (value d x)).div_const hbar
    · exact differentiable_const 0
  simp only [laplace_eq]
  refine Differentiable.fun_sum fun i _ => ?_
  exact (((hk _).fun_add (hk _)).const_mul _).div_const 2

/-- C73, where it fails: the temperature from `ITCF.get_T` depends on the unit of the intensity.  For every spectrum on a grid (which
vanishes at its ends, with the cut beyond them), every weak enough one with the same shape gets the temperature of a spectrum
with the minimum at `tau_max`, whatever `tau_max` is. -/
theorem get_T_of_weak_spectrum {h hbar kB : ℝ} (hh : 0 < h) {N : ℕ} {f : ℤ → ℝ} (hf : f (-N) = 0 ∧ f N = 0) {c : ℝ} (hc : N * h + small ≤ c)
    (tauMax : ℝ) : ∃ a0 > 0, ∀ a, |a| < a0 →
      ITCF.GetT ⟨gridData h N fun k => a * f k, [], c, true⟩ hbar kB tauMax (1 / (2 * tauMax * kB)) := by
  have hdiff : Differentiable ℝ (fun t : ℝ => laplace hbar (gridData h N f) (t / 1000) (-c) c) :=
    (laplace_differentiable hbar (gridData h N f) (-c) c).comp (differentiable_id.div_const 1000)
  obtain ⟨a0, ha0, hs⟩ := secant_small_scale _ hdiff (1 / 100000000) (1000 * tauMax) (tol := 1 / 10000000) (by norm_num) 100000
  refine ⟨a0, ha0, fun a ha => ⟨1000 * tauMax, 0, ?_, ?_⟩⟩
  · have := hs a ha
    have e : (fun t : ℝ => ITCF.F ⟨gridData h N fun k => a * f k, [], c, true⟩ hbar (t / 1000)) =
        fun t => a * laplace hbar (gridData h N f) (t / 1000) (-c) c := by
      funext t
      unfold ITCF.F
      simp only [if_true]
      rw [laplace_grid hh hf hc, laplace_grid hh (f := fun k => a * f k) ⟨by simp [hf.1], by simp [hf.2]⟩ hc]
      simp only [mul_assoc]
      rw [← Finset.mul_sum]
      ring
    rw [e]
    exact this
  · congr 2
    ring

end Verif.Itcf
