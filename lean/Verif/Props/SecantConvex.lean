/-
Property C73: the search for extrema comes to an end before the maximal number of iterations if the
gradient is convex above the extremum, and what this means for the temperature.
-/
import Verif.Props.Secant
import Mathlib.Analysis.Convex.Deriv
import Mathlib.Analysis.SpecialFunctions.Trigonometric.DerivHyp
import Mathlib.Analysis.SpecialFunctions.Trigonometric.Series

set_option autoImplicit false

namespace Verif.Itcf

open Real Set

variable {xmin xmax tol : ℝ} {maxIter : ℕ}

/-- One step of the search, from two points above the extremum. -/
theorem secant_step {g : ℝ → ℝ} {xs m L a b : ℝ} (hconv : ConvexOn ℝ (Icc xs xmax) g)
    (hm : 0 < m) (hlow : ∀ x ∈ Icc xs xmax, ∀ y ∈ Icc xs xmax, x ≤ y → m * (y - x) ≤ g y - g x)
    (hup : ∀ x ∈ Icc xs xmax, ∀ y ∈ Icc xs xmax, x ≤ y → g y - g x ≤ L * (y - x))
    (hroot : g xs = 0) (ha : a ∈ Icc xs xmax) (hb : b ∈ Icc xs xmax) (hab : a ≠ b) :
    xs ≤ b - g b * (b - a) / (g b - g a) ∧ b - g b * (b - a) / (g b - g a) ≤ b ∧
      g b ≤ L * (b - (b - g b * (b - a) / (g b - g a))) := by
  have hxs : xs ∈ Icc xs xmax := ⟨le_rfl, ha.1.trans ha.2⟩
  have hgb : 0 ≤ g b := by
    have := hlow xs hxs b hb hb.1
    rw [hroot] at this
    have := mul_nonneg hm.le (sub_nonneg.2 hb.1)
    linarith
  -- the slope
  obtain ⟨s, hs0, hsL, hsg⟩ : ∃ s, 0 < s ∧ s ≤ L ∧ g b - g a = s * (b - a) := by
    rcases lt_or_gt_of_ne hab with h | h
    · refine ⟨(g b - g a) / (b - a), ?_, ?_, ?_⟩
      · have := hlow a ha b hb h.le
        have hd : 0 < b - a := by linarith
        have : 0 < m * (b - a) := by positivity
        exact div_pos (by linarith) hd
      · rw [div_le_iff₀ (by linarith)]
        exact hup a ha b hb h.le
      · have : b - a ≠ 0 := by linarith
        field_simp
    · refine ⟨(g b - g a) / (b - a), ?_, ?_, ?_⟩
      · have := hlow b hb a ha h.le
        have hd : 0 < a - b := by linarith
        have : 0 < m * (a - b) := by positivity
        exact div_pos_of_neg_of_neg (by linarith) (by linarith)
      · rw [div_le_iff_of_neg (by linarith)]
        have := hup b hb a ha h.le
        linarith
      · have : b - a ≠ 0 := by linarith
        field_simp
  have hba : b - a ≠ 0 := sub_ne_zero.2 hab.symm
  have e : g b * (b - a) / (g b - g a) = g b / s := by
    rw [hsg]
    field_simp
  rw [e]
  refine ⟨?_, ?_, ?_⟩
  · -- the chord to the root is not steeper
    rcases hb.1.eq_or_lt with h | h
    · rw [← h, hroot]
      simp
    · have hsl : g b ≤ s * (b - xs) := by
        rcases ha.1.eq_or_lt with h2 | h2
        · rw [← h2, hroot, sub_zero] at hsg
          rw [hsg]
        · have hd : 0 < b - xs := by linarith
          have := hconv.secant_mono hb hxs ha h.ne hab h2.le
          rw [hroot, zero_sub] at this
          have e1 : -g b / (xs - b) = g b / (b - xs) := by
            rw [← neg_sub b xs, div_neg, neg_div, neg_neg]
          have e2 : (g a - g b) / (a - b) = s := by
            rw [← neg_sub b a, ← neg_sub (g b), neg_div_neg_eq, hsg]
            field_simp
          rw [e1, e2, div_le_iff₀ hd] at this
          exact this
      have : g b / s ≤ b - xs := by
        rw [div_le_iff₀ hs0]
        linarith
      linarith
  · have : 0 ≤ g b / s := by positivity
    linarith
  · have : b - (b - g b / s) = g b / s := by ring
    rw [this]
    have h1 : 0 ≤ g b / s := by positivity
    calc g b = s * (g b / s) := by field_simp
      _ ≤ _ := mul_le_mul_of_nonneg_right hsL h1

/-- C73: if the gradient is convex above the extremum, and the extremum lies in the lower half of the
interval, the distance to the extremum shrinks in every iteration at least by the factor `1 - m / L`, so that
the number of iterations is logarithmic in the tolerance, and the result is close to the extremum.  (Partial: for these gradients; the property is false without a lower bound on the rate of
growth, see `secant_small_scale`.) -/
theorem secant_convex_partial {func : ℝ → ℝ} {xs m L : ℝ} (htol : 0 < tol)
    (hconv : ConvexOn ℝ (Icc xs xmax) (deriv func)) (hm : 0 < m)
    (hlow : ∀ x ∈ Icc xs xmax, ∀ y ∈ Icc xs xmax, x ≤ y → m * (y - x) ≤ deriv func y - deriv func x)
    (hup : ∀ x ∈ Icc xs xmax, ∀ y ∈ Icc xs xmax, x ≤ y → deriv func y - deriv func x ≤ L * (y - x))
    (hroot : deriv func xs = 0) (hmin : xmin ≤ xs) (hmid : xs ≤ (xmin + xmax) / 2) (hlt : xmin < xmax)
    {n : ℕ} (hn : L * ((1 - m / L) ^ n * (xmax - xs)) < tol) (hmax : n + 1 < maxIter) {x : ℝ} {i : ℕ}
    (h : Secant func xmin xmax tol maxIter x i) :
    i ≤ n + 1 ∧ xs ≤ x ∧ x - xs ≤ tol * (L / m ^ 2 + 2 / m) := by
  obtain ⟨t, ht, rfl, rfl⟩ := h
  generalize deriv func = g at *
  have hxs : xs ∈ Icc xs xmax := ⟨le_rfl, by linarith⟩
  have hend : xmax ∈ Icc xs xmax := ⟨by linarith, le_rfl⟩
  have hmidm : (xmin + xmax) / 2 ∈ Icc xs xmax := ⟨hmid, by linarith⟩
  have hmL : m ≤ L := by
    have a := hlow xs hxs xmax hend hend.1
    have b := hup xs hxs xmax hend hend.1
    have : 0 < xmax - xs := by linarith
    by_contra hcon
    push Not at hcon
    nlinarith
  have hL : 0 < L := hm.trans_le hmL
  have hq0 : 0 ≤ 1 - m / L := by
    have : m / L ≤ 1 := (div_le_one hL).2 hmL
    linarith
  have hq1 : 1 - m / L ≤ 1 := by
    have : 0 < m / L := by positivity
    linarith
  have hD : 0 ≤ xmax - xs := by linarith
  have hnn : ∀ y ∈ Icc xs xmax, m * (y - xs) ≤ g y := by
    intro y hy
    have := hlow xs hxs y hy hy.1
    rw [hroot, sub_zero] at this
    exact this
  have hg0 : ∀ y ∈ Icc xs xmax, 0 ≤ g y := fun y hy =>
    (mul_nonneg hm.le (sub_nonneg.2 hy.1)).trans (hnn y hy)
  have clip : ∀ y, xs ≤ y → y ≤ xmax → min (max y xmin) xmax = y := by
    intro y h1 h2
    rw [max_eq_left (hmin.trans h1), min_eq_left h2]
  have shrink : ∀ b c : ℝ, b ∈ Icc xs xmax → g b ≤ L * (b - c) → c - xs ≤ (1 - m / L) * (b - xs) := by
    intro b c hb h
    have h1 := hnn b hb
    have h2 : m / L * (b - xs) ≤ b - c := by
      rw [div_mul_eq_mul_div, div_le_iff₀ hL]
      linarith
    linarith
  obtain ⟨hP, hc⟩ := while_invariant (P := fun s : ℝ × ℝ × ℕ => s = ((xmin + xmax) / 2, xmax, 0) ∨
    (1 ≤ s.2.2 ∧ s.1 ∈ Icc xs xmax ∧ s.2.1 ∈ Icc xs xmax ∧ s.2.1 ≤ s.1 ∧
      g s.1 ≤ L * (s.1 - s.2.1) ∧ s.1 - xs ≤ (1 - m / L) ^ (s.2.2 - 1) * (xmax - xs) ∧
      (2 ≤ s.2.2 → tol ≤ L * ((1 - m / L) ^ (s.2.2 - 2) * (xmax - xs))))) (f := g) (xmin := xmin)
    (xmax := xmax) (tol := tol) (maxIter := maxIter) (by
      rintro s hcs (rfl | ⟨h1, ha, hb, hba, hgL, hsh, _⟩)
      · right
        obtain ⟨p1, p2, p3⟩ := secant_step hconv hm hlow hup hroot hmidm hend (by linarith)
        simp only [secantBody]
        rw [clip _ p1 p2]
        refine ⟨le_rfl, hend, ⟨p1, p2⟩, p2, p3, ?_, fun h2 => absurd h2 (by simp)⟩
        simp
      · right
        have hd := (cond_true.1 hcs).1
        have hne : s.1 ≠ s.2.1 := by
          intro h0
          rw [h0, sub_self, abs_zero] at hd
          linarith
        obtain ⟨p1, p2, p3⟩ := secant_step hconv hm hlow hup hroot ha hb hne
        simp only [secantBody]
        have hgm : g s.2.1 ≤ g s.1 := by
          have := hlow _ hb _ ha hba
          have := mul_nonneg hm.le (sub_nonneg.2 hba)
          linarith
        rw [clip _ p1 (p2.trans hb.2)]
        rw [abs_of_nonneg (by linarith)] at hd
        refine ⟨by omega, hb, ⟨p1, p2.trans hb.2⟩, p2, p3, ?_, fun _ => ?_⟩
        · refine (shrink _ _ ha hgL).trans ((mul_le_mul_of_nonneg_left hsh hq0).trans_eq ?_)
          obtain ⟨j, hj⟩ : ∃ j, s.2.2 = j + 1 := ⟨s.2.2 - 1, by omega⟩
          rw [hj]
          simp only [Nat.add_sub_cancel]
          ring
        · have e : s.2.2 + 1 - 2 = s.2.2 - 1 := by omega
          rw [e]
          have h3 := hup xs hxs _ ha ha.1
          rw [hroot, sub_zero] at h3
          have h4 := mul_le_mul_of_nonneg_left hsh hL.le
          have h5 := hg0 _ hb
          linarith) ht (Or.inl rfl)
  have hL2 : 0 ≤ L / m ^ 2 := by positivity
  rcases hP with h0 | ⟨h1, ha, hb, hba, hL1, _, hsum⟩
  · rw [h0] at hc ⊢
    have hgx := hg0 xmax hend
    refine ⟨?_, hend.1, ?_⟩
    · exact Nat.zero_le _
    · have hc' := cond_false.1 hc
      rcases hc' with h2 | h2
      · simp only at h2
        have h3 := hlow _ hmidm _ hend (by linarith)
        rw [abs_sub_comm, abs_of_nonneg (by nlinarith)] at h2
        simp only
        have h4 : xmax - xs ≤ 2 * (xmax - (xmin + xmax) / 2) := by linarith
        have h5 : xmax - (xmin + xmax) / 2 ≤ tol / m := by
          rw [le_div_iff₀ hm]
          linarith
        have h6 : 0 ≤ tol * (L / m ^ 2) := by positivity
        have e : tol * (L / m ^ 2 + 2 / m) = tol * (L / m ^ 2) + 2 * (tol / m) := by ring
        rw [e]
        linarith
      · simp only at h2
        omega
  · have hga := hg0 _ ha
    have hi : t.2.2 ≤ n + 1 := by
      by_contra hcon
      push Not at hcon
      have h3 := hsum (by omega)
      have h4 : (1 - m / L) ^ (t.2.2 - 2) ≤ (1 - m / L) ^ n := pow_le_pow_of_le_one hq0 hq1 (by omega)
      have h5 := mul_le_mul_of_nonneg_left (mul_le_mul_of_nonneg_right h4 hD) hL.le
      linarith
    refine ⟨hi, hb.1, ?_⟩
    rcases cond_false.1 hc with h2 | h2
    · have h3 := hlow _ hb _ ha hba
      rw [abs_of_nonneg (by nlinarith [sub_nonneg.2 hba])] at h2
      have h4 : t.1 - t.2.1 ≤ tol / m := by
        rw [le_div_iff₀ hm]
        linarith
      have h5 : g t.2.1 ≤ g t.1 := by nlinarith [sub_nonneg.2 hba]
      have h6 := hnn _ hb
      have h7 : L * (t.1 - t.2.1) ≤ L * (tol / m) := mul_le_mul_of_nonneg_left h4 hL.le
      have h8 : t.2.1 - xs ≤ L * (tol / m) / m := by
        rw [le_div_iff₀ hm]
        linarith
      have e : tol * (L / m ^ 2 + 2 / m) = L * (tol / m) / m + 2 * (tol / m) := by
        field_simp
      rw [e]
      have : 0 ≤ tol / m := by positivity
      linarith
    · omega

/-! ### Spectra in detailed balance -/

section Cosh

variable {ι : Type*} (F : Finset ι) (a w : ι → ℝ) (xs : ℝ)

theorem coshSum_deriv :
    deriv (fun t => ∑ k ∈ F, a k * cosh (w k * (t - xs))) =
      fun t => ∑ k ∈ F, a k * w k * sinh (w k * (t - xs)) := by
  funext t
  refine HasDerivAt.deriv ?_
  have h : ∀ k ∈ F, HasDerivAt (fun t => a k * cosh (w k * (t - xs))) (a k * w k * sinh (w k * (t - xs))) t := by
    intro k _
    have h1 : HasDerivAt (fun t : ℝ => w k * (t - xs)) (w k) t := by
      simpa using ((hasDerivAt_id t).sub_const xs).const_mul (w k)
    have h2 := (h1.cosh).const_mul (a k)
    have e : a k * (sinh (w k * (t - xs)) * w k) = a k * w k * sinh (w k * (t - xs)) := by ring
    rwa [e] at h2
  exact HasDerivAt.fun_sum h

theorem sinhSum_hasDerivAt (t : ℝ) :
    HasDerivAt (fun t => ∑ k ∈ F, a k * w k * sinh (w k * (t - xs)))
      (∑ k ∈ F, a k * w k ^ 2 * cosh (w k * (t - xs))) t := by
  have h : ∀ k ∈ F, HasDerivAt (fun t => a k * w k * sinh (w k * (t - xs)))
      (a k * w k ^ 2 * cosh (w k * (t - xs))) t := by
    intro k _
    have h1 : HasDerivAt (fun t : ℝ => w k * (t - xs)) (w k) t := by
      simpa using ((hasDerivAt_id t).sub_const xs).const_mul (w k)
    have h2 := (h1.sinh).const_mul (a k * w k)
    have e : a k * w k * (cosh (w k * (t - xs)) * w k) = a k * w k ^ 2 * cosh (w k * (t - xs)) := by ring
    rwa [e] at h2
  exact HasDerivAt.fun_sum h

theorem coshSum_mono (ha : ∀ k ∈ F, 0 ≤ a k) {x y : ℝ} (hx : xs ≤ x) (hxy : x ≤ y) :
    ∑ k ∈ F, a k * w k ^ 2 * cosh (w k * (x - xs)) ≤ ∑ k ∈ F, a k * w k ^ 2 * cosh (w k * (y - xs)) := by
  refine Finset.sum_le_sum fun k hk => ?_
  refine mul_le_mul_of_nonneg_left ?_ (mul_nonneg (ha k hk) (sq_nonneg _))
  rw [cosh_le_cosh, abs_mul, abs_mul]
  refine mul_le_mul_of_nonneg_left ?_ (abs_nonneg _)
  rw [abs_of_nonneg (by linarith), abs_of_nonneg (by linarith)]
  linarith

end Cosh

/-- The search on a sum of hyperbolic cosines. -/
theorem secant_cosh {ι : Type*} (F : Finset ι) (a w : ι → ℝ) {xs : ℝ} {func : ℝ → ℝ}
    (hfun : func = fun t => ∑ k ∈ F, a k * cosh (w k * (t - xs))) (ha : ∀ k ∈ F, 0 ≤ a k)
    {k0 : ι} (hk0 : k0 ∈ F) (ha0 : 0 < a k0) (hw0 : w k0 ≠ 0) (htol : 0 < tol)
    (hmin : xmin ≤ xs) (hmid : xs ≤ (xmin + xmax) / 2) (hlt : xmin < xmax)
    {n : ℕ} (hn : deriv (deriv func) xmax *
      ((1 - deriv (deriv func) xs / deriv (deriv func) xmax) ^ n * (xmax - xs)) < tol)
    (hmax : n + 1 < maxIter) {x : ℝ} {i : ℕ} (h : Secant func xmin xmax tol maxIter x i) :
    i ≤ n + 1 ∧ xs ≤ x ∧ 0 < deriv (deriv func) xs ∧
      x - xs ≤ tol * (deriv (deriv func) xmax / deriv (deriv func) xs ^ 2 + 2 / deriv (deriv func) xs) := by
  have hd1 : deriv func = fun t => ∑ k ∈ F, a k * w k * sinh (w k * (t - xs)) := by
    rw [hfun]
    exact coshSum_deriv F a w xs
  have hd2 : deriv (deriv func) = fun t => ∑ k ∈ F, a k * w k ^ 2 * cosh (w k * (t - xs)) := by
    rw [hd1]
    funext t
    exact (sinhSum_hasDerivAt F a w xs t).deriv
  have hdiff : Differentiable ℝ (deriv func) := by
    rw [hd1]
    exact fun t => (sinhSum_hasDerivAt F a w xs t).differentiableAt
  have hmono : ∀ x y, xs ≤ x → x ≤ y → deriv (deriv func) x ≤ deriv (deriv func) y := by
    intro x y hx hxy
    rw [hd2]
    exact coshSum_mono F a w xs ha hx hxy
  have hpos : 0 < deriv (deriv func) xs := by
    rw [hd2]
    simp only [sub_self, mul_zero, cosh_zero, mul_one]
    exact Finset.sum_pos' (fun k hk => mul_nonneg (ha k hk) (sq_nonneg _)) ⟨k0, hk0, by positivity⟩
  have hcv : ConvexOn ℝ (Icc xs xmax) (deriv func) := by
    refine MonotoneOn.convexOn_of_deriv (convex_Icc _ _) hdiff.continuous.continuousOn
      hdiff.differentiableOn ?_
    intro x hx y _ hxy
    rw [interior_Icc] at hx
    exact hmono x y hx.1.le hxy
  have key := secant_convex_partial (m := deriv (deriv func) xs) (L := deriv (deriv func) xmax) htol hcv hpos
    ?_ ?_ ?_ hmin hmid hlt hn hmax h
  · exact ⟨key.1, key.2.1, hpos, key.2.2⟩
  · intro x hx y hy hxy
    refine (convex_Icc xs xmax).mul_sub_le_image_sub_of_le_deriv hdiff.continuous.continuousOn
      hdiff.differentiableOn (fun z hz => ?_) x hx y hy hxy
    rw [interior_Icc] at hz
    exact hmono xs z le_rfl hz.1.le
  · intro x hx y hy hxy
    refine (convex_Icc xs xmax).image_sub_le_mul_sub_of_deriv_le hdiff.continuous.continuousOn
      hdiff.differentiableOn (fun z hz => ?_) x hx y hy hxy
    rw [interior_Icc] at hz
    exact hmono z xmax hz.1.le hz.2.le
  · rw [hd1]
    simp

theorem sum_symm {N : ℕ} (c : ℤ → ℝ) (he : ∀ k, c (-k) = c k) (s : ℝ) :
    ∑ k ∈ Finset.Icc (-(N : ℤ)) N, c k * exp (-(k * s)) =
      ∑ k ∈ Finset.Icc (-(N : ℤ)) N, c k * cosh (k * s) := by
  have h1 : ∑ k ∈ Finset.Icc (-(N : ℤ)) N, c k * exp (-(k * s)) =
      ∑ k ∈ Finset.Icc (-(N : ℤ)) N, c k * exp (k * s) := by
    refine Finset.sum_nbij' (fun k => -k) (fun k => -k) ?_ ?_ ?_ ?_ ?_
    · intro k hk
      have := Finset.mem_Icc.1 hk
      exact Finset.mem_Icc.2 ⟨by omega, by omega⟩
    · intro k hk
      have := Finset.mem_Icc.1 hk
      exact Finset.mem_Icc.2 ⟨by omega, by omega⟩
    · intro k _; omega
    · intro k _; omega
    · intro k _
      rw [he]
      push_cast
      ring_nf
  have h2 : ∑ k ∈ Finset.Icc (-(N : ℤ)) N, c k * cosh (k * s) =
      (∑ k ∈ Finset.Icc (-(N : ℤ)) N, c k * exp (k * s) +
        ∑ k ∈ Finset.Icc (-(N : ℤ)) N, c k * exp (-(k * s))) / 2 := by
    rw [← Finset.sum_add_distrib, Finset.sum_div]
    refine Finset.sum_congr rfl fun k _ => ?_
    rw [cosh_eq]
    ring
  rw [h2, h1]
  ring

/-- The transform of a spectrum in detailed balance is a sum of hyperbolic cosines. -/
theorem laplace_cosh {h hbar beta : ℝ} (hh : 0 < h) {N : ℕ} {f : ℤ → ℝ}
    (hbal : ∀ k : ℤ, f (-k) = exp (-beta * (k * h)) * f k) (hend : f N = 0)
    {c : ℝ} (hc : N * h + small ≤ c) (t : ℝ) :
    laplace hbar (gridData h N f) (t / 1000) (-c) c = ∑ k ∈ Finset.Icc (-(N : ℤ)) N,
      h / hbar * (f k * exp (-(beta / 2 * (k * h)))) * cosh (k * h / 1000 * (t - 500 * beta)) := by
  have hendm : f (-N) = 0 := by rw [hbal, hend, mul_zero]
  rw [laplace_grid hh ⟨hendm, hend⟩ hc]
  have he : ∀ k : ℤ, f (-k) * exp (-(beta / 2 * (((-k : ℤ) : ℝ) * h))) = f k * exp (-(beta / 2 * (k * h))) := by
    intro k
    rw [hbal k]
    have e : exp (-beta * (k * h)) * f k * exp (-(beta / 2 * (((-k : ℤ) : ℝ) * h))) =
        f k * (exp (-beta * (k * h)) * exp (-(beta / 2 * (((-k : ℤ) : ℝ) * h)))) := by ring
    rw [e, ← exp_add]
    congr 2
    push_cast
    ring
  have hs := sum_symm (N := N) (fun k => f k * exp (-(beta / 2 * (k * h)))) he (h / 1000 * (t - 500 * beta))
  have e1 : ∀ k : ℤ, f k * exp (-(t / 1000) * (k * h)) =
      f k * exp (-(beta / 2 * (k * h))) * exp (-(k * (h / 1000 * (t - 500 * beta)))) := by
    intro k
    rw [mul_assoc, ← exp_add]
    congr 2
    ring
  rw [Finset.sum_congr rfl fun k _ => e1 k, hs, Finset.mul_sum]
  refine Finset.sum_congr rfl fun k _ => ?_
  rw [mul_assoc (h / hbar)]
  congr 3
  ring

/-- The correlation function of a spectrum in detailed balance, seen through an instrument. -/
theorem F_cosh {h hbar beta : ℝ} (hh : 0 < h) (hb : 0 < hbar) {N M K : ℕ}
    {f g : ℤ → ℝ} (hbal : ∀ k : ℤ, f (-k) = exp (-beta * (k * h)) * f k) (hend : f N = 0)
    (hg : ∀ l : ℤ, (M : ℤ) ≤ |l| → g l = 0) (hgpos : ∀ l, 0 ≤ g l) (hg0 : 0 < g 0) (hK : N + M ≤ K)
    {c : ℝ} (hc : K * h + small ≤ c)
    {o : ITCF} (ho : o = ⟨gridData h K (convolved h hbar N f g), gridData h M g, c, false⟩) :
    (fun t => o.F hbar (t / 1000)) = fun t => ∑ k ∈ Finset.Icc (-(N : ℤ)) N,
      h / hbar * (f k * exp (-(beta / 2 * (k * h)))) * cosh (k * h / 1000 * (t - 500 * beta)) := by
  have hs := small_pos
  have hNK : (N : ℝ) * h ≤ K * h := mul_le_mul_of_nonneg_right (by exact_mod_cast (by omega : N ≤ K)) hh.le
  have hMK : (M : ℝ) * h ≤ K * h := mul_le_mul_of_nonneg_right (by exact_mod_cast (by omega : M ≤ K)) hh.le
  have hendm : f (-N) = 0 := by rw [hbal, hend, mul_zero]
  rw [ho]
  funext t
  unfold ITCF.F
  simp only [Bool.false_eq_true, if_false]
  rw [laplace_convolved hh ⟨hendm, hend⟩ hg hK hc, ← laplace_cosh hh hbal hend (by linarith : N * h + small ≤ c)]
  refine mul_div_cancel_right₀ _ ?_
  have hM0 : 0 < M := by
    rcases Nat.eq_zero_or_pos M with rfl | hM
    · exact absurd (hg 0 (by simp)) hg0.ne'
    · exact hM
  rw [laplace_grid hh ⟨hg _ (by simp), hg _ (by simp)⟩ (by linarith)]
  refine (mul_pos (div_pos hh hb) ?_).ne'
  refine Finset.sum_pos' (fun k _ => mul_nonneg (hgpos k) (exp_pos _).le)
    ⟨0, Finset.mem_Icc.2 ⟨by omega, by omega⟩, mul_pos hg0 (exp_pos _)⟩

/-- C73, C27: the temperature of `ITCF.get_T` for a spectrum in detailed balance which was seen through an
instrument.  If `tau_max` is at least the inverse temperature, and `n < 99999` iterations suffice to reduce the
distance to the extremum by the factor of `secant_convex_partial`, the inverse temperature is
found up to an error which is given by the curvature of the correlation function.
(Partial: for these `n`; the bound is absolute, so that it says nothing for weak intensities, see
`get_T_of_weak_spectrum`.) -/
theorem getT_accurate_partial {h hbar kB beta : ℝ} (hh : 0 < h) (hb : 0 < hbar) (hkB : 0 < kB) {N M K : ℕ}
    {f g : ℤ → ℝ} (hbal : ∀ k : ℤ, f (-k) = exp (-beta * (k * h)) * f k) (hpos : ∀ k, 0 ≤ f k) (hend : f N = 0)
    {k0 : ℤ} (hk0 : k0 ≠ 0) (hk0N : |k0| ≤ N) (hk0f : 0 < f k0)
    (hg : ∀ l : ℤ, (M : ℤ) ≤ |l| → g l = 0) (hgpos : ∀ l, 0 ≤ g l) (hg0 : 0 < g 0) (hK : N + M ≤ K)
    {c : ℝ} (hc : K * h + small ≤ c) {tauMax : ℝ} (hlow : 1 / 100000000 ≤ 500 * beta) (htau : beta ≤ tauMax)
    {o : ITCF} (ho : o = ⟨gridData h K (convolved h hbar N f g), gridData h M g, c, false⟩)
    {func : ℝ → ℝ} (hfunc : func = fun t => o.F hbar (t / 1000))
    {n : ℕ} (hn : deriv (deriv func) (1000 * tauMax) *
      ((1 - deriv (deriv func) (500 * beta) / deriv (deriv func) (1000 * tauMax)) ^ n *
        (1000 * tauMax - 500 * beta)) < 1 / 10000000) (hn' : n < 99999) {T : ℝ} (hT : o.GetT hbar kB tauMax T) :
    0 < T ∧ 0 ≤ 1 / (kB * T) - beta ∧ 1 / (kB * T) - beta ≤ 1 / 5000000000 *
      (deriv (deriv func) (1000 * tauMax) / deriv (deriv func) (500 * beta) ^ 2 +
        2 / deriv (deriv func) (500 * beta)) := by
  have hF := hfunc.trans (F_cosh hh hb hbal hend hg hgpos hg0 hK hc ho)
  obtain ⟨sol, i, hsec, rfl⟩ := hT
  rw [← hfunc] at hsec
  have hk := abs_le.1 hk0N
  have key := secant_cosh (Finset.Icc (-(N : ℤ)) N)
    (fun k => h / hbar * (f k * exp (-(beta / 2 * (k * h))))) (fun k => (k : ℝ) * h / 1000) hF
    (fun k _ => mul_nonneg (div_pos hh hb).le (mul_nonneg (hpos k) (exp_pos _).le))
    (k0 := k0) (Finset.mem_Icc.2 ⟨hk.1, hk.2⟩)
    (mul_pos (div_pos hh hb) (mul_pos hk0f (exp_pos _)))
    (by
      have : (k0 : ℝ) ≠ 0 := by exact_mod_cast hk0
      positivity)
    (by norm_num : (0 : ℝ) < 1 / 10000000) hlow (by linarith) (by linarith) hn (by omega) hsec
  obtain ⟨_, h1, hp, h2⟩ := key
  have hsol : 0 < sol := by linarith
  have e : 1 / (kB * (1 / (2 * (sol / 1000) * kB))) = sol / 500 := by field_simp; norm_num
  rw [e]
  refine ⟨by positivity, by linarith, ?_⟩
  have e2 : ∀ X : ℝ, 1 / 5000000000 * X = 1 / 10000000 * X / 500 := fun X => by ring
  rw [e2]
  have : sol / 500 - beta = (sol - 500 * beta) / 500 := by ring
  rw [this]
  exact div_le_div_of_nonneg_right h2 (by norm_num)

/-- The hypotheses are met: two lines in detailed balance, seen through an instrument which is one grid point wide. -/
example : ∃ (f g : ℤ → ℝ) (o : ITCF), o = ⟨gridData 1 3 (convolved 1 1 2 f g), gridData 1 1 g, 3 + small, false⟩ ∧
    (∀ k : ℤ, f (-k) = exp (-1 * (k * 1)) * f k) ∧
    (∃ T, o.GetT 1 1 1 T) ∧ ∀ T, o.GetT 1 1 1 T → 0 < T ∧ 0 ≤ 1 / (1 * T) - 1 ∧ 1 / (1 * T) - 1 ≤ 1 / 1000 := by
  set f : ℤ → ℝ := fun k => if k = 1 then exp (1 / 2) else if k = -1 then exp (-(1 / 2)) else 0 with hf
  set g : ℤ → ℝ := fun l => if l = 0 then 1 else 0 with hg
  set o : ITCF := ⟨gridData 1 3 (convolved 1 1 2 f g), gridData 1 1 g, 3 + small, false⟩ with ho
  have hbal : ∀ k : ℤ, f (-k) = exp (-1 * (k * 1)) * f k := by
    intro k
    by_cases h1 : k = 1
    · subst h1
      simp only [hf]
      norm_num
      rw [← exp_add]
      norm_num
    · by_cases h2 : k = -1
      · subst h2
        simp only [hf]
        norm_num
        rw [← exp_add]
        norm_num
      · have h3 : -k ≠ 1 := by omega
        have h4 : -k ≠ -1 := by omega
        simp only [hf, if_neg h1, if_neg h2, if_neg h3, if_neg h4, mul_zero]
  have hpos : ∀ k, 0 ≤ f k := by
    intro k
    simp only [hf]
    split_ifs
    · exact (exp_pos _).le
    · exact (exp_pos _).le
    · exact le_rfl
  have hend : f ((2 : ℕ) : ℤ) = 0 := by simp [hf]
  have hgM : ∀ l : ℤ, ((1 : ℕ) : ℤ) ≤ |l| → g l = 0 := by
    intro l hl
    have : l ≠ 0 := by rintro rfl; simp at hl
    simp [hg, this]
  have hgpos : ∀ l, 0 ≤ g l := by
    intro l
    simp only [hg]
    split_ifs <;> norm_num
  have hg0 : 0 < g 0 := by simp [hg]
  have hc : ((3 : ℕ) : ℝ) * 1 + small ≤ 3 + small := by norm_num
  have hF := F_cosh one_pos one_pos hbal hend hgM hgpos hg0 (by norm_num : 2 + 1 ≤ 3) hc ho
  have hF2 : (fun t => o.F 1 (t / 1000)) = fun t => 2 * cosh (1 / 1000 * (t - 500)) := by
    rw [hF]
    funext t
    have hI : Finset.Icc (-((2 : ℕ) : ℤ)) ((2 : ℕ) : ℤ) = {-2, -1, 0, 1, 2} := by decide
    rw [hI]
    simp only [hf]
    norm_num [Finset.sum_insert]
    rw [← exp_add, ← exp_add]
    norm_num
    ring
  have hd2 : deriv (deriv fun t => o.F 1 (t / 1000)) = fun t => 2 * (1 / 1000) ^ 2 * cosh (1 / 1000 * (t - 500)) := by
    have h1 := coshSum_deriv ({()} : Finset Unit) (fun _ => 2) (fun _ => 1 / 1000) 500
    have h2 : ∀ t, deriv _ t = _ := fun t =>
      (sinhSum_hasDerivAt ({()} : Finset Unit) (fun _ => 2) (fun _ => 1 / 1000) 500 t).deriv
    simp only [Finset.sum_singleton] at h1 h2
    rw [hF2, h1]
    funext t
    exact h2 t
  have hcosh : cosh (1 / 2) ≤ 8 / 7 := by
    refine (cosh_le_exp_half_sq _).trans ?_
    have h1 := one_sub_le_exp_neg (1 / 8 : ℝ)
    rw [exp_neg] at h1
    have h2 := exp_pos (1 / 8 : ℝ)
    have h3 : exp (1 / 8 : ℝ) * (exp (1 / 8))⁻¹ = 1 := mul_inv_cancel₀ h2.ne'
    have e : (1 / 2 : ℝ) ^ 2 / 2 = 1 / 8 := by norm_num
    rw [e]
    nlinarith
  have hcosh1 := one_le_cosh (1 / 2)
  refine ⟨f, g, o, ho, hbal, ?_, ?_⟩
  · obtain ⟨r, hr, _⟩ := secant_returns (fun t => o.F 1 (t / 1000)) (1 / 100000000) (1000 * 1) (1 / 10000000) 100000
    exact ⟨_, r.1, r.2, hr, rfl⟩
  · intro T hT
    have key := getT_accurate_partial (n := 10) one_pos one_pos one_pos hbal hpos hend one_ne_zero (by norm_num)
      (by simp only [hf]; simp [exp_pos]) hgM hgpos hg0 (by norm_num : 2 + 1 ≤ 3) hc (tauMax := 1) (by norm_num) le_rfl ho rfl
      (by
        rw [hd2]
        norm_num
        generalize cosh (1 / 2) = y at hcosh hcosh1
        have hq0 : 0 ≤ 1 - 1 / y := by
          have : 1 / y ≤ 1 := (div_le_one (by linarith)).2 hcosh1
          linarith
        have hq : 1 - 1 / y ≤ 1 / 8 := by
          have : 7 / 8 ≤ 1 / y := by
            rw [le_div_iff₀ (by linarith)]
            linarith
          linarith
        have hp := pow_le_pow_left₀ hq0 hq 10
        have e : (1 / 500000 : ℝ) / (1 / 500000 * y) = 1 / y := by
          have : y ≠ 0 := by linarith
          field_simp
        rw [e]
        have h1 : (1 - 1 / y) ^ 10 * 500 ≤ (1 / 8) ^ 10 * 500 := by linarith
        have h2 : 1 / 500000 * y * ((1 - 1 / y) ^ 10 * 500) ≤ 1 / 500000 * (8 / 7) * ((1 / 8) ^ 10 * 500) :=
          mul_le_mul (by linarith) h1 (by positivity) (by norm_num)
        refine h2.trans_lt (by norm_num)) (by norm_num) hT
    refine ⟨key.1, key.2.1, key.2.2.trans ?_⟩
    rw [hd2]
    norm_num
    generalize cosh (1 / 2) = y at hcosh hcosh1
    linarith

end Verif.Itcf
