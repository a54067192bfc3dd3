/-
Property C78: the approximations of Fermi integrals.
-/
import Verif.Lemmas.FermiCert
import Verif.Lemmas.FermiDeriv
import Mathlib.Analysis.Complex.ExponentialBounds

set_option autoImplicit false

namespace Verif.FermiInt

open Real RatPoly

theorem exp_two_bounds : (7.38905609 : ℝ) < exp 2 ∧ exp 2 < 7.38905611 := by
  have h1 := exp_one_gt_d9
  have h2 := exp_one_lt_d9
  have e : exp 2 = exp 1 * exp 1 := by rw [← exp_add]; norm_num
  rw [e]
  constructor
  · have := mul_lt_mul h1 h1.le (by norm_num) (exp_pos 1).le
    norm_num at this ⊢; linarith
  · have := mul_lt_mul h2 h2.le (exp_pos 1) (by norm_num)
    norm_num at this ⊢; linarith

theorem exp_le_of_le_two (x : ℝ) (hx : x ≤ 2) : exp x ≤ 37 / 5 := by
  have := exp_two_bounds.2
  have h := exp_le_exp.2 hx
  norm_num at this; linarith

/-! ### Accuracy -/

/-- C78.  Below an argument of two, the approximations of the orders 1/2, -1/2 and 5/2 agree with the Fermi
integral to six digits; for all arguments see `fermi_accurate`, for the order 3/2, which is wrong,
`fermi32_too_small`. -/
theorem fermi_accurate_below (x : ℝ) (hx : x < 2) :
    |fermi12 x - fermiIntegral x (1 / 2)| ≤ 1 / 10 ^ 6 * fermiIntegral x (1 / 2) ∧
    |fermiNeg12 x - fermiIntegral x (-1 / 2)| ≤ 1 / 10 ^ 6 * fermiIntegral x (-1 / 2) ∧
    |fermi52 x - fermiIntegral x (5 / 2)| ≤ 1 / 10 ^ 6 * fermiIntegral x (5 / 2) := by
  have h := exp_le_of_le_two x hx.le
  unfold fermi12 fermiNeg12 fermi52 fermiF
  rw [if_pos hx, if_pos hx, if_pos hx]
  exact ⟨accurate12 x h, accurateNeg12 x h, accurate52 x h⟩

/-- The exact integral of order 1/2 at zero is known to six digits. -/
example : |fermi12 0 - fermiIntegral 0 (1 / 2)| ≤ 1 / 10 ^ 6 * fermiIntegral 0 (1 / 2) ∧
    0 < fermiIntegral 0 (1 / 2) :=
  ⟨(fermi_accurate_below 0 (by norm_num)).1, fermiIntegral_pos _ (by norm_num) 0⟩

/-- The order 3/2 with the last coefficient of the denominator divided by `10 ^ 4`. -/
noncomputable def fermi32Repaired (x : ℝ) : ℝ := fermiF { c32 with b := b32Repaired } (3 / 2) x

/-- C78.  With `1.99507945223266e-2` instead of `1.99507945223266e02`, the order 3/2 would be as accurate
as the others. -/
theorem fermi32_repaired (x : ℝ) (hx : x < 2) :
    |fermi32Repaired x - fermiIntegral x (3 / 2)| ≤ 1 / 10 ^ 6 * fermiIntegral x (3 / 2) := by
  unfold fermi32Repaired fermiF
  rw [if_pos hx]
  exact accurate32 x (exp_le_of_le_two x hx.le)

theorem b32_pos (t : ℝ) (ht : 0 ≤ t) : 0 < ev c32.a t ∧ 0 < ev c32.b t ∧ 0 < ev b32Repaired t :=
  ⟨ev_pos_of_pos _ (by decide +kernel) (by decide +kernel) t ht,
   ev_pos_of_pos _ (by decide +kernel) (by decide +kernel) t ht,
   ev_pos_of_pos _ (by decide +kernel) (by decide +kernel) t ht⟩

theorem fermi32_ratio (x r : ℝ) (hx : x < 2)
    (h : (1 + 2 / 10 ^ 6) * ev b32Repaired (exp x) < r * ev c32.b (exp x)) :
    fermi32 x < r * fermiIntegral x (3 / 2) := by
  have hF := fermiIntegral_pos (3 / 2) (by norm_num) x
  have hacc := (abs_le.1 (fermi32_repaired x hx)).2
  obtain ⟨pa, pb, pr⟩ := b32_pos (exp x) (exp_pos x).le
  have hG : 0 < Gamma (3 / 2 + 1) := Gamma_pos_of_pos (by norm_num)
  have e : fermi32 x * ev c32.b (exp x) = fermi32Repaired x * ev b32Repaired (exp x) := by
    unfold fermi32 fermi32Repaired fermiF
    rw [if_pos hx, if_pos hx, rational_ev, rational_ev]
    field_simp
  have h1 : fermi32Repaired x ≤ (1 + 1 / 10 ^ 6) * fermiIntegral x (3 / 2) := by linarith
  by_contra hc
  push Not at hc
  have h2 := mul_le_mul_of_nonneg_right hc pb.le
  have h3 := mul_le_mul_of_nonneg_right h1 pr.le
  have h4 := mul_lt_mul_of_pos_right h hF
  have h5 := mul_pos pr hF
  norm_num at h1 h3 h4
  nlinarith

/-- C78 is false for the order 3/2: between 1 and 2 the approximation is too small by a tenth at least, and
close to 2 it is less than a seventh of the Fermi integral. -/
theorem fermi32_too_small (x : ℝ) (h2 : x < 2) :
    (1 ≤ x → fermi32 x < 9 / 10 * fermiIntegral x (3 / 2)) ∧
    (19 / 10 ≤ x → fermi32 x < 1 / 7 * fermiIntegral x (3 / 2)) := by
  have hup := exp_le_of_le_two x h2.le
  constructor
  · intro h1
    have hlow : (27 / 10 : ℝ) ≤ exp x := by
      have a := exp_le_exp.2 h1
      have b := exp_one_gt_d9
      norm_num at b; linarith
    apply fermi32_ratio x _ h2
    have := ev_pos_from (27 / 10) 1 (3 ^ 130) 5 (by norm_num)
      (add (scale (9 / 10) c32.b) (scale (-(1 + 2 / 10 ^ 6)) b32Repaired)) (by decide +kernel) (exp x)
      (by push_cast; exact hlow) (by push_cast; linarith)
    simp only [ev_add, ev_scale] at this
    push_cast at this
    linarith
  · intro h1
    have hlow : (133 / 20 : ℝ) ≤ exp x := by
      have a := exp_le_exp.2 h1
      have b := exp_two_bounds.1
      have c := add_one_le_exp (-(1 / 10) : ℝ)
      have e : exp (19 / 10) = exp 2 * exp (-(1 / 10)) := by rw [← exp_add]; norm_num
      rw [e] at a
      norm_num at b c
      nlinarith [exp_pos 2]
    apply fermi32_ratio x _ h2
    have := ev_pos_from (133 / 20) 1 (10 ^ 60) 1 (by norm_num)
      (add (scale (1 / 7) c32.b) (scale (-(1 + 2 / 10 ^ 6)) b32Repaired)) (by decide +kernel) (exp x)
      (by push_cast; exact hlow) (by push_cast; linarith)
    simp only [ev_add, ev_scale] at this
    push_cast at this
    linarith

/-- The argument is in both of the intervals. -/
example : fermi32 1.95 < 1 / 7 * fermiIntegral 1.95 (3 / 2) :=
  (fermi32_too_small 1.95 (by norm_num)).2 (by norm_num)

/-! ### Signs of the polynomials -/

theorem w_bounds (x : ℝ) (hx : 2 ≤ x) : 0 < x ^ (-2 : ℝ) ∧ x ^ (-2 : ℝ) ≤ 1 / 4 := by
  have hx0 : 0 < x := by linarith
  refine ⟨rpow_pos_of_pos hx0 _, ?_⟩
  rw [rpow_neg hx0.le, rpow_two, ← one_div]
  apply one_div_le_one_div_of_le (by norm_num)
  nlinarith

theorem b_pos (t : ℝ) (ht : 0 ≤ t) :
    0 < ev c12.a t ∧ 0 < ev c12.b t ∧ 0 < ev cm12.a t ∧ 0 < ev cm12.b t ∧
    0 < ev c52.a t ∧ 0 < ev c52.b t :=
  ⟨ev_pos_of_pos _ (by decide +kernel) (by decide +kernel) t ht,
   ev_pos_of_pos _ (by decide +kernel) (by decide +kernel) t ht,
   ev_pos_of_pos _ (by decide +kernel) (by decide +kernel) t ht,
   ev_pos_of_pos _ (by decide +kernel) (by decide +kernel) t ht,
   ev_pos_of_pos _ (by decide +kernel) (by decide +kernel) t ht,
   ev_pos_of_pos _ (by decide +kernel) (by decide +kernel) t ht⟩

/-- A polynomial that passes the test is positive for `w` up to 1/4. -/
theorem posW (p : List ℚ) (h : check 17 (toInt 63 (3 ^ 190) p) = true) (x : ℝ) (hx : 2 ≤ x) :
    0 < ev p (x ^ (-2 : ℝ)) := by
  obtain ⟨h0, h1⟩ := w_bounds x hx
  exact ev_pos 63 (3 ^ 190) 17 (by norm_num) p h _ h0.le (by push_cast; linarith)

/-- A polynomial that passes the test is positive for `exp x` up to 37/5. -/
theorem posT (p : List ℚ) (h : check 8 (toInt 1 (3 ^ 190) p) = true) (x : ℝ) (hx : x ≤ 2) :
    0 < ev p (exp x) := by
  have := exp_le_of_le_two x hx
  exact ev_pos 1 (3 ^ 190) 8 (by norm_num) p h _ (exp_pos x).le (by push_cast; linarith)

theorem d12_pos (x : ℝ) (hx : 2 ≤ x) : 0 < ev c12.c (x ^ (-2 : ℝ)) ∧ 0 < ev c12.d (x ^ (-2 : ℝ)) :=
  ⟨posW _ (by decide +kernel) x hx, posW _ (by decide +kernel) x hx⟩

theorem d32_pos (x : ℝ) (hx : 2 ≤ x) : 0 < ev c32.c (x ^ (-2 : ℝ)) ∧ 0 < ev c32.d (x ^ (-2 : ℝ)) :=
  ⟨posW _ (by decide +kernel) x hx, posW _ (by decide +kernel) x hx⟩

theorem d52_pos (x : ℝ) (hx : 2 ≤ x) : 0 < ev c52.c (x ^ (-2 : ℝ)) ∧ 0 < ev c52.d (x ^ (-2 : ℝ)) :=
  ⟨posW _ (by decide +kernel) x hx, posW _ (by decide +kernel) x hx⟩

theorem dm12_neg (x : ℝ) (hx : 2 ≤ x) : ev cm12.c (x ^ (-2 : ℝ)) < 0 ∧ ev cm12.d (x ^ (-2 : ℝ)) < 0 := by
  have h1 := posW (scale (-1) cm12.c) (by decide +kernel) x hx
  have h2 := posW (scale (-1) cm12.d) (by decide +kernel) x hx
  rw [ev_scale] at h1 h2
  push_cast at h1 h2
  constructor <;> linarith

/-- C78.  All four approximations are positive, for all arguments. -/
theorem fermi_pos (x : ℝ) : 0 < fermi12 x ∧ 0 < fermiNeg12 x ∧ 0 < fermi32 x ∧ 0 < fermi52 x := by
  have g1 : 0 < Gamma (1 / 2 + 1) := Gamma_pos_of_pos (by norm_num)
  have g2 : 0 < Gamma (-1 / 2 + 1) := Gamma_pos_of_pos (by norm_num)
  have g3 : 0 < Gamma (3 / 2 + 1) := Gamma_pos_of_pos (by norm_num)
  have g4 : 0 < Gamma (5 / 2 + 1) := Gamma_pos_of_pos (by norm_num)
  unfold fermi12 fermiNeg12 fermi32 fermi52 fermiF
  simp only [rational_ev]
  have ht := exp_pos x
  rcases lt_or_ge x 2 with h | h
  · obtain ⟨a1, a2, a3, a4, a5, a6⟩ := b_pos (exp x) ht.le
    obtain ⟨a7, a8, _⟩ := b32_pos (exp x) ht.le
    simp only [if_pos h]
    refine ⟨?_, ?_, ?_, ?_⟩ <;> positivity
  · obtain ⟨a1, a2⟩ := d12_pos x h
    obtain ⟨a3, a4⟩ := d32_pos x h
    obtain ⟨a5, a6⟩ := d52_pos x h
    obtain ⟨a7, a8⟩ := dm12_neg x h
    have hx0 : 0 < x := by linarith
    simp only [if_neg (not_lt.2 h)]
    have := div_pos_of_neg_of_neg a7 a8
    refine ⟨?_, ?_, ?_, ?_⟩
    · have := rpow_pos_of_pos hx0 (1 / 2 + 1); positivity
    · have := rpow_pos_of_pos hx0 (-1 / 2 + 1); positivity
    · have := rpow_pos_of_pos hx0 (3 / 2 + 1); positivity
    · have := rpow_pos_of_pos hx0 (5 / 2 + 1); positivity

/-! ### Derivatives -/

theorem deriv_below (k : Coef) (n x : ℝ) (hx : x < 2) (hb : ev k.b (exp x) ≠ 0) :
    HasDerivAt (fermiF k n)
      (exp x * (ev (incr1 k.a k.b) (exp x) / ev k.b (exp x) ^ 2) / Gamma (n + 1)) x := by
  have h := (hasDerivAt_branch1 k.a k.b x hb).div_const (Gamma (n + 1))
  refine h.congr_of_eventuallyEq ?_
  filter_upwards [Iio_mem_nhds hx] with y hy
  simp only [fermiF]
  rw [if_pos (Set.mem_Iio.1 hy)]

theorem deriv_above (k : Coef) (s : ℚ) (n x : ℝ) (hs : n + 1 = s) (hx : 2 < x)
    (hd : ev k.d (x ^ (-2 : ℝ)) ≠ 0) :
    HasDerivAt (fermiF k n)
      (x ^ n * (ev (incr2 s k.c k.d) (x ^ (-2 : ℝ)) / ev k.d (x ^ (-2 : ℝ)) ^ 2) / Gamma (n + 1)) x := by
  have h := (hasDerivAt_branch2 s k.c k.d x (by linarith) hd).div_const (Gamma (n + 1))
  rw [← hs, add_sub_cancel_right] at h
  refine h.congr_of_eventuallyEq ?_
  filter_upwards [Ioi_mem_nhds hx] with y hy
  simp only [fermiF]
  rw [if_neg (not_lt.2 (le_of_lt (Set.mem_Ioi.1 hy)))]

/-- Two quotients of polynomials agree to eight digits. -/
theorem near_of_tests (y p q A B g g' f : ℝ) (hy : 0 < y) (hB : 0 < B) (hA : 0 < A) (hp : p ≠ 0) (hg : 0 < g')
    (hgg : g' = f * g) (hf : 0 < f) (h1 : f * (q * B) < (1 + 1 / 10 ^ 8) * (A * (p * p)))
    (h2 : (1 - 1 / 10 ^ 8) * (A * (p * p)) < f * (q * B)) :
    |y * (q / p ^ 2) / g - y * (A / B) / g'| ≤ 1 / 10 ^ 8 * (y * (A / B) / g') := by
  have hg0 : 0 < g := by
    by_contra hc
    push Not at hc
    have := mul_nonpos_of_nonneg_of_nonpos hf.le hc
    linarith
  have hpp : 0 < p * p := mul_self_pos.2 hp
  have e : y * (q / p ^ 2) / g = y / (g' * B) * (f * (q * B) / (p * p)) := by
    rw [hgg]; field_simp
  have e2 : y * (A / B) / g' = y / (g' * B) * A := by field_simp
  have hc : 0 < y / (g' * B) := by positivity
  have u1 : f * (q * B) / (p * p) ≤ (1 + 1 / 10 ^ 8) * A := by
    rw [div_le_iff₀ hpp]; linarith
  have u2 : (1 - 1 / 10 ^ 8) * A ≤ f * (q * B) / (p * p) := by
    rw [le_div_iff₀ hpp]; linarith
  rw [e, e2, ← mul_sub, abs_mul, abs_of_pos hc, mul_left_comm (1 / 10 ^ 8)]
  apply mul_le_mul_of_nonneg_left _ hc.le
  rw [abs_le]; constructor <;> linarith

/-- Positive if `p` is below `q` by less than `10 ^ -8`. -/
def nearUp (p q : List ℚ) : List ℚ := add (scale (1 + 1 / 10 ^ 8) q) (scale (-1) p)

/-- Positive if `p` is above `q` by less than `10 ^ -8`. -/
def nearLow (p q : List ℚ) : List ℚ := add p (scale (-(1 - 1 / 10 ^ 8)) q)

theorem Gamma_step (n : ℝ) (hn : 0 < n) : Gamma (n + 1) = n * Gamma (n - 1 + 1) := by
  rw [sub_add_cancel, Gamma_add_one hn.ne']

/-- C78.  As for the Fermi integrals, the derivative of the approximation of order 1/2 is the one of order
-1/2, to eight digits and for all arguments but the point where the formula changes. -/
theorem fermi12_derivative (x : ℝ) (hx : x ≠ 2) :
    ∃ D, HasDerivAt fermi12 D x ∧ |D - fermiNeg12 x| ≤ 1 / 10 ^ 8 * fermiNeg12 x := by
  have hg : Gamma (-1 / 2 + 1) = 2 * Gamma (1 / 2 + 1) := by rw [Gamma_neg12, Gamma_12]; push_cast; ring
  have hG : 0 < Gamma (-1 / 2 + 1) := Gamma_pos_of_pos (by norm_num)
  rcases lt_or_gt_of_ne hx with h | h
  · obtain ⟨a1, a2, a3, a4, -, -⟩ := b_pos (exp x) (exp_pos x).le
    refine ⟨_, deriv_below c12 (1 / 2) x h a2.ne', ?_⟩
    unfold fermiNeg12 fermiF
    rw [if_pos h, rational_ev]
    have t1 := posT (nearUp (scale 2 (mul (incr1 c12.a c12.b) cm12.b)) (mul cm12.a (mul c12.b c12.b)))
      (by decide +kernel) x h.le
    have t2 := posT (nearLow (scale 2 (mul (incr1 c12.a c12.b) cm12.b)) (mul cm12.a (mul c12.b c12.b)))
      (by decide +kernel) x h.le
    simp only [nearUp, nearLow, ev_add, ev_scale, ev_mul] at t1 t2
    push_cast at t1 t2
    exact near_of_tests _ _ _ _ _ _ _ 2 (exp_pos x) a4 a3 a2.ne' hG hg (by norm_num) (by linarith)
      (by linarith)
  · obtain ⟨a1, a2⟩ := d12_pos x h.le
    obtain ⟨a3, a4⟩ := dm12_neg x h.le
    refine ⟨_, deriv_above c12 (3 / 2) (1 / 2) x (by norm_num) h a2.ne', ?_⟩
    unfold fermiNeg12 fermiF
    rw [if_neg (not_lt.2 h.le), rational_ev, show (-1 / 2 + 1 : ℝ) = 1 / 2 by norm_num]
    rw [show (-1 / 2 + 1 : ℝ) = 1 / 2 by norm_num] at hG hg
    have t1 := posW (nearUp (scale 2 (mul (incr2 (3 / 2) c12.c c12.d) (scale (-1) cm12.d)))
      (mul (scale (-1) cm12.c) (mul c12.d c12.d))) (by decide +kernel) x h.le
    have t2 := posW (nearLow (scale 2 (mul (incr2 (3 / 2) c12.c c12.d) (scale (-1) cm12.d)))
      (mul (scale (-1) cm12.c) (mul c12.d c12.d))) (by decide +kernel) x h.le
    simp only [nearUp, nearLow, ev_add, ev_scale, ev_mul] at t1 t2
    push_cast at t1 t2
    rw [← neg_div_neg_eq (ev cm12.c _)]
    exact near_of_tests _ _ _ _ _ _ _ 2 (rpow_pos_of_pos (by linarith) _) (by linarith) (by linarith)
      a2.ne' hG hg (by norm_num) (by linarith) (by linarith)

/-- C78.  The derivative of the approximation of order 5/2 is the one of order 3/2, and the derivative of
the latter is the one of order 1/2, to eight digits above an argument of two. -/
theorem fermi52_derivative (x : ℝ) (h : 2 < x) :
    (∃ D, HasDerivAt fermi52 D x ∧ |D - fermi32 x| ≤ 1 / 10 ^ 8 * fermi32 x) ∧
    (∃ D, HasDerivAt fermi32 D x ∧ |D - fermi12 x| ≤ 1 / 10 ^ 8 * fermi12 x) := by
  have hg : Gamma (3 / 2 + 1) = 2 / 5 * Gamma (5 / 2 + 1) := by rw [Gamma_32, Gamma_52]; push_cast; ring
  have hg' : Gamma (1 / 2 + 1) = 2 / 3 * Gamma (3 / 2 + 1) := by rw [Gamma_32, Gamma_12]; push_cast; ring
  have hG : 0 < Gamma (3 / 2 + 1) := Gamma_pos_of_pos (by norm_num)
  have hG' : 0 < Gamma (1 / 2 + 1) := Gamma_pos_of_pos (by norm_num)
  obtain ⟨a1, a2⟩ := d52_pos x h.le
  obtain ⟨a3, a4⟩ := d32_pos x h.le
  obtain ⟨a5, a6⟩ := d12_pos x h.le
  constructor
  · refine ⟨_, deriv_above c52 (7 / 2) (5 / 2) x (by norm_num) h a2.ne', ?_⟩
    unfold fermi32 fermiF
    rw [if_neg (not_lt.2 h.le), rational_ev, hg, show (3 / 2 + 1 : ℝ) = 5 / 2 by norm_num]
    rw [hg] at hG
    have t1 := posW (nearUp (scale (2 / 5) (mul (incr2 (7 / 2) c52.c c52.d) c32.d))
      (mul c32.c (mul c52.d c52.d))) (by decide +kernel) x h.le
    have t2 := posW (nearLow (scale (2 / 5) (mul (incr2 (7 / 2) c52.c c52.d) c32.d))
      (mul c32.c (mul c52.d c52.d))) (by decide +kernel) x h.le
    simp only [nearUp, nearLow, ev_add, ev_scale, ev_mul] at t1 t2
    push_cast at t1 t2
    exact near_of_tests _ _ _ _ _ _ _ (2 / 5) (rpow_pos_of_pos (by linarith) _) a4 a3 a2.ne' hG rfl
      (by norm_num) (by linarith) (by linarith)
  · refine ⟨_, deriv_above c32 (5 / 2) (3 / 2) x (by norm_num) h a4.ne', ?_⟩
    unfold fermi12 fermiF
    rw [if_neg (not_lt.2 h.le), rational_ev, hg', show (1 / 2 + 1 : ℝ) = 3 / 2 by norm_num]
    rw [hg'] at hG'
    have t1 := posW (nearUp (scale (2 / 3) (mul (incr2 (5 / 2) c32.c c32.d) c12.d))
      (mul c12.c (mul c32.d c32.d))) (by decide +kernel) x h.le
    have t2 := posW (nearLow (scale (2 / 3) (mul (incr2 (5 / 2) c32.c c32.d) c12.d))
      (mul c12.c (mul c32.d c32.d))) (by decide +kernel) x h.le
    simp only [nearUp, nearLow, ev_add, ev_scale, ev_mul] at t1 t2
    push_cast at t1 t2
    exact near_of_tests _ _ _ _ _ _ _ (2 / 3) (rpow_pos_of_pos (by linarith) _) a6 a5 a4.ne' hG' rfl
      (by norm_num) (by linarith) (by linarith)

end Verif.FermiInt
