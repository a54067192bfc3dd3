/-
Derivatives of the rational approximations of Fermi integrals, and shifted and composed polynomials.
-/
import Verif.Lemmas.RatPoly
import Verif.Model.FermiInt
import Mathlib.Analysis.Calculus.Deriv.Inv
import Mathlib.Analysis.Calculus.Deriv.MeanValue
import Mathlib.Analysis.SpecialFunctions.Pow.Deriv
import Mathlib.Analysis.SpecialFunctions.ExpDeriv

set_option autoImplicit false

namespace Verif.RatPoly

/-- The derivative of a polynomial. -/
noncomputable def dev : List ℚ → ℝ → ℝ
  | [], _ => 0
  | _ :: p, x => ev p x + x * dev p x

theorem hasDerivAt_ev (p : List ℚ) (x : ℝ) : HasDerivAt (ev p) (dev p x) x := by
  induction p with
  | nil => exact hasDerivAt_const x 0
  | cons a p ih =>
    have := ((hasDerivAt_id x).mul ih).const_add (a : ℝ)
    refine (this.congr_deriv ?_)
    simp [dev]

/-- The coefficients multiplied by `k`, `k + 1`, ... -/
def theta : ℕ → List ℚ → List ℚ
  | _, [] => []
  | k, a :: p => forceRat (k * a) fun b => b :: theta (k + 1) p

theorem ev_theta (k : ℕ) (p : List ℚ) (x : ℝ) :
    ev (theta k p) x = k * ev p x + x * dev p x := by
  induction p generalizing k with
  | nil => simp [theta, ev, dev]
  | cons a p ih =>
    simp only [theta, forceRat_eq, ev, dev, ih]
    push_cast; ring

/-- The coefficients of the derivative. -/
def diff : List ℚ → List ℚ
  | [] => []
  | _ :: p => theta 1 p

theorem ev_diff (p : List ℚ) (x : ℝ) : ev (diff p) x = dev p x := by
  cases p with
  | nil => rfl
  | cons a p => simp [diff, ev_theta, dev]

/-- The polynomial `p (t0 + y)`. -/
def comp (q : List ℚ) : List ℚ → List ℚ
  | [] => []
  | a :: p => add [a] (mul q (comp q p))

theorem ev_comp (q p : List ℚ) (y : ℝ) : ev (comp q p) y = ev p (ev q y) := by
  induction p with
  | nil => rfl
  | cons a p ih => simp [comp, ev_add, ev_mul, ev, ih]

/-- Powers of a polynomial. -/
def pow (q : List ℚ) : ℕ → List ℚ
  | 0 => [1]
  | n + 1 => mul q (pow q n)

theorem ev_pow (q : List ℚ) (n : ℕ) (y : ℝ) : ev (pow q n) y = ev q y ^ n := by
  induction n with
  | zero => simp [pow, ev]
  | succ n ih => rw [pow, ev_mul, ih, pow_succ, mul_comm]

/-- `q ^ (length - 1) * p (r / q)`. -/
def hom (r q : List ℚ) : List ℚ → List ℚ
  | [] => []
  | a :: p => add (scale a (pow q p.length)) (mul r (hom r q p))

theorem ev_hom (r q p : List ℚ) (y : ℝ) (hq : ev q y ≠ 0) :
    ev (hom r q p) y * ev q y = ev q y ^ p.length * ev p (ev r y / ev q y) := by
  induction p with
  | nil => simp [hom, ev]
  | cons a p ih =>
    simp only [hom, ev_add, ev_scale, ev_mul, ev_pow, ev, List.length_cons, pow_succ]
    have : (a * ev q y ^ p.length + ev r y * ev (hom r q p) y) * ev q y =
        a * ev q y ^ p.length * ev q y + ev r y * (ev (hom r q p) y * ev q y) := by ring
    rw [this, ih]
    field_simp

/-- A polynomial is positive on an interval that starts at `t0`. -/
theorem ev_pos_from (t0 : ℚ) (m S k : ℕ) (hm : 0 < m) (p : List ℚ)
    (h : check k (toInt m S (comp [t0, 1] p)) = true) (t : ℝ) (h0 : (t0 : ℝ) ≤ t)
    (h1 : m * (t - t0) < k) : 0 < ev p t := by
  have := ev_pos m S k hm _ h (t - t0) (by linarith) h1
  rw [ev_comp] at this
  simpa [ev] using this

end Verif.RatPoly

namespace Verif.FermiInt

open Real RatPoly

theorem powerSum_ev (a : List ℚ) (x : ℝ) : powerSum a x = ev a x := by
  induction a with
  | nil => simp [powerSum, ev]
  | cons b a ih =>
    rw [ev, ← ih]
    unfold powerSum
    rw [List.length_cons, List.range_succ_eq_map]
    simp only [List.map_cons, List.map_map, List.sum_cons, pow_zero, mul_one, List.getD_cons_zero,
      Function.comp_def, List.getD_cons_succ, Nat.succ_eq_add_one, pow_succ]
    rw [← List.sum_map_mul_left]
    congr 2
    apply List.map_congr_left
    intro i _; ring

theorem rational_ev (a b : List ℚ) (x : ℝ) : rational a b x = ev a x / ev b x := by
  unfold rational; rw [powerSum_ev, powerSum_ev]

/-- The numerator of the derivative of `t a(t) / b(t)`. -/
def incr1 (a b : List ℚ) : List ℚ :=
  add (mul (theta 1 a) b) (scale (-1) (mul a (theta 0 b)))

/-- The numerator of the derivative of `x ^ s c(w) / d(w)` with `w = x ^ (-2)`. -/
def incr2 (s : ℚ) (c d : List ℚ) : List ℚ :=
  add (scale s (mul c d)) (scale (-2) (add (mul (theta 0 c) d) (scale (-1) (mul c (theta 0 d)))))

theorem hasDerivAt_branch1 (a b : List ℚ) (x : ℝ) (hb : ev b (exp x) ≠ 0) :
    HasDerivAt (fun x => exp x * rational a b (exp x))
      (exp x * (ev (incr1 a b) (exp x) / ev b (exp x) ^ 2)) x := by
  have e : (fun x => exp x * rational a b (exp x)) =
      fun x => exp x * (ev a (exp x) / ev b (exp x)) := by funext x; rw [rational_ev]
  rw [e]
  have h1 := hasDerivAt_exp x
  have ha := (hasDerivAt_ev a (exp x)).comp x h1
  have hbd := (hasDerivAt_ev b (exp x)).comp x h1
  have := h1.mul (ha.div hbd hb)
  refine this.congr_deriv ?_
  simp only [incr1, ev_add, ev_scale, ev_mul, ev_theta, Function.comp_apply]
  push_cast
  simp only [Pi.div_apply, Function.comp_apply]
  generalize exp x = t at *
  generalize ev b t = B at *
  generalize ev a t = A
  generalize dev a t = A'
  generalize dev b t = B'
  field_simp
  ring

theorem hasDerivAt_branch2 (s : ℚ) (c d : List ℚ) (x : ℝ) (hx : 0 < x)
    (hd : ev d (x ^ (-2 : ℝ)) ≠ 0) :
    HasDerivAt (fun x => x ^ (s : ℝ) * rational c d (x ^ (-2 : ℝ)))
      (x ^ (s - 1 : ℝ) * (ev (incr2 s c d) (x ^ (-2 : ℝ)) / ev d (x ^ (-2 : ℝ)) ^ 2)) x := by
  have e : (fun x : ℝ => x ^ (s : ℝ) * rational c d (x ^ (-2 : ℝ))) =
      fun x => x ^ (s : ℝ) * (ev c (x ^ (-2 : ℝ)) / ev d (x ^ (-2 : ℝ))) := by
    funext x; rw [rational_ev]
  rw [e]
  have h1 := Real.hasDerivAt_rpow_const (x := x) (p := -2) (Or.inl hx.ne')
  have h2 := Real.hasDerivAt_rpow_const (x := x) (p := s) (Or.inl hx.ne')
  have hc := (hasDerivAt_ev c (x ^ (-2 : ℝ))).comp x h1
  have hdd := (hasDerivAt_ev d (x ^ (-2 : ℝ))).comp x h1
  have := h2.mul (hc.div hdd hd)
  refine this.congr_deriv ?_
  simp only [incr2, ev_add, ev_scale, ev_mul, ev_theta, Function.comp_apply]
  have e1 : x ^ (s : ℝ) = x ^ (s - 1 : ℝ) * x := by
    rw [← rpow_add_one hx.ne']; ring_nf
  have e2 : x ^ (-2 - 1 : ℝ) = x ^ (-2 : ℝ) / x := by rw [rpow_sub_one hx.ne']
  rw [e2, e1]
  push_cast
  simp only [Pi.div_apply, Function.comp_apply]
  generalize x ^ (-2 : ℝ) = w at *
  generalize x ^ (s - 1 : ℝ) = y at *
  generalize ev d w = D at *
  generalize ev c w = C
  generalize dev c w = C'
  generalize dev d w = D'
  field_simp
  ring

end Verif.FermiInt
