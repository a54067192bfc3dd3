/-
C22: the form factors are those of hydrogen-like orbitals.
C43: form factor lowering.

Specification: the radial probability density of the orbital `(n, l)` of a hydrogen-like atom, with the
generalised Laguerre polynomials, and its Fourier transform.
-/
import Verif.Model.Bound
import Verif.Lemmas.Laplace
import Verif.Props.Setup
import Verif.Props.Response
import Verif.Model.Elements
import Verif.Props.Elements

set_option autoImplicit false

namespace Verif.Bound

open MeasureTheory Set Real Verif.Expt Verif.Resp Verif.Laplace

variable (u : Consts)

/-! ### Specification -/

/-- Generalised Laguerre polynomials. -/
noncomputable def laguerre (p a : ℕ) (x : ℝ) : ℝ :=
  ∑ i ∈ Finset.range (p + 1), (-1) ^ i * ((p + a).choose (p - i) : ℝ) * x ^ i / (i.factorial : ℝ)

/-- Probability density of the scaled distance `ρ = 2 Z r / (n a₀)` of an electron from the nucleus. -/
noncomputable def radialProb (n l : ℕ) (rho : ℝ) : ℝ :=
  ((n - l - 1).factorial : ℝ) / (2 * n * ((n + l).factorial : ℝ)) * rho ^ (2 * l + 2) * exp (-rho) *
    laguerre (n - l - 1) (2 * l + 1) rho ^ 2

/-- Probability density of the distance `r` from a nucleus of charge `Z`. -/
noncomputable def distProb (n l : ℕ) (Z r : ℝ) : ℝ :=
  2 * Z / (n * bohr u) * radialProb n l (2 * Z / (n * bohr u) * r)

/-- Its form factor: the average of `exp (i k·r)` over directions and distances. -/
noncomputable def hydrogenFF (n l : ℕ) (k Z : ℝ) : ℝ :=
  ∫ r in Ioi (0 : ℝ), distProb u n l Z r * (sin (k * r) / (k * r))

/-! ### Integrals -/

theorem im_pow_succ (x : ℝ) (m : ℕ) :
    ((1 + x * Complex.I) ^ (m + 1)).re = ((1 + x * Complex.I) ^ m).re - x * ((1 + x * Complex.I) ^ m).im ∧
    ((1 + x * Complex.I) ^ (m + 1)).im =
      ((1 + x * Complex.I) ^ m).im + x * ((1 + x * Complex.I) ^ m).re := by
  rw [pow_succ]
  simp only [Complex.mul_re, Complex.mul_im, Complex.add_re, Complex.add_im, Complex.one_re,
    Complex.one_im, Complex.ofReal_re, Complex.ofReal_im, Complex.I_re, Complex.I_im]
  constructor <;> ring

/-- The imaginary parts of the first powers. -/
theorem im_pow_values (x : ℝ) :
    (((1 + x * Complex.I) ^ 2).im = 2 * x) ∧ (((1 + x * Complex.I) ^ 3).im = 3 * x - x ^ 3) ∧
    (((1 + x * Complex.I) ^ 4).im = 4 * x - 4 * x ^ 3) ∧
    (((1 + x * Complex.I) ^ 5).im = 5 * x - 10 * x ^ 3 + x ^ 5) ∧
    (((1 + x * Complex.I) ^ 6).im = 6 * x - 20 * x ^ 3 + 6 * x ^ 5) ∧
    (((1 + x * Complex.I) ^ 7).im = 7 * x - 35 * x ^ 3 + 21 * x ^ 5 - x ^ 7) ∧
    (((1 + x * Complex.I) ^ 8).im = 8 * x - 56 * x ^ 3 + 56 * x ^ 5 - 8 * x ^ 7) := by
  have h0 : ((1 + x * Complex.I) ^ 0).re = 1 ∧ ((1 + x * Complex.I) ^ 0).im = 0 := by simp
  obtain ⟨r1, i1⟩ := im_pow_succ x 0
  obtain ⟨r2, i2⟩ := im_pow_succ x 1
  obtain ⟨r3, i3⟩ := im_pow_succ x 2
  obtain ⟨r4, i4⟩ := im_pow_succ x 3
  obtain ⟨r5, i5⟩ := im_pow_succ x 4
  obtain ⟨r6, i6⟩ := im_pow_succ x 5
  obtain ⟨r7, i7⟩ := im_pow_succ x 6
  obtain ⟨-, i8⟩ := im_pow_succ x 7
  norm_num only at r1 i1 r2 i2 r3 i3 r4 i4 r5 i5 r6 i6 r7 i7 i8
  rw [h0.1, h0.2] at r1 i1
  rw [r1, i1] at r2 i2
  rw [r2, i2] at r3 i3
  rw [r3, i3] at r4 i4
  rw [r4, i4] at r5 i5
  rw [r5, i5] at r6 i6
  rw [r6, i6] at r7 i7
  rw [r7, i7] at i8
  refine ⟨?_, ?_, ?_, ?_, ?_, ?_, ?_⟩
  · rw [i2]; ring
  · rw [i3]; ring
  · rw [i4]; ring
  · rw [i5]; ring
  · rw [i6]; ring
  · rw [i7]; ring
  · rw [i8]; ring

/-- A density given by a polynomial of degree at most eight without the two lowest powers. -/
theorem poly_transform (d : ℕ → ℝ) {x : ℝ} (hx : x ≠ 0) :
    ∫ rho in Ioi (0 : ℝ), (∑ j ∈ Finset.range 7, d j * rho ^ (j + 2)) * exp (-rho) *
      (sin (x * rho) / (x * rho)) =
      ∑ j ∈ Finset.range 7, d j * ((j + 1).factorial : ℝ) * ((1 + x * Complex.I) ^ (j + 2)).im /
        (x * (1 + x ^ 2) ^ (j + 2)) := by
  have e : ∀ rho ∈ Ioi (0 : ℝ), (∑ j ∈ Finset.range 7, d j * rho ^ (j + 2)) * exp (-rho) *
      (sin (x * rho) / (x * rho)) =
      ∑ j ∈ Finset.range 7, d j / x * (rho ^ (j + 1) * exp (-(1 * rho)) * sin (x * rho)) := by
    intro rho h
    have h' : rho ≠ 0 := (ne_of_gt h)
    rw [Finset.sum_mul, Finset.sum_mul]
    refine Finset.sum_congr rfl fun j _ => ?_
    rw [one_mul, pow_succ rho (j + 1)]
    field_simp
  rw [setIntegral_congr_fun measurableSet_Ioi e,
    integral_finsetSum _ (fun j _ => (integrableOn_pow_exp_sin (j + 1) one_pos x).const_mul _)]
  refine Finset.sum_congr rfl fun j _ => ?_
  rw [integral_const_mul, sine_pow (j + 1) one_pos x]
  rw [one_pow, Complex.ofReal_one]
  have : (0 : ℝ) < 1 + x ^ 2 := by positivity
  field_simp

theorem poly_mass (d : ℕ → ℝ) :
    ∫ rho in Ioi (0 : ℝ), (∑ j ∈ Finset.range 7, d j * rho ^ (j + 2)) * exp (-rho) =
      ∑ j ∈ Finset.range 7, d j * ((j + 2).factorial : ℝ) := by
  have e : ∀ rho ∈ Ioi (0 : ℝ), (∑ j ∈ Finset.range 7, d j * rho ^ (j + 2)) * exp (-rho) =
      ∑ j ∈ Finset.range 7, d j * (rho ^ (j + 2) * exp (-(1 * rho))) := by
    intro rho _
    rw [Finset.sum_mul]
    refine Finset.sum_congr rfl fun j _ => ?_
    rw [one_mul]
    ring
  rw [setIntegral_congr_fun measurableSet_Ioi e,
    integral_finsetSum _ (fun j _ => (integrableOn_pow_exp (j + 2) one_pos).const_mul _)]
  refine Finset.sum_congr rfl fun j _ => ?_
  rw [integral_const_mul, laplace_real (j + 2) one_pos]
  simp

/-- The quantum numbers for which the code has a form factor. -/
def Covered (n l : ℕ) : Prop := 1 ≤ n ∧ n ≤ 4 ∧ l < n

/-- The coefficients of the density. -/
noncomputable def coeffs : ℕ → ℕ → ℕ → ℝ
  | 1, 0 => fun j => ([1 / 2] : List ℝ).getD j 0
  | 2, 0 => fun j => ([1 / 2, -1 / 2, 1 / 8] : List ℝ).getD j 0
  | 2, 1 => fun j => ([0, 0, 1 / 24] : List ℝ).getD j 0
  | 3, 0 => fun j => ([1 / 2, -1, 2 / 3, -1 / 6, 1 / 72] : List ℝ).getD j 0
  | 3, 1 => fun j => ([0, 0, 1 / 9, -1 / 18, 1 / 144] : List ℝ).getD j 0
  | 3, 2 => fun j => ([0, 0, 0, 0, 1 / 720] : List ℝ).getD j 0
  | 4, 0 => fun j => ([1 / 2, -3 / 2, 13 / 8, -19 / 24, 3 / 16, -1 / 48, 1 / 1152] : List ℝ).getD j 0
  | 4, 1 => fun j => ([0, 0, 5 / 24, -5 / 24, 7 / 96, -1 / 96, 1 / 1920] : List ℝ).getD j 0
  | 4, 2 => fun j => ([0, 0, 0, 0, 1 / 160, -1 / 480, 1 / 5760] : List ℝ).getD j 0
  | 4, 3 => fun j => ([0, 0, 0, 0, 0, 0, 1 / 40320] : List ℝ).getD j 0
  | _, _ => fun _ => 0

theorem radialProb_eq {n l : ℕ} (h : Covered n l) (rho : ℝ) :
    radialProb n l rho = (∑ j ∈ Finset.range 7, coeffs n l j * rho ^ (j + 2)) * exp (-rho) := by
  obtain ⟨h1, h2, h3⟩ := h
  unfold radialProb laguerre
  interval_cases n <;> interval_cases l <;>
    simp only [Finset.sum_range_succ, Finset.sum_range_zero, Nat.choose, Nat.factorial, coeffs,
      List.getD_cons_zero, List.getD_cons_succ, List.getD_nil] <;>
    norm_num <;> ring

/-- C22: the density is a probability density. -/
theorem radialProb_mass {n l : ℕ} (h : Covered n l) :
    (∀ rho, 0 ≤ rho → 0 ≤ radialProb n l rho) ∧ ∫ rho in Ioi (0 : ℝ), radialProb n l rho = 1 := by
  constructor
  · intro rho hr
    unfold radialProb
    positivity
  · simp_rw [radialProb_eq h]
    rw [poly_mass]
    obtain ⟨h1, h2, h3⟩ := h
    interval_cases n <;> interval_cases l <;>
      norm_num [Finset.sum_range_succ, Nat.factorial, coeffs]

/-- The transform of the scaled density. -/
theorem radial_transform {n l : ℕ} (h : Covered n l) {x : ℝ} (hx : x ≠ 0) :
    ∫ rho in Ioi (0 : ℝ), radialProb n l rho * (sin (x * rho) / (x * rho)) =
      ∑ j ∈ Finset.range 7, coeffs n l j * ((j + 1).factorial : ℝ) *
        ((1 + x * Complex.I) ^ (j + 2)).im / (x * (1 + x ^ 2) ^ (j + 2)) := by
  simp_rw [radialProb_eq h]
  exact poly_transform _ hx

/-- The rational functions of the code. -/
noncomputable def ratFF (n l : ℕ) (x : ℝ) : ℝ :=
  match n, l with
  | 1, 0 => 1 / (1 + x ^ 2) ^ 2
  | 2, 0 => (1 - 2 * x ^ 2) * ((1 - x ^ 2) / (1 + x ^ 2) ^ 4)
  | 2, 1 => (1 - x ^ 2) / (1 + x ^ 2) ^ 4
  | 3, 0 => (1 - 6 * x ^ 2 + 3 * x ^ 4) * ((1 - 3 * x ^ 2) * (3 - x ^ 2) / (3 * (1 + x ^ 2) ^ 6))
  | 3, 1 => (1 - 4 * x ^ 2) * ((1 - 3 * x ^ 2) * (3 - x ^ 2) / (3 * (1 + x ^ 2) ^ 6))
  | 3, 2 => (1 - 3 * x ^ 2) * (3 - x ^ 2) / (3 * (1 + x ^ 2) ^ 6)
  | 4, 0 => (1 - 12 * x ^ 2 + 18 * x ^ 4 - 4 * x ^ 6) *
      ((1 - x ^ 2) * (1 - 6 * x ^ 2 + x ^ 4) / (1 + x ^ 2) ^ 8)
  | 4, 1 => (1 - 10 * x ^ 2 + 10 * x ^ 4) * ((1 - x ^ 2) * (1 - 6 * x ^ 2 + x ^ 4) / (1 + x ^ 2) ^ 8)
  | 4, 2 => (1 - 6 * x ^ 2) * ((1 - x ^ 2) * (1 - 6 * x ^ 2 + x ^ 4) / (1 + x ^ 2) ^ 8)
  | 4, 3 => (1 - x ^ 2) * (1 - 6 * x ^ 2 + x ^ 4) / (1 + x ^ 2) ^ 8
  | _, _ => 0

theorem atomicFF_rat {n l : ℕ} (h : Covered n l) (k Z : ℝ) :
    atomicFF u n l k Z = some (ratFF n l (n * xf u k Z)) := by
  obtain ⟨h1, h2, h3⟩ := h
  interval_cases n <;> interval_cases l <;>
    simp only [atomicFF, ratFF, f10, f20, f21, f30, f31, f32, f40, f41, f42, f43, Nat.cast_one,
      Nat.cast_ofNat, one_mul]

theorem sum_rat {n l : ℕ} (h : Covered n l) {x : ℝ} (hx : x ≠ 0) :
    ∑ j ∈ Finset.range 7, coeffs n l j * ((j + 1).factorial : ℝ) *
        ((1 + x * Complex.I) ^ (j + 2)).im / (x * (1 + x ^ 2) ^ (j + 2)) = ratFF n l x := by
  obtain ⟨h1, h2, h3⟩ := h
  obtain ⟨p2, p3, p4, p5, p6, p7, p8⟩ := im_pow_values x
  have hD : (1 + x ^ 2 : ℝ) ≠ 0 := by positivity
  interval_cases n <;> interval_cases l <;>
    simp only [Finset.sum_range_succ, Finset.sum_range_zero, Nat.factorial, coeffs, ratFF,
      List.getD_cons_zero, List.getD_cons_succ, List.getD_nil, Nat.reduceAdd, p2, p3, p4, p5, p6, p7,
      p8] <;>
    norm_num <;> field_simp <;> ring

/-! ### C22 -/

/-- C22: every form factor the code offers is the Fourier transform of the hydrogen-like density, for
every wave number and every positive effective charge. -/
theorem atomicFF_hydrogen {n l : ℕ} (h : Covered n l) {k Z : ℝ} (hk : k ≠ 0) (hZ : 0 < Z) :
    atomicFF u n l k Z = some (hydrogenFF u n l k Z) := by
  have hb := bohr_pos u
  have hn : (0 : ℝ) < n := by exact_mod_cast h.1
  have hx : (n : ℝ) * xf u k Z ≠ 0 := by
    unfold xf
    have : k * bohr u / (2 * Z) ≠ 0 := div_ne_zero (mul_ne_zero hk hb.ne') (by positivity)
    exact mul_ne_zero hn.ne' this
  rw [atomicFF_rat u h, ← sum_rat h hx, ← radial_transform h hx]
  congr 1
  have hb' : 0 < 2 * Z / (n * bohr u) := by positivity
  unfold hydrogenFF distProb
  have hcv := integral_comp_mul_left_Ioi
    (fun rho => radialProb n l rho * (sin (n * xf u k Z * rho) / (n * xf u k Z * rho))) 0 hb'
  rw [mul_zero, smul_eq_mul] at hcv
  rw [← mul_inv_cancel_left₀ hb'.ne' (∫ rho in Ioi (0 : ℝ), radialProb n l rho *
    (sin (n * xf u k Z * rho) / (n * xf u k Z * rho))), ← hcv, ← integral_const_mul]
  refine setIntegral_congr_fun measurableSet_Ioi fun r _ => ?_
  have e : n * xf u k Z * (2 * Z / (n * bohr u) * r) = k * r := by
    unfold xf
    field_simp
  simp only [e]
  ring

/-- C22: and nothing is offered for other quantum numbers. -/
theorem atomicFF_none {n l : ℕ} (h : ¬ Covered n l) (k Z : ℝ) : atomicFF u n l k Z = none := by
  unfold Covered at h
  unfold atomicFF
  split <;> first | rfl | exact absurd (by decide) h

/-- C22: one electron contributes one at zero wave number. -/
theorem atomicFF_zero {n l : ℕ} (h : Covered n l) {Z : ℝ} (_hZ : Z ≠ 0) :
    atomicFF u n l 0 Z = some 1 := by
  rw [atomicFF_rat u h]
  have : xf u 0 Z = 0 := by simp [xf]
  rw [this, mul_zero]
  obtain ⟨h1, h2, h3⟩ := h
  interval_cases n <;> interval_cases l <;> norm_num [ratFF]

theorem ratFF_abs_le {n l : ℕ} (h : Covered n l) (x : ℝ) : |ratFF n l x| ≤ 1 := by
  by_cases hx : x = 0
  · subst hx
    obtain ⟨h1, h2, h3⟩ := h
    interval_cases n <;> interval_cases l <;> norm_num [ratFF]
  · rw [← sum_rat h hx, ← radial_transform h hx]
    obtain ⟨hpos, hmass⟩ := radialProb_mass h
    have hint : IntegrableOn (radialProb n l) (Ioi 0) := by
      by_contra hc
      rw [integral_undef hc] at hmass
      exact zero_ne_one hmass
    calc |∫ rho in Ioi (0 : ℝ), radialProb n l rho * (sin (x * rho) / (x * rho))| ≤
        ∫ rho in Ioi (0 : ℝ), radialProb n l rho := by
          rw [← norm_eq_abs]
          refine norm_integral_le_of_norm_le hint ?_
          refine (ae_restrict_iff' measurableSet_Ioi).2 (Filter.Eventually.of_forall fun rho hr => ?_)
          have hr' : 0 < rho := hr
          rw [norm_mul, norm_of_nonneg (hpos rho hr'.le)]
          apply mul_le_of_le_one_right (hpos rho hr'.le)
          rw [norm_div, norm_eq_abs, norm_eq_abs, div_le_one (by positivity)]
          exact abs_sin_le_abs
      _ = 1 := hmass

/-- C22: no form factor exceeds one in magnitude. -/
theorem atomicFF_abs_le {n l : ℕ} {k Z f : ℝ} (h : atomicFF u n l k Z = some f) : |f| ≤ 1 := by
  by_cases hc : Covered n l
  · rw [atomicFF_rat u hc] at h
    rw [← Option.some.inj h]
    exact ratFF_abs_le hc _
  · rw [atomicFF_none u hc] at h
    cases h

/-- C22: the form factors depend on the ratio of wave number and effective charge only. -/
theorem atomicFF_scale (n l : ℕ) (k Z : ℝ) {c : ℝ} (hc : c ≠ 0) :
    atomicFF u n l (c * k) (c * Z) = atomicFF u n l k Z := by
  have e : xf u (c * k) (c * Z) = xf u k Z := by
    unfold xf
    rw [mul_assoc, mul_left_comm 2 c Z, mul_div_mul_left _ _ hc]
  unfold atomicFF
  split <;> simp only [f10, f20, f21, f30, f31, f32, f40, f41, f42, f43, e]

/-- C22: and not on the sign of the wave number. -/
theorem atomicFF_neg (n l : ℕ) (k Z : ℝ) : atomicFF u n l (-k) Z = atomicFF u n l k Z := by
  have e : xf u (-k) Z = -xf u k Z := by
    unfold xf
    ring
  unfold atomicFF
  split <;> simp only [f10, f20, f21, f30, f31, f32, f40, f41, f42, f43, e, mul_neg, even_two, Even.neg_pow,
    (by decide : Even 4), (by decide : Even 6)]

/-- C22: the array lists the ten orbitals in the order 1s 2s 2p 3s 3p 3d 4s 4p 4d 4f, each with its own
effective charge. -/
theorem allFF_eq (k : ℝ) (Z : Fin 10 → ℝ) (o : Fin 10) :
    atomicFF u (orbN o) (orbL o) k (Z o) = some (allFF u k Z o) := by
  fin_cases o <;> rfl

theorem orb_covered (o : Fin 10) : Covered (orbN o) (orbL o) := by
  fin_cases o <;> (unfold Covered orbN orbL; decide)

/-- C22: all entries of the array are bounded by one. -/
theorem allFF_abs_le (k : ℝ) (Z : Fin 10 → ℝ) (o : Fin 10) : |allFF u k Z o| ≤ 1 :=
  atomicFF_abs_le u (allFF_eq u k Z o)

/-- The 2s form factor changes sign: it is negative at `k a₀ / Z = 0.8`. -/
example : atomicFF unitConsts 2 0 (4 / 5) (bohr unitConsts) = some ((1 - 2 * (4 / 5) ^ 2) *
    ((1 - (4 / 5) ^ 2) / (1 + (4 / 5) ^ 2) ^ 4)) := by
  have hb := bohr_pos unitConsts
  rw [atomicFF_rat _ ⟨by norm_num, by norm_num, by norm_num⟩]
  have : ((2 : ℕ) : ℝ) * xf unitConsts (4 / 5) (bohr unitConsts) = 4 / 5 := by
    unfold xf
    field_simp
    norm_num
  rw [this]
  rfl

/-! ### C43: form factor lowering -/

theorem loweringFF_aux {n : ℕ} (ff : Fin 10 → Fin n → ℝ) (f1s : ℕ → ℝ) (m : ℕ) (a : Fin 10) (b : Fin n) :
    (List.range m).foldl (fun g i => setAt g i 0 (f1s i)) ff a b =
      if (b : ℕ) = 0 ∧ (a : ℕ) < m then f1s a else ff a b := by
  induction m with
  | zero => simp
  | succ m ih =>
    rw [List.range_succ, List.foldl_append]
    simp only [List.foldl_cons, List.foldl_nil]
    rw [setAt]
    by_cases h1 : (a : ℕ) = m ∧ (b : ℕ) = 0
    · rw [if_pos h1, if_pos ⟨h1.2, by omega⟩, h1.1]
    · rw [if_neg h1]
      rw [ih]
      by_cases h2 : (b : ℕ) = 0 ∧ (a : ℕ) < m
      · rw [if_pos h2, if_pos ⟨h2.1, by omega⟩]
      · rw [if_neg h2, if_neg]
        rintro ⟨h3, h4⟩
        rcases Nat.lt_succ_iff_lt_or_eq.1 h4 with h5 | h5
        · exact h2 ⟨h3, h5⟩
        · exact h1 ⟨h5, h3⟩

/-- What C43 asks for: the 1s entry of every ion is replaced, nothing else. -/
def LoweringSpec {n : ℕ} (ff new : Fin 10 → Fin n → ℝ) (f1s : ℕ → ℝ) : Prop :=
  ∀ a b, new a b = if a = 0 then f1s b else ff a b

/-- C43: what the code does instead, for every number of ions: it overwrites the first orbitals of the
first ion. -/
theorem loweringFF_eq {n : ℕ} (ff : Fin 10 → Fin n → ℝ) (f1s : ℕ → ℝ) (a : Fin 10) (b : Fin n) :
    loweringFF ff f1s a b = if (b : ℕ) = 0 ∧ (a : ℕ) < n then f1s a else ff a b :=
  loweringFF_aux ff f1s n a b

/-- C43 holds for a single ion. -/
theorem loweringFF_single_partial (ff : Fin 10 → Fin 1 → ℝ) (f1s : ℕ → ℝ) :
    LoweringSpec ff (loweringFF ff f1s) f1s := by
  intro a b
  rw [loweringFF_eq]
  have hb : b = 0 := Subsingleton.elim _ _
  subst hb
  by_cases h : a = 0
  · subst h
    simp
  · have h' : (a : ℕ) ≠ 0 := fun hc => h (Fin.ext hc)
    rw [if_neg (by rintro ⟨-, h2⟩; omega), if_neg h]

/-- C43 is false for two and more ions: the 2s factor of the first ion is overwritten with the 1s factor
of the second, whose own 1s factor stays as it was. -/
theorem loweringFF_wrong {n : ℕ} (ff : Fin 10 → Fin (n + 2) → ℝ) (f1s : ℕ → ℝ) :
    loweringFF ff f1s 1 0 = f1s 1 ∧ loweringFF ff f1s 0 1 = ff 0 1 := by
  rw [loweringFF_eq, loweringFF_eq]
  constructor
  · rw [if_pos (show ((0 : Fin (n + 2)) : ℕ) = 0 ∧ ((1 : Fin 10) : ℕ) < n + 2 from ⟨rfl, by simp⟩)]
    rfl
  · rw [if_neg]
    rintro ⟨h, -⟩
    simp at h

theorem loweringFF_not_spec {n : ℕ} (ff : Fin 10 → Fin (n + 2) → ℝ) (f1s : ℕ → ℝ)
    (h : f1s 1 ≠ ff 0 1) : ¬ LoweringSpec ff (loweringFF ff f1s) f1s := by
  intro hs
  have h1 := hs 0 1
  rw [(loweringFF_wrong ff f1s).2, if_pos rfl] at h1
  exact h h1.symm

/-- The 1s form factor grows with the effective charge. -/
theorem f10_mono (k : ℝ) {Z Z' : ℝ} (h0 : 0 < Z) (h : Z ≤ Z') : f10 u k Z ≤ f10 u k Z' := by
  have hb := bohr_pos u
  unfold f10
  have h1 : xf u k Z' ^ 2 ≤ xf u k Z ^ 2 := by
    unfold xf
    rw [div_pow, div_pow]
    apply div_le_div_of_nonneg_left (sq_nonneg _) (by positivity)
    exact pow_le_pow_left₀ (by positivity) (by linarith) 2
  apply one_div_le_one_div_of_le (by positivity)
  exact pow_le_pow_left₀ (by positivity) (by linarith) 2

/-- The reference energy of `form_factor_lowering_Zeff_10` is positive. -/
theorem loweringZeff_mono {E E' ZA : ℝ} (hE : 0 < E) (h : E ≤ E') (hZ : 1 ≤ ZA) (corr heLike : Bool) :
    0 < loweringZeff E ZA corr heLike ∧ loweringZeff E ZA corr heLike ≤ loweringZeff E' ZA corr heLike := by
  have hd : 121318355 / 10000000 / ZA ≤ 121318355 / 10000000 :=
    div_le_self (by norm_num) hZ
  unfold loweringZeff
  have key : ∀ En : ℝ, 0 < En → 0 < sqrt (E * 1 ^ 2 / En) ∧ sqrt (E * 1 ^ 2 / En) ≤ sqrt (E' * 1 ^ 2 / En) := by
    intro En hEn
    refine ⟨sqrt_pos.2 (by positivity), sqrt_le_sqrt ?_⟩
    gcongr
  have hz2 : 0 ≤ ZA ^ 2 := sq_nonneg _
  cases corr <;> cases heLike <;> simp only [Bool.false_eq_true, if_false, if_true] <;>
    exact key _ (by linarith)

/-- C43: the lowered factor is a mean of the factors of hydrogen- and helium-like ions, lies in (0, 1]
and decreases when the binding energies are lowered. -/
theorem lowering10_mem (k E0 E1 Zcore ZA : ℝ) (corr : Bool) :
    0 < lowering10 u k E0 E1 Zcore ZA corr ∧ lowering10 u k E0 E1 Zcore ZA corr ≤ 1 := by
  have hf : ∀ Z, 0 < f10 u k Z ∧ f10 u k Z ≤ 1 := by
    intro Z
    unfold f10
    have : (1 : ℝ) ≤ (1 + xf u k Z ^ 2) ^ 2 := one_le_pow₀ (by nlinarith [sq_nonneg (xf u k Z)])
    exact ⟨by positivity, by rw [div_le_one (by positivity)]; exact this⟩
  unfold lowering10
  obtain ⟨a1, a2⟩ := hf (loweringZeff E0 ZA corr false)
  obtain ⟨b1, b2⟩ := hf (loweringZeff E1 ZA corr true)
  have x0 : 0 ≤ max 0 (min 1 (Zcore - 1)) := le_max_left _ _
  have x1 : max 0 (min 1 (Zcore - 1)) ≤ 1 := max_le zero_le_one (min_le_left _ _)
  simp only
  generalize max 0 (min 1 (Zcore - 1)) = x at x0 x1
  generalize f10 u k (loweringZeff E0 ZA corr false) = a at a1 a2
  generalize f10 u k (loweringZeff E1 ZA corr true) = b at b1 b2
  constructor
  · rcases eq_or_lt_of_le x0 with h | h
    · rw [← h]; linarith
    · have := mul_pos h b1
      have := mul_nonneg (sub_nonneg.2 x1) a1.le
      linarith
  · nlinarith [mul_nonneg x0 (sub_nonneg.2 b2), mul_nonneg (sub_nonneg.2 x1) (sub_nonneg.2 a2)]

theorem lowering10_mono (k Zcore : ℝ) {E0 E0' E1 E1' ZA : ℝ} (h0 : 0 < E0) (h1 : 0 < E1) (h0' : E0 ≤ E0')
    (h1' : E1 ≤ E1') (hZ : 1 ≤ ZA) (corr : Bool) :
    lowering10 u k E0 E1 Zcore ZA corr ≤ lowering10 u k E0' E1' Zcore ZA corr := by
  have a := loweringZeff_mono h0 h0' hZ corr false
  have b := loweringZeff_mono h1 h1' hZ corr true
  have fa := f10_mono u k a.1 a.2
  have fb := f10_mono u k b.1 b.2
  have x0 : 0 ≤ max 0 (min 1 (Zcore - 1)) := le_max_left _ _
  have x1 : max 0 (min 1 (Zcore - 1)) ≤ 1 := max_le zero_le_one (min_le_left _ _)
  unfold lowering10
  simp only
  exact add_le_add (mul_le_mul_of_nonneg_left fa (by linarith)) (mul_le_mul_of_nonneg_left fb x0)

/-- The two largest entries of a table. -/
def topTwo (l : List Nat) : List Nat := (Verif.Elements.sortNat l).reverse.take 2

/-- C43: the energies the code takes for the K shell, the last two of the table, are the two largest
ionization energies for all elements but F, Ne, K, Ca, Cu and Zn. -/
theorem lowering_K_energies (i : Verif.Elements.Identifier) (e : Verif.Elements.Elem)
    (h : Verif.Elements.mkElement i = some e) :
    e.energies.reverse.take 2 = topTwo e.energies ↔ e.Z ∉ [9, 10, 19, 20, 29, 30] := by
  have key : ∀ e ∈ Verif.Elements.allElements,
      e.energies.reverse.take 2 = topTwo e.energies ↔ e.Z ∉ [9, 10, 19, 20, 29, 30] := by decide +kernel
  exact key e (Verif.Elements.mem_allElements i e h)

/-- Specification: a binding energy after the shift, with a small value in place of negative ones. -/
noncomputable def shifted (E ipd : ℝ) : ℝ := if E + ipd < 0 then 1 / 1000000 else E + ipd

/-- C43: the last two energies of the table, shifted, are those of the hydrogen-like and the helium-like ion, in this
order. -/
theorem lowered1s_eq (k : ℝ) (pre : List ℝ) (EHe EH ipd Zcore : ℝ) {Z : ℕ} (hZ : Z ≠ 1) (corr : Bool) :
    lowered1s u k (pre ++ [EHe, EH]) ipd Zcore Z corr = lowering10 u k (shifted EH ipd) (shifted EHe ipd) Zcore Z corr := by
  simp [lowered1s, shifted, hZ]

/-- C43: hydrogen has one electron at most, with the only energy of its table. -/
theorem lowered1s_hydrogen (k E ipd : ℝ) {Zcore : ℝ} (hc : Zcore ≤ 1) (corr : Bool) :
    lowered1s u k [E] ipd Zcore 1 corr = f10 u k (loweringZeff (shifted E ipd) 1 corr false) := by
  have hx : max 0 (min 1 (Zcore - 1)) = 0 := max_eq_left (le_trans (min_le_right _ _) (by linarith))
  simp [lowered1s, shifted, lowering10, hx]

theorem shifted_mono {E ipd ipd' : ℝ} (h : ipd ≤ ipd') (h0 : E + ipd ≠ 0) (hgap : E + ipd' < 0 ∨ 1 / 1000000 ≤ E + ipd') :
    0 < shifted E ipd ∧ shifted E ipd ≤ shifted E ipd' := by
  unfold shifted
  split_ifs with h1 h2 h2
  · exact ⟨by norm_num, le_rfl⟩
  · rcases hgap with h3 | h3
    · exact absurd h3 h2
    · exact ⟨by norm_num, h3⟩
  · linarith
  · exact ⟨lt_of_le_of_ne (not_lt.1 h1) (Ne.symm h0), by linarith⟩

/-- C43: the deeper the depression, the smaller the form factor, for all tables, charges and depressions.  (The energies
between zero and the small value in place of negative ones are left out: there the form factor rises once more by
the exchange.) -/
theorem lowered1s_mono (k : ℝ) (pre : List ℝ) {EHe EH ipd ipd' : ℝ} (Zcore : ℝ) {Z : ℕ} (hZ : 2 ≤ Z) (corr : Bool) (h : ipd ≤ ipd')
    (h0 : EH + ipd ≠ 0) (h1 : EHe + ipd ≠ 0) (g0 : EH + ipd' < 0 ∨ 1 / 1000000 ≤ EH + ipd')
    (g1 : EHe + ipd' < 0 ∨ 1 / 1000000 ≤ EHe + ipd') :
    lowered1s u k (pre ++ [EHe, EH]) ipd Zcore Z corr ≤ lowered1s u k (pre ++ [EHe, EH]) ipd' Zcore Z corr := by
  rw [lowered1s_eq u k pre EHe EH ipd Zcore (by omega), lowered1s_eq u k pre EHe EH ipd' Zcore (by omega)]
  exact lowering10_mono u k Zcore (shifted_mono h h0 g0).1 (shifted_mono h h1 g1).1 (shifted_mono h h0 g0).2 (shifted_mono h h1 g1).2
    (by exact_mod_cast (by omega : 1 ≤ Z)) corr

/-- Helium, with a depression of five and of two electron volts. -/
example (k : ℝ) : lowered1s u k [24.6, 54.4] (-5) 2 2 true ≤ lowered1s u k [24.6, 54.4] (-2) 2 2 true :=
  lowered1s_mono u k [] 2 (by norm_num) true (by norm_num) (by norm_num) (by norm_num) (Or.inr (by norm_num)) (Or.inr (by norm_num))

end Verif.Bound
