/-
Property C12: the discrete sine transform.
-/
import Verif.Model.Hnc
import Mathlib.Analysis.SpecialFunctions.Trigonometric.Bounds
import Mathlib.Algebra.BigOperators.Intervals
import Mathlib.Algebra.BigOperators.Field
import Mathlib.Tactic.Linarith
import Mathlib.Tactic.FieldSimp
import Mathlib.Tactic.Positivity

set_option autoImplicit false

namespace Verif.Hnc

open Real

/-! ### Specification -/

/-- The discrete sine transform of type 4. -/
noncomputable def sineSum (N : ℕ) (f : ℕ → ℝ) (n : ℕ) : ℝ :=
  ∑ j ∈ Finset.range N, f j * sin (π / N * (j + 1 / 2) * (n + 1 / 2))

/-- The midpoint rule, with `N` points and spacing `dr`, for the Fourier transform
`4 π ∫ r² f(r) sin(k r) / (k r) dr` of a function with spherical symmetry. -/
noncomputable def midpointFourier (N : ℕ) (dr : ℝ) (f : ℝ → ℝ) (k : ℝ) : ℝ :=
  ∑ j ∈ Finset.range N, 4 * π * ((j + 1 / 2) * dr) ^ 2 * f ((j + 1 / 2) * dr) *
    (sin (k * ((j + 1 / 2) * dr)) / (k * ((j + 1 / 2) * dr))) * dr

/-! ### The fast algorithm -/

theorem sum_even_odd (M : ℕ) (g : ℕ → ℝ) :
    ∑ j ∈ Finset.range (2 * M), g j = ∑ i ∈ Finset.range M, (g (2 * i) + g (2 * M - 1 - 2 * i)) := by
  have h1 : ∀ M, ∑ j ∈ Finset.range (2 * M), g j = ∑ i ∈ Finset.range M, (g (2 * i) + g (2 * i + 1)) := by
    intro M
    induction M with
    | zero => simp
    | succ M ih => rw [show 2 * (M + 1) = 2 * M + 1 + 1 by ring, Finset.sum_range_succ, Finset.sum_range_succ, ih,
        Finset.sum_range_succ]; ring
  rw [h1, Finset.sum_add_distrib, Finset.sum_add_distrib]
  congr 1
  rw [← Finset.sum_range_reflect]
  refine Finset.sum_congr rfl fun i hi => ?_
  have := Finset.mem_range.1 hi
  congr 1
  omega

/-- The phase of one term of the fast Fourier transform. -/
noncomputable def phase (N i m : ℕ) : ℝ := π / N * (2 * i + 1 / 2) * (2 * m + 1 / 2)

theorem fac_prod {M : ℕ} (hM : 0 < M) (i m : ℕ) :
    dstFac (2 * M) i * Complex.exp (-2 * π * Complex.I * m * i / M) * dstFac (2 * M) m =
      Complex.exp (-(phase (2 * M) i m : ℂ) * Complex.I) := by
  have hM' : (M : ℂ) ≠ 0 := by exact_mod_cast hM.ne'
  unfold dstFac phase
  rw [← Complex.exp_add, ← Complex.exp_add]
  congr 1
  push_cast
  field_simp
  ring

theorem exp_parts (a b θ : ℝ) :
    (((a : ℂ) + Complex.I * b) * Complex.exp (-(θ : ℂ) * Complex.I)).re = a * cos θ + b * sin θ ∧
      (((a : ℂ) + Complex.I * b) * Complex.exp (-(θ : ℂ) * Complex.I)).im = b * cos θ - a * sin θ := by
  have e : Complex.exp (-(θ : ℂ) * Complex.I) = cos θ - sin θ * Complex.I := by
    rw [Complex.exp_mul_I, Complex.cos_neg, Complex.sin_neg, ← Complex.ofReal_cos, ← Complex.ofReal_sin]
    ring
  rw [e]
  generalize cos θ = C
  generalize sin θ = S
  constructor
  · simp
  · simp; ring

/-- The transform of the code in terms of the phases. -/
theorem dst4_parts {M : ℕ} (hM : 0 < M) (f : ℕ → ℝ) (m : ℕ) :
    let Y := fft M (fun i => ((f (2 * M - 1 - 2 * i) : ℂ) + Complex.I * f (2 * M - 1 - (2 * M - 1 - 2 * i))) * dstFac (2 * M) i) m *
      dstFac (2 * M) m
    Y.re = ∑ i ∈ Finset.range M, (f (2 * M - 1 - 2 * i) * cos (phase (2 * M) i m) + f (2 * i) * sin (phase (2 * M) i m)) ∧
      Y.im = ∑ i ∈ Finset.range M, (f (2 * i) * cos (phase (2 * M) i m) - f (2 * M - 1 - 2 * i) * sin (phase (2 * M) i m)) := by
  intro Y
  have hY : Y = ∑ i ∈ Finset.range M, ((f (2 * M - 1 - 2 * i) : ℂ) + Complex.I * f (2 * i)) *
      Complex.exp (-(phase (2 * M) i m : ℂ) * Complex.I) := by
    simp only [Y, fft, Finset.sum_mul]
    refine Finset.sum_congr rfl fun i hi => ?_
    have := Finset.mem_range.1 hi
    rw [← fac_prod hM, show 2 * M - 1 - (2 * M - 1 - 2 * i) = 2 * i by omega]
    ring
  rw [hY, Complex.re_sum, Complex.im_sum]
  exact ⟨Finset.sum_congr rfl fun i _ => (exp_parts _ _ _).1, Finset.sum_congr rfl fun i _ => (exp_parts _ _ _).2⟩

theorem sin_even {M i m : ℕ} :
    sin (π / (2 * M : ℕ) * ((2 * i : ℕ) + 1 / 2) * ((2 * m : ℕ) + 1 / 2)) = sin (phase (2 * M) i m) := by
  unfold phase; push_cast; rfl

theorem sin_odd_even {M : ℕ} (hM : 0 < M) {i m : ℕ} (hi : i < M) :
    sin (π / (2 * M : ℕ) * ((2 * M - 1 - 2 * i : ℕ) + 1 / 2) * ((2 * m : ℕ) + 1 / 2)) = cos (phase (2 * M) i m) := by
  have hM' : (M : ℝ) ≠ 0 := by exact_mod_cast hM.ne'
  have e : ((2 * M - 1 - 2 * i : ℕ) : ℝ) = 2 * M - 1 - 2 * i := by
    rw [Nat.cast_sub (by omega), Nat.cast_sub (by omega)]; push_cast; ring
  rw [e]
  have e2 : π / (2 * M : ℕ) * (2 * M - 1 - 2 * i + 1 / 2) * ((2 * m : ℕ) + 1 / 2) =
      π / 2 - phase (2 * M) i m + m * (2 * π) := by
    unfold phase; push_cast; field_simp; ring
  rw [e2, sin_add_nat_mul_two_pi, sin_pi_div_two_sub]

theorem sin_even_odd {M : ℕ} (hM : 0 < M) {i m : ℕ} (hm : m < M) :
    sin (π / (2 * M : ℕ) * ((2 * i : ℕ) + 1 / 2) * ((2 * M - 1 - 2 * m : ℕ) + 1 / 2)) = cos (phase (2 * M) i m) := by
  have hM' : (M : ℝ) ≠ 0 := by exact_mod_cast hM.ne'
  have e : ((2 * M - 1 - 2 * m : ℕ) : ℝ) = 2 * M - 1 - 2 * m := by
    rw [Nat.cast_sub (by omega), Nat.cast_sub (by omega)]; push_cast; ring
  rw [e]
  have e2 : π / (2 * M : ℕ) * ((2 * i : ℕ) + 1 / 2) * (2 * M - 1 - 2 * m + 1 / 2) =
      π / 2 - phase (2 * M) i m + i * (2 * π) := by
    unfold phase; push_cast; field_simp; ring
  rw [e2, sin_add_nat_mul_two_pi, sin_pi_div_two_sub]

theorem sin_odd_odd {M : ℕ} (hM : 0 < M) {i m : ℕ} (hi : i < M) (hm : m < M) :
    sin (π / (2 * M : ℕ) * ((2 * M - 1 - 2 * i : ℕ) + 1 / 2) * ((2 * M - 1 - 2 * m : ℕ) + 1 / 2)) =
      -sin (phase (2 * M) i m) := by
  have hM' : (M : ℝ) ≠ 0 := by exact_mod_cast hM.ne'
  have e : ∀ i < M, ((2 * M - 1 - 2 * i : ℕ) : ℝ) = 2 * M - 1 - 2 * i := by
    intro i hi
    rw [Nat.cast_sub (by omega), Nat.cast_sub (by omega)]; push_cast; ring
  rw [e i hi, e m hm]
  have e2 : π / (2 * M : ℕ) * (2 * M - 1 - 2 * i + 1 / 2) * (2 * M - 1 - 2 * m + 1 / 2) =
      phase (2 * M) i m - π + (M : ℤ) * (2 * π) + (-(i : ℤ) - m : ℤ) * (2 * π) := by
    unfold phase; push_cast; field_simp; ring
  rw [e2, sin_add_int_mul_two_pi, sin_add_int_mul_two_pi, sin_sub_pi]

/-- C12: for an even number of points, the fast algorithm computes the discrete sine transform of
type 4. -/
theorem dst4_eq {M : ℕ} (hM : 0 < M) (f : ℕ → ℝ) {n : ℕ} (hn : n < 2 * M) :
    dst4 (2 * M) f n = sineSum (2 * M) f n := by
  unfold sineSum
  rw [sum_even_odd]
  unfold dst4
  simp only [Nat.mul_div_cancel_left M two_pos, if_neg (show ¬M ≤ n / 2 by omega)]
  have e : ∀ m, (fft M (fun i => ((f (2 * M - 1 - 2 * i) : ℂ) + Complex.I * f (2 * M - 1 - (2 * M - 1 - 2 * i))) * dstFac (2 * M) i) m *
      dstFac (2 * M) m).re = _ ∧ _ := fun m => dst4_parts hM f m
  split_ifs with h
  · obtain ⟨m, rfl⟩ : ∃ m, n = 2 * m := ⟨n / 2, by omega⟩
    rw [Nat.mul_div_cancel_left m two_pos, (e m).1]
    refine Finset.sum_congr rfl fun i hi => ?_
    rw [sin_even, sin_odd_even hM (Finset.mem_range.1 hi)]
    ring
  · obtain ⟨m, hm, rfl⟩ : ∃ m < M, n = 2 * M - 1 - 2 * m := ⟨M - 1 - n / 2, by omega, by omega⟩
    rw [show M - 1 - (2 * M - 1 - 2 * m) / 2 = m by omega, (e m).2, neg_mul_neg, one_mul]
    refine Finset.sum_congr rfl fun i hi => ?_
    rw [sin_even_odd hM hm, sin_odd_odd hM (Finset.mem_range.1 hi) hm]
    ring

/-- C12: for an odd number of points, against which the documentation warns, the last value is always zero, so
that the transform cannot be inverted. -/
theorem dst4_odd (M : ℕ) (f : ℕ → ℝ) : dst4 (2 * M + 1) f (2 * M) = 0 := by
  unfold dst4
  simp only [show (2 * M + 1) / 2 = M by omega, if_pos (show M ≤ 2 * M / 2 by omega)]

/-! ### Orthogonality -/

theorem sum_cos_zero {N : ℕ} {x : ℝ} (hs : sin (x / 2) ≠ 0) (hz : sin (N * x) = 0) :
    ∑ n ∈ Finset.range N, cos (x * (n + 1 / 2)) = 0 := by
  have h : ∀ N : ℕ, 2 * sin (x / 2) * ∑ n ∈ Finset.range N, cos (x * (n + 1 / 2)) = sin (N * x) := by
    intro N
    induction N with
    | zero => simp
    | succ N ih =>
      rw [Finset.sum_range_succ, mul_add, ih]
      have h1 : 2 * sin (x / 2) * cos (x * (N + 1 / 2)) = sin (x / 2 + x * (N + 1 / 2)) + sin (x / 2 - x * (N + 1 / 2)) := by
        rw [sin_add, sin_sub]; ring
      rw [h1]
      have h2 : x / 2 - x * (N + 1 / 2) = -(N * x) := by ring
      have h3 : x / 2 + x * (N + 1 / 2) = ((N + 1 : ℕ) : ℝ) * x := by push_cast; ring
      rw [h2, h3, sin_neg]
      ring
  have := h N
  rw [hz] at this
  rcases mul_eq_zero.1 this with h | h
  · exact absurd (by linarith : sin (x / 2) = 0) hs
  · exact h

theorem sum_cos_int {N : ℕ} {d : ℕ} (h0 : 0 < d) (h1 : d < 2 * N) :
    ∑ n ∈ Finset.range N, cos (π / N * d * (n + 1 / 2)) = 0 := by
  have hN : (0 : ℝ) < N := by
    have : 0 < N := by omega
    exact_mod_cast this
  apply sum_cos_zero
  · have hpos : 0 < π / N * d / 2 := by
      have : (0 : ℝ) < d := by exact_mod_cast h0
      positivity
    have hlt : π / N * d / 2 < π := by
      have h2 : (d : ℝ) < 2 * N := by exact_mod_cast h1
      have e : π / N * d / 2 = π * (d / (2 * N)) := by field_simp
      rw [e]
      exact mul_lt_of_lt_one_right pi_pos (by rw [div_lt_one (by positivity)]; exact h2)
    exact (sin_pos_of_pos_of_lt_pi hpos hlt).ne'
  · have e : N * (π / N * d) = d * π := by field_simp
    rw [e]
    exact sin_nat_mul_pi d

theorem sine_orthogonal {N : ℕ} {j l : ℕ} (hj : j < N) (hl : l < N) :
    ∑ n ∈ Finset.range N, sin (π / N * (j + 1 / 2) * (n + 1 / 2)) * sin (π / N * (n + 1 / 2) * (l + 1 / 2)) =
      if j = l then (N : ℝ) / 2 else 0 := by
  have key : ∀ a b : ℕ, b ≤ a → a < N → ∑ n ∈ Finset.range N, sin (π / N * (a + 1 / 2) * (n + 1 / 2)) * sin (π / N * (n + 1 / 2) * (b + 1 / 2)) =
      if a = b then (N : ℝ) / 2 else 0 := by
    intro a b hab ha
    have e : ∀ n : ℕ, sin (π / N * (a + 1 / 2) * (n + 1 / 2)) * sin (π / N * (n + 1 / 2) * (b + 1 / 2)) =
        cos (π / N * ((a - b : ℕ) : ℝ) * (n + 1 / 2)) / 2 - cos (π / N * ((a + b + 1 : ℕ) : ℝ) * (n + 1 / 2)) / 2 := by
      intro n
      rw [Nat.cast_sub hab]
      push_cast
      have h1 : π / N * (a - b : ℝ) * (n + 1 / 2) =
          π / N * (a + 1 / 2) * (n + 1 / 2) - π / N * (n + 1 / 2) * (b + 1 / 2) := by ring
      have h2 : π / N * (a + b + 1 : ℝ) * (n + 1 / 2) =
          π / N * (a + 1 / 2) * (n + 1 / 2) + π / N * (n + 1 / 2) * (b + 1 / 2) := by ring
      rw [h1, h2, cos_sub, cos_add]
      ring
    simp only [e, Finset.sum_sub_distrib, ← Finset.sum_div]
    rw [sum_cos_int (d := a + b + 1) (by omega) (by omega)]
    split_ifs with h
    · subst h; simp
    · rw [sum_cos_int (d := a - b) (by omega) (by omega)]; simp
  rcases le_total l j with h | h
  · exact key j l h hj
  · have := key l j h hl
    have e : ∀ n : ℕ, sin (π / N * (j + 1 / 2) * (n + 1 / 2)) * sin (π / N * (n + 1 / 2) * (l + 1 / 2)) =
        sin (π / N * (l + 1 / 2) * (n + 1 / 2)) * sin (π / N * (n + 1 / 2) * (j + 1 / 2)) := by
      intro n
      rw [mul_comm]
      congr 2 <;> ring
    simp only [e, this, eq_comm]

/-- C12: up to the factor `N / 2` the transform is its own inverse. -/
theorem sineSum_sineSum {N : ℕ} (f : ℕ → ℝ) {l : ℕ} (hl : l < N) : sineSum N (sineSum N f) l = N / 2 * f l := by
  unfold sineSum
  simp only [Finset.sum_mul]
  rw [Finset.sum_comm]
  have e : ∀ j ∈ Finset.range N, ∑ n ∈ Finset.range N, f j * sin (π / N * (j + 1 / 2) * (n + 1 / 2)) *
      sin (π / N * (n + 1 / 2) * (l + 1 / 2)) = f j * if j = l then (N : ℝ) / 2 else 0 := by
    intro j hj
    rw [← sine_orthogonal (Finset.mem_range.1 hj) hl, Finset.mul_sum]
    exact Finset.sum_congr rfl fun n _ => by ring
  rw [Finset.sum_congr rfl e]
  simp [hl]
  ring

theorem sineSum_congr {N : ℕ} {f g : ℕ → ℝ} (h : ∀ j < N, f j = g j) (n : ℕ) : sineSum N f n = sineSum N g n :=
  Finset.sum_congr rfl fun j hj => by rw [h j (Finset.mem_range.1 hj)]

theorem sineSum_smul {N : ℕ} (c : ℝ) (f : ℕ → ℝ) (n : ℕ) : sineSum N (fun j => c * f j) n = c * sineSum N f n := by
  unfold sineSum
  rw [Finset.mul_sum]
  exact Finset.sum_congr rfl fun j _ => by ring

theorem sineSum_add {N : ℕ} (f g : ℕ → ℝ) (n : ℕ) : sineSum N (fun j => f j + g j) n = sineSum N f n + sineSum N g n := by
  unfold sineSum
  rw [← Finset.sum_add_distrib]
  exact Finset.sum_congr rfl fun j _ => by ring

/-! ### The transform in three dimensions -/

/-- The transform of the code, in terms of the discrete sine transform. -/
theorem fourierSine_eq {M : ℕ} (hM : 0 < M) (k r f : ℕ → ℝ) {n : ℕ} (hn : n < 2 * M) :
    fourierSine (2 * M) k r f n = 4 * π * (r 1 - r 0) / k n * sineSum (2 * M) (fun j => r j * f j) n := by
  unfold fourierSine
  rw [dst4_eq hM _ hn]
  ring

/-- C12: transforming to wavenumbers and back returns the data, for any pair of grids with the spacings
`dr` and `π / (N dr)`. -/
theorem fourierSine_inverse {M : ℕ} (hM : 0 < M) (k r f : ℕ → ℝ) (hr : ∀ j < 2 * M, r j ≠ 0) (hk : ∀ n < 2 * M, k n ≠ 0)
    (hdr : r 1 - r 0 ≠ 0) (hdk : k 1 - k 0 = π / ((2 * M : ℕ) * (r 1 - r 0))) {j : ℕ} (hj : j < 2 * M) :
    fourierSine (2 * M) r k (fourierSine (2 * M) k r f) j / (2 * π) ^ 3 = f j := by
  have hM' : (M : ℝ) ≠ 0 := by exact_mod_cast hM.ne'
  rw [fourierSine_eq hM _ _ _ hj]
  have e : ∀ n < 2 * M, k n * fourierSine (2 * M) k r f n = 4 * π * (r 1 - r 0) * sineSum (2 * M) (fun j => r j * f j) n := by
    intro n hn
    rw [fourierSine_eq hM _ _ _ hn]
    have := hk n hn
    field_simp
  rw [sineSum_congr e, sineSum_smul, sineSum_sineSum _ hj, hdk]
  have := hr j hj
  push_cast
  field_simp
  ring

/-- C12: the other way round. -/
theorem fourierSine_inverse' {M : ℕ} (hM : 0 < M) (k r f : ℕ → ℝ) (hr : ∀ j < 2 * M, r j ≠ 0) (hk : ∀ n < 2 * M, k n ≠ 0)
    (hdr : r 1 - r 0 ≠ 0) (hdk : k 1 - k 0 = π / ((2 * M : ℕ) * (r 1 - r 0))) {n : ℕ} (hn : n < 2 * M) :
    fourierSine (2 * M) k r (fun j => fourierSine (2 * M) r k f j / (2 * π) ^ 3) n = f n := by
  have hM' : (M : ℝ) ≠ 0 := by exact_mod_cast hM.ne'
  rw [fourierSine_eq hM _ _ _ hn]
  have e : ∀ j < 2 * M, r j * (fourierSine (2 * M) r k f j / (2 * π) ^ 3) =
      4 * π * (k 1 - k 0) / (2 * π) ^ 3 * sineSum (2 * M) (fun j => k j * f j) j := by
    intro j hj
    rw [fourierSine_eq hM _ _ _ hj]
    have := hr j hj
    field_simp
  rw [sineSum_congr e, sineSum_smul, sineSum_sineSum _ hn, hdk]
  have := hk n hn
  push_cast
  field_simp
  ring

/-- The wavenumbers of the code match its distances. -/
theorem kGrid_step (N : ℕ) (r : ℕ → ℝ) : kGrid N r 1 - kGrid N r 0 = π / (N * (r 1 - r 0)) := by
  unfold kGrid; simp

theorem kGrid_pos {N : ℕ} {r : ℕ → ℝ} (hr : 0 < r (N - 1)) (hdr : 0 < r 1 - r 0) (n : ℕ) : 0 < kGrid N r n := by
  unfold kGrid
  simp only []
  positivity

/-- C12: the round trip on the grids of the hypernetted chain models. -/
theorem roundtrip {M : ℕ} (hM : 0 < M) {rmin rmax : ℝ} (h0 : 0 < rmin) (h1 : rmin < rmax) (f : ℕ → ℝ) {j : ℕ} (hj : j < 2 * M) :
    fourierSine (2 * M) (rGrid (2 * M) rmin rmax) (kGrid (2 * M) (rGrid (2 * M) rmin rmax))
      (fourierSine (2 * M) (kGrid (2 * M) (rGrid (2 * M) rmin rmax)) (rGrid (2 * M) rmin rmax) f) j / (2 * π) ^ 3 = f j := by
  have hM1 : (1 : ℝ) ≤ M := by exact_mod_cast hM
  have hstep : 0 < (rmax - rmin) / ((2 * M : ℕ) - 1) := by
    apply div_pos (by linarith)
    push_cast
    linarith
  have hr : ∀ j, 0 < rGrid (2 * M) rmin rmax j := fun j => by
    unfold rGrid
    positivity
  have hd : 0 < rGrid (2 * M) rmin rmax 1 - rGrid (2 * M) rmin rmax 0 := by
    unfold rGrid
    simpa using hstep
  exact fourierSine_inverse hM _ _ f (fun j _ => (hr j).ne') (fun n _ => (kGrid_pos (hr _) hd n).ne') hd.ne' (kGrid_step _ _) hj

/-- C69: on the grids of half-integers, the transform is the midpoint rule for the Fourier transform.
(Partial: at the wavenumbers of the transform; those of the code are shifted, see `fourierSine_relabelled`.) -/
theorem fourierSine_midpoint_partial {M : ℕ} (hM : 0 < M) {dr : ℝ} (hdr : 0 < dr) (f : ℝ → ℝ) {n : ℕ} (hn : n < 2 * M) :
    fourierSine (2 * M) (fun n => (n + 1 / 2) * (π / ((2 * M : ℕ) * dr))) (fun j => (j + 1 / 2) * dr)
        (fun j => f ((j + 1 / 2) * dr)) n =
      midpointFourier (2 * M) dr f ((n + 1 / 2) * (π / ((2 * M : ℕ) * dr))) := by
  have hM' : (0 : ℝ) < M := by exact_mod_cast hM
  rw [fourierSine_eq hM _ _ _ hn]
  unfold sineSum midpointFourier
  rw [Finset.mul_sum]
  refine Finset.sum_congr rfl fun j _ => ?_
  have e : (n + 1 / 2) * (π / ((2 * M : ℕ) * dr)) * ((j + 1 / 2) * dr) = π / (2 * M : ℕ) * (j + 1 / 2) * (n + 1 / 2) := by
    push_cast; field_simp
  rw [e]
  generalize sin (π / (2 * M : ℕ) * (j + 1 / 2) * (n + 1 / 2)) = S
  have h1 : (0 : ℝ) < (j : ℝ) + 1 / 2 := by positivity
  have h2 : (0 : ℝ) < (n : ℝ) + 1 / 2 := by positivity
  push_cast
  field_simp
  ring

/-- C69: the wavenumbers of the code are not the half-integers: they lie above them by a shift which does
not depend on the index and which is close to half a step. -/
theorem kGrid_shift {N : ℕ} (hN : 2 ≤ N) {rmin rmax : ℝ} (h0 : 0 < rmin) (h1 : rmin < rmax) (n : ℕ) :
    let dk := π / (N * (rGrid N rmin rmax 1 - rGrid N rmin rmax 0))
    kGrid N (rGrid N rmin rmax) n - (n + 1 / 2) * dk = dk * (N / (N - 1) * (1 - rmin / rmax) - 1 / 2) := by
  have hN' : (2 : ℝ) ≤ N := by exact_mod_cast hN
  have hN1 : (0 : ℝ) < N - 1 := by linarith
  have e : rGrid N rmin rmax (N - 1) = rmax := by
    unfold rGrid
    rw [Nat.cast_sub (by omega)]
    push_cast
    field_simp
    ring
  have ed : rGrid N rmin rmax 1 - rGrid N rmin rmax 0 = (rmax - rmin) / (N - 1) := by
    unfold rGrid; push_cast; ring
  have hd : 0 < rmax - rmin := by linarith
  have hm : 0 < rmax := by linarith
  intro dk
  simp only [dk, kGrid]
  rw [e, ed]
  field_simp
  ring

/-- C69: the transform at the first wavenumber is too small by a factor of about two: it is the midpoint
rule at a smaller wavenumber, multiplied by the ratio of the wavenumbers. -/
theorem fourierSine_relabelled {M : ℕ} (hM : 0 < M) {dr : ℝ} (hdr : 0 < dr) (f : ℝ → ℝ) {n : ℕ} (hn : n < 2 * M) :
    let r := fun j : ℕ => ((j : ℝ) + 1 / 2) * dr
    let q := ((n : ℝ) + 1 / 2) * (π / ((2 * M : ℕ) * dr))
    fourierSine (2 * M) (kGrid (2 * M) r) r (fun j => f (r j)) n =
        q / kGrid (2 * M) r n * midpointFourier (2 * M) dr f q ∧
      q < kGrid (2 * M) r n ∧ kGrid (2 * M) r 0 = 4 * M / (4 * M - 1) * (π / ((2 * M : ℕ) * dr)) := by
  intro r q
  have hM1 : (1 : ℝ) ≤ M := by exact_mod_cast hM
  have hr1 : r 1 - r 0 = dr := by simp only [r]; push_cast; ring
  have hlast : r (2 * M - 1) = (2 * M - 1 / 2) * dr := by
    simp only [r]
    rw [Nat.cast_sub (by omega)]
    push_cast
    ring
  have hrl : 0 < r (2 * M - 1) := by
    rw [hlast]
    exact mul_pos (by linarith) hdr
  have hk := kGrid_pos hrl (by rw [hr1]; exact hdr) n
  have hk0 : kGrid (2 * M) r 0 = 4 * M / (4 * M - 1) * (π / ((2 * M : ℕ) * dr)) := by
    unfold kGrid
    simp only []
    rw [hlast]
    have : (4 * M - 1 : ℝ) ≠ 0 := by linarith
    have : (2 * M - 1 / 2 : ℝ) ≠ 0 := by linarith
    have e : (2 * M - 1 / 2 : ℝ) = (4 * M - 1) / 2 := by ring
    rw [e]
    push_cast
    field_simp
    ring
  have hkn : kGrid (2 * M) r n = kGrid (2 * M) r 0 + n * (π / ((2 * M : ℕ) * dr)) := by
    unfold kGrid
    simp only [hr1]
    push_cast
    ring
  have hdk : 0 < π / ((2 * M : ℕ) * dr) := by
    push_cast
    have := pi_pos
    positivity
  refine ⟨?_, ?_, hk0⟩
  · rw [← fourierSine_midpoint_partial hM hdr f hn, fourierSine_eq hM _ _ _ hn, fourierSine_eq hM _ _ _ hn]
    simp only [r, q]
    have hq : ((n : ℝ) + 1 / 2) * (π / ((2 * M : ℕ) * dr)) ≠ 0 := by positivity
    generalize ((n : ℝ) + 1 / 2) * (π / ((2 * M : ℕ) * dr)) = Q at *
    generalize sineSum (2 * M) _ n = S
    have := hk.ne'
    simp only [r] at this
    field_simp
  · rw [hkn, hk0]
    simp only [q]
    have : 1 / 2 < 4 * (M : ℝ) / (4 * M - 1) := by
      rw [lt_div_iff₀ (by linarith)]; linarith
    nlinarith

/-- Four points. -/
example (f : ℕ → ℝ) : fourierSine 4 (rGrid 4 1 4) (kGrid 4 (rGrid 4 1 4))
    (fourierSine 4 (kGrid 4 (rGrid 4 1 4)) (rGrid 4 1 4) f) 2 / (2 * π) ^ 3 = f 2 :=
  roundtrip (M := 2) two_pos one_pos (by norm_num) f (by norm_num)

end Verif.Hnc
