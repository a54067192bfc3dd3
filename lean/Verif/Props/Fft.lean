/-
Properties C84 to C86: the fast Fourier transforms and the sine transform of type 1.
-/
import Verif.Lemmas.Fft
import Mathlib.Algebra.Field.GeomSum
import Mathlib.Tactic.LinearCombination

set_option autoImplicit false

namespace Verif.Fft

open Real

/-! ### Specification -/

/-- The discrete Fourier transform of length `N` with the sign `+1` or `-1` in the exponent. -/
noncomputable def dft (sign : ℝ) (N : ℕ) (x : ℕ → ℂ) (m : ℕ) : ℂ :=
  ∑ t ∈ Finset.range N, x t * Complex.exp (sign * 2 * π * Complex.I * m * t / N)

/-- The complex number at the place `k` of an array of real and imaginary parts. -/
noncomputable def entry (y : ℕ → ℝ) (k : ℕ) : ℂ := y (2 * k) + y (2 * k + 1) * Complex.I

/-- The discrete sine transform of type 1 of length `n`; the first element of the array does not matter. -/
noncomputable def sineSum1 (n : ℕ) (y : ℕ → ℝ) (k : ℕ) : ℝ :=
  ∑ j ∈ Finset.range (n - 1), y (j + 1) * sin (π * (j + 1 : ℕ) * k / n)

theorem entry_eq (y : ℕ → ℝ) : entry y = toC y := by
  funext k
  apply Complex.ext <;> simp [entry, toC]

/-! ### C84: `four1` -/

/-- C84: for every power of two, `four1` returns the discrete Fourier transform. -/
theorem four1_dft (p : ℕ) (y : ℕ → ℝ) {sign : ℝ} (hs : sign = 1 ∨ sign = -1) {m : ℕ} (hm : m < 2 ^ p) :
    entry (four1 (2 * 2 ^ p) y sign) m = dft sign (2 ^ p) (entry y) m := by
  have e : 2 * 2 ^ p / 2 = 2 ^ p := by omega
  have h := passes_toC hs (toC y) p 0 (bitReversal (2 ^ p) y) (by
    intro b k hb hk
    have hk0 : k = 0 := by omega
    subst hk0
    rw [pow_zero, one_mul, add_zero, bitReversal_toC p y hb, block]
    simp) (m := m) (by simpa using hm)
  rw [add_zero, pow_zero, mul_one] at h
  simp only [four1]
  rw [entry_eq, entry_eq, e, h, dft]
  apply Finset.sum_congr rfl
  intro t _
  rw [root, ← Complex.exp_nat_mul, mul_comm]
  congr 2
  push_cast
  ring

/-- Sum over a full set of roots of unity. -/
theorem sum_roots (N : ℕ) (d : ℤ) (hd : ¬ (N : ℤ) ∣ d) :
    ∑ m ∈ Finset.range N, Complex.exp (2 * π * Complex.I * d * m / N) = 0 := by
  rcases Nat.eq_zero_or_pos N with rfl | hN
  · simp
  have hN' : (N : ℂ) ≠ 0 := by exact_mod_cast hN.ne'
  have hz : ∀ m : ℕ, Complex.exp (2 * π * Complex.I * d * m / N) = Complex.exp (2 * π * Complex.I * d / N) ^ m := by
    intro m
    rw [← Complex.exp_nat_mul]
    congr 1
    ring
  simp only [hz]
  have hne : Complex.exp (2 * π * Complex.I * d / N) ≠ 1 := by
    intro h
    rw [Complex.exp_eq_one_iff] at h
    obtain ⟨k, hk⟩ := h
    apply hd
    refine ⟨k, ?_⟩
    have hI : (2 * π * Complex.I : ℂ) ≠ 0 := by simp [pi_ne_zero]
    rw [div_eq_iff hN'] at hk
    have : (d : ℂ) = N * k := by
      apply mul_left_cancel₀ hI
      linear_combination hk
    exact_mod_cast this
  rw [geom_sum_eq hne, ← Complex.exp_nat_mul]
  have : (N : ℂ) * (2 * π * Complex.I * d / N) = d * (2 * π * Complex.I) := by field_simp
  rw [this, Complex.exp_int_mul_two_pi_mul_I, sub_self, zero_div]

/-- The two discrete Fourier transforms are inverse to each other, up to the length. -/
theorem dft_inverse (N : ℕ) (x X : ℕ → ℂ) {sign : ℝ} (hs : sign = 1 ∨ sign = -1)
    (hX : ∀ m, m < N → X m = dft sign N x m) {t : ℕ} (ht : t < N) :
    dft (-sign) N X t = N * x t := by
  have hN : (N : ℂ) ≠ 0 := by
    have : 0 < N := by omega
    exact_mod_cast this.ne'
  unfold dft
  have e1 : ∀ m ∈ Finset.range N, X m * Complex.exp ((-sign : ℝ) * 2 * π * Complex.I * t * m / N) =
      ∑ j ∈ Finset.range N, x j * Complex.exp (2 * π * Complex.I * ((if sign = 1 then (j : ℤ) - t else t - j : ℤ)) * m / N) := by
    intro m hm
    rw [hX m (Finset.mem_range.1 hm), dft, Finset.sum_mul]
    apply Finset.sum_congr rfl
    intro j _
    rw [mul_assoc, ← Complex.exp_add]
    congr 2
    rcases hs with rfl | rfl
    · simp only [if_true]
      push_cast
      field_simp
      ring
    · rw [if_neg (by norm_num)]
      push_cast
      field_simp
      ring
  rw [Finset.sum_congr rfl e1, Finset.sum_comm]
  rw [Finset.sum_eq_single_of_mem t (Finset.mem_range.2 ht)]
  · have : (if sign = 1 then (t : ℤ) - t else t - t : ℤ) = 0 := by simp
    rw [this]
    simp
  · intro j hj hjt
    rw [← Finset.mul_sum, sum_roots, mul_zero]
    have hj' := Finset.mem_range.1 hj
    rintro ⟨c, hc⟩
    have hlt : |(if sign = 1 then (j : ℤ) - t else t - j : ℤ)| < N := by
      rw [abs_lt]; split_ifs <;> constructor <;> omega
    have hne : (if sign = 1 then (j : ℤ) - t else t - j : ℤ) ≠ 0 := by split_ifs <;> omega
    rw [hc] at hlt hne
    rw [abs_mul, Nat.abs_cast] at hlt
    have hc0 : c ≠ 0 := fun h => hne (by rw [h, mul_zero])
    have : (1 : ℤ) ≤ |c| := Int.one_le_abs hc0
    nlinarith

/-- C84: transforming back returns the array times half of its length. -/
theorem four1_roundtrip (p : ℕ) (y : ℕ → ℝ) {sign : ℝ} (hs : sign = 1 ∨ sign = -1) {i : ℕ}
    (hi : i < 2 * 2 ^ p) :
    four1 (2 * 2 ^ p) (four1 (2 * 2 ^ p) y sign) (-sign) i = 2 ^ p * y i := by
  have hs' : -sign = 1 ∨ -sign = -1 := by
    rcases hs with rfl | rfl <;> norm_num
  have hm : i / 2 < 2 ^ p := by omega
  have h := four1_dft p (four1 (2 * 2 ^ p) y sign) hs' hm
  rw [dft_inverse (2 ^ p) (entry y) _ hs (fun m hm => four1_dft p y hs hm) hm] at h
  rcases Nat.mod_two_eq_zero_or_one i with h2 | h2
  · have := congrArg Complex.re h
    simp [entry, show 2 * (i / 2) = i by omega] at this
    have e : ((2 : ℂ) ^ p) = ((2 ^ p : ℝ) : ℂ) := by push_cast; rfl
    rw [e, Complex.ofReal_re, Complex.ofReal_im] at this
    linarith
  · have := congrArg Complex.im h
    simp [entry, show 2 * (i / 2) + 1 = i by omega] at this
    have e : ((2 : ℂ) ^ p) = ((2 ^ p : ℝ) : ℂ) := by push_cast; rfl
    rw [e, Complex.ofReal_re, Complex.ofReal_im] at this
    linarith

/-- The transform of an impulse at the second of four places: `1, i, -1, -i`. -/
example : entry (four1 8 (fun i => if i = 2 then 1 else 0) 1) 1 = Complex.I := by
  have h := four1_dft 2 (fun i => if i = 2 then 1 else 0) (sign := 1) (Or.inl rfl) (m := 1) (by norm_num)
  norm_num at h
  rw [h]
  simp only [dft, Finset.sum_range_succ, Finset.sum_range_zero, entry]
  norm_num
  have : 2 * (π : ℂ) * Complex.I / 4 = π / 2 * Complex.I := by ring
  rw [this, Complex.exp_pi_div_two_mul_I]

/-! ### C85: `realfft` and `realfftnp` -/

theorem pyRange_two (n : ℕ) : pyRange 2 (n / 4 + 1) 1 = (List.range (n / 4 - 1)).map fun i => 2 + i := by
  unfold pyRange
  rw [Nat.div_one]
  congr 1
  funext i
  ring

/-- One step of the loop of `realfft` on complex numbers. -/
theorem realStep_toC (N k : ℕ) (hk : 1 ≤ k) (hkN : 2 * k < N) (c2 wpr wpi : ℝ) (y : ℕ → ℝ) (wr wi : ℝ) :
    toC (realStep (2 * N) 0.5 c2 wpr wpi (y, wr, wi) (k + 1)).1 = fun x =>
      if x = k then (toC y k + star (toC y (N - k))) / 2 +
        ⟨wr, wi⟩ * (Complex.I * c2 * (toC y k - star (toC y (N - k))))
      else if x = N - k then star ((toC y k + star (toC y (N - k))) / 2 -
        ⟨wr, wi⟩ * (Complex.I * c2 * (toC y k - star (toC y (N - k)))))
      else toC y x := by
  have e1 : k + 1 + (k + 1) - 1 - 1 = 2 * k := by omega
  have e2 : 1 + (k + 1 + (k + 1) - 1) - 1 = 2 * k + 1 := by omega
  have e3 : 2 * N + 3 - (1 + (k + 1 + (k + 1) - 1)) - 1 = 2 * (N - k) := by omega
  have e4 : 1 + (2 * N + 3 - (1 + (k + 1 + (k + 1) - 1))) - 1 = 2 * (N - k) + 1 := by omega
  simp only [realStep, e1, e2, e3, e4]
  rw [toC_set2, toC_set2]
  have hne : k ≠ N - k := by omega
  funext x
  by_cases hx : x = k
  · subst hx
    rw [Function.update_of_ne hne, Function.update_self, if_pos rfl]
    apply Complex.ext
    · simp [toC]; ring
    · simp [toC]; ring
  · rw [if_neg hx]
    by_cases hx' : x = N - k
    · subst hx'
      rw [Function.update_self, if_pos rfl]
      apply Complex.ext
      · simp [toC]; ring
      · simp [toC]; ring
    · rw [Function.update_of_ne hx', Function.update_of_ne hx, if_neg hx']

theorem real_loop (N : ℕ) (c2 wpr wpi : ℝ) (y : ℕ → ℝ) (K : ℕ) (hK : 2 * K < N) :
    let r := (List.range K).foldl (fun st i => realStep (2 * N) 0.5 c2 wpr wpi st (2 + i)) (y, 1 + wpr, wpi)
    let h1 : ℕ → ℂ := fun k => (toC y k + star (toC y (N - k))) / 2
    let h2 : ℕ → ℂ := fun k => (⟨1 + wpr, wpi⟩ : ℂ) ^ k * (Complex.I * c2 * (toC y k - star (toC y (N - k))))
    (⟨r.2.1, r.2.2⟩ : ℂ) = (⟨1 + wpr, wpi⟩ : ℂ) ^ (K + 1) ∧
      ∀ x, x ≤ N → toC r.1 x = if 1 ≤ x ∧ x ≤ K then h1 x + h2 x
        else if x < N ∧ N - x ≤ K then star (h1 (N - x) - h2 (N - x)) else toC y x := by
  induction K with
  | zero =>
    simp only [List.range_zero, List.foldl_nil, zero_add, pow_one, true_and]
    intro x _
    rw [if_neg (by omega), if_neg (by omega)]
  | succ K ih =>
    have h := ih (by omega)
    simp only [] at h ⊢
    rw [List.range_succ, List.foldl_append, List.foldl_cons, List.foldl_nil]
    generalize (List.range K).foldl (fun st i => realStep (2 * N) 0.5 c2 wpr wpi st (2 + i))
      (y, 1 + wpr, wpi) = r at h ⊢
    obtain ⟨y', wr, wi⟩ := r
    obtain ⟨h1, h2⟩ := h
    simp only [] at h1 h2
    rw [show 2 + K = K + 1 + 1 by ring]
    constructor
    · rw [pow_succ, ← h1]
      simp only [realStep]
      apply Complex.ext
      · simp; ring
      · simp; ring
    · intro x hx
      rw [realStep_toC N (K + 1) (by omega) (by omega)]
      simp only []
      have a1 := h2 (K + 1) (by omega)
      rw [if_neg (by omega), if_neg (by omega)] at a1
      have a2 := h2 (N - (K + 1)) (by omega)
      rw [if_neg (by omega), if_neg (by omega)] at a2
      rw [a1, a2, h1]
      by_cases c1 : x = K + 1
      · subst c1
        rw [if_pos rfl, if_pos (by omega)]
      · rw [if_neg c1]
        by_cases c2 : x = N - (K + 1)
        · subst c2
          rw [if_pos rfl, if_neg (by omega), if_pos (by omega), show N - (N - (K + 1)) = K + 1 by omega]
        · rw [if_neg c2, h2 x hx]
          have d1 : (1 ≤ x ∧ x ≤ K) ↔ (1 ≤ x ∧ x ≤ K + 1) := by omega
          have d2 : (x < N ∧ N - x ≤ K) ↔ (x < N ∧ N - x ≤ K + 1) := by omega
          simp only [d1, d2]

/-- The factor of the first step. -/
theorem twiddle_exp (th : ℝ) :
    (⟨1 + -2 * sin (0.5 * th) ^ 2, sin th⟩ : ℂ) = Complex.exp ((th : ℂ) * Complex.I) := by
  rw [Complex.exp_mul_I, ← Complex.ofReal_cos, ← Complex.ofReal_sin]
  have hc : cos th = 1 + -2 * sin (0.5 * th) ^ 2 := by
    have := cos_two_mul (0.5 * th)
    rw [show 2 * (0.5 * th) = th by ring] at this
    rw [this, cos_sq']
    ring
  rw [← hc]
  apply Complex.ext
  · simp only [Complex.add_re, Complex.ofReal_re, Complex.mul_re, Complex.ofReal_im, Complex.I_re,
      Complex.I_im, mul_zero, zero_mul, sub_zero, add_zero]
  · simp only [Complex.add_im, Complex.ofReal_re, Complex.mul_im, Complex.ofReal_im, Complex.I_re,
      Complex.I_im, mul_zero, mul_one, add_zero, zero_add]

/-- The transform of the elements at even places (`i = 0`) or at odd places (`i = 1`). -/
noncomputable def half (N : ℕ) (y : ℕ → ℝ) (i k : ℕ) : ℂ := dft 1 N (fun t => (y (2 * t + i) : ℂ)) k

theorem dft_entry (N : ℕ) (y : ℕ → ℝ) (k : ℕ) :
    dft 1 N (entry y) k = half N y 0 k + Complex.I * half N y 1 k := by
  unfold half dft entry
  rw [Finset.mul_sum, ← Finset.sum_add_distrib]
  apply Finset.sum_congr rfl
  intro t _
  simp only [add_zero]
  ring

theorem dft_reflect {N : ℕ} (a : ℕ → ℝ) {k : ℕ} (hk : k ≤ N) :
    star (dft 1 N (fun t => (a t : ℂ)) (N - k)) = dft 1 N (fun t => (a t : ℂ)) k := by
  unfold dft
  rw [star_sum]
  apply Finset.sum_congr rfl
  intro t ht
  have hN : (N : ℂ) ≠ 0 := by
    have : 0 < N := by have := Finset.mem_range.1 ht; omega
    exact_mod_cast this.ne'
  rw [star_mul', Complex.star_def, ← Complex.exp_conj]
  simp only [Complex.conj_ofReal]
  congr 1
  rw [Nat.cast_sub hk]
  have e : (starRingEnd ℂ) (((1 : ℝ) : ℂ) * 2 * π * Complex.I * ((N : ℂ) - k) * t / N) =
      ((1 : ℝ) : ℂ) * 2 * π * Complex.I * k * t / N - t * (2 * π * Complex.I) := by
    simp only [map_div₀, map_mul, map_sub, Complex.conj_ofReal, Complex.conj_I, Complex.conj_natCast, map_ofNat,
      Complex.ofReal_one, map_one]
    field_simp
    ring
  rw [e, Complex.exp_sub, Complex.exp_nat_mul_two_pi_mul_I, div_one]

theorem half_reflect {N : ℕ} (y : ℕ → ℝ) (i : ℕ) {k : ℕ} (hk : k ≤ N) :
    star (half N y i (N - k)) = half N y i k := dft_reflect _ hk

theorem dft_split (N : ℕ) (y : ℕ → ℝ) (k : ℕ) :
    dft 1 (2 * N) (fun t => (y t : ℂ)) k =
      half N y 0 k + Complex.exp (((π / N : ℝ) : ℂ) * Complex.I) ^ k * half N y 1 k := by
  unfold half dft
  rw [sum_even_odd, Finset.mul_sum]
  congr 1
  · apply Finset.sum_congr rfl
    intro t _
    congr 2
    push_cast
    rw [show ((1 : ℂ) * 2 * π * Complex.I * k * (2 * t)) = 2 * (1 * 2 * π * Complex.I * k * t) by ring,
      mul_div_mul_left _ _ (by norm_num)]
  · apply Finset.sum_congr rfl
    intro t ht
    have hN : (N : ℂ) ≠ 0 := by
      have : 0 < N := by have := Finset.mem_range.1 ht; omega
      exact_mod_cast this.ne'
    rw [← Complex.exp_nat_mul, mul_left_comm, ← Complex.exp_add]
    congr 2
    push_cast
    field_simp
    ring

theorem w_pow {N : ℕ} (hN : 0 < N) : Complex.exp (((π / N : ℝ) : ℂ) * Complex.I) ^ N = -1 := by
  have hN' : (N : ℂ) ≠ 0 := by exact_mod_cast hN.ne'
  rw [← Complex.exp_nat_mul]
  have : (N : ℂ) * (((π / N : ℝ) : ℂ) * Complex.I) = π * Complex.I := by push_cast; field_simp
  rw [this, Complex.exp_pi_mul_I]

theorem w_star (th : ℝ) : star (Complex.exp ((th : ℂ) * Complex.I)) * Complex.exp ((th : ℂ) * Complex.I) = 1 := by
  rw [Complex.star_def, ← Complex.exp_conj, ← Complex.exp_add]
  simp

/-- The state of `realfft` behind its loop, for a transform `Z` with the factor `w`. -/
theorem real_result (p : ℕ) (c2 th : ℝ) (y : ℕ → ℝ) :
    let r := ((pyRange 2 (2 * 2 ^ p / 4 + 1) 1).foldl
      (realStep (2 * 2 ^ p) 0.5 c2 (-2 * sin (0.5 * th) ^ 2) (sin th))
      (y, 1 + -2 * sin (0.5 * th) ^ 2, sin th)).1
    let h1 : ℕ → ℂ := fun k => (toC y k + star (toC y (2 ^ p - k))) / 2
    let h2 : ℕ → ℂ := fun k => Complex.exp ((th : ℂ) * Complex.I) ^ k *
      (Complex.I * c2 * (toC y k - star (toC y (2 ^ p - k))))
    toC r 0 = toC y 0 ∧ ∀ k, 1 ≤ k → k < 2 ^ p →
      (2 * k < 2 ^ p → toC r k = h1 k + h2 k) ∧ (2 * k = 2 ^ p → toC r k = toC y k) ∧
      (2 ^ p < 2 * k → toC r k = star (h1 (2 ^ p - k) - h2 (2 ^ p - k))) := by
  have hp : 0 < 2 ^ p := by positivity
  have hodd : p = 0 ∨ 2 ^ p = 2 * 2 ^ (p - 1) := by
    rcases Nat.eq_zero_or_pos p with h | h
    · exact Or.inl h
    · right
      rw [← pow_succ', Nat.sub_add_cancel h]
  have hK : 2 * (2 * 2 ^ p / 4 - 1) < 2 ^ p := by omega
  have h := real_loop (2 ^ p) c2 (-2 * sin (0.5 * th) ^ 2) (sin th) y (2 * 2 ^ p / 4 - 1) hK
  simp only [] at h ⊢
  rw [pyRange_two, List.foldl_map]
  rw [twiddle_exp] at h
  generalize (List.range (2 * 2 ^ p / 4 - 1)).foldl (fun st i => realStep (2 * 2 ^ p) 0.5 c2
    (-2 * sin (0.5 * th) ^ 2) (sin th) st (2 + i)) (y, 1 + -2 * sin (0.5 * th) ^ 2, sin th) = r at h ⊢
  obtain ⟨_, h⟩ := h
  constructor
  · rw [h 0 (by omega), if_neg (by omega), if_neg (by omega)]
  · intro k h1 h2
    rw [h k (by omega)]
    refine ⟨fun h3 => ?_, fun h3 => ?_, fun h3 => ?_⟩
    · rw [if_pos]
      rcases hodd with h0 | h0
      · subst h0; omega
      · omega
    · rw [if_neg (by omega), if_neg (by omega)]
    · rw [if_neg (by omega), if_pos]
      rcases hodd with h0 | h0
      · subst h0; omega
      · omega

theorem toC_set_ne (y : ℕ → ℝ) (v w : ℝ) {k : ℕ} (hk : 1 ≤ k) : toC (set (set y 0 v) 1 w) k = toC y k := by
  have := toC_set2 y 0 v w
  simp only [mul_zero, zero_add] at this
  rw [this, Function.update_of_ne (by omega)]

/-- C85: for every power of two, `realfft` returns the discrete Fourier transform of real numbers, with the
real value at the highest frequency in the second place. -/
theorem realfft_dft (p : ℕ) (y : ℕ → ℝ) :
    ((realfft (2 * 2 ^ p) y true 0 : ℝ) : ℂ) = dft 1 (2 * 2 ^ p) (fun t => (y t : ℂ)) 0 ∧
    ((realfft (2 * 2 ^ p) y true 1 : ℝ) : ℂ) = dft 1 (2 * 2 ^ p) (fun t => (y t : ℂ)) (2 ^ p) ∧
    ∀ k, 1 ≤ k → k < 2 ^ p →
      entry (realfft (2 * 2 ^ p) y true) k = dft 1 (2 * 2 ^ p) (fun t => (y t : ℂ)) k := by
  have hp : 0 < 2 ^ p := by positivity
  have hZ : ∀ k, k < 2 ^ p → toC (four1 (2 * 2 ^ p) y 1) k = half (2 ^ p) y 0 k + Complex.I * half (2 ^ p) y 1 k := by
    intro k hk
    rw [← entry_eq, four1_dft p y (Or.inl rfl) hk, dft_entry]
  have hr := real_result p (-1 * 0.5) (1 * (π / (2 * 2 ^ p / 2 : ℕ))) (four1 (2 * 2 ^ p) y 1)
  simp only [] at hr
  have hdef : realfft (2 * 2 ^ p) y true =
      let r := ((pyRange 2 (2 * 2 ^ p / 4 + 1) 1).foldl
        (realStep (2 * 2 ^ p) 0.5 (-1 * 0.5) (-2 * sin (0.5 * (1 * (π / (2 * 2 ^ p / 2 : ℕ)))) ^ 2)
          (sin (1 * (π / (2 * 2 ^ p / 2 : ℕ)))))
        (four1 (2 * 2 ^ p) y 1, 1 + -2 * sin (0.5 * (1 * (π / (2 * 2 ^ p / 2 : ℕ)))) ^ 2,
          sin (1 * (π / (2 * 2 ^ p / 2 : ℕ))))).1
      set (set r 0 (r 0 + r 1)) 1 (r 0 - (set r 0 (r 0 + r 1)) 1) := rfl
  rw [hdef]
  simp only []
  generalize ((pyRange 2 (2 * 2 ^ p / 4 + 1) 1).foldl
        (realStep (2 * 2 ^ p) 0.5 (-1 * 0.5) (-2 * sin (0.5 * (1 * (π / (2 * 2 ^ p / 2 : ℕ)))) ^ 2)
          (sin (1 * (π / (2 * 2 ^ p / 2 : ℕ)))))
        (four1 (2 * 2 ^ p) y 1, 1 + -2 * sin (0.5 * (1 * (π / (2 * 2 ^ p / 2 : ℕ)))) ^ 2,
          sin (1 * (π / (2 * 2 ^ p / 2 : ℕ))))).1 = r at hr ⊢
  obtain ⟨h0, hk⟩ := hr
  have hw : Complex.exp (((1 * (π / (2 * 2 ^ p / 2 : ℕ)) : ℝ) : ℂ) * Complex.I) =
      Complex.exp (((π / (2 ^ p : ℕ) : ℝ) : ℂ) * Complex.I) := by
    rw [one_mul, Nat.mul_div_cancel_left _ (by norm_num)]
  rw [hw] at hk
  set w := Complex.exp (((π / (2 ^ p : ℕ) : ℝ) : ℂ) * Complex.I) with hwdef
  have hwN : w ^ 2 ^ p = -1 := w_pow hp
  have hws : star w * w = 1 := w_star _
  -- the lowest frequency
  have hE0 : half (2 ^ p) y 0 0 = ((∑ t ∈ Finset.range (2 ^ p), y (2 * t) : ℝ) : ℂ) := by
    simp [half, dft]
  have hO0 : half (2 ^ p) y 1 0 = ((∑ t ∈ Finset.range (2 ^ p), y (2 * t + 1) : ℝ) : ℂ) := by
    simp [half, dft]
  have hr0 : r 0 = ∑ t ∈ Finset.range (2 ^ p), y (2 * t) := by
    have := congrArg Complex.re (h0.trans (hZ 0 hp))
    rw [hE0, hO0] at this
    simpa [toC] using this
  have hr1 : r 1 = ∑ t ∈ Finset.range (2 ^ p), y (2 * t + 1) := by
    have := congrArg Complex.im (h0.trans (hZ 0 hp))
    rw [hE0, hO0] at this
    simpa [toC] using this
  have hEN : half (2 ^ p) y 0 (2 ^ p) = half (2 ^ p) y 0 0 := by
    have h := half_reflect y 0 (le_refl (2 ^ p))
    rw [Nat.sub_self] at h
    rw [← h, hE0, Complex.star_def, Complex.conj_ofReal]
  have hON : half (2 ^ p) y 1 (2 ^ p) = half (2 ^ p) y 1 0 := by
    have h := half_reflect y 1 (le_refl (2 ^ p))
    rw [Nat.sub_self] at h
    rw [← h, hO0, Complex.star_def, Complex.conj_ofReal]
  refine ⟨?_, ?_, ?_⟩
  · rw [dft_split, hE0, hO0, pow_zero, one_mul]
    simp only [set, Function.update_apply]
    rw [if_neg (by norm_num), if_pos trivial, hr0, hr1, Complex.ofReal_add]
  · rw [dft_split, ← hwdef, hwN, hEN, hON, hE0, hO0]
    simp only [set, Function.update_apply]
    rw [if_pos trivial, if_neg (by norm_num), hr0, hr1, Complex.ofReal_sub]
    ring
  · intro k k1 k2
    rw [entry_eq, toC_set_ne _ _ _ k1, dft_split, ← hwdef]
    obtain ⟨g1, g2, g3⟩ := hk k k1 k2
    -- the parts at the mirrored frequency
    have mirror : ∀ j, 1 ≤ j → j < 2 ^ p → star (toC (four1 (2 * 2 ^ p) y 1) (2 ^ p - j)) =
        half (2 ^ p) y 0 j - Complex.I * half (2 ^ p) y 1 j := by
      intro j j1 j2
      rw [hZ _ (by omega), star_add, star_mul', half_reflect y 0 j2.le, half_reflect y 1 j2.le,
        Complex.star_def, Complex.conj_I]
      ring
    have h1eq : ∀ j, 1 ≤ j → j < 2 ^ p →
        (toC (four1 (2 * 2 ^ p) y 1) j + star (toC (four1 (2 * 2 ^ p) y 1) (2 ^ p - j))) / 2 =
          half (2 ^ p) y 0 j := by
      intro j j1 j2
      rw [mirror j j1 j2, hZ j j2]
      ring
    have h2eq : ∀ j, 1 ≤ j → j < 2 ^ p → Complex.I * ((-1 * 0.5 : ℝ) : ℂ) *
        (toC (four1 (2 * 2 ^ p) y 1) j - star (toC (four1 (2 * 2 ^ p) y 1) (2 ^ p - j))) =
          half (2 ^ p) y 1 j := by
      intro j j1 j2
      rw [mirror j j1 j2, hZ j j2]
      push_cast
      linear_combination (-half (2 ^ p) y 1 j) * Complex.I_mul_I
    rcases lt_trichotomy (2 * k) (2 ^ p) with c | c | c
    · rw [g1 c, h1eq k k1 k2, h2eq k k1 k2]
    · rw [g2 c, hZ k k2]
      congr 2
      have h2 : w ^ k * w ^ k = -1 := by rw [← pow_add, ← hwN]; congr 1; omega
      rw [hwdef, ← Complex.exp_nat_mul]
      have : ((k : ℕ) : ℂ) * (((π / (2 ^ p : ℕ) : ℝ) : ℂ) * Complex.I) = π / 2 * Complex.I := by
        rw [← c]
        push_cast
        have : (k : ℂ) ≠ 0 := by
          have : 0 < k := k1
          exact_mod_cast this.ne'
        field_simp
      rw [this, Complex.exp_pi_div_two_mul_I]
    · rw [g3 c, h1eq _ (by omega) (by omega), h2eq _ (by omega) (by omega), star_sub, star_mul', star_pow,
        half_reflect y 0 k2.le, half_reflect y 1 k2.le]
      have hwk : star w ^ (2 ^ p - k) = -w ^ k := by
        have e1 : w ^ (2 ^ p - k) * w ^ k = -1 := by rw [← pow_add, Nat.sub_add_cancel k2.le, hwN]
        have e2 : star w ^ (2 ^ p - k) * w ^ (2 ^ p - k) = 1 := by rw [← mul_pow, hws, one_pow]
        linear_combination (-w ^ k) * e2 + star w ^ (2 ^ p - k) * e1
      rw [hwk]
      ring

/-- C85: transforming back returns the array times half of its length. -/
theorem realfft_roundtrip (p : ℕ) (y : ℕ → ℝ) {i : ℕ} (hi : i < 2 * 2 ^ p) :
    realfft (2 * 2 ^ p) (realfft (2 * 2 ^ p) y true) false i = 2 ^ p * y i := by
  have hp : 0 < 2 ^ p := by positivity
  obtain ⟨f0, f1, fk⟩ := realfft_dft p y
  generalize realfft (2 * 2 ^ p) y true = Y at f0 f1 fk ⊢
  have hr := real_result p (- -1 * 0.5) (-1 * (π / (2 * 2 ^ p / 2 : ℕ))) Y
  simp only [] at hr
  have hdef : realfft (2 * 2 ^ p) Y false =
      let r := ((pyRange 2 (2 * 2 ^ p / 4 + 1) 1).foldl
        (realStep (2 * 2 ^ p) 0.5 (- -1 * 0.5) (-2 * sin (0.5 * (-1 * (π / (2 * 2 ^ p / 2 : ℕ)))) ^ 2)
          (sin (-1 * (π / (2 * 2 ^ p / 2 : ℕ)))))
        (Y, 1 + -2 * sin (0.5 * (-1 * (π / (2 * 2 ^ p / 2 : ℕ)))) ^ 2,
          sin (-1 * (π / (2 * 2 ^ p / 2 : ℕ))))).1
      four1 (2 * 2 ^ p) (set (set r 0 (0.5 * (r 0 + r 1))) 1
        (0.5 * (r 0 - (set r 0 (0.5 * (r 0 + r 1))) 1))) (-1) := rfl
  rw [hdef]
  simp only []
  generalize ((pyRange 2 (2 * 2 ^ p / 4 + 1) 1).foldl
        (realStep (2 * 2 ^ p) 0.5 (- -1 * 0.5) (-2 * sin (0.5 * (-1 * (π / (2 * 2 ^ p / 2 : ℕ)))) ^ 2)
          (sin (-1 * (π / (2 * 2 ^ p / 2 : ℕ)))))
        (Y, 1 + -2 * sin (0.5 * (-1 * (π / (2 * 2 ^ p / 2 : ℕ)))) ^ 2,
          sin (-1 * (π / (2 * 2 ^ p / 2 : ℕ))))).1 = r at hr ⊢
  obtain ⟨h0, hk⟩ := hr
  have hw : Complex.exp (((-1 * (π / (2 * 2 ^ p / 2 : ℕ)) : ℝ) : ℂ) * Complex.I) =
      star (Complex.exp (((π / (2 ^ p : ℕ) : ℝ) : ℂ) * Complex.I)) := by
    rw [Complex.star_def, ← Complex.exp_conj, map_mul, Complex.conj_ofReal, Complex.conj_I,
      Nat.mul_div_cancel_left _ (by norm_num)]
    congr 1
    push_cast
    ring
  rw [hw] at hk
  rw [dft_split] at f0 f1
  set w := Complex.exp (((π / (2 ^ p : ℕ) : ℝ) : ℂ) * Complex.I) with hwdef
  have hwN : w ^ 2 ^ p = -1 := w_pow hp
  have hws : star w * w = 1 := w_star _
  have hY : ∀ k, 1 ≤ k → k < 2 ^ p → toC Y k = half (2 ^ p) y 0 k + w ^ k * half (2 ^ p) y 1 k := by
    intro k k1 k2
    rw [← entry_eq, fk k k1 k2, dft_split]
  have hYs : ∀ k, 1 ≤ k → k < 2 ^ p →
      star (toC Y (2 ^ p - k)) = half (2 ^ p) y 0 k - w ^ k * half (2 ^ p) y 1 k := by
    intro k k1 k2
    rw [hY _ (by omega) (by omega), star_add, star_mul', star_pow, half_reflect y 0 k2.le,
      half_reflect y 1 k2.le]
    have hwk : star w ^ (2 ^ p - k) = -w ^ k := by
      have e1 : w ^ (2 ^ p - k) * w ^ k = -1 := by rw [← pow_add, Nat.sub_add_cancel k2.le, hwN]
      have e2 : star w ^ (2 ^ p - k) * w ^ (2 ^ p - k) = 1 := by rw [← mul_pow, hws, one_pow]
      linear_combination (-w ^ k) * e2 + star w ^ (2 ^ p - k) * e1
    rw [hwk]
    ring
  have h1eq : ∀ j, 1 ≤ j → j < 2 ^ p → (toC Y j + star (toC Y (2 ^ p - j))) / 2 = half (2 ^ p) y 0 j := by
    intro j j1 j2
    rw [hYs j j1 j2, hY j j1 j2]
    ring
  have h2eq : ∀ j, 1 ≤ j → j < 2 ^ p → star w ^ j * (Complex.I * ((- -1 * 0.5 : ℝ) : ℂ) *
      (toC Y j - star (toC Y (2 ^ p - j)))) = Complex.I * half (2 ^ p) y 1 j := by
    intro j j1 j2
    have e2 : star w ^ j * w ^ j = 1 := by rw [← mul_pow, hws, one_pow]
    rw [hYs j j1 j2, hY j j1 j2]
    push_cast
    linear_combination (Complex.I * half (2 ^ p) y 1 j) * e2
  -- the complex numbers before the last transform
  have hZ : ∀ k, k < 2 ^ p → entry (set (set r 0 (0.5 * (r 0 + r 1))) 1
      (0.5 * (r 0 - (set r 0 (0.5 * (r 0 + r 1))) 1))) k = dft 1 (2 ^ p) (entry y) k := by
    intro k hk2
    rw [dft_entry, entry_eq]
    rcases Nat.eq_zero_or_pos k with rfl | k1
    · have hE0 : half (2 ^ p) y 0 0 = ((∑ t ∈ Finset.range (2 ^ p), y (2 * t) : ℝ) : ℂ) := by
        simp [half, dft]
      have hO0 : half (2 ^ p) y 1 0 = ((∑ t ∈ Finset.range (2 ^ p), y (2 * t + 1) : ℝ) : ℂ) := by
        simp [half, dft]
      have hEN : half (2 ^ p) y 0 (2 ^ p) = half (2 ^ p) y 0 0 := by
        have h := half_reflect y 0 (le_refl (2 ^ p))
        rw [Nat.sub_self] at h
        rw [← h, hE0, Complex.star_def, Complex.conj_ofReal]
      have hON : half (2 ^ p) y 1 (2 ^ p) = half (2 ^ p) y 1 0 := by
        have h := half_reflect y 1 (le_refl (2 ^ p))
        rw [Nat.sub_self] at h
        rw [← h, hO0, Complex.star_def, Complex.conj_ofReal]
      rw [hE0, hO0, pow_zero, one_mul] at f0
      rw [hwN, hEN, hON, hE0, hO0] at f1
      rw [hE0, hO0]
      generalize ∑ t ∈ Finset.range (2 ^ p), y (2 * t) = a at f0 f1 ⊢
      generalize ∑ t ∈ Finset.range (2 ^ p), y (2 * t + 1) = b at f0 f1 ⊢
      have g0 : Y 0 = a + b := by exact_mod_cast f0
      have g1 : Y 1 = a - b := by
        have : ((Y 1 : ℝ) : ℂ) = ((a - b : ℝ) : ℂ) := by rw [f1]; push_cast; ring
        exact_mod_cast this
      have r0 : r 0 = Y 0 := congrArg Complex.re h0
      have r1 : r 1 = Y 1 := congrArg Complex.im h0
      apply Complex.ext
      · simp [toC, set, r0, r1, g0, g1]
        ring
      · simp [toC, set, r0, r1, g0, g1]
        ring
    · rw [toC_set_ne _ _ _ k1]
      obtain ⟨g1, g2, g3⟩ := hk k k1 hk2
      rcases lt_trichotomy (2 * k) (2 ^ p) with c | c | c
      · rw [g1 c, h1eq k k1 hk2, h2eq k k1 hk2]
      · rw [g2 c, hY k k1 hk2]
        congr 2
        rw [hwdef, ← Complex.exp_nat_mul]
        have : ((k : ℕ) : ℂ) * (((π / (2 ^ p : ℕ) : ℝ) : ℂ) * Complex.I) = π / 2 * Complex.I := by
          rw [← c]
          push_cast
          have : (k : ℂ) ≠ 0 := by exact_mod_cast k1.ne'
          field_simp
        rw [this, Complex.exp_pi_div_two_mul_I]
      · rw [g3 c, h1eq _ (by omega) (by omega), h2eq _ (by omega) (by omega), star_sub, star_mul',
          half_reflect y 0 hk2.le, half_reflect y 1 hk2.le, Complex.star_def, Complex.conj_I]
        ring
  have hm : i / 2 < 2 ^ p := by omega
  have h := four1_dft p (set (set r 0 (0.5 * (r 0 + r 1))) 1
    (0.5 * (r 0 - (set r 0 (0.5 * (r 0 + r 1))) 1))) (Or.inr rfl : (-1 : ℝ) = 1 ∨ (-1 : ℝ) = -1) hm
  rw [dft_inverse (2 ^ p) (entry y) _ (Or.inl rfl : (1 : ℝ) = 1 ∨ (1 : ℝ) = -1) hZ hm] at h
  generalize four1 (2 * 2 ^ p) (set (set r 0 (0.5 * (r 0 + r 1))) 1
    (0.5 * (r 0 - (set r 0 (0.5 * (r 0 + r 1))) 1))) (-1) = F at h ⊢
  have e : ((2 : ℂ) ^ p) = ((2 ^ p : ℝ) : ℂ) := by push_cast; rfl
  rcases Nat.mod_two_eq_zero_or_one i with h2 | h2
  · have := congrArg Complex.re h
    simp [entry, show 2 * (i / 2) = i by omega] at this
    rw [e, Complex.ofReal_re, Complex.ofReal_im] at this
    linarith
  · have := congrArg Complex.im h
    simp [entry, show 2 * (i / 2) + 1 = i by omega] at this
    rw [e, Complex.ofReal_re, Complex.ofReal_im] at this
    linarith

/-- The transform of the library is the conjugate one. -/
theorem fft_conj (n : ℕ) (y : ℕ → ℝ) (k : ℕ) :
    Hnc.fft n (fun j => (y j : ℂ)) k = star (dft 1 n (fun t => (y t : ℂ)) k) := by
  unfold Hnc.fft dft
  rw [star_sum]
  apply Finset.sum_congr rfl
  intro t _
  rw [star_mul', Complex.star_def, ← Complex.exp_conj]
  simp only [Complex.conj_ofReal, map_div₀, map_mul, Complex.conj_I, Complex.conj_natCast, map_ofNat]
  congr 2
  push_cast
  ring

/-- C85: the shorter version returns the transform at each frequency below the highest, for every even
length. -/
theorem realfftnp_dft (n : ℕ) (y : ℕ → ℝ) (k : ℕ) :
    entry (realfftnp n y) k = dft 1 n (fun t => (y t : ℂ)) k := by
  have h1 : (2 * k) % 2 = 0 := by omega
  have h2 : ¬ (2 * k + 1) % 2 = 0 := by omega
  have h3 : (2 * k + 1) / 2 = k := by omega
  have h4 : 2 * k / 2 = k := by omega
  simp only [entry, realfftnp]
  rw [if_pos h1, if_neg h2, h3, h4, fft_conj]
  apply Complex.ext <;> simp

/-- C85: the two versions agree, but for the second place, where the shorter one has a zero instead of the
value at the highest frequency. -/
theorem realfft_agree (p : ℕ) (y : ℕ → ℝ) {i : ℕ} (hi : i < 2 * 2 ^ p) (h1 : i ≠ 1) :
    realfftnp (2 * 2 ^ p) y i = realfft (2 * 2 ^ p) y true i := by
  obtain ⟨f0, -, fk⟩ := realfft_dft p y
  have hn := realfftnp_dft (2 * 2 ^ p) y (i / 2)
  rcases Nat.eq_zero_or_pos (i / 2) with h0 | h0
  · have : i = 0 := by omega
    subst this
    rw [Nat.zero_div, ← f0] at hn
    simpa [entry] using congrArg Complex.re hn
  · rw [← fk (i / 2) h0 (by omega)] at hn
    rcases Nat.mod_two_eq_zero_or_one i with h2 | h2
    · simpa [entry, show 2 * (i / 2) = i by omega] using congrArg Complex.re hn
    · simpa [entry, show 2 * (i / 2) + 1 = i by omega] using congrArg Complex.im hn

theorem realfftnp_one (n : ℕ) (y : ℕ → ℝ) : realfftnp n y 1 = 0 := by
  simp [realfftnp, Hnc.fft]

/-! ### C86: `sinft` -/

theorem wi_eq (n i : ℕ) : (Complex.exp (Complex.I * i / (2 * n) * π * 2)).im = sin (π * i / n) := by
  have : Complex.I * i / (2 * n) * π * 2 = ((π * i / n : ℝ) : ℂ) * Complex.I := by
    push_cast
    ring
  rw [this, Complex.exp_ofReal_mul_I_im]

/-- The auxiliary array of the sine transform. -/
noncomputable def aux (n : ℕ) (y : ℕ → ℝ) (i : ℕ) : ℝ :=
  if i = 0 then 0 else sin (π * i / n) * (y i + y (n - i)) + 1 / 2 * (y i - y (n - i))

theorem sin_mirror {n : ℕ} {i : ℕ} (hi : i ≤ n) (hn : 0 < n) : sin (π * (n - i : ℕ) / n) = sin (π * i / n) := by
  have hn' : (n : ℝ) ≠ 0 := by positivity
  rw [Nat.cast_sub hi, ← sin_pi_sub]
  congr 1
  field_simp
  ring

theorem sin_two_mirror {n : ℕ} {i : ℕ} (k : ℕ) (hi : i ≤ n) (hn : 0 < n) :
    sin (2 * π * k * (n - i : ℕ) / n) = -sin (2 * π * k * i / n) := by
  have hn' : (n : ℝ) ≠ 0 := by positivity
  rw [Nat.cast_sub hi, ← sin_neg, ← sin_add_nat_mul_two_pi (-(2 * π * k * i / n)) k]
  congr 1
  field_simp
  ring

theorem cos_two_mirror {n : ℕ} {i : ℕ} (k : ℕ) (hi : i ≤ n) (hn : 0 < n) :
    cos (2 * π * k * (n - i : ℕ) / n) = cos (2 * π * k * i / n) := by
  have hn' : (n : ℝ) ≠ 0 := by positivity
  rw [Nat.cast_sub hi, ← cos_neg (2 * π * k * i / n), ← cos_add_nat_mul_two_pi (-(2 * π * k * i / n)) k]
  congr 1
  field_simp
  ring

/-- The array handed to the fast transform. -/
theorem sinft_eq {h : ℕ} (hh : 0 < h) (y : ℕ → ℝ) (i : ℕ) :
    sinft (2 * h) y i =
      let y := realfftnp (2 * h) (aux (2 * h) y)
      let y := set (set y 0 (y 0 * 0.5)) 1 0
      if i % 2 = 0 then y (i + 1) else ∑ j ∈ Finset.range (i / 2 + 1), y (2 * j) := by
  have key : ∀ z z' : ℕ → ℝ, (∀ j, j < 2 * h → z j = z' j) → realfftnp (2 * h) z = realfftnp (2 * h) z' := by
    intro z z' hz
    funext i
    unfold realfftnp
    have : Hnc.fft (2 * h) (fun j => (z j : ℂ)) = Hnc.fft (2 * h) (fun j => (z' j : ℂ)) := by
      funext m
      unfold Hnc.fft
      apply Finset.sum_congr rfl
      intro j hj
      simp only [hz j (Finset.mem_range.1 hj)]
    simp only [this]
  simp only [sinft]
  rw [key _ (aux (2 * h) y)]
  intro j hj
  have e : 2 * h / 2 = h := by omega
  simp only [e, wi_eq, aux, set, Function.update_apply]
  by_cases h0 : j = 0
  · subst h0
    rw [if_neg (by omega), if_neg (by omega), if_pos rfl, if_pos rfl]
  · rw [if_neg h0]
    by_cases h1 : h ≤ j
    · rw [if_pos ⟨h1, hj⟩, if_neg (by omega), if_neg (by omega), show 2 * h - (2 * h - j) = j by omega,
        sin_mirror (by omega) (by omega), if_neg h0]
      ring
    · rw [if_neg (by omega), if_pos (by omega), if_neg h0, if_neg (by omega)]
      ring

theorem sum_mirror (n : ℕ) (g : ℕ → ℝ) :
    ∑ j ∈ Finset.range (n - 1), g (n - (j + 1)) = ∑ j ∈ Finset.range (n - 1), g (j + 1) := by
  rw [← Finset.sum_range_reflect (fun j => g (j + 1)) (n - 1)]
  apply Finset.sum_congr rfl
  intro j hj
  have := Finset.mem_range.1 hj
  congr 1
  omega

theorem dft_re (n : ℕ) (f : ℕ → ℝ) (k : ℕ) :
    (dft 1 n (fun t => (f t : ℂ)) k).re = ∑ t ∈ Finset.range n, f t * cos (2 * π * k * t / n) ∧
    (dft 1 n (fun t => (f t : ℂ)) k).im = ∑ t ∈ Finset.range n, f t * sin (2 * π * k * t / n) := by
  unfold dft
  have e : ∀ t : ℕ, ((1 : ℝ) : ℂ) * 2 * π * Complex.I * k * t / n = ((2 * π * k * t / n : ℝ) : ℂ) * Complex.I := by
    intro t
    push_cast
    ring
  simp only [e]
  constructor
  · rw [Complex.re_sum]
    apply Finset.sum_congr rfl
    intro t _
    rw [Complex.re_ofReal_mul, Complex.exp_ofReal_mul_I_re]
  · rw [Complex.im_sum]
    apply Finset.sum_congr rfl
    intro t _
    rw [Complex.im_ofReal_mul, Complex.exp_ofReal_mul_I_im]

theorem aux_sum {n : ℕ} (hn : 0 < n) (y : ℕ → ℝ) (c : ℕ → ℝ) :
    ∑ t ∈ Finset.range n, aux n y t * c t =
      ∑ j ∈ Finset.range (n - 1), (sin (π * (j + 1 : ℕ) / n) + 1 / 2) * y (j + 1) * c (j + 1) +
        ∑ j ∈ Finset.range (n - 1), (sin (π * (j + 1 : ℕ) / n) - 1 / 2) * y (j + 1) * c (n - (j + 1)) := by
  obtain ⟨m, rfl⟩ : ∃ m, n = m + 1 := ⟨n - 1, by omega⟩
  rw [Nat.add_sub_cancel, Finset.sum_range_succ']
  have h0 : aux (m + 1) y 0 * c 0 = 0 := by simp [aux]
  have hm := sum_mirror (m + 1) (fun j => (sin (π * (j : ℕ) / (m + 1 : ℕ)) - 1 / 2) * y (m + 1 - j) * c j)
  rw [Nat.add_sub_cancel] at hm
  have e2 : ∑ j ∈ Finset.range m, (sin (π * (j + 1 : ℕ) / (m + 1 : ℕ)) - 1 / 2) * y (j + 1) * c (m + 1 - (j + 1)) =
      ∑ j ∈ Finset.range m, (sin (π * (j + 1 : ℕ) / (m + 1 : ℕ)) - 1 / 2) * y (m + 1 - (j + 1)) * c (j + 1) := by
    rw [← hm]
    apply Finset.sum_congr rfl
    intro j hj
    have := Finset.mem_range.1 hj
    rw [sin_mirror (by omega) (by omega), show m + 1 - (m + 1 - (j + 1)) = j + 1 by omega]
  rw [h0, add_zero, e2, ← Finset.sum_add_distrib]
  apply Finset.sum_congr rfl
  intro j _
  simp only [aux]
  rw [if_neg (by omega)]
  ring

/-- C86: for every even length, `sinft` returns the discrete sine transform of type 1. -/
theorem sinft_sine {h : ℕ} (hh : 0 < h) (y : ℕ → ℝ) (k : ℕ) :
    sinft (2 * h) y k = sineSum1 (2 * h) y k := by
  set n := 2 * h with hn
  have hn0 : 0 < n := by omega
  have hn' : (n : ℝ) ≠ 0 := by positivity
  -- imaginary parts
  have him : ∀ l, realfftnp n (aux n y) (2 * l + 1) = sineSum1 n y (2 * l) := by
    intro l
    have hd := congrArg Complex.im (realfftnp_dft n (aux n y) l)
    rw [(dft_re n (aux n y) l).2, aux_sum hn0] at hd
    simp only [entry, Complex.add_im, Complex.ofReal_im, Complex.mul_im, Complex.ofReal_re, Complex.I_im,
      Complex.I_re, mul_one, mul_zero, zero_add, add_zero] at hd
    rw [hd, sineSum1, ← Finset.sum_add_distrib]
    apply Finset.sum_congr rfl
    intro j hj
    have := Finset.mem_range.1 hj
    rw [sin_two_mirror l (by omega) hn0, show π * (j + 1 : ℕ) * ((2 * l : ℕ) : ℝ) / n =
      2 * π * l * (j + 1 : ℕ) / n by push_cast; ring]
    ring
  -- real parts
  have hre : ∀ l, realfftnp n (aux n y) (2 * l) =
      ∑ j ∈ Finset.range (n - 1), 2 * (y (j + 1) * (sin (π * (j + 1 : ℕ) / n) * cos (2 * π * l * (j + 1 : ℕ) / n))) := by
    intro l
    have hd := congrArg Complex.re (realfftnp_dft n (aux n y) l)
    rw [(dft_re n (aux n y) l).1, aux_sum hn0] at hd
    simp only [entry, Complex.add_re, Complex.ofReal_im, Complex.mul_re, Complex.ofReal_re, Complex.I_im,
      Complex.I_re, mul_zero, zero_mul, sub_zero, add_zero] at hd
    rw [hd, ← Finset.sum_add_distrib]
    apply Finset.sum_congr rfl
    intro j hj
    have := Finset.mem_range.1 hj
    rw [cos_two_mirror l (by omega) hn0]
    ring
  have hfirst : realfftnp n (aux n y) 0 * 0.5 = sineSum1 n y 1 := by
    have := hre 0
    rw [mul_zero] at this
    rw [this, sineSum1, Finset.sum_mul]
    apply Finset.sum_congr rfl
    intro j _
    simp
    ring
  have hstep : ∀ l, realfftnp n (aux n y) (2 * (l + 1)) = sineSum1 n y (2 * l + 3) - sineSum1 n y (2 * l + 1) := by
    intro l
    rw [hre, sineSum1, sineSum1, ← Finset.sum_sub_distrib]
    apply Finset.sum_congr rfl
    intro j _
    have hs : ∀ a b : ℝ, 2 * (sin a * cos b) = sin (b + a) - sin (b - a) := by
      intro a b
      rw [sin_add, sin_sub]
      ring
    have := hs (π * (j + 1 : ℕ) / n) (2 * π * (l + 1 : ℕ) * (j + 1 : ℕ) / n)
    rw [show 2 * π * (l + 1 : ℕ) * (j + 1 : ℕ) / n + π * (j + 1 : ℕ) / n =
        π * (j + 1 : ℕ) * (2 * l + 3 : ℕ) / n by push_cast; field_simp; ring,
      show 2 * π * (l + 1 : ℕ) * (j + 1 : ℕ) / n - π * (j + 1 : ℕ) / n =
        π * (j + 1 : ℕ) * (2 * l + 1 : ℕ) / n by push_cast; field_simp; ring] at this
    linear_combination y (j + 1) * this
  rw [sinft_eq hh]
  simp only []
  rcases Nat.mod_two_eq_zero_or_one k with h2 | h2
  · rw [if_pos h2]
    simp only [set, Function.update_apply]
    by_cases hk : k = 0
    · subst hk
      rw [zero_add, if_pos rfl, sineSum1]
      simp
    · rw [if_neg (by omega), if_neg (by omega)]
      have := him (k / 2)
      rwa [show 2 * (k / 2) = k by omega] at this
  · rw [if_neg (by omega)]
    have hsum : ∀ l, ∑ j ∈ Finset.range (l + 1),
        set (set (realfftnp n (aux n y)) 0 (realfftnp n (aux n y) 0 * 0.5)) 1 0 (2 * j) = sineSum1 n y (2 * l + 1) := by
      intro l
      induction l with
      | zero =>
        simp only [zero_add, Finset.range_one, Finset.sum_singleton, mul_zero, set, Function.update_apply]
        rw [if_neg (by norm_num), if_pos trivial, hfirst]
      | succ l ih =>
        rw [Finset.sum_range_succ, ih]
        simp only [set, Function.update_apply]
        rw [if_neg (by omega), if_neg (by omega), hstep, show 2 * (l + 1) + 1 = 2 * l + 3 by ring]
        ring
    rw [hsum, show 2 * (k / 2) + 1 = k by omega]

theorem sum_cos (N : ℕ) (d : ℤ) (hd : ¬ (N : ℤ) ∣ d) :
    ∑ j ∈ Finset.range N, cos (2 * π * d * j / N) = 0 := by
  have h := congrArg Complex.re (sum_roots N d hd)
  rw [Complex.re_sum, Complex.zero_re] at h
  rw [← h]
  apply Finset.sum_congr rfl
  intro j _
  have : 2 * (π : ℂ) * Complex.I * d * j / N = ((2 * π * d * j / N : ℝ) : ℂ) * Complex.I := by
    push_cast
    ring
  rw [this, Complex.exp_ofReal_mul_I_re]

/-- The sines of the transform of type 1 are orthogonal. -/
theorem sine_orthogonal {n k l : ℕ} (hk : 0 < k) (hkn : k < n) (hl : 0 < l) (hln : l < n) :
    ∑ j ∈ Finset.range (n - 1), sin (π * (j + 1 : ℕ) * k / n) * sin (π * (j + 1 : ℕ) * l / n) =
      if k = l then (n : ℝ) / 2 else 0 := by
  have hn : 0 < n := by omega
  have hn' : (n : ℝ) ≠ 0 := by positivity
  set g : ℕ → ℝ := fun j => sin (π * (j : ℕ) * k / n) * sin (π * (j : ℕ) * l / n) with hg
  have hmir : ∀ j, j ≤ 2 * n → g (2 * n - j) = g j := by
    intro j hj
    have e : ∀ m : ℕ, sin (π * ((2 * n - j : ℕ) : ℝ) * m / n) = -sin (π * j * m / n) := by
      intro m
      rw [Nat.cast_sub hj, ← sin_neg, ← sin_add_nat_mul_two_pi (-(π * j * m / n)) m]
      congr 1
      push_cast
      field_simp
      ring
    simp only [hg]
    rw [e k, e l]
    ring
  have g0 : g 0 = 0 := by simp [hg]
  have gn : g n = 0 := by
    simp only [hg]
    rw [show π * (n : ℝ) * k / n = k * π by field_simp, sin_nat_mul_pi, zero_mul]
  have hT : ∑ j ∈ Finset.range (2 * n), g j = 2 * ∑ j ∈ Finset.range (n - 1), g (j + 1) := by
    obtain ⟨m, rfl⟩ : ∃ m, n = m + 1 := ⟨n - 1, by omega⟩
    rw [Nat.add_sub_cancel, show 2 * (m + 1) = (m + 1 + m) + 1 by ring, Finset.sum_range_succ', g0,
      Finset.sum_range_add, Finset.sum_range_succ, gn]
    have : ∑ x ∈ Finset.range m, g (m + 1 + x + 1) = ∑ x ∈ Finset.range m, g (x + 1) := by
      rw [← Finset.sum_range_reflect (fun x => g (x + 1)) m]
      apply Finset.sum_congr rfl
      intro x hx
      have := Finset.mem_range.1 hx
      rw [← hmir (m + 1 + x + 1) (by omega)]
      congr 1
      omega
    rw [this]
    ring
  have hprod : ∀ j : ℕ, g j = 1 / 2 * cos (2 * π * ((k : ℤ) - l : ℤ) * j / (2 * n : ℕ)) -
      1 / 2 * cos (2 * π * ((k : ℤ) + l : ℤ) * j / (2 * n : ℕ)) := by
    intro j
    have e1 : 2 * π * (((k : ℤ) - l : ℤ) : ℝ) * j / (2 * n : ℕ) = π * j * k / n - π * j * l / n := by
      push_cast
      field_simp
    have e2 : 2 * π * (((k : ℤ) + l : ℤ) : ℝ) * j / (2 * n : ℕ) = π * j * k / n + π * j * l / n := by
      push_cast
      field_simp
    rw [e1, e2, cos_sub, cos_add]
    simp only [hg]
    ring
  have hsum : ∑ j ∈ Finset.range (2 * n), cos (2 * π * ((k : ℤ) + l : ℤ) * j / (2 * n : ℕ)) = 0 := by
    apply sum_cos
    rintro ⟨c, hc⟩
    push_cast at hc
    have h1 : (0 : ℤ) < 2 * n * c := by omega
    have h2 : 2 * (n : ℤ) * c < 2 * n := by omega
    have : 0 < c := by
      by_contra h
      nlinarith
    nlinarith
  have hdiff : ∑ j ∈ Finset.range (2 * n), cos (2 * π * ((k : ℤ) - l : ℤ) * j / (2 * n : ℕ)) =
      if k = l then 2 * (n : ℝ) else 0 := by
    split_ifs with h
    · subst h
      simp
    · apply sum_cos
      rintro ⟨c, hc⟩
      push_cast at hc
      have hc0 : c ≠ 0 := by
        rintro rfl
        omega
      have h1 : (1 : ℤ) ≤ |c| := Int.one_le_abs hc0
      have h2 : |(k : ℤ) - l| < n := by rw [abs_lt]; constructor <;> omega
      rw [hc, abs_mul, abs_mul, Nat.abs_cast, abs_of_pos (by norm_num : (0 : ℤ) < 2)] at h2
      nlinarith
  have h := hT
  simp only [hprod] at h
  rw [Finset.sum_sub_distrib, ← Finset.mul_sum, ← Finset.mul_sum, hsum, hdiff] at h
  simp only [← hprod] at h
  have : ∑ j ∈ Finset.range (n - 1), sin (π * (j + 1 : ℕ) * k / n) * sin (π * (j + 1 : ℕ) * l / n) =
      ∑ j ∈ Finset.range (n - 1), g (j + 1) := rfl
  rw [this]
  split_ifs at h ⊢ with hkl <;> linarith

/-- C86: applied twice, `sinft` returns the array times half of its length (but for its first element, which
becomes zero). -/
theorem sinft_twice {h : ℕ} (hh : 0 < h) (y : ℕ → ℝ) {k : ℕ} (hk : k < 2 * h) :
    sinft (2 * h) (sinft (2 * h) y) k = if k = 0 then 0 else h * y k := by
  rw [sinft_sine hh]
  split_ifs with h0
  · subst h0
    simp [sineSum1]
  · unfold sineSum1
    have hk0 : 0 < k := by omega
    simp only [sinft_sine hh, sineSum1, Finset.sum_mul]
    rw [Finset.sum_comm]
    have e : ∀ i ∈ Finset.range (2 * h - 1), ∑ j ∈ Finset.range (2 * h - 1),
        y (i + 1) * sin (π * (i + 1 : ℕ) * (j + 1 : ℕ) / (2 * h : ℕ)) * sin (π * (j + 1 : ℕ) * k / (2 * h : ℕ)) =
        if i + 1 = k then h * y k else 0 := by
      intro i hi
      have hi' := Finset.mem_range.1 hi
      have ho := sine_orthogonal (n := 2 * h) (k := i + 1) (l := k) (by omega) (by omega) hk0 hk
      have e1 : ∀ j : ℕ, y (i + 1) * sin (π * (i + 1 : ℕ) * (j + 1 : ℕ) / (2 * h : ℕ)) *
          sin (π * (j + 1 : ℕ) * k / (2 * h : ℕ)) = y (i + 1) *
          (sin (π * (j + 1 : ℕ) * (i + 1 : ℕ) / (2 * h : ℕ)) * sin (π * (j + 1 : ℕ) * k / (2 * h : ℕ))) := by
        intro j
        rw [mul_right_comm π ((i + 1 : ℕ) : ℝ)]
        ring
      simp only [e1]
      rw [← Finset.mul_sum, ho]
      split_ifs with hik
      · rw [hik]
        push_cast
        ring
      · ring
    rw [Finset.sum_congr rfl e, Finset.sum_eq_single_of_mem (k - 1) (Finset.mem_range.2 (by omega))]
    · rw [if_pos (by omega)]
    · intro b _ hb
      rw [if_neg (by omega)]

/-- A single impulse in the middle of four places. -/
example : sinft 4 (fun i => if i = 2 then 1 else 0) 1 = 1 := by
  have h := sinft_sine (h := 2) (by norm_num) (fun i => if i = 2 then 1 else 0) 1
  norm_num at h
  rw [h]
  simp [sineSum1]
  rw [show π * (1 + 1) / 4 = π / 2 by ring, sin_pi_div_two]

end Verif.Fft
