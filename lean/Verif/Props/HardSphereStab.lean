/-
The structure factors of charged hard spheres are positive at every wavenumber.
-/
import Verif.Props.HardSphere
import Verif.Lemmas.HardSphere
import Mathlib.Analysis.SpecialFunctions.Integrals.Basic

set_option autoImplicit false

namespace Verif.Ssf

open Real Filter Topology Set Verif.Expt Verif.Resp

variable {u : Consts} {n Z T sig : ℝ}

/-- The parameters of the model, written with `e = η / (1 - η)` and `w = - h₀`. -/
theorem chs_param (hn : 0 < n) (hZ : 0 < Z) (hT : 0 < T) (hs : 0 < sig) (hη : g07eta n sig < 1) :
    ∃ e > 0, ∃ w > 0, g07eta n sig = e / (1 + e) ∧ g07chi u n Z T sig = chiOf e w ∧
      g07h0 u n Z T sig = -w ∧ g07gamma u Z T sig = chiOf e w ^ 2 / (24 * (e / (1 + e))) := by
  have hη0 := g07eta_pos hn hs
  have hχ : 0 < g07chi u n Z T sig := by
    rw [g07chi_eq hn hZ hT hs]
    exact mul_pos (kapIon_pos hn hZ hT) hs
  have hγ : 0 < g07gamma u Z T sig := by
    have := u.eps0_pos; have := u.kB_pos; have := u.e_pos
    unfold g07gamma; positivity
  have hχ2 : g07chi u n Z T sig ^ 2 = 24 * g07eta n sig * g07gamma u Z T sig := by
    unfold g07chi
    rw [sq_sqrt (by positivity)]
  have hh : g07h0 u n Z T sig = (1 + 2 * g07eta n sig) / (1 - g07eta n sig) *
      (1 - sqrt (1 + 2 * (1 - g07eta n sig) ^ 3 * g07chi u n Z T sig / (1 + 2 * g07eta n sig) ^ 2)) := rfl
  have h1 : 0 < 1 - g07eta n sig := by linarith
  generalize g07eta n sig = η at *
  generalize g07chi u n Z T sig = χ at *
  generalize g07gamma u Z T sig = γ at *
  generalize g07h0 u n Z T sig = h0 at *
  have hR : 0 < 2 * (1 - η) ^ 3 * χ / (1 + 2 * η) ^ 2 := by positivity
  have hr1 : 1 < sqrt (1 + 2 * (1 - η) ^ 3 * χ / (1 + 2 * η) ^ 2) := by
    rw [lt_sqrt (by norm_num)]; linarith
  have hr2 : sqrt (1 + 2 * (1 - η) ^ 3 * χ / (1 + 2 * η) ^ 2) ^ 2 =
      1 + 2 * (1 - η) ^ 3 * χ / (1 + 2 * η) ^ 2 := sq_sqrt (by linarith)
  generalize sqrt (1 + 2 * (1 - η) ^ 3 * χ / (1 + 2 * η) ^ 2) = r at *
  have hχr : χ = (r ^ 2 - 1) * (1 + 2 * η) ^ 2 / (2 * (1 - η) ^ 3) := by
    rw [hr2]; field_simp; ring
  have eη : η = η / (1 - η) / (1 + η / (1 - η)) := by field_simp; ring
  have eχ : χ = chiOf (η / (1 - η)) (-h0) := by
    rw [hχr, hh]; unfold chiOf; field_simp; ring
  refine ⟨η / (1 - η), by positivity, -h0, ?_, eη, eχ, by ring, ?_⟩
  · rw [hh]
    have : 0 < (1 + 2 * η) / (1 - η) := by positivity
    nlinarith
  · rw [← eχ, ← eη, hχ2]
    field_simp

/-- One minus the direct correlation function is a sum of two squares. -/
theorem chs_squares (hn : 0 < n) (hZ : 0 < Z) (hT : 0 < T) (hs : 0 < sig) (hη : g07eta n sig < 1) :
    ∃ e > 0, ∃ w > 0, g07chi u n Z T sig = chiOf e w ∧ ∀ k > 0, 1 - chsCii u k n Z T sig =
      (reC e w (k * sig) * cos (k * sig / 2) + reS e w (k * sig) * sin (k * sig / 2)) ^ 2 +
      (imC e w (k * sig) * cos (k * sig / 2) + imS e w (k * sig) * sin (k * sig / 2)) ^ 2 := by
  obtain ⟨e, he, w, hw, h1, h2, h3, h4⟩ := chs_param (u := u) hn hZ hT hs hη
  refine ⟨e, he, w, hw, h2, fun k hk => ?_⟩
  have hq : k * sig ≠ 0 := by positivity
  have hsq := body_squares he hw hq (sin_sq_add_cos_sq (k * sig / 2))
  have e1 : sin (k * sig) = 2 * sin (k * sig / 2) * cos (k * sig / 2) := by
    rw [← sin_two_mul]; congr 1; ring
  have e2 : cos (k * sig) = 1 - 2 * sin (k * sig / 2) ^ 2 := by
    have := cos_two_mul (k * sig / 2)
    rw [cos_sq'] at this
    rw [show 2 * (k * sig / 2) = k * sig by ring] at this
    linarith
  have h5 : g07h1 u n Z T sig = w ^ 2 / (24 * (e / (1 + e))) - (1 + e / (1 + e) / 2) / (1 - e / (1 + e)) ^ 2 := by
    unfold g07h1
    simp only []
    rw [h3, h1]; ring
  rw [chsCii_body, h1, h2, h3, h4, h5, e1, e2]
  exact hsq

/-- C67: one minus the direct correlation function is positive at every wavenumber: the structure factor
of the ions without screening is finite and positive. -/
theorem chs_direct_lt_one (hn : 0 < n) (hZ : 0 < Z) (hT : 0 < T) (hs : 0 < sig) (hη : g07eta n sig < 1)
    {k : ℝ} (hk : 0 < k) : chsCii u k n Z T sig < 1 := by
  obtain ⟨e, he, w, hw, -, h⟩ := chs_squares (u := u) hn hZ hT hs hη
  have hC := h k hk
  have hdet := squares_det (e := e) (w := w) (q := k * sig) (by positivity)
  have hcs := sin_sq_add_cos_sq (k * sig / 2)
  generalize reC e w (k * sig) = A at *
  generalize reS e w (k * sig) = B at *
  generalize imC e w (k * sig) = C at *
  generalize imS e w (k * sig) = D at *
  generalize sin (k * sig / 2) = s at *
  generalize cos (k * sig / 2) = c at *
  by_contra hcon
  have h6 : (A * c + B * s) ^ 2 + (C * c + D * s) ^ 2 ≤ 0 := by linarith
  have h7 : A * c + B * s = 0 := by nlinarith [sq_nonneg (A * c + B * s), sq_nonneg (C * c + D * s)]
  have h8 : C * c + D * s = 0 := by nlinarith [sq_nonneg (A * c + B * s), sq_nonneg (C * c + D * s)]
  have h9 : c = 0 := by linear_combination c * hdet - D * h7 + B * h8
  have h10 : s = 0 := by linear_combination s * hdet - A * h8 + C * h7
  rw [h9, h10] at hcs
  norm_num at hcs

/-- Below the first node the direct correlation function leaves room for the screening by the electrons. -/
theorem chs_room (hn : 0 < n) (hZ : 0 < Z) (hT : 0 < T) (hs : 0 < sig) (hη : g07eta n sig < 1)
    {k : ℝ} (hk : 0 < k) (hks : k * sig ≤ π) :
    cos (k * sig / 2) ^ 2 * (kapIon u n Z T ^ 2 / k ^ 2) < 1 - chsCii u k n Z T sig := by
  obtain ⟨e, he, w, hw, hχ, h⟩ := chs_squares (u := u) hn hZ hT hs hη
  rw [h k hk]
  have e0 : kapIon u n Z T ^ 2 / k ^ 2 = (chiOf e w / (k * sig)) ^ 2 := by
    rw [← hχ, g07chi_eq hn hZ hT hs]
    field_simp
  rw [e0]
  have hx : 0 < k * sig / 2 := by positivity
  have hx2 : k * sig / 2 ≤ π / 2 := by linarith
  have t1 := trig_first hx hx2
  have t2 := trig_second hx hx2
  have t3 := trig_third hx hx2
  have hc : 0 ≤ cos (k * sig / 2) := cos_nonneg_of_mem_Icc ⟨by linarith, hx2⟩
  have hsp : 0 < sin (k * sig / 2) := sin_pos_of_pos_of_lt_pi hx (by linarith [pi_pos])
  have hsl : sin (k * sig / 2) ≤ k * sig / 2 := sin_le hx.le
  have hcs := sin_sq_add_cos_sq (k * sig / 2)
  have hq : 0 < k * sig := by positivity
  generalize sin (k * sig / 2) = s at *
  generalize cos (k * sig / 2) = c at *
  generalize k * sig = q at *
  have hP := screened_poly (q := q) (σ := s / q) (a := (2 * s - q * c) / q ^ 3)
    (b := (12 * s - 6 * q * c - q ^ 2 * s) / q ^ 5) he.le hw (by apply div_pos _ (by positivity); linarith)
    (by
      rw [show 3 / 2 * ((2 * s - q * c) / q ^ 3) = (3 / 2 * q ^ 2 * (2 * s - q * c)) / q ^ 5 by field_simp]
      apply div_le_div_of_nonneg_right _ (by positivity)
      nlinarith)
    (by apply div_pos _ (by positivity); linarith) hc (by positivity) (by rw [div_le_iff₀ hq]; linarith)
    (by field_simp; ring) (by field_simp; ring) (by field_simp; linarith)
  simp only [] at hP
  have er : c + (w + 6 * e) * (s / q) + 6 * e * (2 + 6 * e + w) * ((2 * s - q * c) / q ^ 3) =
      reC e w q * c + reS e w q * s := by
    unfold reC reS; field_simp; ring
  have ei : imC e w q * c + imS e w q * s = chiOf e w * c / q - q * (s / q + (w + 6 * e) * ((2 * s - q * c) / q ^ 3) -
      chiOf e w * ((2 * s - q * c) / q ^ 3) - 2 * (e * (w ^ 2 / 2 + (1 + 3 * e) * w)) *
        ((12 * s - 6 * q * c - q ^ 2 * s) / q ^ 5)) := by
    unfold imC imS chiOf; field_simp; ring
  rw [er] at hP
  rw [ei]
  generalize s / q + (w + 6 * e) * ((2 * s - q * c) / q ^ 3) -
      chiOf e w * ((2 * s - q * c) / q ^ 3) - 2 * (e * (w ^ 2 / 2 + (1 + 3 * e) * w)) *
        ((12 * s - 6 * q * c - q ^ 2 * s) / q ^ 5) = m at *
  have e3 : (chiOf e w * c / q - q * m) ^ 2 = c ^ 2 * (chiOf e w / q) ^ 2 + (q ^ 2 * m ^ 2 - 2 * chiOf e w * c * m) := by
    field_simp; ring
  rw [e3]
  linarith

/-- C67: in a neutral plasma the ion-ion structure factor of the charged hard sphere model is positive at
every wavenumber, as long as the local field correction is at most `k² / κ_e²`. -/
theorem chs_ion_positive {k Te Ti ne Zf ni lfc sig : ℝ} (hk : 0 < k) (hTe : 0 < Te) (hTi : 0 < Ti) (hni : 0 < ni)
    (hz : 0 < Zf) (hne : ne = Zf * ni) (hs : 0 < sig) (hη : g07eta ni sig < 1) (hl : lfc < 1)
    (hl2 : kDAD u Te ne ^ 2 * lfc ≤ k ^ 2) :
    0 < sIiCHS u k Te Ti ne Zf ni lfc sig := by
  have hn : 0 < ne := by rw [hne]; positivity
  have hpos := u.eps0_pos; have hkB := u.kB_pos; have hue := u.e_pos
  have hD : 0 < kDAD u Te ne := by unfold kDAD; positivity
  have hC := chs_direct_lt_one (u := u) hni hz hTi hs hη hk
  unfold sIiCHS
  obtain ⟨h1, h2⟩ := chs_inverse (kDi := kDAD u Ti ne Zf) (sig := sig) hk hD hz hl.le hC.ne
  rw [← inv_pos]
  rcases lt_or_ge k (π / sig) with h | h
  · rw [h1 h]
    have hks : k * sig ≤ π := by rw [lt_div_iff₀ hs] at h; exact h.le
    have hroom := chs_room (u := u) hni hz hTi hs hη hk hks
    have e1 : kDAD u Ti ne Zf ^ 2 = kapIon u ni Zf Ti ^ 2 := by
      unfold kDAD kapIon
      rw [sq_sqrt (by positivity), sq_sqrt (by positivity), hne]
      ring
    have hp : 0 < 1 - lfc := by linarith
    have h3 : kDAD u Te ne ^ 2 / (k ^ 2 + kDAD u Te ne ^ 2 * (1 - lfc)) ≤ 1 := by
      rw [div_le_one (by positivity)]; linarith
    have h4 : cos (k * sig / 2) ^ 2 * (kDAD u Te ne ^ 2 * kDAD u Ti ne Zf ^ 2) /
        (k ^ 2 * (k ^ 2 + kDAD u Te ne ^ 2 * (1 - lfc))) =
        cos (k * sig / 2) ^ 2 * (kapIon u ni Zf Ti ^ 2 / k ^ 2) *
          (kDAD u Te ne ^ 2 / (k ^ 2 + kDAD u Te ne ^ 2 * (1 - lfc))) := by
      rw [e1]; field_simp
    rw [h4]
    have h5 : cos (k * sig / 2) ^ 2 * (kapIon u ni Zf Ti ^ 2 / k ^ 2) *
          (kDAD u Te ne ^ 2 / (k ^ 2 + kDAD u Te ne ^ 2 * (1 - lfc))) ≤
        cos (k * sig / 2) ^ 2 * (kapIon u ni Zf Ti ^ 2 / k ^ 2) := mul_le_of_le_one_right (by positivity) h3
    linarith
  · rw [h2 h]
    linarith

/-- C67: the structure factors of the model form a positive definite matrix at every wavenumber. -/
theorem chs_posDef {k Te Ti ne Zf ni lfc sig : ℝ} (hk : 0 < k) (hTe : 0 < Te) (hTi : 0 < Ti) (hni : 0 < ni)
    (hz : 0 < Zf) (hne : ne = Zf * ni) (hs : 0 < sig) (hη : g07eta ni sig < 1) (hl : lfc < 1)
    (hl2 : kDAD u Te ne ^ 2 * lfc ≤ k ^ 2) :
    0 < sIiCHS u k Te Ti ne Zf ni lfc sig ∧ 0 < sEeCHS u k Te Ti ne Zf ni lfc sig ∧
      sEiCHS u k Te Ti ne Zf ni lfc sig ^ 2 <
        sIiCHS u k Te Ti ne Zf ni lfc sig * sEeCHS u k Te Ti ne Zf ni lfc sig := by
  have h := chs_ion_positive (u := u) hk hTe hTi hni hz hne hs hη hl hl2
  have hn : 0 < ne := by rw [hne]; positivity
  exact ⟨h, chs_positive hk hTe hn hz hl h⟩

/-! ### The closure -/

theorem sin_moment (q : ℝ) (hq : q ≠ 0) (m : ℕ) :
    ∫ x in (0 : ℝ)..1, x ^ (m + 1) * sin (q * x) =
      -cos q / q + (m + 1) / q * ∫ x in (0 : ℝ)..1, x ^ m * cos (q * x) := by
  have h := intervalIntegral.integral_mul_deriv_eq_deriv_mul (a := 0) (b := 1)
    (u := fun x : ℝ => x ^ (m + 1)) (u' := fun x => (m + 1) * x ^ m)
    (v := fun x : ℝ => -cos (q * x) / q) (v' := fun x => sin (q * x))
    (fun x _ => by simpa using hasDerivAt_pow (m + 1) x)
    (fun x _ => by
      have := (((hasDerivAt_id x).const_mul q).cos.neg).div_const q
      refine this.congr_deriv ?_
      simp; field_simp)
    (by apply Continuous.intervalIntegrable; fun_prop) (by apply Continuous.intervalIntegrable; fun_prop)
  rw [h]
  have e : ∀ x : ℝ, (m + 1) * x ^ m * (-cos (q * x) / q) = (-(m + 1) / q) * (x ^ m * cos (q * x)) := fun x => by ring
  simp_rw [e]
  rw [intervalIntegral.integral_const_mul]
  simp
  ring

theorem cos_moment (q : ℝ) (hq : q ≠ 0) (m : ℕ) :
    ∫ x in (0 : ℝ)..1, x ^ (m + 1) * cos (q * x) =
      sin q / q - (m + 1) / q * ∫ x in (0 : ℝ)..1, x ^ m * sin (q * x) := by
  have h := intervalIntegral.integral_mul_deriv_eq_deriv_mul (a := 0) (b := 1)
    (u := fun x : ℝ => x ^ (m + 1)) (u' := fun x => (m + 1) * x ^ m)
    (v := fun x : ℝ => sin (q * x) / q) (v' := fun x => cos (q * x))
    (fun x _ => by simpa using hasDerivAt_pow (m + 1) x)
    (fun x _ => by
      have := (((hasDerivAt_id x).const_mul q).sin).div_const q
      refine this.congr_deriv ?_
      simp; field_simp)
    (by apply Continuous.intervalIntegrable; fun_prop) (by apply Continuous.intervalIntegrable; fun_prop)
  rw [h]
  have e : ∀ x : ℝ, (m + 1) * x ^ m * (sin (q * x) / q) = ((m + 1) / q) * (x ^ m * sin (q * x)) := fun x => by ring
  simp_rw [e]
  rw [intervalIntegral.integral_const_mul]
  simp

theorem sin_moment_zero (q : ℝ) (hq : q ≠ 0) : ∫ x in (0 : ℝ)..1, x ^ 0 * sin (q * x) = (1 - cos q) / q := by
  simp only [pow_zero, one_mul]
  rw [intervalIntegral.integral_comp_mul_left (fun x => sin x) hq]
  simp
  field_simp

theorem cos_moment_zero (q : ℝ) (hq : q ≠ 0) : ∫ x in (0 : ℝ)..1, x ^ 0 * cos (q * x) = sin q / q := by
  simp only [pow_zero, one_mul]
  rw [intervalIntegral.integral_comp_mul_left (fun x => cos x) hq]
  simp
  field_simp

/-- C67: the closure of the model.  The direct correlation function is `n` times the Fourier transform of a
function which is a polynomial inside of the spheres, with the same coefficients at all wavenumbers, and
the Coulomb potential `- Z² e² / (4 π ε₀ k_B T r)` outside; the second part is the transform of the latter,
`- (κ_i / k)² cos (k σ)`. -/
theorem chs_closure (hn : 0 < n) (hZ : 0 < Z) (hT : 0 < T) (hs : 0 < sig) :
    ∃ y0 y1 y2 y3 y4 : ℝ, ∀ k > 0, chsCii u k n Z T sig =
      n * (4 * π / k * ∫ r in (0 : ℝ)..sig, r *
        (y0 + y1 * (r / sig) + y2 * (r / sig) ^ 2 + y3 * (r / sig) ^ 3 + y4 * (r / sig) ^ 5) * sin (k * r)) -
      (kapIon u n Z T / k) ^ 2 * cos (k * sig) := by
  obtain ⟨y0, hy0⟩ : ∃ y, y = -((1 + 2 * g07eta n sig) ^ 2 / (1 - g07eta n sig) ^ 4) +
    g07h0 u n Z T sig ^ 2 / (4 * (1 - g07eta n sig) ^ 2) -
    (1 + g07eta n sig) * g07h0 u n Z T sig * g07chi u n Z T sig / (12 * g07eta n sig) -
    (5 + g07eta n sig ^ 2) * g07chi u n Z T sig ^ 2 / (60 * g07eta n sig) := ⟨_, rfl⟩
  obtain ⟨y3, hy3⟩ : ∃ y, y = g07eta n sig / 2 * (y0 + g07chi u n Z T sig ^ 2 *
    (-(1 + g07eta n sig - g07eta n sig ^ 2 / 5) / (12 * g07eta n sig) -
      (1 - g07eta n sig) * g07h0 u n Z T sig / (12 * g07eta n sig * g07chi u n Z T sig))) := ⟨_, rfl⟩
  refine ⟨y0, 6 * g07eta n sig * g07h1 u n Z T sig ^ 2, g07chi u n Z T sig ^ 2 / 6, y3,
    g07eta n sig * g07chi u n Z T sig ^ 2 / 60, fun k hk => ?_⟩
  have hη := g07eta_pos hn hs
  have hq : k * sig ≠ 0 := by positivity
  have hγ : (kapIon u n Z T / k) ^ 2 = 24 * g07eta n sig * g07gamma u Z T sig / (k * sig) ^ 2 := by
    have := u.eps0_pos; have := u.kB_pos; have := u.e_pos
    unfold kapIon g07eta g07gamma
    rw [div_pow, sq_sqrt (by positivity)]
    field_simp
    ring
  have hnη : n * (4 * π / k) = 24 * g07eta n sig / (k * sig) / sig ^ 2 := by
    unfold g07eta; field_simp; ring
  have hI : ∀ f : ℝ → ℝ, ∫ r in (0 : ℝ)..sig, f r = sig * ∫ x in (0 : ℝ)..1, f (sig * x) := by
    intro f
    rw [intervalIntegral.integral_comp_mul_left f hs.ne']
    simp
    field_simp
  rw [hI, ← mul_assoc, hnη, hγ, chsCii_body]
  unfold ciiBody
  simp only []
  rw [← hy0, ← hy3]
  generalize g07eta n sig = η at *
  generalize g07gamma u Z T sig = γ at *
  generalize g07chi u n Z T sig = χ at *
  generalize g07h1 u n Z T sig = h1 at *
  have e1 : ∀ x : ℝ, sig * x * (y0 + 6 * η * h1 ^ 2 * (sig * x / sig) + χ ^ 2 / 6 * (sig * x / sig) ^ 2 +
      y3 * (sig * x / sig) ^ 3 + η * χ ^ 2 / 60 * (sig * x / sig) ^ 5) * sin (k * (sig * x)) =
      sig * (y0 * (x ^ (0 + 1) * sin (k * sig * x)) + 6 * η * h1 ^ 2 * (x ^ (1 + 1) * sin (k * sig * x)) +
        χ ^ 2 / 6 * (x ^ (2 + 1) * sin (k * sig * x)) + y3 * (x ^ (3 + 1) * sin (k * sig * x)) +
        η * χ ^ 2 / 60 * (x ^ (5 + 1) * sin (k * sig * x))) := by
    intro x
    rw [show sig * x / sig = x by field_simp, show k * (sig * x) = k * sig * x by ring]
    ring
  simp_rw [e1]
  have hint : ∀ (y : ℝ) (m : ℕ), IntervalIntegrable (fun x : ℝ => y * (x ^ m * sin (k * sig * x)))
      MeasureTheory.volume 0 1 := fun y m => by apply Continuous.intervalIntegrable; fun_prop
  rw [intervalIntegral.integral_const_mul,
    intervalIntegral.integral_add ((((hint _ _).add (hint _ _)).add (hint _ _)).add (hint _ _)) (hint _ _),
    intervalIntegral.integral_add (((hint _ _).add (hint _ _)).add (hint _ _)) (hint _ _),
    intervalIntegral.integral_add ((hint _ _).add (hint _ _)) (hint _ _),
    intervalIntegral.integral_add (hint _ _) (hint _ _)]
  simp only [intervalIntegral.integral_const_mul]
  generalize k * sig = q at *
  have s1 := sin_moment q hq 0
  rw [cos_moment_zero q hq] at s1
  have c1 := cos_moment q hq 0
  rw [sin_moment_zero q hq] at c1
  have s2 := sin_moment q hq 1
  rw [show (1 : ℕ) = 0 + 1 from rfl, c1] at s2
  have c2 := cos_moment q hq 1
  rw [show (1 : ℕ) = 0 + 1 from rfl, s1] at c2
  have s3 := sin_moment q hq 2
  rw [show (2 : ℕ) = 0 + 1 + 1 from rfl, c2] at s3
  have c3 := cos_moment q hq 2
  rw [show (2 : ℕ) = 0 + 1 + 1 from rfl, s2] at c3
  have s4 := sin_moment q hq 3
  rw [show (3 : ℕ) = 0 + 1 + 1 + 1 from rfl, c3] at s4
  have c5 := cos_moment q hq 4
  rw [show (4 : ℕ) = 0 + 1 + 1 + 1 + 1 from rfl, s4] at c5
  have s6 := sin_moment q hq 5
  rw [show (5 : ℕ) = 0 + 1 + 1 + 1 + 1 + 1 from rfl, c5] at s6
  simp only [Nat.zero_add, Nat.reduceAdd] at *
  rw [s1, s2, s3, s4, s6]
  push_cast
  field_simp
  ring

/-! ### Small wavenumbers -/

/-- C67: without the electrons the ions screen each other perfectly: `S_ii / k²` tends to `1 / κ_i²` at
small wavenumbers. -/
theorem chs_perfect_screening (hn : 0 < n) (hZ : 0 < Z) (hT : 0 < T) (hs : 0 < sig) (hη : g07eta n sig < 1) :
    Tendsto (fun k => k ^ 2 * (1 - chsCii u k n Z T sig)) (𝓝[>] 0) (𝓝 (kapIon u n Z T ^ 2)) := by
  obtain ⟨e, he, w, hw, hχ, h⟩ := chs_squares (u := u) hn hZ hT hs hη
  have hχ0 : 0 < chiOf e w := by unfold chiOf; positivity
  -- bounds of the two parts
  obtain ⟨R, hR⟩ : ∃ R, R = 1 + (w + 6 * e) + 6 * e * (2 + 6 * e + w) := ⟨_, rfl⟩
  obtain ⟨M, hM⟩ : ∃ M, M = 1 + (w + 6 * e) + chiOf e w + 2 * (e * (w ^ 2 / 2 + (1 + 3 * e) * w)) := ⟨_, rfl⟩
  have key : ∀ᶠ q : ℝ in 𝓝[>] 0,
      |reC e w q * cos (q / 2) + reS e w q * sin (q / 2)| ≤ R ∧
      |q * (imC e w q * cos (q / 2) + imS e w q * sin (q / 2)) - chiOf e w * cos (q / 2)| ≤ q ^ 2 * M := by
    have hlt : ∀ᶠ q : ℝ in 𝓝[>] 0, q < 1 := nhdsWithin_le_nhds (Iio_mem_nhds one_pos)
    filter_upwards [hlt, self_mem_nhdsWithin] with q hq1 hq
    have hq : 0 < q := hq
    have hx : 0 < q / 2 := by positivity
    have hx2 : q / 2 ≤ π / 2 := by linarith [pi_gt_three]
    have t1 := trig_first hx hx2
    have t2 := trig_second hx hx2
    have t3 := trig_third hx hx2
    have hc : 0 ≤ cos (q / 2) := cos_nonneg_of_mem_Icc ⟨by linarith, hx2⟩
    have hc1 := cos_le_one (q / 2)
    have hsp : 0 < sin (q / 2) := sin_pos_of_pos_of_lt_pi hx (by linarith [pi_gt_three])
    have hsl : sin (q / 2) ≤ q / 2 := sin_le hx.le
    generalize sin (q / 2) = s at *
    generalize cos (q / 2) = c at *
    obtain ⟨σ, hσ⟩ : ∃ σ, σ = s / q := ⟨_, rfl⟩
    obtain ⟨a, ha⟩ : ∃ a, a = (2 * s - q * c) / q ^ 3 := ⟨_, rfl⟩
    obtain ⟨b, hb⟩ : ∃ b, b = (12 * s - 6 * q * c - q ^ 2 * s) / q ^ 5 := ⟨_, rfl⟩
    have er : reC e w q * c + reS e w q * s = c + (w + 6 * e) * σ + 6 * e * (2 + 6 * e + w) * a := by
      rw [hσ, ha]; unfold reC reS; field_simp; ring
    have ei : q * (imC e w q * c + imS e w q * s) - chiOf e w * c = -(q ^ 2 * (σ + (w + 6 * e) * a -
        chiOf e w * a - 2 * (e * (w ^ 2 / 2 + (1 + 3 * e) * w)) * b)) := by
      rw [hσ, ha, hb]; unfold imC imS chiOf; field_simp; ring
    have hσ0 : 0 < σ := by rw [hσ]; positivity
    have hσ1 : σ ≤ 1 / 2 := by rw [hσ, div_le_iff₀ hq]; linarith
    have ha0 : 0 < a := by rw [ha]; apply div_pos _ (by positivity); linarith
    have hb0 : 0 < b := by rw [hb]; apply div_pos _ (by positivity); linarith
    have hba : b ≤ 3 / 2 * a := by
      rw [ha, hb, show 3 / 2 * ((2 * s - q * c) / q ^ 3) = (3 / 2 * q ^ 2 * (2 * s - q * c)) / q ^ 5 by field_simp]
      apply div_le_div_of_nonneg_right _ (by positivity)
      nlinarith
    have e1 : σ = 6 * a - q ^ 2 * b := by rw [hσ, ha, hb]; field_simp; ring
    have ha1 : a ≤ 1 / 2 := by
      have : q ^ 2 * b ≤ b := mul_le_of_le_one_left hb0.le (by nlinarith)
      linarith
    have hb1 : b ≤ 1 := by linarith
    have hwe : 0 < w + 6 * e := by positivity
    have hee : 0 < 6 * e * (2 + 6 * e + w) := by positivity
    have hew : 0 < 2 * (e * (w ^ 2 / 2 + (1 + 3 * e) * w)) := by positivity
    refine ⟨?_, ?_⟩
    · rw [er, hR, abs_of_nonneg (by positivity)]
      have := mul_le_mul_of_nonneg_left (show σ ≤ 1 by linarith) hwe.le
      have := mul_le_mul_of_nonneg_left (show a ≤ 1 by linarith) hee.le
      linarith
    · rw [ei, abs_neg, abs_mul, abs_of_nonneg (sq_nonneg q)]
      apply mul_le_mul_of_nonneg_left _ (sq_nonneg q)
      have h1 := mul_le_mul_of_nonneg_left (show a ≤ 1 by linarith) hwe.le
      have h2 := mul_le_mul_of_nonneg_left (show a ≤ 1 by linarith) hχ0.le
      have h3 := mul_le_mul_of_nonneg_left hb1 hew.le
      have h4 : 0 ≤ (w + 6 * e) * a := by positivity
      have h5 : 0 ≤ chiOf e w * a := by positivity
      have h6 : 0 ≤ 2 * (e * (w ^ 2 / 2 + (1 + 3 * e) * w)) * b := by positivity
      rw [hM, abs_le]
      constructor <;> linarith
  -- the limits of the two parts times the wavenumber
  have hq0 : Tendsto (fun q : ℝ => q) (𝓝[>] 0) (𝓝 0) := tendsto_nhdsWithin_of_tendsto_nhds tendsto_id
  have l1 : Tendsto (fun q : ℝ => q * (reC e w q * cos (q / 2) + reS e w q * sin (q / 2))) (𝓝[>] 0) (𝓝 0) := by
    refine squeeze_zero_norm' (a := fun q => q * R) ?_ (by simpa using hq0.mul_const R)
    filter_upwards [key, self_mem_nhdsWithin] with q hk hq
    have hq : 0 < q := hq
    rw [norm_mul, norm_of_nonneg hq.le]
    exact mul_le_mul_of_nonneg_left hk.1 hq.le
  have l2 : Tendsto (fun q : ℝ => q * (imC e w q * cos (q / 2) + imS e w q * sin (q / 2))) (𝓝[>] 0)
      (𝓝 (chiOf e w)) := by
    have h1 : Tendsto (fun q : ℝ => q * (imC e w q * cos (q / 2) + imS e w q * sin (q / 2)) - chiOf e w * cos (q / 2))
        (𝓝[>] 0) (𝓝 0) := by
      refine squeeze_zero_norm' (a := fun q => q ^ 2 * M) ?_ (by simpa using (hq0.pow 2).mul_const M)
      filter_upwards [key] with q hk using hk.2
    have h2 : Tendsto (fun q : ℝ => chiOf e w * cos (q / 2)) (𝓝[>] 0) (𝓝 (chiOf e w)) := by
      have : Continuous fun q : ℝ => chiOf e w * cos (q / 2) := by fun_prop
      have := this.tendsto 0
      simp at this
      exact tendsto_nhdsWithin_of_tendsto_nhds this
    have := h1.add h2
    simpa using this
  have l3 := (l1.pow 2).add (l2.pow 2)
  have hks : Tendsto (fun k : ℝ => k * sig) (𝓝[>] 0) (𝓝[>] 0) := by
    refine tendsto_nhdsWithin_iff.2 ⟨?_, ?_⟩
    · have : Continuous fun k : ℝ => k * sig := by fun_prop
      have := this.tendsto 0
      simp only [zero_mul] at this
      exact tendsto_nhdsWithin_of_tendsto_nhds this
    · filter_upwards [self_mem_nhdsWithin] with k hk
      exact mul_pos hk hs
  have l4 := (l3.comp hks).div_const (sig ^ 2)
  have e1 : (0 ^ 2 + chiOf e w ^ 2) / sig ^ 2 = kapIon u n Z T ^ 2 := by
    rw [← hχ, g07chi_eq hn hZ hT hs]; field_simp; ring
  rw [e1] at l4
  refine l4.congr' ?_
  filter_upwards [self_mem_nhdsWithin] with k hk
  have hk : 0 < k := hk
  rw [h k hk]
  simp only [Function.comp]
  field_simp

/-- C67: with a local field correction which does not vanish at small wavenumbers the ion-ion structure
factor becomes negative there. -/
theorem chs_negative_of_lfc {Te Ti ne Zf ni lfc sig : ℝ} (hTe : 0 < Te) (hTi : 0 < Ti) (hni : 0 < ni)
    (hz : 0 < Zf) (hne : ne = Zf * ni) (hs : 0 < sig) (hη : g07eta ni sig < 1) (hl : lfc < 1) (hl0 : 0 < lfc) :
    ∀ᶠ k in 𝓝[>] (0 : ℝ), sIiCHS u k Te Ti ne Zf ni lfc sig < 0 := by
  have hn : 0 < ne := by rw [hne]; positivity
  have hpos := u.eps0_pos; have hkB := u.kB_pos; have hue := u.e_pos
  have hD : 0 < kDAD u Te ne := by unfold kDAD; positivity
  have hκ : 0 < kapIon u ni Zf Ti := kapIon_pos hni hz hTi
  have e1 : kDAD u Ti ne Zf ^ 2 = kapIon u ni Zf Ti ^ 2 := by
    unfold kDAD kapIon
    rw [sq_sqrt (by positivity), sq_sqrt (by positivity), hne]
    ring
  have hp : 0 < 1 - lfc := by linarith
  have l1 := chs_perfect_screening (u := u) hni hz hTi hs hη
  have l2 : Tendsto (fun k : ℝ => cos (k * sig / 2) ^ 2 * (kDAD u Te ne ^ 2 * kapIon u ni Zf Ti ^ 2) /
      (k ^ 2 + kDAD u Te ne ^ 2 * (1 - lfc))) (𝓝[>] 0) (𝓝 (kapIon u ni Zf Ti ^ 2 / (1 - lfc))) := by
    have hc : ContinuousAt (fun k : ℝ => cos (k * sig / 2) ^ 2 * (kDAD u Te ne ^ 2 * kapIon u ni Zf Ti ^ 2) /
        (k ^ 2 + kDAD u Te ne ^ 2 * (1 - lfc))) 0 := by
      apply ContinuousAt.div (by fun_prop) (by fun_prop)
      positivity
    have := hc.tendsto
    have e2 : cos (0 * sig / 2) ^ 2 * (kDAD u Te ne ^ 2 * kapIon u ni Zf Ti ^ 2) /
        (0 ^ 2 + kDAD u Te ne ^ 2 * (1 - lfc)) = kapIon u ni Zf Ti ^ 2 / (1 - lfc) := by
      simp
      field_simp
    rw [e2] at this
    exact tendsto_nhdsWithin_of_tendsto_nhds this
  have l3 := l1.sub l2
  have hneg : kapIon u ni Zf Ti ^ 2 - kapIon u ni Zf Ti ^ 2 / (1 - lfc) < 0 := by
    rw [sub_neg, lt_div_iff₀ hp]
    have : 0 < kapIon u ni Zf Ti ^ 2 * lfc := by positivity
    linarith
  have hlt : ∀ᶠ k : ℝ in 𝓝[>] 0, k < π / sig := nhdsWithin_le_nhds (Iio_mem_nhds (by positivity))
  filter_upwards [l3.eventually (gt_mem_nhds hneg), hlt, self_mem_nhdsWithin] with k h1 h2 hk
  have hk : 0 < k := hk
  have hC := chs_direct_lt_one (u := u) hni hz hTi hs hη hk
  have h3 := (chs_inverse (kDi := kDAD u Ti ne Zf) (sig := sig) hk hD hz hl.le hC.ne).1 h2
  unfold sIiCHS
  rw [← inv_neg'', h3, e1]
  have e3 : k ^ 2 * (1 - chsCii u k ni Zf Ti sig - cos (k * sig / 2) ^ 2 * (kDAD u Te ne ^ 2 * kapIon u ni Zf Ti ^ 2) /
      (k ^ 2 * (k ^ 2 + kDAD u Te ne ^ 2 * (1 - lfc)))) = k ^ 2 * (1 - chsCii u k ni Zf Ti sig) -
      cos (k * sig / 2) ^ 2 * (kDAD u Te ne ^ 2 * kapIon u ni Zf Ti ^ 2) / (k ^ 2 + kDAD u Te ne ^ 2 * (1 - lfc)) := by
    field_simp
  rw [← e3] at h1
  by_contra hcon
  push Not at hcon
  have : 0 ≤ k ^ 2 * (1 - chsCii u k ni Zf Ti sig - cos (k * sig / 2) ^ 2 * (kDAD u Te ne ^ 2 * kapIon u ni Zf Ti ^ 2) /
      (k ^ 2 * (k ^ 2 + kDAD u Te ne ^ 2 * (1 - lfc)))) := by positivity
  linarith

/-- A plasma with a packing fraction of one eighth. -/
example : 0 < sIiCHS unitConsts 1 1 (1 / (4 * π)) (1 * (3 / (4 * π))) 1 (3 / (4 * π)) 0 1 ∧
    ∀ᶠ k in 𝓝[>] (0 : ℝ), sIiCHS unitConsts k 1 (1 / (4 * π)) (1 * (3 / (4 * π))) 1 (3 / (4 * π)) (1 / 2) 1 < 0 := by
  have hη : g07eta (3 / (4 * π)) 1 < 1 := by
    unfold g07eta
    rw [show π / 6 * (3 / (4 * π) * 1 ^ 3) = 1 / 8 by field_simp; norm_num]
    norm_num
  exact ⟨chs_ion_positive one_pos one_pos (by positivity) (by positivity) one_pos rfl one_pos hη (by norm_num) (by simp),
    chs_negative_of_lfc one_pos (by positivity) (by positivity) one_pos rfl one_pos hη (by norm_num) (by norm_num)⟩

end Verif.Ssf
