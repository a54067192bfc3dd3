/-
Properties C16 (geometry), C26 (free-bound scattering) and C44 (Compton shift).
-/
import Verif.Lemmas.Setup
import Mathlib.Analysis.SpecialFunctions.Trigonometric.Bounds

set_option autoImplicit false

namespace Verif.Expt

open Real

variable (u : Consts)

/-! ### C16 -/

/-- Separate specification: length of the difference of the wave vectors `(a, 0)` and
`b (cos t, sin t)`. -/
noncomputable def vectorLength (a b t : ℝ) : ℝ := sqrt ((a - b * cos t) ^ 2 + (0 - b * sin t) ^ 2)

theorem transfer_eq_vectorLength (a b t : ℝ) : transfer a b t = vectorLength a b t := by
  unfold transfer vectorLength
  congr 1
  linear_combination b ^ 2 * (-(sin_sq_add_cos_sq t))

theorem transfer_triangle (a b t : ℝ) (ha : 0 ≤ a) (hb : 0 ≤ b) :
    |a - b| ≤ transfer a b t ∧ transfer a b t ≤ a + b := by
  have h0 : 0 ≤ transfer a b t := sqrt_nonneg _
  have h1 := transfer_sq a b t
  have hab := mul_nonneg ha hb
  constructor
  · apply abs_le_of_sq_le_sq _ h0
    nlinarith [cos_le_one t]
  · apply le_of_sq_le_sq _ (by linarith)
    nlinarith [neg_one_le_cos t]

theorem transfer_elastic (a t : ℝ) (ha : 0 ≤ a) (h0 : 0 ≤ t) (h1 : t ≤ 2 * π) :
    transfer a a t = 2 * a * sin (t / 2) := by
  have hs : 0 ≤ sin (t / 2) := sin_nonneg_of_nonneg_of_le_pi (by linarith) (by linarith)
  unfold transfer
  rw [transfer_radicand]
  rw [show (a - a) ^ 2 + 4 * a * a * sin (t / 2) ^ 2 = (2 * a * sin (t / 2)) ^ 2 by ring]
  exact sqrt_sq (by positivity)

theorem k_eq (s : Setup) (h : s.energy ≠ 0) : s.k u = 2 * (s.energy / u.hbar / u.c) * sin (s.angle / 2) := by
  have := u.hbar_pos; have := u.c_pos; have := pi_pos
  unfold Setup.k Setup.lambda0
  field_simp
  ring

/-- C16.  The wave number of a setup is the one of `thomson_momentum_transfer`. -/
theorem k_eq_thomson (s : Setup) (h : s.energy ≠ 0) :
    s.k u = thomsonMomentumTransfer u s.energy s.angle := by
  have := u.hbar_pos; have := u.c_pos
  rw [k_eq u s h]; unfold thomsonMomentumTransfer
  field_simp

/-- C16.  With dispersion, the wave number of every energy channel is the length of the difference of
the wave vectors of the two photons, and lies between the difference and the sum of their wave
numbers. -/
theorem fullK_geometry (s : Setup) (hs : s.correctK = true) (i : ℕ) (hi : i < s.measured.length)
    (h0 : 0 ≤ s.energy) (h1 : 0 ≤ s.measured.getD i 0) :
    (s.fullK u).getD i 0 = vectorLength (s.energy / (u.hbar * u.c))
        (s.measured.getD i 0 / (u.hbar * u.c)) s.angle ∧
      |s.energy - s.measured.getD i 0| / (u.hbar * u.c) ≤ (s.fullK u).getD i 0 ∧
      (s.fullK u).getD i 0 ≤ (s.energy + s.measured.getD i 0) / (u.hbar * u.c) := by
  have hb := u.hbar_pos; have hc := u.c_pos
  have e : (s.fullK u).getD i 0 = transfer (s.energy / (u.hbar * u.c))
      (s.measured.getD i 0 / (u.hbar * u.c)) s.angle := by
    unfold Setup.fullK
    rw [List.getD_eq_getElem _ _ (by simpa using hi), List.getD_eq_getElem _ _ hi]
    simp [hs, div_div]
  have ht := transfer_triangle (s.energy / (u.hbar * u.c)) (s.measured.getD i 0 / (u.hbar * u.c))
    s.angle (by positivity) (div_nonneg h1 (by positivity))
  refine ⟨by rw [e, transfer_eq_vectorLength], ?_, ?_⟩
  · rw [e]
    refine le_trans (le_of_eq ?_) ht.1
    rw [← sub_div, abs_div, abs_of_pos (by positivity : 0 < u.hbar * u.c)]
  · rw [e]
    refine le_trans ht.2 (le_of_eq ?_)
    ring

/-- C16.  A channel without energy loss has the wave number of the setup. -/
theorem fullK_elastic (s : Setup) (i : ℕ) (hi : i < s.measured.length)
    (hE : s.measured.getD i 0 = s.energy) (h0 : 0 < s.energy) (ha : 0 ≤ s.angle)
    (hb : s.angle ≤ 2 * π) : (s.fullK u).getD i 0 = s.k u := by
  have hh := u.hbar_pos; have hc := u.c_pos
  unfold Setup.fullK
  rw [List.getD_eq_getElem _ _ (by simpa using hi)]
  rw [List.getD_eq_getElem _ _ hi] at hE
  simp only [List.getElem_map, hE]
  split
  · rw [transfer_elastic _ _ (by positivity) ha hb, k_eq u s h0.ne']
  · rfl

/-- C16.  Without dispersion every channel has the wave number of the setup, for all densities. -/
theorem k_constant (s : Setup) (hs : s.correctK = false) (ne : ℝ) :
    s.fullK u = s.measured.map (fun _ => s.k u) ∧
      s.dispersionK u ne = s.measured.map (fun _ => s.k u) := by
  simp [Setup.fullK, Setup.dispersionK, hs]

/-- C16.  Without free electrons the correction for the dispersion of light has no effect. -/
theorem dispersionK_vacuum (s : Setup) : s.dispersionK u 0 = s.fullK u := by
  unfold Setup.dispersionK Setup.fullK
  simp [photonK, plasmaFrequency]

/-- C16.  In a plasma the wave number of a photon obeys the dispersion relation of light,
`ω² = ω_pl² + c² k²`, for every frequency not below the plasma frequency. -/
theorem photonK_dispersion (omega ne : ℝ) (hne : 0 ≤ ne) (h0 : 0 < omega)
    (h : plasmaFrequency u ne ≤ omega) :
    omega ^ 2 = u.e ^ 2 * ne / (u.eps0 * u.me) +
      (u.c * photonK u omega (plasmaFrequency u ne)) ^ 2 := by
  have hc := u.c_pos; have h1 := u.eps0_pos; have h2 := u.me_pos
  have hp : 0 ≤ plasmaFrequency u ne := sqrt_nonneg _
  have hsq : plasmaFrequency u ne ^ 2 = u.e ^ 2 * ne / (u.eps0 * u.me) :=
    sq_sqrt (by positivity)
  have h3 : 0 ≤ 1 - plasmaFrequency u ne ^ 2 / omega ^ 2 := by
    rw [sub_nonneg, div_le_one (by positivity)]
    exact pow_le_pow_left₀ hp h 2
  unfold photonK
  rw [← hsq, mul_pow, mul_pow, sq_sqrt h3]
  field_simp
  ring

/-- C16.  Every channel of the corrected wave number, above the plasma frequency, is the length of the
difference of the wave vectors of the two photons in the plasma. -/
theorem dispersionK_geometry (s : Setup) (ne : ℝ) (hs : s.correctK = true) (i : ℕ)
    (hi : i < s.measured.length) (kin kout : ℝ) (hin : 0 ≤ kin) (hout : 0 ≤ kout) (hne : 0 ≤ ne)
    (h0 : 0 < s.energy) (h1 : 0 < s.measured.getD i 0)
    (hdin : (s.energy / u.hbar) ^ 2 = u.e ^ 2 * ne / (u.eps0 * u.me) + (u.c * kin) ^ 2)
    (hdout : (s.measured.getD i 0 / u.hbar) ^ 2 =
      u.e ^ 2 * ne / (u.eps0 * u.me) + (u.c * kout) ^ 2) :
    (s.dispersionK u ne).getD i 0 = vectorLength kin kout s.angle := by
  have hh := u.hbar_pos; have hc := u.c_pos; have he0 := u.eps0_pos; have hme := u.me_pos
  have key : ∀ w k : ℝ, 0 < w → 0 ≤ k →
      w ^ 2 = u.e ^ 2 * ne / (u.eps0 * u.me) + (u.c * k) ^ 2 →
      photonK u w (plasmaFrequency u ne) = k := by
    intro w k hw hk hd
    have hp : 0 ≤ plasmaFrequency u ne := sqrt_nonneg _
    have hsq : plasmaFrequency u ne ^ 2 = u.e ^ 2 * ne / (u.eps0 * u.me) := sq_sqrt (by positivity)
    have hle : plasmaFrequency u ne ≤ w := by
      apply le_of_sq_le_sq _ hw.le
      rw [hsq, hd]; nlinarith [sq_nonneg (u.c * k)]
    have h2 := photonK_dispersion u w ne hne hw hle
    have h3 : (u.c * photonK u w (plasmaFrequency u ne)) ^ 2 = (u.c * k) ^ 2 := by linarith
    have h4 : 0 ≤ photonK u w (plasmaFrequency u ne) := by
      unfold photonK; positivity
    have h5 := (sq_eq_sq₀ (by positivity) (by positivity)).1 h3
    exact mul_left_cancel₀ hc.ne' h5
  unfold Setup.dispersionK
  rw [List.getD_eq_getElem _ _ (by simpa using hi)]
  rw [List.getD_eq_getElem _ _ hi] at h1 hdout
  simp only [List.getElem_map, hs, if_true]
  rw [key _ _ (by positivity) hin hdin, key _ _ (by positivity) hout hdout,
    transfer_eq_vectorLength]

/-- C16.  A setup generated for a requested wave number has this wave number, and the other options of
the setup. -/
theorem getProbeSetup_k (k : ℝ) (s : Setup) (hk : k ≠ 0) (hs : sin (s.angle / 2) ≠ 0) :
    (getProbeSetup u k s).k u = k ∧ (getProbeSetup u k s).angle = s.angle ∧
      (getProbeSetup u k s).measured = s.measured ∧
      (getProbeSetup u k s).instrument = s.instrument ∧
      (getProbeSetup u k s).correctK = s.correctK ∧ (getProbeSetup u k s).frc = s.frc := by
  have hh := u.hbar_pos; have hc := u.c_pos
  refine ⟨?_, rfl, rfl, rfl, rfl, rfl⟩
  rw [k_eq]
  · simp only [getProbeSetup, mkSetup]
    field_simp
  · simp only [getProbeSetup, mkSetup]
    have := mul_ne_zero (mul_ne_zero hh.ne' hk) hc.ne'
    exact div_ne_zero this (mul_ne_zero two_ne_zero hs)

/-- C16.  The wave numbers per channel of a generated setup are the requested one exactly in the
channels at the new photon energy and at `1 - 4 sin²(θ/2)` times it: as the measured energies are kept,
`full_k` of the generated setup is in general not the requested wave number. -/
theorem getProbeSetup_fullK_iff (k : ℝ) (s : Setup) (hk : 0 < k) (hs : 0 < sin (s.angle / 2))
    (hc : s.correctK = true) (i : ℕ) (hi : i < s.measured.length) :
    ((getProbeSetup u k s).fullK u).getD i 0 = k ↔
      s.measured.getD i 0 = (getProbeSetup u k s).energy ∨
      s.measured.getD i 0 = (getProbeSetup u k s).energy * (1 - 4 * sin (s.angle / 2) ^ 2) := by
  have hh := u.hbar_pos; have hcp := u.c_pos
  set E := s.measured.getD i 0 with hE
  set a := (getProbeSetup u k s).energy / u.hbar / u.c with ha
  have hen : (getProbeSetup u k s).energy = a * (u.hbar * u.c) := by rw [ha]; field_simp
  have hak : k = 2 * a * sin (s.angle / 2) := by
    rw [ha]; simp only [getProbeSetup, mkSetup]; field_simp
  have hapos : 0 < a := by
    rw [ha]; simp only [getProbeSetup, mkSetup]; positivity
  have e : ((getProbeSetup u k s).fullK u).getD i 0 = transfer a (E / u.hbar / u.c) s.angle := by
    unfold Setup.fullK
    rw [List.getD_eq_getElem _ _ (by simpa [getProbeSetup, mkSetup] using hi), hE,
      List.getD_eq_getElem _ _ hi]
    simp [getProbeSetup, mkSetup, hc, ha]
  set b := E / u.hbar / u.c with hb
  have hEb : E = b * (u.hbar * u.c) := by rw [hb]; field_simp
  have hp : 0 < u.hbar * u.c := by positivity
  rw [e, hen, hEb]
  have step : transfer a b s.angle = k ↔ (b - a) * (b - a * (1 - 4 * sin (s.angle / 2) ^ 2)) = 0 := by
    have h0 : 0 ≤ transfer a b s.angle := sqrt_nonneg _
    rw [← sq_eq_sq₀ h0 hk.le]
    have h1 : transfer a b s.angle ^ 2 = (b - a) ^ 2 + 4 * a * b * sin (s.angle / 2) ^ 2 := by
      rw [← transfer_radicand, transfer_sq]; ring
    rw [h1, hak]
    constructor <;> intro h <;> linarith
  rw [step, mul_eq_zero, sub_eq_zero, sub_eq_zero, mul_left_inj' hp.ne',
    show a * (u.hbar * u.c) * (1 - 4 * sin (s.angle / 2) ^ 2) =
      a * (1 - 4 * sin (s.angle / 2) ^ 2) * (u.hbar * u.c) by ring, mul_left_inj' hp.ne']

/-- C16.  Without the exponent there is no frequency redistribution; with exponent one it is the ratio
of the frequencies. -/
theorem frequencyRedistribution_cases (s : Setup) :
    (s.frc = 0 → s.frequencyRedistribution = s.measured.map fun _ => 1) ∧
      (s.frc = 1 → s.frequencyRedistribution = s.measured.map fun E => E / s.energy) := by
  constructor <;> intro h <;> simp [Setup.frequencyRedistribution, h]

/-- Constants and a setup that meet the hypotheses of this file: a back scattering geometry with three
channels. -/
noncomputable def unitConsts : Consts :=
  ⟨1, 1, 1, 1, 1, 1, by norm_num, by norm_num, by norm_num, by norm_num, by norm_num, by norm_num⟩

noncomputable def exampleSetup : Setup := mkSetup π 2 [1, 2, 3] (fun x => if x = 0 then 1 else 0)

example : (exampleSetup.fullK unitConsts).getD 1 0 = exampleSetup.k unitConsts :=
  fullK_elastic unitConsts exampleSetup 1 (by simp [exampleSetup, mkSetup])
    (by simp [exampleSetup, mkSetup]) (by simp [exampleSetup, mkSetup])
    (by simp [exampleSetup, mkSetup, pi_pos.le])
    (by simp only [exampleSetup, mkSetup]; linarith [pi_pos])

example : exampleSetup.k unitConsts = 4 := by
  rw [k_eq unitConsts _ (by simp [exampleSetup, mkSetup])]
  simp [exampleSetup, mkSetup, unitConsts]; norm_num

/-! ### C44 -/

/-- C44.  The Compton shift is not negative, less than the photon energy and zero exactly for forward
scattering. -/
theorem compton_bounds (E t : ℝ) (hE : 0 < E) :
    0 ≤ comptonEnergy u E t ∧ comptonEnergy u E t < E ∧ (comptonEnergy u E t = 0 ↔ cos t = 1) := by
  have hm := u.me_pos; have hc := u.c_pos
  have hx : 0 ≤ E / (u.me * u.c ^ 2) * (1 - cos t) :=
    mul_nonneg (by positivity) (by linarith [cos_le_one t])
  unfold comptonEnergy
  generalize hy : E / (u.me * u.c ^ 2) * (1 - cos t) = x at hx
  have h1 : (0 : ℝ) < 1 + x := by linarith
  have e : 1 - 1 / (1 + x) = x / (1 + x) := by field_simp; ring
  rw [e]
  refine ⟨by positivity, ?_, ?_⟩
  · have : x / (1 + x) < 1 := by rw [div_lt_one h1]; linarith
    nlinarith
  · constructor
    · intro h
      have h2 : x = 0 := by
        rcases mul_eq_zero.1 h with h | h
        · linarith
        · rcases div_eq_zero_iff.1 h with h | h
          · exact h
          · linarith
      rw [h2] at hy
      rcases mul_eq_zero.1 hy with h | h
      · exact absurd h (by positivity)
      · linarith
    · intro h
      rw [h] at hy; simp at hy; rw [← hy]; simp

/-- C44.  The Compton shift is the kinetic energy of an electron at rest that takes up the momentum the
photon loses: energy and momentum are conserved, in relativistic kinematics. -/
theorem compton_conserves (E t : ℝ) (hE : 0 < E) :
    (u.me * u.c ^ 2 + comptonEnergy u E t) ^ 2 =
      (u.me * u.c ^ 2) ^ 2 +
        (vectorLength E (E - comptonEnergy u E t) t) ^ 2 := by
  have hm := u.me_pos; have hc := u.c_pos
  have hM : 0 < u.me * u.c ^ 2 := by positivity
  rw [← transfer_eq_vectorLength, transfer_sq]
  unfold comptonEnergy
  generalize u.me * u.c ^ 2 = M at hM
  have hpos : 0 < 1 + E / M * (1 - cos t) := by
    have := mul_nonneg (div_nonneg hE.le hM.le) (by linarith [cos_le_one t] : 0 ≤ 1 - cos t)
    linarith
  set x := 1 / (1 + E / M * (1 - cos t)) with hx
  have h1 : x * (M + E * (1 - cos t)) = M := by
    have hne : M + E * (1 - cos t) ≠ 0 := by
      have := mul_nonneg hE.le (by linarith [cos_le_one t] : 0 ≤ 1 - cos t)
      linarith
    rw [hx]; field_simp
  have h2 : E * x * (1 - cos t) = M * (1 - x) := by linarith
  linear_combination (-2 * E) * h2

/-- C44.  With the momentum transfer `k` of the photon, the shift is `ħ² k² / 2 m`, less a term of the
order of the square of the shift over the rest energy. -/
theorem compton_leading_order (E t : ℝ) (hE : 0 < E) :
    comptonEnergy u E t =
      u.hbar ^ 2 * transfer (E / (u.hbar * u.c)) ((E - comptonEnergy u E t) / (u.hbar * u.c)) t ^ 2 /
          (2 * u.me) -
        comptonEnergy u E t ^ 2 / (2 * (u.me * u.c ^ 2)) := by
  have h := compton_conserves u E t hE
  have hm := u.me_pos; have hc := u.c_pos; have hh := u.hbar_pos
  rw [← transfer_eq_vectorLength, transfer_sq] at h
  rw [transfer_sq]
  field_simp
  linear_combination h

/-- The hypothesis is met, and the shift of back scattering at the rest energy is two thirds of it. -/
example : comptonEnergy unitConsts 1 π = 2 / 3 := by
  simp [comptonEnergy, unitConsts]; norm_num

/-! ### C26 -/

theorem flip_flip (s : Setup) : (flip (flip s)).measured = s.measured := by
  simp [flip, List.map_map]

/-- C26.  Mirroring the energies does not change the wave numbers of the channels. -/
theorem flipped_k (s : Setup) (ne : ℝ) :
    flippedFullK u (flip s) = s.fullK u ∧
      flippedDispersionK u (flip s) ne = s.dispersionK u ne ∧ (flip s).k u = s.k u := by
  refine ⟨?_, ?_, rfl⟩
  · simp only [flippedFullK, Setup.fullK, flip, List.map_map]
    apply List.map_congr_left
    intro E _
    simp only [Function.comp, sub_sub_cancel]
    rfl
  · simp only [flippedDispersionK, Setup.dispersionK, flip, List.map_map]
    apply List.map_congr_left
    intro E _
    simp only [Function.comp, sub_sub_cancel]
    rfl

theorem dispersionK_length (s : Setup) (ne : ℝ) : (s.dispersionK u ne).length = s.measured.length := by
  simp [Setup.dispersionK]

/-- C26.  Free-bound scattering at an energy shift `w` is bound-free scattering at the shift `-w` and
the same wave number, times `exp(-w / kT)`: for every bound-free model, temperature and channel. -/
theorem freeBound_entry (f : ℝ → ℝ → ℝ → ℝ) (s : Setup) (ne Te : ℝ) (i : ℕ)
    (hi : i < s.measured.length) :
    (freeBoundRaw u f s ne Te).getD i 0 =
      f (s.k u) (-(s.measured.getD i 0 - s.energy)) ((s.dispersionK u ne).getD i 0) *
        exp (-(s.measured.getD i 0 - s.energy) / (u.kB * Te)) := by
  have hl := dispersionK_length u s ne
  unfold freeBoundRaw boundFree
  rw [(flipped_k u s ne).2.1, (flipped_k u s ne).2.2]
  rw [List.getD_eq_getElem _ _ (by simp [flip, hl, hi]), List.getD_eq_getElem _ _ hi,
    List.getD_eq_getElem _ _ (by rw [hl]; exact hi)]
  simp only [List.getElem_zipWith, flip, List.getElem_map]
  congr 2
  · ring
  · rw [mul_comm]

theorem boundFree_entry (f : ℝ → ℝ → ℝ → ℝ) (s : Setup) (ne : ℝ) (i : ℕ)
    (hi : i < s.measured.length) :
    (boundFreeRaw u f s ne).getD i 0 =
      f (s.k u) (s.measured.getD i 0 - s.energy) ((s.dispersionK u ne).getD i 0) := by
  have hl := dispersionK_length u s ne
  unfold boundFreeRaw boundFree
  rw [List.getD_eq_getElem _ _ (by simp [hl, hi]), List.getD_eq_getElem _ _ hi,
    List.getD_eq_getElem _ _ (by rw [hl]; exact hi)]
  simp

/-- C26.  The sum of bound-free and free-bound scattering obeys detailed balance, between any two
channels with opposite energy shifts and the same wave number. -/
theorem bound_detailed_balance (f : ℝ → ℝ → ℝ → ℝ) (s : Setup) (ne Te : ℝ) (i j : ℕ)
    (hi : i < s.measured.length) (hj : j < s.measured.length)
    (hij : s.measured.getD j 0 - s.energy = -(s.measured.getD i 0 - s.energy))
    (hk : (s.dispersionK u ne).getD j 0 = (s.dispersionK u ne).getD i 0) :
    (boundFreeRaw u f s ne).getD i 0 + (freeBoundRaw u f s ne Te).getD i 0 =
      exp (-(s.measured.getD i 0 - s.energy) / (u.kB * Te)) *
        ((boundFreeRaw u f s ne).getD j 0 + (freeBoundRaw u f s ne Te).getD j 0) := by
  rw [freeBound_entry u f s ne Te i hi, freeBound_entry u f s ne Te j hj,
    boundFree_entry u f s ne i hi, boundFree_entry u f s ne j hj, hij, hk, neg_neg]
  generalize s.measured.getD i 0 - s.energy = w
  have : exp (-w / (u.kB * Te)) * exp (w / (u.kB * Te)) = 1 := by
    rw [← exp_add, neg_div, neg_add_cancel, exp_zero]
  linear_combination (-f (s.k u) w ((s.dispersionK u ne).getD i 0)) * this

/-- C26.  With the dispersion of the wave number switched off, all pairs of channels with opposite
energy shifts obey detailed balance. -/
theorem bound_detailed_balance_no_dispersion (f : ℝ → ℝ → ℝ → ℝ) (s : Setup) (ne Te : ℝ) (i j : ℕ)
    (hs : s.correctK = false) (hi : i < s.measured.length) (hj : j < s.measured.length)
    (hij : s.measured.getD j 0 - s.energy = -(s.measured.getD i 0 - s.energy)) :
    (boundFreeRaw u f s ne).getD i 0 + (freeBoundRaw u f s ne Te).getD i 0 =
      exp (-(s.measured.getD i 0 - s.energy) / (u.kB * Te)) *
        ((boundFreeRaw u f s ne).getD j 0 + (freeBoundRaw u f s ne Te).getD j 0) := by
  apply bound_detailed_balance u f s ne Te i j hi hj hij
  rw [(k_constant u s hs ne).2, List.getD_eq_getElem _ _ (by simpa using hj),
    List.getD_eq_getElem _ _ (by simpa using hi)]
  simp

/-- C26.  With dispersion, channels with opposite shifts have different wave numbers (outside forward
scattering), so that the documentation of `correct_k_dispersion` is right: the spectrum then has no
detailed balance in general. -/
theorem opposite_channels_differ (s : Setup) (hs : s.correctK = true) (i j : ℕ)
    (hi : i < s.measured.length) (hj : j < s.measured.length) (h0 : 0 < s.energy)
    (ht : cos s.angle ≠ 1) (hw : s.measured.getD i 0 ≠ s.energy)
    (hij : s.measured.getD j 0 - s.energy = -(s.measured.getD i 0 - s.energy)) :
    (s.fullK u).getD j 0 ≠ (s.fullK u).getD i 0 := by
  have hh := u.hbar_pos; have hc := u.c_pos
  have e : ∀ i, i < s.measured.length → (s.fullK u).getD i 0 ^ 2 * (u.hbar * u.c) ^ 2 =
      s.energy ^ 2 + s.measured.getD i 0 ^ 2 - 2 * s.energy * s.measured.getD i 0 * cos s.angle := by
    intro i hi
    unfold Setup.fullK
    rw [List.getD_eq_getElem _ _ (by simpa using hi), List.getD_eq_getElem _ _ hi]
    simp only [List.getElem_map, hs, if_true]
    rw [transfer_sq]; field_simp
  intro h
  have hi' := e i hi
  have hj' := e j hj
  rw [h] at hj'
  have hJ : s.measured.getD j 0 = 2 * s.energy - s.measured.getD i 0 := by linarith
  rw [hJ] at hj'
  have h2 : 4 * s.energy * (s.measured.getD i 0 - s.energy) * (1 - cos s.angle) = 0 := by
    linear_combination hj' - hi'
  rcases mul_eq_zero.1 h2 with h2 | h2
  · rcases mul_eq_zero.1 h2 with h2 | h2
    · linarith
    · exact hw (by linarith)
  · exact ht (by linarith)

/-- The hypotheses of the theorems on detailed balance are met by the outer channels of a setup. -/
example (f : ℝ → ℝ → ℝ → ℝ) :
    let s := mkSetup π 2 [1, 2, 3] (fun _ => 0) false
    (boundFreeRaw unitConsts f s 1).getD 2 0 + (freeBoundRaw unitConsts f s 1 1).getD 2 0 =
      exp (-1) * ((boundFreeRaw unitConsts f s 1).getD 0 0 + (freeBoundRaw unitConsts f s 1 1).getD 0 0) := by
  intro s
  have := bound_detailed_balance_no_dispersion unitConsts f s 1 1 2 0 rfl (by simp [s, mkSetup])
    (by simp [s, mkSetup]) (by simp [s, mkSetup]; norm_num)
  rw [this]
  simp [s, mkSetup, unitConsts]
  norm_num

end Verif.Expt
