/-
Property C97: the bound-free model that is scaled to fulfil the f-sum rule.
-/
import Verif.Lemmas.FitRk

set_option autoImplicit false

namespace Verif.FitRk

open Real Verif.Expt Verif.Itcf

variable (u : Consts) (f g : ℝ → ℝ → ℝ → ℝ) (ne Te : ℝ)

/-! ### The spectra of a setup without correction of the wave number -/

/-- Bound-free scattering as a function of the energy that is lost. -/
noncomputable def bfSpec (k x : ℝ) : ℝ := f k (-x) k

/-- Free-bound scattering as a function of the energy that is lost. -/
noncomputable def fbSpec (k x : ℝ) : ℝ := f k x k * exp (x / (Te * u.kB))

theorem boundFreeRaw_off {s : Setup} (hk : s.correctK = false) :
    boundFreeRaw u f s ne = (shifts s).map (bfSpec f (s.k u)) := by
  unfold boundFreeRaw boundFree Setup.dispersionK shifts bfSpec
  rw [hk]
  simp only [Bool.false_eq_true, if_false, List.zipWith_map_right, List.zipWith_self, List.map_map]
  refine List.map_congr_left fun E _ => ?_
  simp only [Function.comp, neg_neg]

theorem flip_k (s : Setup) : (flip s).k u = s.k u := rfl

theorem flippedRaw_off {s : Setup} (hk : s.correctK = false) :
    boundFree u f (flip s) (flippedDispersionK u (flip s) ne) = s.measured.map fun E => f (s.k u) (-(E - s.energy)) (s.k u) := by
  unfold boundFree flippedDispersionK
  have h2 : (flip s).correctK = false := hk
  rw [h2]
  simp only [Bool.false_eq_true, if_false, List.zipWith_map_right, List.zipWith_self, flip_k]
  unfold Expt.flip
  simp only [List.map_map]
  refine List.map_congr_left fun E _ => ?_
  simp only [Function.comp]
  congr 1
  ring

theorem freeBoundRaw_off {s : Setup} (hk : s.correctK = false) :
    freeBoundRaw u f s ne Te = (shifts s).map (fbSpec u f Te (s.k u)) := by
  unfold freeBoundRaw
  rw [flippedRaw_off u f ne hk]
  unfold shifts fbSpec
  rw [List.zipWith_map_left, List.zipWith_self, List.map_map]
  rfl

theorem zip_map_self (xs : List ℝ) (h : ℝ → ℝ) : xs.zip (xs.map h) = spectrum xs h := by
  unfold spectrum
  induction xs with
  | nil => rfl
  | cons a l ih => simp [ih]

theorem zipWith_add_map (xs : List ℝ) (p q : ℝ → ℝ) :
    List.zipWith (· + ·) (xs.map p) (xs.map q) = xs.map fun x => p x + q x := by
  induction xs with
  | nil => rfl
  | cons a l ih => simp

theorem numerator_eq (s : Setup) :
    numerator u g ne s = -((u.hbar * s.k u) ^ 2 / (2 * u.me)) + firstMoment u.hbar (spectrum (shifts s) (bfSpec g (s.k u))) (-cut s) (cut s) := by
  unfold numerator
  rw [fsum_raw _ rfl, boundFreeRaw_off u g ne (s := off s) rfl]
  unfold fromSetup
  simp only [zip_map_self]
  have e1 : shifts (off s) = shifts s := rfl
  have e2 : (off s).k u = s.k u := rfl
  rw [e1, e2]
  ring

theorem denominator_eq (s : Setup) :
    denominator u f ne Te s =
      -(firstMoment u.hbar (spectrum (shifts s) (bfSpec f (s.k u))) (-cut s) (cut s) +
        firstMoment u.hbar (spectrum (shifts s) (fbSpec u f Te (s.k u))) (-cut s) (cut s)) := by
  unfold denominator
  rw [fsum_raw _ rfl, boundFreeRaw_off u f ne (s := off s) rfl, freeBoundRaw_off u f ne Te (s := off s) rfl, zipWith_add_map]
  unfold fromSetup
  simp only [zip_map_self]
  have e1 : shifts (off s) = shifts s := rfl
  have e2 : (off s).k u = s.k u := rfl
  rw [e1, e2]
  have := firstMoment_linear u.hbar (shifts s) (fbSpec u f Te (s.k u)) (bfSpec f (s.k u)) 1 (-cut s) (cut s)
  simp only [one_mul] at this
  rw [this]
  ring

/-! ### The f-sum rule -/

/-- Specification: a setup whose energy axis is symmetric about the energy of the probe; no energy occurs twice. -/
structure SymmetricAxis (s : Setup) : Prop where
  distinct : s.measured.Nodup
  mirror : ∀ E ∈ s.measured, 2 * s.energy - E ∈ s.measured

/-- Specification: `c` is the largest energy shift of a setup. -/
structure LargestShift (s : Setup) (c : ℝ) : Prop where
  le : ∀ E ∈ s.measured, E - s.energy ≤ c
  attained : ∃ E ∈ s.measured, E - s.energy = c

theorem cut_eq {s : Setup} {c : ℝ} (h : LargestShift s c) : cut s = c := by
  obtain ⟨E, hE, he⟩ := h.attained
  refine maximum_eq (List.mem_map.2 ⟨E, hE, he⟩) fun x hx => ?_
  obtain ⟨E', hE', rfl⟩ := List.mem_map.1 hx
  exact h.le E' hE'

/-- Specification: the first moment of the spectrum `S` of a setup, over the energy shifts up to `c`, is the recoil
energy of a free electron. -/
def FulfilsSumRule (s : Setup) (c : ℝ) (S : List ℝ) : Prop :=
  firstMoment u.hbar ((shifts s).zip S) (-c) c = (u.hbar * s.k u) ^ 2 / (2 * u.me)

theorem inelastic_eq {s : Setup} (hk : s.correctK = false) {S : List ℝ} (hS : inelastic u f g ne Te s = some S) :
    ∃ r r', rk u f g ne Te s = some r ∧ rk u f g ne Te (flip s) = some r' ∧
      S = (shifts s).map fun x => (bfSpec g (s.k u) x + r * bfSpec f (s.k u) x) + r' * fbSpec u f Te (s.k u) x := by
  unfold inelastic boundFreeFit freeBoundFit boundFreeFitFlipped at hS
  cases h1 : rk u f g ne Te s with
  | none => rw [h1] at hS; simp at hS
  | some r =>
    cases h2 : rk u f g ne Te (flip s) with
    | none => rw [h1, h2] at hS; simp at hS
    | some r' =>
      refine ⟨r, r', rfl, rfl, ?_⟩
      rw [h1, h2] at hS
      simp only [Option.map_some, Option.bind_some, Option.some.injEq] at hS
      rw [← hS, boundFreeRaw_off u f ne hk, boundFreeRaw_off u g ne hk, flippedRaw_off u f ne hk]
      unfold shifts
      simp only [List.map_map, List.zipWith_map_left, List.zipWith_map_right, List.zipWith_self]
      refine List.map_congr_left fun E _ => ?_
      simp only [Function.comp, bfSpec, fbSpec, neg_neg]
      ring

theorem rk_some {s : Setup} {r : ℝ} (h : rk u f g ne Te s = some r) :
    denominator u f ne Te s ≠ 0 ∧ r * denominator u f ne Te s = numerator u g ne s := by
  unfold rk at h
  split_ifs at h with h0
  refine ⟨h0, ?_⟩
  rw [← Option.some.inj h]
  exact div_mul_cancel₀ _ h0

/-- C97, every energy axis: without correction of the wave number, the sum rule is missed by the difference of the
factors for the setup and for its mirror image, times the first moment of the free-bound scattering. -/
theorem inelastic_moment {s : Setup} (hk : s.correctK = false) {S : List ℝ} (hS : inelastic u f g ne Te s = some S) :
    ∃ r r', rk u f g ne Te s = some r ∧ rk u f g ne Te (flip s) = some r' ∧
      firstMoment u.hbar ((shifts s).zip S) (-cut s) (cut s) = (u.hbar * s.k u) ^ 2 / (2 * u.me) +
        (r' - r) * firstMoment u.hbar ((shifts s).zip (freeBoundRaw u f s ne Te)) (-cut s) (cut s) := by
  obtain ⟨r, r', h1, h2, rfl⟩ := inelastic_eq u f g ne Te hk hS
  refine ⟨r, r', h1, h2, ?_⟩
  have h3 := (rk_some u f g ne Te h1).2
  rw [denominator_eq, numerator_eq] at h3
  rw [freeBoundRaw_off u f ne Te hk, zip_map_self, zip_map_self, firstMoment_linear, firstMoment_linear]
  linarith

theorem shifts_flip_perm {s : Setup} (h : SymmetricAxis s) : (shifts (flip s)).Perm (shifts s) := by
  have hp : (flip s).measured.Perm s.measured := by
    unfold Expt.flip
    have hinj : Function.Injective (fun E : ℝ => 2 * s.energy - E) := fun a b hab => by simpa using hab
    rw [List.perm_ext_iff_of_nodup (h.distinct.map hinj) h.distinct]
    intro x
    simp only [List.mem_map]
    constructor
    · rintro ⟨y, hy, rfl⟩
      exact h.mirror y hy
    · intro hx
      exact ⟨_, h.mirror x hx, by ring⟩
  exact hp.map _

theorem shifts_nodup {s : Setup} (h : s.measured.Nodup) : (shifts s).Nodup := by
  unfold shifts
  refine h.map fun a b hab => ?_
  simpa using hab

theorem shifts_symm {s : Setup} (h : SymmetricAxis s) : ∀ x ∈ shifts s, -x ∈ shifts s := by
  intro x hx
  obtain ⟨E, hE, rfl⟩ := List.mem_map.1 hx
  exact List.mem_map.2 ⟨_, h.mirror E hE, by ring⟩

theorem cut_flip {s : Setup} (h : SymmetricAxis s) : cut (flip s) = cut s := by
  by_cases h0 : s.measured = []
  · unfold cut Expt.flip
    simp [h0]
  have hne : (s.measured.map fun E => E - s.energy) ≠ [] := by simpa using h0
  obtain ⟨E, hE, he⟩ := List.mem_map.1 (maximum_mem hne)
  have hl : LargestShift (flip s) (cut s) := by
    constructor
    · intro E' hE'
      obtain ⟨E2, hE2, rfl⟩ := List.mem_map.1 (show E' ∈ s.measured.map (fun E => 2 * s.energy - E) from hE')
      exact le_maximum (List.mem_map.2 ⟨_, h.mirror E2 hE2, rfl⟩)
    · exact ⟨E, List.mem_map.2 ⟨_, h.mirror E hE, by ring⟩, he⟩
  exact cut_eq hl

theorem firstMoment_flip {s : Setup} (h : SymmetricAxis s) (p : ℝ → ℝ) (a b : ℝ) :
    firstMoment u.hbar (spectrum (shifts (flip s)) p) a b = firstMoment u.hbar (spectrum (shifts s) p) a b := by
  refine firstMoment_of_perm ((shifts_flip_perm h).map _) ?_ _ _ _
  unfold energies
  rw [List.map_map]
  have e : (Prod.fst ∘ fun x : ℝ => (x, p x)) = id := rfl
  rw [e, List.map_id]
  exact (shifts_flip_perm h).nodup_iff.2 (shifts_nodup h.distinct)

theorem rk_flip {s : Setup} (h : SymmetricAxis s) : rk u f g ne Te (flip s) = rk u f g ne Te s := by
  have h1 : numerator u g ne (flip s) = numerator u g ne s := by
    rw [numerator_eq, numerator_eq, flip_k, cut_flip h, firstMoment_flip u h]
  have h2 : denominator u f ne Te (flip s) = denominator u f ne Te s := by
    rw [denominator_eq, denominator_eq, flip_k, cut_flip h, firstMoment_flip u h, firstMoment_flip u h]
  unfold rk
  rw [h1, h2]

/-- C97: free-free scattering, the scaled bound-free scattering and its mirror image fulfil the f-sum rule together,
whatever the models.
(Partial: for setups without the correction of the wave number and with an energy axis that is symmetric about the
energy of the probe.  For other axes see `inelastic_moment`, `no_energy_gain` and `default_exceeds`.) -/
theorem inelastic_fsum_partial {s : Setup} (hk : s.correctK = false) (h : SymmetricAxis s) {c : ℝ} (hc : LargestShift s c)
    {S : List ℝ} (hS : inelastic u f g ne Te s = some S) : FulfilsSumRule u s c S := by
  obtain ⟨r, r', h1, h2, h3⟩ := inelastic_moment u f g ne Te hk hS
  rw [rk_flip u f g ne Te h, h1] at h2
  rw [← Option.some.inj h2, cut_eq hc] at h3
  unfold FulfilsSumRule
  rw [h3]
  ring

theorem denominator_neg {s : Setup} (h : SymmetricAxis s) (hT : 0 < Te)
    (hf : ∀ w, 0 ≤ f (s.k u) w (s.k u)) {E0 : ℝ} (hE0 : E0 ∈ s.measured) (hne : E0 ≠ s.energy)
    (hpos : 0 < f (s.k u) (E0 - s.energy) (s.k u)) : denominator u f ne Te s < 0 := by
  have hb : 0 < Te * u.kB := mul_pos hT u.kB_pos
  -- the sum of bound-free and free-bound scattering is in detailed balance
  set G : ℝ → ℝ := fun x => fbSpec u f Te (s.k u) x + 1 * bfSpec f (s.k u) x with hG
  have hbal : ∀ x, G (-x) = exp (-(x / (Te * u.kB))) * G x := by
    intro x
    simp only [hG, fbSpec, bfSpec, neg_neg, one_mul, neg_div]
    rw [mul_add, mul_comm (exp _) (f _ x _ * _), mul_assoc, ← exp_add]
    simp only [add_neg_cancel, exp_zero, mul_one]
    ring
  have hG0 : ∀ x, 0 ≤ G x := by
    intro x
    simp only [hG, fbSpec, bfSpec, one_mul]
    exact add_nonneg (mul_nonneg (hf _) (exp_pos _).le) (hf _)
  have hmono : ∀ x ∈ shifts s, 0 ≤ x → G (-x) ≤ G x := by
    intro x _ hx
    rw [hbal]
    have : exp (-(x / (Te * u.kB))) ≤ 1 := exp_le_one_iff.2 (neg_nonpos.2 (div_nonneg hx hb.le))
    exact mul_le_of_le_one_left (hG0 x) this
  have hGp : 0 < G (-(E0 - s.energy)) := by
    simp only [hG, fbSpec, bfSpec, neg_neg, one_mul]
    exact add_pos_of_nonneg_of_pos (mul_nonneg (hf _) (exp_pos _).le) hpos
  have hGp' : 0 < G (E0 - s.energy) := by
    simp only [hG, fbSpec, bfSpec, one_mul]
    exact add_pos_of_pos_of_nonneg (mul_pos hpos (exp_pos _)) (hf _)
  obtain ⟨x0, hx0, hx0p, hx0G⟩ : ∃ x0 ∈ shifts s, 0 < x0 ∧ 0 < G x0 := by
    rcases lt_or_gt_of_ne hne with hlt | hgt
    · exact ⟨_, List.mem_map.2 ⟨E0, hE0, rfl⟩, by linarith, hGp⟩
    · exact ⟨E0 - s.energy, List.mem_map.2 ⟨_, h.mirror E0 hE0, by ring⟩, by linarith, hGp'⟩
  have hstrict : G (-x0) < G x0 := by
    rw [hbal]
    have : exp (-(x0 / (Te * u.kB))) < 1 := exp_lt_one_iff.2 (neg_neg_of_pos (div_pos hx0p hb))
    exact mul_lt_of_lt_one_left hx0G this
  have hne0 : (s.measured.map fun E => E - s.energy) ≠ [] := by
    simpa using List.ne_nil_of_mem hE0
  have hcm : cut s ∈ shifts s := by
    obtain ⟨E, hE, he⟩ := List.mem_map.1 (maximum_mem hne0)
    have := shifts_symm h _ (List.mem_map.2 ⟨E, hE, rfl⟩)
    rw [neg_neg] at this
    unfold cut
    rw [← he]
    exact this
  have hcmax : ∀ x ∈ shifts s, x ≤ cut s := by
    intro x hx
    obtain ⟨E, hE, he⟩ := List.mem_map.1 (shifts_symm h x hx)
    exact le_maximum (List.mem_map.2 ⟨E, hE, by linarith⟩)
  have hFM := firstMoment_pos (shifts_nodup h.distinct) (shifts_symm h) u.hbar_pos hmono hcm hcmax hx0 hx0p hstrict
  rw [denominator_eq]
  have hl := firstMoment_linear u.hbar (shifts s) (fbSpec u f Te (s.k u)) (bfSpec f (s.k u)) 1 (-cut s) (cut s)
  rw [hl] at hFM
  linarith

/-- C97: on a symmetric axis the factor exists if some bound-free scattering is seen: the temperature is positive, the
bound-free scattering is nowhere negative, and positive in one channel off the energy of the probe. -/
theorem inelastic_exists {s : Setup} (h : SymmetricAxis s) (hT : 0 < Te)
    (hf : ∀ w, 0 ≤ f (s.k u) w (s.k u)) {E0 : ℝ} (hE0 : E0 ∈ s.measured) (hne : E0 ≠ s.energy)
    (hpos : 0 < f (s.k u) (E0 - s.energy) (s.k u)) : ∃ S, inelastic u f g ne Te s = some S := by
  have hden := (denominator_neg u f ne Te h hT hf hE0 hne hpos).ne
  have hr : ∃ r, rk u f g ne Te s = some r := by
    unfold rk
    rw [if_neg hden]
    exact ⟨_, rfl⟩
  obtain ⟨r, hr⟩ := hr
  unfold inelastic boundFreeFit freeBoundFit boundFreeFitFlipped
  rw [rk_flip u f g ne Te h, hr]
  exact ⟨_, rfl⟩

/-- C97 does not hold on an axis that shows only energy loss: the integrals run over no energies, `r_k` is a division
by zero, and neither bound-free scattering nor the spectrum exist. -/
theorem no_energy_gain {s : Setup} (hne : s.measured ≠ []) (h : ∀ E ∈ s.measured, E < s.energy) :
    rk u f g ne Te s = none ∧ boundFreeFit u f g ne Te s = none ∧ inelastic u f g ne Te s = none := by
  have hne0 : (s.measured.map fun E => E - s.energy) ≠ [] := by simpa using hne
  obtain ⟨E, hE, he⟩ := List.mem_map.1 (maximum_mem hne0)
  have hc : cut s < 0 := by
    unfold cut
    rw [← he]
    linarith [h E hE]
  have hr : rk u f g ne Te s = none := by
    unfold rk
    rw [if_pos]
    rw [denominator_eq, firstMoment_empty _ _ (by linarith), firstMoment_empty _ _ (by linarith)]
    ring
  unfold boundFreeFit inelastic boundFreeFit
  rw [hr]
  exact ⟨rfl, rfl, rfl⟩

/-- C97 does not hold with the default for the free-bound scattering, which is to neglect it: the factor takes the
neglected part into account, so that the first moment is larger than in the sum rule, whenever the factor is positive
and the bound-free scattering, which occurs at energy loss only, is seen. -/
theorem default_exceeds {s : Setup} (hk : s.correctK = false) (h : SymmetricAxis s) {c : ℝ} (hc : LargestShift s c)
    (hf : ∀ w, 0 ≤ f (s.k u) w (s.k u)) (hgain : ∀ w, 0 < w → f (s.k u) w (s.k u) = 0)
    {E0 : ℝ} (hE0 : E0 ∈ s.measured) (hlt : E0 < s.energy) (hpos : 0 < f (s.k u) (E0 - s.energy) (s.k u))
    {r : ℝ} (hr : rk u f g ne Te s = some r) (hr0 : 0 < r) {S : List ℝ} (hS : inelasticDefault u f g ne Te s = some S) :
    (u.hbar * s.k u) ^ 2 / (2 * u.me) < firstMoment u.hbar ((shifts s).zip S) (-c) c := by
  unfold inelasticDefault boundFreeFit at hS
  rw [hr] at hS
  simp only [Option.map_some, Option.some.injEq] at hS
  have hSe : S = (shifts s).map fun x => bfSpec g (s.k u) x + r * bfSpec f (s.k u) x := by
    rw [← hS, boundFreeRaw_off u f ne hk, boundFreeRaw_off u g ne hk, List.map_map]
    unfold shifts
    simp only [List.map_map, List.zipWith_map_left, List.zipWith_map_right, List.zipWith_self]
    refine List.map_congr_left fun E _ => ?_
    simp only [Function.comp]
    ring
  have h3 := (rk_some u f g ne Te hr).2
  rw [denominator_eq, numerator_eq] at h3
  rw [hSe, zip_map_self, firstMoment_linear, ← cut_eq hc]
  -- the free-bound scattering has a negative first moment
  have hl := firstMoment_linear u.hbar (shifts s) (fbSpec u f Te (s.k u)) (fbSpec u f Te (s.k u)) (-2) (-cut s) (cut s)
  have hcm : cut s ∈ shifts s := by
    rw [cut_eq hc]
    obtain ⟨E, hE, he⟩ := hc.attained
    have := shifts_symm h _ (List.mem_map.2 ⟨E, hE, rfl⟩)
    rw [neg_neg, he] at this
    exact this
  have hcmax : ∀ x ∈ shifts s, x ≤ cut s := by
    intro x hx
    obtain ⟨E, hE, he⟩ := List.mem_map.1 (shifts_symm h x hx)
    exact le_maximum (List.mem_map.2 ⟨E, hE, by linarith⟩)
  have hFM := firstMoment_pos (shifts_nodup h.distinct) (shifts_symm h) u.hbar_pos
    (g := fun y => fbSpec u f Te (s.k u) y + -2 * fbSpec u f Te (s.k u) y) (c := cut s) (x0 := -(E0 - s.energy)) (by
      intro x _ hx
      simp only [fbSpec]
      rcases hx.eq_or_lt with rfl | hx
      · rw [neg_zero]
      rw [hgain x hx]
      have := mul_nonneg (hf (-x)) (exp_pos (-x / (Te * u.kB))).le
      linarith) hcm hcmax (List.mem_map.2 ⟨E0, hE0, rfl⟩) (by linarith) (by
      simp only [fbSpec, neg_neg]
      rw [hgain _ (by linarith : 0 < -(E0 - s.energy))]
      have := mul_pos hpos (exp_pos ((E0 - s.energy) / (Te * u.kB)))
      linarith)
  rw [hl] at hFM
  nlinarith

/-! ### A case that meets the hypotheses -/

/-- A setup with three channels around the energy ten of the probe. -/
noncomputable def exampleSetup : Setup := ⟨π, 10, [9, 10, 11], fun _ => 1, false, 0⟩

theorem example_symmetric : SymmetricAxis exampleSetup := by
  constructor
  · simp [exampleSetup]
  · intro E hE
    simp only [exampleSetup, List.mem_cons, List.not_mem_nil, or_false] at hE ⊢
    rcases hE with rfl | rfl | rfl <;> norm_num

theorem example_largest : LargestShift exampleSetup 1 := by
  constructor
  · intro E hE
    simp only [exampleSetup, List.mem_cons, List.not_mem_nil, or_false] at hE ⊢
    rcases hE with rfl | rfl | rfl <;> norm_num
  · exact ⟨11, by simp [exampleSetup], by norm_num [exampleSetup]⟩

/-- Bound-free scattering at energy loss. -/
noncomputable def exampleBf (_ w _ : ℝ) : ℝ := if w < 0 then 1 else 0

example : ∃ S, inelastic u exampleBf (fun _ _ _ => 0) 1 1 exampleSetup = some S ∧ FulfilsSumRule u exampleSetup 1 S := by
  obtain ⟨S, hS⟩ := inelastic_exists u exampleBf (fun _ _ _ => 0) 1 1 (s := exampleSetup) example_symmetric one_pos
    (fun w => by unfold exampleBf; split <;> norm_num) (E0 := 9) (by simp [exampleSetup]) (by norm_num [exampleSetup])
    (by norm_num [exampleSetup, exampleBf])
  exact ⟨S, hS, inelastic_fsum_partial u _ _ 1 1 rfl example_symmetric example_largest hS⟩

/-- The factor of the example is positive: without free-free scattering all of the sum rule is left to the bound
electrons. -/
theorem example_rk : ∃ r, rk u exampleBf (fun _ _ _ => 0) 1 1 exampleSetup = some r ∧ 0 < r := by
  obtain ⟨S, hS⟩ := inelastic_exists u exampleBf (fun _ _ _ => 0) 1 1 (s := exampleSetup) example_symmetric one_pos
    (fun w => by unfold exampleBf; split <;> norm_num) (E0 := 9) (by simp [exampleSetup]) (by norm_num [exampleSetup])
    (by norm_num [exampleSetup, exampleBf])
  obtain ⟨r, r', h1, -, -⟩ := inelastic_eq u _ _ 1 1 rfl hS
  refine ⟨r, h1, ?_⟩
  obtain ⟨h2, h3⟩ := rk_some u _ _ 1 1 h1
  have hz : firstMoment u.hbar (spectrum (shifts exampleSetup) (bfSpec (fun _ _ _ => 0) (exampleSetup.k u))) (-cut exampleSetup) (cut exampleSetup) = 0 := by
    have := firstMoment_linear u.hbar (shifts exampleSetup) (fun _ => 0) (fun _ => 0) (-1) (-cut exampleSetup) (cut exampleSetup)
    simp only [mul_zero, add_zero] at this
    have e : bfSpec (fun _ _ _ => 0) (exampleSetup.k u) = fun _ => 0 := rfl
    rw [e]
    linarith
  rw [numerator_eq, hz, add_zero] at h3
  have hk : 0 < exampleSetup.k u := by
    unfold Setup.k Setup.lambda0 exampleSetup
    rw [sin_pi_div_two]
    have := u.hbar_pos
    have := u.c_pos
    have := pi_pos
    positivity
  have hr : 0 < (u.hbar * exampleSetup.k u) ^ 2 / (2 * u.me) :=
    div_pos (pow_pos (mul_pos u.hbar_pos hk) 2) (mul_pos two_pos u.me_pos)
  have hd : denominator u exampleBf 1 1 exampleSetup < 0 := by
    exact denominator_neg u exampleBf 1 1 example_symmetric one_pos (fun w => by unfold exampleBf; split <;> norm_num) (E0 := 9)
      (by simp [exampleSetup]) (by norm_num [exampleSetup]) (by norm_num [exampleSetup, exampleBf])
  by_contra hneg
  push Not at hneg
  have := mul_nonneg_of_nonpos_of_nonpos hneg hd.le
  linarith

example : ∃ S, inelasticDefault u exampleBf (fun _ _ _ => 0) 1 1 exampleSetup = some S ∧
    (u.hbar * exampleSetup.k u) ^ 2 / (2 * u.me) < firstMoment u.hbar ((shifts exampleSetup).zip S) (-1) 1 := by
  obtain ⟨r, hr, hr0⟩ := example_rk u
  have hS : ∃ S, inelasticDefault u exampleBf (fun _ _ _ => 0) 1 1 exampleSetup = some S := by
    unfold inelasticDefault boundFreeFit
    rw [hr]
    exact ⟨_, rfl⟩
  obtain ⟨S, hS⟩ := hS
  exact ⟨S, hS, default_exceeds u _ _ 1 1 rfl example_symmetric example_largest (fun w => by unfold exampleBf; split <;> norm_num)
    (fun w hw => by unfold exampleBf; rw [if_neg (by linarith)]) (E0 := 9) (by simp [exampleSetup]) (by norm_num [exampleSetup])
    (by norm_num [exampleSetup, exampleBf]) hr hr0 hS⟩

example : rk u exampleBf (fun _ _ _ => 0) 1 1 ⟨π, 10, [8, 9], fun _ => 1, false, 0⟩ = none :=
  (no_energy_gain u _ _ 1 1 (by simp) (by intro E hE; simp at hE; rcases hE with rfl | rfl <;> norm_num)).1

end Verif.FitRk
