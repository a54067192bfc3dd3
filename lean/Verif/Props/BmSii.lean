/-
Property C98: the ion structure factor used by the Born-Mermin models.
-/
import Verif.Model.BmSii
import Verif.Lemmas.FitRk
import Verif.Props.Setup
import Verif.Props.Interp
import Mathlib.Analysis.Complex.Basic

set_option autoImplicit false

namespace Verif.BmSii

open Real Verif.Expt Verif.HncFeat Verif.Interp

variable {m : ℕ} (u : Consts)

/-! ### Interpolation and the sum over the species commute -/

theorem interp_zero (N : ℕ) (xp : ℕ → ℝ) (k : ℝ) : interp N xp (fun _ => 0) k = 0 := by
  have := FitRk.interp_linear N xp (fun _ => 0) (fun _ => 0) (-1) k
  simpa using this

theorem interp_smul (N : ℕ) (xp p : ℕ → ℝ) (r k : ℝ) : interp N xp (fun i => r * p i) k = r * interp N xp p k := by
  have := FitRk.interp_linear N xp (fun _ => 0) p r k
  rw [interp_zero] at this
  simpa using this

theorem interp_sum {ι : Type} (t : Finset ι) (N : ℕ) (xp : ℕ → ℝ) (p : ι → ℕ → ℝ) (k : ℝ) :
    interp N xp (fun i => ∑ a ∈ t, p a i) k = ∑ a ∈ t, interp N xp (p a) k := by
  classical
  induction t using Finset.induction_on with
  | empty => simpa using interp_zero N xp k
  | insert a t ha ih =>
    simp only [Finset.sum_insert ha]
    have := FitRk.interp_linear N xp (p a) (fun i => ∑ b ∈ t, p b i) 1 k
    simp only [one_mul] at this
    rw [this, ih]

theorem interp_combine (c : Settings) (S : ℕ → Matrix (Fin m) (Fin m) ℝ) (x : Fin m → ℝ) (k : ℝ) :
    interp (2 ^ c.pot) c.k (fun i => combine x (S i)) k = combine x (hncInterp c S k) := by
  unfold combine hncInterp
  rw [interp_sum]
  refine Finset.sum_congr rfl fun a _ => ?_
  rw [interp_sum]
  exact Finset.sum_congr rfl fun b _ => interp_smul _ _ _ _ _

/-- C98: the function prepared once is the structure factor of the 'BM S_ii' model at a setup which probes this wave
number, for all models, wave numbers and scattering angles. -/
theorem cached_eq_evaluate (x : Fin m → ℝ) (feat : IonFeat m) (bm : BmModel) (s : Setup) {k : ℝ} (hk : k ≠ 0)
    (hs : sin (s.angle / 2) ≠ 0) : cached u x feat bm s k = bm.evaluate u x feat (getProbeSetup u k s) := by
  have hp := (getProbeSetup_k u k s hk hs).1
  unfold cached
  cases bm with
  | sum =>
    cases feat with
    | onGrid c S =>
      simp only [BmModel.onGrid, BmModel.evaluate, IonFeat.sIi, hp]
      exact interp_combine c S x k
    | direct S => rfl
  | averageAtom c S =>
    simp only [BmModel.onGrid, BmModel.evaluate, hp]
    rfl

/-- C98: what is read from a grid does not depend on the setup at all. -/
theorem cached_setup (x : Fin m → ℝ) (feat : IonFeat m) {bm : BmModel} (h : (bm.onGrid x feat).isSome) (s s' : Setup) (k : ℝ) :
    cached u x feat bm s k = cached u x feat bm s' k := by
  unfold cached
  cases hb : bm.onGrid x feat with
  | none => rw [hb] at h; simp at h
  | some v => rfl

/-! ### Which structure factor is it? -/

/-- C98: species without correlations have the structure factor one. -/
theorem combine_ideal {x : Fin m → ℝ} (hx : ∀ a, 0 ≤ x a) (h1 : ∑ a, x a = 1) :
    combine x (fun a b => if a = b then 1 else 0) = 1 := by
  unfold combine
  refine Eq.trans ?_ h1
  refine Finset.sum_congr rfl fun a _ => ?_
  simp [sqrt_mul_self (hx a)]

/-- C98: with one species it is its structure factor. -/
theorem combine_one (S : Fin 1 → Fin 1 → ℝ) : combine (fun _ : Fin 1 => 1) S = S 0 0 := by
  simp [combine]

/-- C98: the models that extend one structure factor to many components give this structure factor back, for every
mixture with a mean charge. -/
theorem combine_sAb (s : Ssf.Mix m) (hn : ∀ a, 0 ≤ s.n a) (hN : 0 < ∑ a, s.n a) (hz : s.zf ≠ 0) (Sii : ℝ) :
    combine s.x (s.sAb Sii) = Sii := by
  have hx : ∀ a, 0 ≤ s.x a := fun a => div_nonneg (hn a) hN.le
  have h1 : ∑ a, s.x a = 1 := by
    unfold Ssf.Mix.x
    rw [← Finset.sum_div, div_self hN.ne']
  have e : ∀ a b, sqrt (s.x a * s.x b) * s.sAb Sii a b =
      sqrt (s.x a * s.x b) * (if a = b then 1 else 0) + (s.x a * s.Z a) * (s.x b * s.Z b) * ((Sii - 1) / s.zf ^ 2) := by
    intro a b
    have hs : sqrt (s.n a * s.n b) / s.ntot = sqrt (s.x a * s.x b) := by
      unfold Ssf.Mix.x Ssf.Mix.ntot
      rw [div_mul_div_comm, sqrt_div (mul_nonneg (hn a) (hn b)), sqrt_mul_self hN.le]
    unfold Ssf.Mix.sAb
    rw [hs]
    have hq : sqrt (s.x a * s.x b) * sqrt (s.x a * s.x b) = s.x a * s.x b := mul_self_sqrt (mul_nonneg (hx a) (hx b))
    generalize (Sii - 1) = t
    have : sqrt (s.x a * s.x b) * (sqrt (s.x a * s.x b) * (s.Z a * s.Z b) / s.zf ^ 2 * t) =
        sqrt (s.x a * s.x b) * sqrt (s.x a * s.x b) * (s.Z a * s.Z b) * (t / s.zf ^ 2) := by ring
    rw [mul_add, this, hq]
    ring
  have hzf : ∑ a, s.x a * s.Z a = s.zf := by
    unfold Ssf.Mix.x Ssf.Mix.zf Ssf.Mix.ntot
    rw [Finset.mul_sum]
    refine Finset.sum_congr rfl fun a _ => ?_
    ring
  have h2 := combine_ideal hx h1
  unfold combine at h2 ⊢
  simp only [e, Finset.sum_add_distrib, h2]
  simp only [← Finset.sum_mul, ← Finset.mul_sum, hzf]
  field_simp
  ring

/-- Specification: the amplitudes of the scattering from the particles of each species, for a configuration of
particles.  `pos a` are the positions of the species along the wave vector of length `k`. -/
noncomputable def amplitude (k : ℝ) (pos : List ℝ) : ℂ := (pos.map fun r => Complex.exp ((k * r : ℝ) * Complex.I)).sum

/-- Specification: the partial structure factor of two species of a configuration. -/
noncomputable def configSab (k : ℝ) (pos : Fin m → List ℝ) (a b : Fin m) : ℝ :=
  (amplitude k (pos a) * (starRingEnd ℂ) (amplitude k (pos b))).re / sqrt ((pos a).length * (pos b).length)

/-- Specification: the structure factor of all particles. -/
noncomputable def configSii (k : ℝ) (pos : Fin m → List ℝ) : ℝ :=
  Complex.normSq (∑ a, amplitude k (pos a)) / ∑ a, ((pos a).length : ℝ)

/-- C98: for the partial structure factors of a configuration of particles the sum over the species is the structure
factor of all particles without regard to the species, for every configuration and wave number. -/
theorem combine_config (k : ℝ) (pos : Fin m → List ℝ) (hp : ∀ a, pos a ≠ []) :
    combine (fun a => ((pos a).length : ℝ) / ∑ b, ((pos b).length : ℝ)) (configSab k pos) = configSii k pos := by
  have hl : ∀ a, (0 : ℝ) < (pos a).length := fun a => by
    have := List.length_pos_iff.2 (hp a)
    exact_mod_cast this
  have hS : 0 ≤ ∑ b, ((pos b).length : ℝ) := Finset.sum_nonneg fun b _ => (hl b).le
  unfold combine configSab configSii
  have e : ∀ a b, sqrt ((((pos a).length : ℝ) / ∑ b, ((pos b).length : ℝ)) * (((pos b).length : ℝ) / ∑ b, ((pos b).length : ℝ))) *
      ((amplitude k (pos a) * (starRingEnd ℂ) (amplitude k (pos b))).re / sqrt ((pos a).length * (pos b).length)) =
      (amplitude k (pos a) * (starRingEnd ℂ) (amplitude k (pos b))).re / ∑ b, ((pos b).length : ℝ) := by
    intro a b
    have hq : sqrt (((pos a).length : ℝ) * (pos b).length) ≠ 0 := (sqrt_pos.2 (mul_pos (hl a) (hl b))).ne'
    rw [div_mul_div_comm, sqrt_div (mul_nonneg (hl a).le (hl b).le), sqrt_mul_self hS]
    generalize sqrt (((pos a).length : ℝ) * (pos b).length) = q at hq
    field_simp
  simp only [e, ← Finset.sum_div]
  congr 1
  have h1 : Complex.normSq (∑ a, amplitude k (pos a)) =
      ((∑ a, amplitude k (pos a)) * (starRingEnd ℂ) (∑ a, amplitude k (pos a))).re := by
    rw [Complex.mul_conj]
    simp
  rw [h1, map_sum, Finset.sum_mul, Complex.re_sum]
  refine Finset.sum_congr rfl fun a _ => ?_
  rw [Finset.mul_sum, Complex.re_sum]

/-- C98: the order of the species does not matter. -/
theorem combine_perm (e : Equiv.Perm (Fin m)) (x : Fin m → ℝ) (S : Fin m → Fin m → ℝ) :
    combine (fun a => x (e a)) (fun a b => S (e a) (e b)) = combine x S := by
  unfold combine
  rw [← Equiv.sum_comp e (fun a => ∑ b, sqrt (x a * x b) * S a b)]
  refine Finset.sum_congr rfl fun a _ => ?_
  rw [← Equiv.sum_comp e (fun b => sqrt (x (e a) * x b) * S (e a) b)]

/-- Specification: a matrix of partial structure factors which gives no negative intensity for any amplitudes. -/
def NonnegForm (S : Fin m → Fin m → ℝ) : Prop := ∀ f : Fin m → ℝ, 0 ≤ ∑ a, ∑ b, f a * f b * S a b

theorem combine_nonneg {x : Fin m → ℝ} (hx : ∀ a, 0 ≤ x a) {S : Fin m → Fin m → ℝ} (hS : NonnegForm S) : 0 ≤ combine x S := by
  have := hS fun a => sqrt (x a)
  unfold combine
  simpa only [sqrt_mul (hx _)] using this

/-- C98: the structure factor read from the grid is nowhere negative, also between and outside of the points of the
grid, if no point of the grid has partial structure factors with a negative intensity. -/
theorem cached_nonneg {x : Fin m → ℝ} (hx : ∀ a, 0 ≤ x a) (c : Settings) (hinc : Increasing (2 ^ c.pot) c.k)
    {S : ℕ → Matrix (Fin m) (Fin m) ℝ} {M : ℝ} (hS : ∀ i < 2 ^ c.pot, NonnegForm (S i)) (hM : ∀ i < 2 ^ c.pot, combine x (S i) ≤ M)
    (s : Setup) (k : ℝ) : 0 ≤ cached u x (.onGrid c S) .sum s k ∧ cached u x (.onGrid c S) .sum s k ≤ M := by
  unfold cached
  simp only [BmModel.onGrid]
  exact interp_in_range _ _ _ hinc (by positivity) 0 M (fun i hi => ⟨combine_nonneg hx (hS i hi), hM i hi⟩) k

/-! ### Cases that meet the hypotheses -/

/-- Two particles of the first species and one of the second. -/
example (k : ℝ) : combine (fun a => ((![[0, 1], [2]] a : List ℝ).length : ℝ) / ∑ b, ((![[0, 1], [2]] b : List ℝ).length : ℝ))
    (configSab k ![[0, 1], [2]]) = configSii k ![[0, 1], [2]] :=
  combine_config k _ fun a => by fin_cases a <;> simp

/-- Two parts of charge four and one of charge one. -/
noncomputable def exampleMix : Ssf.Mix 2 := ⟨![2, 1], ![4, 1], ![12, 1], ![1, 1], 1, 9⟩

example (Sii : ℝ) : combine exampleMix.x (exampleMix.sAb Sii) = Sii :=
  combine_sAb exampleMix (fun a => by fin_cases a <;> norm_num [exampleMix]) (by norm_num [exampleMix, Fin.sum_univ_two])
    (by norm_num [exampleMix, Fin.sum_univ_two, Ssf.Mix.zf, Ssf.Mix.ntot]) Sii

theorem k_increasing (c : Settings) (hp : 1 ≤ c.pot) (hr : c.rmin < c.rmax) : Increasing (2 ^ c.pot) c.k := by
  have h2 : (2 : ℝ) ≤ 2 ^ c.pot := by
    calc (2 : ℝ) = 2 ^ 1 := by norm_num
      _ ≤ 2 ^ c.pot := pow_le_pow_right₀ (by norm_num) hp
  have h3 : 0 < c.r 1 - c.r 0 := by
    unfold Settings.r Hnc.rGrid
    push_cast
    have : 0 < (c.rmax - c.rmin) / (2 ^ c.pot - 1) := div_pos (by linarith) (by linarith)
    linarith
  intro i _
  unfold Settings.k Hnc.kGrid
  push_cast
  have : 0 < π / (2 ^ c.pot * (c.r 1 - c.r 0)) := by positivity
  linarith

/-- Two species without correlations. -/
example (s : Setup) (k : ℝ) : 0 ≤ cached u ![1 / 3, 2 / 3] (.onGrid ⟨1, 2, 3, 0, [], 4⟩ fun _ => 1) .sum s k := by
  refine (cached_nonneg u (M := 1) (fun a => by fin_cases a <;> norm_num) _ (k_increasing _ (by norm_num) (by norm_num)) (fun i _ f => ?_)
    (fun i _ => ?_) s k).1
  · simp [Matrix.one_apply, Fin.sum_univ_two]
    nlinarith [mul_self_nonneg (f 0), mul_self_nonneg (f 1)]
  · refine le_of_eq (Eq.trans ?_ (combine_ideal (x := ![1 / 3, 2 / 3]) (fun a => by fin_cases a <;> norm_num) (by norm_num [Fin.sum_univ_two])))
    rfl

end Verif.BmSii
