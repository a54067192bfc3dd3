/-
Property C76: where the hypernetted chain scheme converges, its result does not depend on the list of species beyond
the accuracy of the iteration.
-/
import Verif.Props.HncConvergeT

set_option autoImplicit false

namespace Verif.Hnc

open Real

namespace Input

variable {m m' : ℕ} {p : Input m} {M : ℕ} {A B V W R : ℝ}

/-- A solution for the species is one for the groups. -/
theorem equations_split {N : ℕ} {F : (ℕ → ℝ) → ℕ → ℝ} {n : Fin m → ℝ} {n' : Fin m' → ℝ} {f : Fin m' → Fin m}
    (hn : ∀ t, n t = ∑ s with f s = t, n' s) {vs vl g c : Fin m → Fin m → ℕ → ℝ} (h : HncEquations N F n vs vl g c) :
    HncEquations N F n' (fun a b => vs (f a) (f b)) (fun a b => vl (f a) (f b)) (fun a b => g (f a) (f b))
      (fun a b => c (f a) (f b)) := by
  refine ⟨fun a b j hj => h.closure (f a) (f b) j hj, fun i hi a b => ?_⟩
  have h1 := h.oz i hi (f a) (f b)
  rw [h1]
  congr 1
  rw [← Finset.sum_fiberwise Finset.univ f]
  refine Finset.sum_congr rfl fun t _ => ?_
  rw [hn t, Finset.mul_sum, Finset.sum_mul]
  refine Finset.sum_congr rfl fun s hs => ?_
  simp only [(Finset.mem_filter.1 hs).2]

/-- C76: if the interactions are weak or the densities low, and a species is listed as several groups, what is returned
differs by no more than the sum of the two distances to the solution, for every list of intermediate temperatures. -/
theorem returns_split_near (hw : p.Weak M A B V W R) (hm : 0 < m) (hm' : 0 < m') {f : Fin m' → Fin m} {n' : Fin m' → ℝ} {N' : ℕ}
    (hn0 : ∀ a, 0 ≤ n' a) (hn : ∀ t, p.n t = ∑ s with f s = t, n' s) {tmult : List ℝ} (ht : ∀ x ∈ tmult, 1 ≤ x) {l l' : ℕ}
    (hl : m * (m * (p.N * (mixed p.mix (rate A B V W R (∑ a, p.n a)) ^ l * (2 * R)) ^ 2)) ≤ 1 / 1000000) (hl1 : l + 1 < 2000)
    (hl' : m' * (m' * (p.N * (mixed p.mix (rate A B V W R (∑ a, p.n a)) ^ l' * (2 * R)) ^ 2)) ≤ 1 / 1000000) (hl1' : l' + 1 < 2000)
    {g : Fin m → Fin m → ℕ → ℝ} {g' : Fin m' → Fin m' → ℕ → ℝ} {it it' : ℕ} (hr : p.Returns tmult g it)
    (hr' : (p.split f n' N').Returns tmult g' it') (a b : Fin m') {j : ℕ} (hj : j < p.N) :
    |log (g' a b j) - log (g (f a) (f b) j)| ≤
      2 * (mixed p.mix (rate A B V W R (∑ a, p.n a)) / (1000 * (1 - mixed p.mix (rate A B V W R (∑ a, p.n a))))) := by
  have hsum : ∑ a, n' a = ∑ a, p.n a := by
    rw [← Finset.sum_fiberwise Finset.univ f]
    exact Finset.sum_congr rfl fun t _ => (hn t).symm
  have hw' : (p.split f n' N').Weak M A B V W R := by
    refine ⟨⟨hw.grid.pos, hw.grid.even, hw.grid.r, hw.grid.k, hw.grid.dr⟩,
      ⟨fun a b => hw.symm.1 (f a) (f b), fun a b => hw.symm.2.1 (f a) (f b), fun a b => hw.symm.2.2 (f a) (f b)⟩, hn0, hw.mix0, hw.mix1,
      hw.A0, hw.B0, hw.V0, hw.W0, hw.R0, hw.toK, hw.toR, fun a b => hw.short (f a) (f b), fun a b => hw.long (f a) (f b), ?_, ?_, ?_⟩
    · show cBound A V W R * ∑ a, n' a < 1
      rw [hsum]
      exact hw.small
    · show B * (cBound A V W R ^ 2 * (∑ a, n' a) / (1 - cBound A V W R * ∑ a, n' a) + W) ≤ R
      rw [hsum]
      exact hw.ball
    · show rate A B V W R (∑ a, n' a) < 1
      rw [hsum]
      exact hw.contracts
  obtain ⟨_, gs, c, s1, e1, b1, d1⟩ := returns_converge hw hm ht hl hl1 hr
  have hl2 : m' * (m' * ((p.split f n' N').N * (mixed (p.split f n' N').mix (rate A B V W R (∑ a, (p.split f n' N').n a)) ^ l' *
      (2 * R)) ^ 2)) ≤ 1 / 1000000 := by
    show m' * (m' * (p.N * (mixed p.mix (rate A B V W R (∑ a, n' a)) ^ l' * (2 * R)) ^ 2)) ≤ _
    rw [hsum]
    exact hl'
  obtain ⟨_, gs', c', s2, e2, b2, d2⟩ := returns_converge hw' hm' ht hl2 hl1' hr'
  have s3 : PairSymm fun a b => gs (f a) (f b) := fun a b => s1 (f a) (f b)
  have e := solution_unique hw' s3 s2 (equations_split hn e1) e2 (fun a b => b1 (f a) (f b)) b2 a b hj
  have x1 := d1 (f a) (f b) j hj
  have x2 : |log (g' a b j) - log (gs' a b j)| ≤ mixed p.mix (rate A B V W R (∑ a, n' a)) /
    (1000 * (1 - mixed p.mix (rate A B V W R (∑ a, n' a)))) := d2 a b j hj
  rw [hsum, ← e] at x2
  rw [abs_sub_comm] at x1
  have e3 : log (g' a b j) - log (g (f a) (f b) j) =
    (log (g' a b j) - log (gs (f a) (f b) j)) + (log (gs (f a) (f b) j) - log (g (f a) (f b) j)) := by ring
  rw [e3, two_mul]
  exact (abs_add_le _ _).trans (add_le_add x2 x1)

/-- C76: below some density the difference is as small as desired, without mixing. -/
theorem returns_split_dilute (hm : 0 < m) (hm' : 0 < m') (hg : p.GridOk M) (hd : p.DataSymm) (hmix : p.mix = 0) (f : Fin m' → Fin m)
    {δ : ℝ} (hδ : 0 < δ) :
    ∃ n0 > 0, ∀ n' : Fin m' → ℝ, (∀ a, 0 ≤ n' a) → ∑ a, n' a ≤ n0 → ∀ tmult : List ℝ, (∀ x ∈ tmult, 1 ≤ x) → ∀ N' g it g' it',
      (p.withDensity fun t => ∑ s with f s = t, n' s).Returns tmult g it →
      ((p.withDensity fun t => ∑ s with f s = t, n' s).split f n' N').Returns tmult g' it' →
      ∀ a b, ∀ j < p.N, |log (g' a b j) - log (g (f a) (f b) j)| ≤ δ := by
  have hN : 0 < p.N := by have := hg.even; have := hg.pos; omega
  have hm1 : (0 : ℝ) < m := by exact_mod_cast hm
  have hm2 : (0 : ℝ) < m' := by exact_mod_cast hm'
  have hN1 : (0 : ℝ) < p.N := by exact_mod_cast hN
  obtain ⟨ε, hε0, ε1, ε1', ε2, ε3⟩ : ∃ ε : ℝ, 0 < ε ∧ ε ≤ 1 / (2000 * (m * m * p.N)) ∧ ε ≤ 1 / (2000 * (m' * m' * p.N)) ∧
      ε ≤ 1 / 2 ∧ ε ≤ δ / 2 :=
    ⟨min (1 / (2000 * (m * m * p.N))) (min (1 / (2000 * (m' * m' * p.N))) (min (1 / 2) (δ / 2))),
      lt_min (by positivity) (lt_min (by positivity) (lt_min (by norm_num) (by positivity))), min_le_left _ _,
      (min_le_right _ _).trans (min_le_left _ _), (min_le_right _ _).trans ((min_le_right _ _).trans (min_le_left _ _)),
      (min_le_right _ _).trans ((min_le_right _ _).trans (min_le_right _ _))⟩
  obtain ⟨A, B, V, W, R, n0, hn0, hall⟩ := weak_of_dilute hg hd (by rw [hmix]) (by rw [hmix]; norm_num) hε0 (by linarith)
  refine ⟨n0, hn0, fun n' hn hsum tmult ht N' g it g' it' hr hr' a b j hj => ?_⟩
  have hs : ∑ t, ∑ s with f s = t, n' s = ∑ a, n' a := Finset.sum_fiberwise Finset.univ f n'
  obtain ⟨hw, hq, hrate⟩ := hall (fun t => ∑ s with f s = t, n' s) (fun t => Finset.sum_nonneg fun s _ => hn s) (hs.trans_le hsum)
  obtain ⟨f1, f2⟩ := fast hw.toContracts hm hmix hq hrate ε1 ε2
  have f3 : (m' : ℝ) * (m' * (p.N * (mixed p.mix (rate A B V W R (∑ t, ∑ s with f s = t, n' s)) ^ 1 * (2 * R)) ^ 2)) ≤ 1 / 1000000 := by
    have hw' := (fast_sq (K := m' * m' * p.N) (q := mixed p.mix (rate A B V W R (∑ t, ∑ s with f s = t, n' s))) (R := R) (ε := ε) ?_ ?_ ?_ ε1')
    · refine le_trans (le_of_eq ?_) hw'
      ring
    · have h1 : (1 : ℝ) ≤ m' := by exact_mod_cast hm'
      have h2 : (1 : ℝ) ≤ p.N := by exact_mod_cast hN
      nlinarith [mul_le_mul h1 h1 zero_le_one (by linarith)]
    · have h1 := mixed_nonneg hw.toContracts
      exact mul_nonneg hw.R0 h1
    · have e : mixed p.mix (rate A B V W R (∑ t, ∑ s with f s = t, n' s)) = rate A B V W R (∑ t, ∑ s with f s = t, n' s) := by
        unfold mixed
        rw [hmix]
        ring
      rw [e]
      exact hrate
  have h := returns_split_near hw hm hm' (f := f) hn (fun t => rfl) ht f1 (by norm_num) f3 (by norm_num) hr hr' a b hj
  refine h.trans ?_
  linarith

/-- The hypotheses are met: one species listed as two groups. -/
example : ∃ n0 > 0, ∀ n' : Fin 2 → ℝ, (∀ a, 0 ≤ n' a) → ∑ a, n' a ≤ n0 → ∃ g it g' it',
    (Input.withDensity ⟨2, fun j => j + 1, fun _ _ _ => 1, fun _ _ _ => 1, fun _ _ => 1, fun _ => 0, 0, 4, 1⟩ fun _ => ∑ s, n' s :
      Input 1).Returns [2] g it ∧
    (⟨2, fun j => j + 1, fun _ _ _ => 1, fun _ _ _ => 1, fun _ _ => 1, n', 0, 4, 1⟩ : Input 2).Returns [2] g' it' ∧
    ∀ a b, ∀ j < 2, |log (g' a b j) - log (g 0 0 j)| ≤ 1 / 1000000 := by
  set p : Input 1 := ⟨2, fun j => j + 1, fun _ _ _ => 1, fun _ _ _ => 1, fun _ _ => 1, fun _ => 0, 0, 4, 1⟩ with hp
  have hg : p.GridOk 1 := by
    refine ⟨one_pos, rfl, fun j _ => ?_, fun i _ => ?_, ?_⟩
    · show ((j : ℝ) + 1) ≠ 0
      positivity
    · have hpi := pi_pos
      show π / (((2 - 1 : ℕ) : ℝ) + 1) + i * (π / ((2 : ℕ) * ((((1 : ℕ) : ℝ) + 1) - (((0 : ℕ) : ℝ) + 1)))) ≠ 0
      have e : (((1 : ℕ) : ℝ) + 1) - (((0 : ℕ) : ℝ) + 1) = 1 := by norm_num
      rw [e]
      positivity
    · show (((1 : ℕ) : ℝ) + 1) - (((0 : ℕ) : ℝ) + 1) ≠ 0
      norm_num
  have hd : p.DataSymm := ⟨fun _ _ => rfl, fun _ _ => rfl, fun _ _ => rfl⟩
  obtain ⟨n0, hn0, h⟩ := returns_split_dilute (m' := 2) one_pos two_pos hg hd rfl (fun _ => 0) (by norm_num : (0 : ℝ) < 1 / 1000000)
  refine ⟨n0, hn0, fun n' hn hsum => ?_⟩
  obtain ⟨g, it, hr⟩ := (returns_unique (p.withDensity fun t => ∑ s with (fun _ : Fin 2 => (0 : Fin 1)) s = t, n' s) [2]).1
  obtain ⟨g', it', hr'⟩ := (returns_unique
    ((p.withDensity fun t => ∑ s with (fun _ : Fin 2 => (0 : Fin 1)) s = t, n' s).split (fun _ => 0) n' 4) [2]).1
  have e : (fun t : Fin 1 => ∑ s with (fun _ : Fin 2 => (0 : Fin 1)) s = t, n' s) = fun _ => ∑ s, n' s := by
    funext t
    rw [Finset.filter_true_of_mem fun s _ => Subsingleton.elim _ _]
  have h3 := h n' hn hsum [2] (by simp) 4 g it g' it' hr hr'
  rw [e] at hr
  exact ⟨g, it, g', it', hr, hr', h3⟩

end Input

end Verif.Hnc
