/-
Properties C71 and C111: the results of the hypernetted chain schemes at low density and high temperature.
-/
import Verif.Props.HncConvergeT

set_option autoImplicit false

namespace Verif.Hnc

open Real

namespace Input

variable {m : ℕ} {p : Input m} {M : ℕ} {A B V W R ν : ℝ}
  {oz : ℝ → Matrix (Fin m) (Fin m) ℝ → Matrix (Fin m) (Fin m) ℝ}

/-- The whole potential divided by the temperature, as a function of the distance. -/
noncomputable def wholePotential (p : Input m) (mult : ℝ) (a b : Fin m) (j : ℕ) : ℝ :=
  p.vs mult a b j + fourierSine p.N p.r p.k (p.vlk mult a b) j / (2 * π) ^ 3

theorem wholePotential_eq (hg : p.GridOk M) (a b : Fin m) {j : ℕ} (hj : j < p.N) : p.wholePotential 1 a b j =
    (p.Vs a b j + fourierSine p.N p.r p.k (p.Vlk a b) j / (2 * π) ^ 3) / (p.kB * p.T a b) := by
  have h : fourierSine p.N p.r p.k (p.vlk 1 a b) j = 1 / (p.kB * p.T a b) * fourierSine p.N p.r p.k (p.Vlk a b) j := by
    rw [hg.even] at hj ⊢
    rw [fourierSine_eq hg.pos _ _ _ hj, fourierSine_eq hg.pos _ _ _ hj]
    have : sineSum (2 * M) (fun i => p.k i * p.vlk 1 a b i) j =
        sineSum (2 * M) (fun i => 1 / (p.kB * p.T a b) * (p.k i * p.Vlk a b i)) j :=
      sineSum_congr (fun i _ => by unfold vlk; rw [mul_one]; ring) j
    rw [this, sineSum_smul]
    ring
  unfold wholePotential
  rw [h]
  unfold vs
  rw [mul_one]
  ring

/-- The distance of the solution to the factor of Boltzmann. -/
theorem solution_boltzmann (hw : p.Contracts oz ν M A B V W R) {u : State m} (hu : p.Settled V R 1 u)
    (hfix : ∀ a b, ∀ j < p.N, p.nodal oz 1 u a b j = u.Ns a b j) (a b : Fin m) {j : ℕ} (hj : j < p.N) :
    |u.logG a b j + p.wholePotential 1 a b j| ≤ B * (cBound A V W R ^ 2 * ν / (1 - cBound A V W R * ν)) := by
  have e : u.logG a b j + p.wholePotential 1 a b j =
      fourierSine p.N p.r p.k (fun i => oz 1 (p.cK 1 u i) a b - p.cK 1 u i a b) j / (2 * π) ^ 3 := by
    have h1 := hfix a b j hj
    have h2 : p.nodal oz 1 u a b j = fourierSine p.N p.r p.k (fun i => oz 1 (p.cK 1 u i) a b - p.csK u a b i) j / (2 * π) ^ 3 := rfl
    have h3 : (fun i => oz 1 (p.cK 1 u i) a b - p.csK u a b i) =
        fun i => (oz 1 (p.cK 1 u i) a b - p.cK 1 u i a b) - p.vlk 1 a b i := by
      funext i
      unfold cK
      ring
    have hj' := hj
    rw [hu.rel a b j hj, ← h1, h2, h3]
    unfold wholePotential
    rw [hw.grid.even] at hj' ⊢
    rw [fourierSine_sub hw.grid.pos _ _ _ _ hj', sub_div]
    ring
  rw [e]
  exact back_le hw (fun i hi => hw.relation.indirect 1 _ le_rfl (cK_symm hw.symm hu.near.symm 1 i) (cK_le hw le_rfl hu.near hi) a b) hj

theorem cBound_nonneg (hA : 0 ≤ A) (hV : 0 ≤ V) (hW : 0 ≤ W) (hR : 0 ≤ R) : 0 ≤ cBound A V W R := by
  have h1 := add_one_le_exp (R + V)
  have h2 := mul_nonneg hA (by linarith : 0 ≤ exp (R + V) - 1 + R)
  unfold cBound
  linarith

/-- A density below which the indirect correlations are small. -/
theorem small_density {c B ε : ℝ} (hc : 0 ≤ c) (hB : 0 ≤ B) (hε : 0 < ε) :
    ∃ n1 > 0, ∀ ν, 0 ≤ ν → ν ≤ n1 → B * (c ^ 2 * ν / (1 - c * ν)) ≤ ε := by
  refine ⟨min (1 / (2 * (c + 1))) (ε / (2 * (B * c ^ 2) + 1)), lt_min (by positivity) (by positivity), fun ν h0 h => ?_⟩
  have h1 := h.trans (min_le_left _ _)
  have h2 := h.trans (min_le_right _ _)
  rw [le_div_iff₀ (by positivity)] at h1 h2
  have h3 : c * ν ≤ 1 / 2 := by nlinarith
  rw [mul_div_assoc', div_le_iff₀ (by linarith)]
  have h4 : 0 ≤ B * c ^ 2 := by positivity
  nlinarith

/-- C71: at low density the pair distribution function is the factor of Boltzmann of the whole potential, for all
intermediate temperatures and without mixing. -/
theorem returns_boltzmann (hm : 0 < m) (hg : p.GridOk M) (hd : p.DataSymm) (hmix : p.mix = 0) {δ : ℝ} (hδ : 0 < δ) :
    ∃ n0 > 0, ∀ n : Fin m → ℝ, (∀ a, 0 ≤ n a) → ∑ a, n a ≤ n0 → ∀ tmult : List ℝ, (∀ x ∈ tmult, 1 ≤ x) →
      ∀ g it, (p.withDensity n).Returns tmult g it →
        ∀ a b, ∀ j < p.N, |log (g a b j) + (p.Vs a b j + fourierSine p.N p.r p.k (p.Vlk a b) j / (2 * π) ^ 3) / (p.kB * p.T a b)| ≤ δ := by
  have hN : 0 < p.N := by have := hg.even; have := hg.pos; omega
  have hm1 : (0 : ℝ) < m := by exact_mod_cast hm
  have hN1 : (0 : ℝ) < p.N := by exact_mod_cast hN
  obtain ⟨ε, hε0, ε1, ε2, ε3⟩ : ∃ ε : ℝ, 0 < ε ∧ ε ≤ 1 / (2000 * (m * m * p.N)) ∧ ε ≤ 1 / 2 ∧ ε ≤ δ / 2 :=
    ⟨min (1 / (2000 * (m * m * p.N))) (min (1 / 2) (δ / 2)), lt_min (by positivity) (lt_min (by norm_num) (by positivity)), min_le_left _ _,
      (min_le_right _ _).trans (min_le_left _ _), (min_le_right _ _).trans (min_le_right _ _)⟩
  obtain ⟨A, B, V, W, R, n0, hn0, hA0, hB0, hV0, hW0, hR1, hA, hB, hV, hW, hall⟩ := dilute_bounds hg hε0
  obtain ⟨n1, hn1, hsm⟩ := small_density (cBound_nonneg hA0 hV0 hW0 (by linarith : 0 ≤ R)) hB0 hε0
  refine ⟨min n0 n1, lt_min hn0 hn1, fun n hn hsum tmult ht g it hr a b j hj => ?_⟩
  have hν0 : 0 ≤ ∑ a, n a := Finset.sum_nonneg fun a _ => hn a
  obtain ⟨g1, g2, g3, g4⟩ := hall _ hν0 (hsum.trans (min_le_left _ _))
  have g5 := hsm _ hν0 (hsum.trans (min_le_right _ _))
  have hw : (p.withDensity n).Weak M A B V W R :=
    ⟨⟨hg.pos, hg.even, hg.r, hg.k, hg.dr⟩, hd, hn, hmix.ge, by
      show p.mix < 1
      rw [hmix]
      norm_num, hA0, hB0, hV0, hW0, by linarith, hA, hB, hV, hW, g1, g2, lt_of_lt_of_le g3 (by linarith)⟩
  obtain ⟨f1, f2⟩ := fast hw.toContracts hm hmix g3.le g4 ε1 ε2
  obtain ⟨t, hruns, rfl⟩ := hr
  obtain ⟨_, _, u, hu, hfix, hlog⟩ := runs_converge hw.toContracts hm ht f1 (by norm_num) hruns
  have x1 := (hlog a b j hj).trans f2
  have x2 : |u.logG a b j + p.wholePotential 1 a b j| ≤ ε := (solution_boltzmann hw.toContracts hu hfix a b hj).trans g5
  rw [← wholePotential_eq hg a b hj]
  show |log (exp (t.logG a b j)) + p.wholePotential 1 a b j| ≤ δ
  rw [log_exp]
  have e : t.logG a b j + p.wholePotential 1 a b j = (t.logG a b j - u.logG a b j) + (u.logG a b j + p.wholePotential 1 a b j) := by ring
  rw [e]
  refine (abs_add_le _ _).trans ?_
  linarith

/-- C71: the same for the scheme with several temperatures: the temperature of each pair is that of its entry. -/
theorem svtReturns_boltzmann {mass : Fin m → ℝ} (hm : 0 < m) (hg : p.GridOk M) (hd : p.DataSymm) (hmix : p.mix = 0)
    (hmass : ∀ a, 0 < mass a) (hT : ∀ a b, 0 < p.T a b) {δ : ℝ} (hδ : 0 < δ) :
    ∃ n0 > 0, ∀ n : Fin m → ℝ, (∀ a, 0 ≤ n a) → ∑ a, n a ≤ n0 → ∀ tmult : List ℝ, (∀ x ∈ tmult, 1 ≤ x) →
      ∀ g it, (p.withDensity n).SvtReturns mass tmult g it →
        ∀ a b, ∀ j < p.N, |log (g a b j) + (p.Vs a b j + fourierSine p.N p.r p.k (p.Vlk a b) j / (2 * π) ^ 3) / (p.kB * p.T a b)| ≤ δ := by
  have hN : 0 < p.N := by have := hg.even; have := hg.pos; omega
  have hm1 : (0 : ℝ) < m := by exact_mod_cast hm
  have hN1 : (0 : ℝ) < p.N := by exact_mod_cast hN
  obtain ⟨ε, hε0, ε1, ε2, ε3⟩ : ∃ ε : ℝ, 0 < ε ∧ ε ≤ 1 / (2000 * (m * m * p.N)) ∧ ε ≤ 1 / 2 ∧ ε ≤ δ / 2 :=
    ⟨min (1 / (2000 * (m * m * p.N))) (min (1 / 2) (δ / 2)), lt_min (by positivity) (lt_min (by norm_num) (by positivity)), min_le_left _ _,
      (min_le_right _ _).trans (min_le_left _ _), (min_le_right _ _).trans (min_le_right _ _)⟩
  obtain ⟨A, B, V, W, R, n0, hn0, hA0, hB0, hV0, hW0, hR1, hA, hB, hV, hW, hall⟩ := dilute_bounds hg hε0
  obtain ⟨n1, hn1, hsm⟩ := small_density (cBound_nonneg hA0 hV0 hW0 (by linarith : 0 ≤ R)) hB0 hε0
  obtain ⟨κ, hκ0, hκ⟩ := exists_ratio hT
  refine ⟨min n0 n1 / κ, div_pos (lt_min hn0 hn1) hκ0, fun n hn hsum tmult ht g it hr a b j hj => ?_⟩
  have hν0 : 0 ≤ κ * ∑ a, n a := mul_nonneg hκ0.le (Finset.sum_nonneg fun a _ => hn a)
  rw [le_div_iff₀ hκ0, mul_comm] at hsum
  obtain ⟨g1, g2, g3, g4⟩ := hall _ hν0 (hsum.trans (min_le_left _ _))
  have g5 := hsm _ hν0 (hsum.trans (min_le_right _ _))
  have hw : (p.withDensity n).WeakT mass (κ * ∑ a, n a) M A B V W R :=
    ⟨⟨hg.pos, hg.even, hg.r, hg.k, hg.dr⟩, hd, hn, hmass, hT, effective_ratio hn hmass hκ, hν0, hmix.ge, by
      show p.mix < 1
      rw [hmix]
      norm_num, hA0, hB0, hV0, hW0, by linarith, hA, hB, hV, hW, g1, g2, by linarith⟩
  obtain ⟨f1, f2⟩ := fast hw.toContracts hm hmix g3.le g4 ε1 ε2
  obtain ⟨t, total, hruns, rfl, rfl⟩ := hr
  obtain ⟨_, _, u, hu, hfix, hlog⟩ := runs_converge hw.toContracts hm ht f1 (by norm_num) hruns
  have x1 := (hlog a b j hj).trans f2
  have x2 : |u.logG a b j + p.wholePotential 1 a b j| ≤ ε := (solution_boltzmann hw.toContracts hu hfix a b hj).trans g5
  rw [← wholePotential_eq hg a b hj]
  show |log (exp (t.logG a b j)) + p.wholePotential 1 a b j| ≤ δ
  rw [log_exp]
  have e : t.logG a b j + p.wholePotential 1 a b j = (t.logG a b j - u.logG a b j) + (u.logG a b j + p.wholePotential 1 a b j) := by ring
  rw [e]
  refine (abs_add_le _ _).trans ?_
  linarith

/-- C71: at high temperature the particles are independent of each other: the pair distribution function tends to one and the
structure factor to the unit matrix, for all potentials, densities and intermediate temperatures. -/
theorem returns_independent (hm : 0 < m) (hg : p.GridOk M) (hd : p.DataSymm) (hmix : p.mix = 0) (hn : ∀ a, 0 ≤ p.n a) {δ : ℝ} (hδ : 0 < δ) :
    ∃ τ0 > 0, ∀ τ, τ0 ≤ τ → ∀ tmult : List ℝ, (∀ x ∈ tmult, 1 ≤ x) → ∀ g it, (p.withFactor τ).Returns tmult g it →
      (∀ a b, ∀ j < p.N, |g a b j - 1| ≤ δ) ∧
        ∀ a b, ∀ i < p.N, |sIiHNC p.N p.k p.r p.n g i a b - (if a = b then 1 else 0)| ≤ δ := by
  have hN : 0 < p.N := by have := hg.even; have := hg.pos; omega
  have hm1 : (0 : ℝ) < m := by exact_mod_cast hm
  have hN1 : (0 : ℝ) < p.N := by exact_mod_cast hN
  obtain ⟨A', _, hA0', _, hA', _⟩ := exists_transform_bounds hg
  have hsum0 : 0 ≤ ∑ a, p.n a := Finset.sum_nonneg fun a _ => hn a
  set δ' := δ / (1 + A' * ∑ a, p.n a) with hδ'
  have hden : 0 < 1 + A' * ∑ a, p.n a := by have := mul_nonneg hA0' hsum0; linarith
  have hδ0 : 0 < δ' := div_pos hδ hden
  have hδ1 : δ' * (1 + A' * ∑ a, p.n a) = δ := div_mul_cancel₀ _ hden.ne'
  obtain ⟨η, hη0, hη⟩ : ∃ η > 0, exp η - 1 ≤ δ' :=
    ⟨log (1 + δ'), log_pos (by linarith), by rw [exp_log (by linarith)]; linarith⟩
  obtain ⟨ε, hε0, ε1, ε2, ε3⟩ : ∃ ε : ℝ, 0 < ε ∧ ε ≤ 1 / (2000 * (m * m * p.N)) ∧ ε ≤ 1 / 2 ∧ ε ≤ η / 2 :=
    ⟨min (1 / (2000 * (m * m * p.N))) (min (1 / 2) (η / 2)), lt_min (by positivity) (lt_min (by norm_num) (by positivity)), min_le_left _ _,
      (min_le_right _ _).trans (min_le_left _ _), (min_le_right _ _).trans (min_le_right _ _)⟩
  obtain ⟨A, B, V, W, R, x0, hx0, hA0, hB0, hV0, hW0, hR0, hA, hB, hV, hW, hall⟩ := hot_bounds hg (∑ a, p.n a) hε0
  obtain ⟨x1, hx1, hx2, hx3⟩ : ∃ x1 > 0, x1 ≤ x0 ∧ x1 * (R + V) ≤ η / 2 := by
    refine ⟨min x0 (η / (2 * (R + V + 1))), lt_min hx0 (by positivity), min_le_left _ _, ?_⟩
    have h1 := min_le_right x0 (η / (2 * (R + V + 1)))
    have h0 : 0 < min x0 (η / (2 * (R + V + 1))) := lt_min hx0 (by positivity)
    rw [le_div_iff₀ (by positivity)] at h1
    nlinarith
  refine ⟨1 / x1, by positivity, fun τ hτ tmult ht g it hr => ?_⟩
  have hτ0 : 0 < τ := lt_of_lt_of_le (by positivity) hτ
  have hx : τ⁻¹ ≤ x1 := by
    rw [inv_le_comm₀ hτ0 hx1, ← one_div]
    exact hτ
  have hi : 0 < τ⁻¹ := inv_pos.2 hτ0
  obtain ⟨g1, g2, g3, g4⟩ := hall τ⁻¹ hi (hx.trans hx2)
  have hv : ∀ a b, ∀ j < p.N, |(p.withFactor τ).vs 1 a b j| ≤ τ⁻¹ * V := by
    intro a b j hj
    rw [withFactor_vs, mul_one, vs_mult, abs_div, abs_of_pos hτ0, div_eq_inv_mul]
    exact mul_le_mul_of_nonneg_left (hV a b j hj) hi.le
  have hv' : ∀ a b, ∀ j < p.N, |(p.withFactor τ).vlk 1 a b j| ≤ τ⁻¹ * W := by
    intro a b j hj
    rw [withFactor_vlk, mul_one, vlk_mult, abs_div, abs_of_pos hτ0, div_eq_inv_mul]
    exact mul_le_mul_of_nonneg_left (hW a b j hj) hi.le
  have hw : (p.withFactor τ).Weak M A B (τ⁻¹ * V) (τ⁻¹ * W) (τ⁻¹ * R) :=
    ⟨⟨hg.pos, hg.even, hg.r, hg.k, hg.dr⟩, ⟨hd.1, hd.2.1, fun a b => by
      show τ * p.T a b = τ * p.T b a
      rw [hd.2.2 a b]⟩, hn, hmix.ge, by
      show p.mix < 1
      rw [hmix]
      norm_num, hA0, hB0, by positivity, by positivity, by positivity, hA, hB, hv, hv', g1, g2, by
      show rate A B (τ⁻¹ * V) (τ⁻¹ * W) (τ⁻¹ * R) (∑ a, p.n a) < 1
      linarith⟩
  obtain ⟨f1, f2⟩ := fast hw.toContracts hm hmix g3.le g4 ε1 ε2
  obtain ⟨t, hruns, rfl⟩ := hr
  obtain ⟨_, _, u, hu, _, hlog⟩ := runs_converge hw.toContracts hm ht f1 (by norm_num) hruns
  have hxR : τ⁻¹ * (R + V) ≤ η / 2 := (mul_le_mul_of_nonneg_right hx (by linarith)).trans hx3
  have key : ∀ a b, ∀ j < p.N, |exp (t.logG a b j) - 1| ≤ δ' := by
    intro a b j hj
    refine (abs_exp_sub_one (L := η) ?_).trans hη
    have y1 := (hlog a b j hj).trans f2
    have y2 := hu.near.ns a b j hj
    have y3 := hu.near.log a b j hj
    have e : t.logG a b j = (t.logG a b j - u.logG a b j) + (u.logG a b j - u.Ns a b j) + u.Ns a b j := by ring
    rw [e]
    refine (abs_add_three _ _ _).trans ?_
    linarith
  have hle : δ' ≤ δ := by
    have := mul_nonneg hδ0.le (mul_nonneg hA0' hsum0)
    linarith
  refine ⟨fun a b j hj => (key a b j hj).trans hle, ?_⟩
  have hs : ∀ a b, ∀ i < p.N, |sK p.N p.k p.r p.n (fun a b j => exp (t.logG a b j)) i a b - (if a = b then 1 else 0)| ≤ δ := by
    intro a b i hi'
    unfold sK
    rw [add_sub_cancel_left, abs_mul, abs_of_nonneg (sqrt_nonneg _)]
    have h1 : |fourierSine p.N p.k p.r (fun j => exp (t.logG a b j) - 1) i| ≤ A' * δ' := by
      have z1 := hA' i hi'
      have z2 := key a b
      have z3 := hg.k i hi'
      rw [hg.even] at z1 z2 hi' ⊢
      exact fourierSine_le hg.pos _ _ _ z2 hi' z3 z1
    have h2 : sqrt (p.n a * p.n b) ≤ ∑ a, p.n a := by
      have l1 := Finset.single_le_sum (fun a _ => hn a) (Finset.mem_univ a)
      have l2 := Finset.single_le_sum (fun a _ => hn a) (Finset.mem_univ b)
      rw [sqrt_le_left hsum0, sq]
      exact mul_le_mul l1 l2 (hn b) hsum0
    refine (mul_le_mul h1 h2 (sqrt_nonneg _) (mul_nonneg hA0' hδ0.le)).trans ?_
    linarith
  intro a b i hi'
  unfold sIiHNC
  split_ifs with h0 hab hab
  · have := hs a b 1 (by have := hg.even; have := hg.pos; omega)
    rwa [if_pos hab] at this
  · have := hs a b 1 (by have := hg.even; have := hg.pos; omega)
    rwa [if_neg hab] at this
  · have := hs a b i hi'
    rwa [if_pos hab] at this
  · have := hs a b i hi'
    rwa [if_neg hab] at this

/-- The hypotheses of the theorems are met, with a potential and a density that do not vanish. -/
example : ∃ p : Input 1, p.GridOk 1 ∧ p.DataSymm ∧ p.mix = 0 ∧ (∀ a, 0 < p.n a) ∧ (∀ a b, 0 < p.T a b) ∧
    (∀ a b j, p.Vs a b j = 1) ∧ ∀ τ, ∃ g it, (p.withFactor τ).Returns [2] g it := by
  set p : Input 1 := ⟨2, fun j => j + 1, fun _ _ _ => 1, fun _ _ _ => 1, fun _ _ => 1, fun _ => 5, 0, 4, 1⟩ with hp
  have hg : p.GridOk 1 := by
    refine ⟨one_pos, rfl, fun j _ => ?_, fun i _ => ?_, ?_⟩
    · show ((j : ℝ) + 1) ≠ 0
      positivity
    · have hpi := pi_pos
      show π / (((2 - 1 : ℕ) : ℝ) + 1) + i * (π / ((2 : ℕ) * ((((1 : ℕ) : ℝ) + 1) - (((0 : ℕ) : ℝ) + 1)))) ≠ 0
      have e : (((1 : ℕ) : ℝ) + 1) - (((0 : ℕ) : ℝ) + 1) = 1 := by norm_num
      rw [e]
      positivity
    · show (((1 : ℕ) : ℝ) + 1) - (((0 : ℕ) : ℝ) + 1) ≠ 0
      norm_num
  exact ⟨p, hg, ⟨fun _ _ => rfl, fun _ _ => rfl, fun _ _ => rfl⟩, rfl, fun _ => by
    show (0 : ℝ) < 5
    norm_num, fun _ _ => one_pos, fun _ _ _ => rfl, fun τ => (returns_unique (p.withFactor τ) [2]).1⟩

end Input

end Verif.Hnc
