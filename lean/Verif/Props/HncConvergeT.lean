/-
Property C111: the scheme for several temperatures converges to the solution of its equations if the interactions
are weak or the densities low.
-/
import Verif.Props.HncConverge
import Verif.Props.HncSpecies

set_option autoImplicit false

namespace Verif.Hnc

open Real

/-! ### Specification -/

/-- The equations of the hypernetted chain approximation with the relation of Seuferling, Vogel and Toepffer
instead of the Ornstein-Zernike equation, see `HncEquations`. -/
structure HncEquationsT {m : ℕ} (N : ℕ) (F : (ℕ → ℝ) → ℕ → ℝ) (n mass : Fin m → ℝ) (T : Fin m → Fin m → ℝ)
    (vs vl : Fin m → Fin m → ℕ → ℝ) (g c : Fin m → Fin m → ℕ → ℝ) : Prop where
  closure : ∀ a b, ∀ j < N, g a b j = exp (-vs a b j + (g a b j - 1) - c a b j)
  oz : ∀ i < N, OrnsteinZernikeT n mass T (fun a b => F (c a b) i - vl a b i) (fun a b => F (fun j => g a b j - 1) i)

/-- A density which bounds the strength of the indirect correlations. -/
def Effective {m : ℕ} (n mass : Fin m → ℝ) (T : Fin m → Fin m → ℝ) (ν : ℝ) : Prop :=
  ∀ a b, ∑ s, n s * (mass b / (mass a + mass b) * (T a s / T a b) + mass a / (mass a + mass b) * (T b s / T a b)) ≤ ν

/-! ### Bounds -/

section

variable {m : ℕ} {n mass : Fin m → ℝ} {T : Fin m → Fin m → ℝ} {ν : ℝ}

/-- With equal temperatures it is the density. -/
theorem effective_equal (hm : ∀ a, 0 < mass a) {t : ℝ} (ht : t ≠ 0) (hT : ∀ a b, T a b = t) : Effective n mass T (∑ s, n s) := by
  intro a b
  refine le_of_eq (Finset.sum_congr rfl fun s _ => ?_)
  rw [hT, hT, hT, div_self ht, mul_one, mul_one, ← add_div, add_comm (mass b), div_self (add_pos (hm a) (hm b)).ne', mul_one]

/-- In general it is the density times the largest ratio of the temperatures. -/
theorem effective_ratio (hn : ∀ a, 0 ≤ n a) (hm : ∀ a, 0 < mass a) {κ : ℝ} (hκ : ∀ a b s, T a s / T a b ≤ κ ∧ T b s / T a b ≤ κ) :
    Effective n mass T (κ * ∑ s, n s) := by
  intro a b
  rw [Finset.mul_sum]
  refine Finset.sum_le_sum fun s _ => ?_
  have hab := add_pos (hm a) (hm b)
  have h1 := mul_le_mul_of_nonneg_left (hκ a b s).1 (div_nonneg (hm b).le hab.le)
  have h2 := mul_le_mul_of_nonneg_left (hκ a b s).2 (div_nonneg (hm a).le hab.le)
  have h3 : mass b / (mass a + mass b) + mass a / (mass a + mass b) = 1 := by
    rw [← add_div, add_comm (mass b), div_self hab.ne']
  rw [mul_comm κ]
  refine mul_le_mul_of_nonneg_left ((add_le_add h1 h2).trans_eq ?_) (hn s)
  rw [← add_mul, h3, one_mul]

theorem sumT_le (hn : ∀ a, 0 ≤ n a) (hm : ∀ a, 0 < mass a) (hT : ∀ a b, 0 < T a b) (hν : Effective n mass T ν)
    {C H : Matrix (Fin m) (Fin m) ℝ} {c h : ℝ} (hC : ∀ a b, |C a b| ≤ c) (hH : ∀ a b, |H a b| ≤ h) (a b : Fin m) :
    |∑ s, n s * (mass b / (mass a + mass b) * (T a s / T a b) * C a s * H s b +
      mass a / (mass a + mass b) * (T b s / T a b) * C s b * H a s)| ≤ c * ν * h := by
  have hc0 : 0 ≤ c := (abs_nonneg _).trans (hC a b)
  have hh0 : 0 ≤ h := (abs_nonneg _).trans (hH a b)
  have h1 : ∀ s, |n s * (mass b / (mass a + mass b) * (T a s / T a b) * C a s * H s b +
      mass a / (mass a + mass b) * (T b s / T a b) * C s b * H a s)| ≤
      n s * (mass b / (mass a + mass b) * (T a s / T a b) + mass a / (mass a + mass b) * (T b s / T a b)) * (c * h) := by
    intro s
    have p1 : 0 ≤ mass b / (mass a + mass b) * (T a s / T a b) :=
      mul_nonneg (div_nonneg (hm b).le (add_pos (hm a) (hm b)).le) (div_nonneg (hT a s).le (hT a b).le)
    have p2 : 0 ≤ mass a / (mass a + mass b) * (T b s / T a b) :=
      mul_nonneg (div_nonneg (hm a).le (add_pos (hm a) (hm b)).le) (div_nonneg (hT b s).le (hT a b).le)
    generalize mass b / (mass a + mass b) * (T a s / T a b) = x at p1
    generalize mass a / (mass a + mass b) * (T b s / T a b) = y at p2
    rw [abs_mul, abs_of_nonneg (hn s), mul_assoc (n s)]
    refine mul_le_mul_of_nonneg_left ?_ (hn s)
    refine (abs_add_le _ _).trans ?_
    rw [mul_assoc, mul_assoc, abs_mul, abs_mul y, abs_of_nonneg p1, abs_of_nonneg p2, abs_mul, abs_mul, add_mul]
    exact add_le_add (mul_le_mul_of_nonneg_left (mul_le_mul (hC a s) (hH s b) (abs_nonneg _) hc0) p1)
      (mul_le_mul_of_nonneg_left (mul_le_mul (hC s b) (hH a s) (abs_nonneg _) hc0) p2)
  refine (Finset.abs_sum_le_sum_abs _ _).trans ((Finset.sum_le_sum fun s _ => h1 s).trans ?_)
  rw [← Finset.sum_mul]
  refine (mul_le_mul_of_nonneg_right (hν a b) (mul_nonneg hc0 hh0)).trans_eq ?_
  ring

theorem svt_det (hn : ∀ a, 0 ≤ n a) (hm : ∀ a, 0 < mass a) (hT : ∀ a b, 0 < T a b) (hν : Effective n mass T ν)
    {C : Matrix (Fin m) (Fin m) ℝ} {c : ℝ} (hC : ∀ a b, |C a b| ≤ c) (hc : c * ν < 1) : (svtMatrix n mass T C).det ≠ 0 := by
  intro h0
  obtain ⟨v, hv, hv0⟩ := Matrix.exists_mulVec_eq_zero_iff.2 h0
  refine hv (funext fun i => ?_)
  have h1 : ∀ i, |v i| ≤ 0 / (1 - c * ν) := sup_self hc fun t ht i => by
    have h2 := Input.svt_mulVec (n := n) hm T C (fun a b => v (a, b)) i.1 i.2
    rw [hv0] at h2
    have h3 := sumT_le hn hm hT hν hC (H := fun a b => v (a, b)) (fun a b => ht (a, b)) i.1 i.2
    have h4 : v i = ∑ s, n s * (mass i.2 / (mass i.1 + mass i.2) * (T i.1 s / T i.1 i.2) * C i.1 s * v (s, i.2) +
        mass i.1 / (mass i.1 + mass i.2) * (T i.2 s / T i.1 i.2) * C s i.2 * v (i.1, s)) := by
      have : (0 : Fin m × Fin m → ℝ) (i.1, i.2) = 0 := rfl
      rw [this] at h2
      linarith
    rw [h4, zero_add]
    exact h3
  have h2 := h1 i
  rw [zero_div] at h2
  exact abs_eq_zero.1 (le_antisymm h2 (abs_nonneg _))

theorem ozT_indirect (hn : ∀ a, 0 ≤ n a) (hm : ∀ a, 0 < mass a) (hT : ∀ a b, 0 < T a b) (hν : Effective n mass T ν)
    {C H : Matrix (Fin m) (Fin m) ℝ} (h : OrnsteinZernikeT n mass T C H) {c : ℝ} (hC : ∀ a b, |C a b| ≤ c) (hc : c * ν < 1)
    (a b : Fin m) : |H a b| ≤ c / (1 - c * ν) ∧ |H a b - C a b| ≤ c ^ 2 * ν / (1 - c * ν) := by
  have h1 : ∀ a b, |H a b| ≤ c / (1 - c * ν) := by
    intro a b
    refine sup_self (u := fun i : Fin m × Fin m => H i.1 i.2) hc (fun t ht i => ?_) (a, b)
    show |H i.1 i.2| ≤ _
    rw [h i.1 i.2]
    exact (abs_add_le _ _).trans (add_le_add (hC _ _) (sumT_le hn hm hT hν hC (fun a b => ht (a, b)) i.1 i.2))
  refine ⟨h1 a b, ?_⟩
  rw [sub_eq_iff_eq_add'.2 (h a b)]
  refine (sumT_le hn hm hT hν hC h1 a b).trans_eq ?_
  ring

theorem ozT_diff (hn : ∀ a, 0 ≤ n a) (hm : ∀ a, 0 < mass a) (hT : ∀ a b, 0 < T a b) (hν : Effective n mass T ν)
    {C H C' H' : Matrix (Fin m) (Fin m) ℝ} (h : OrnsteinZernikeT n mass T C H) (h' : OrnsteinZernikeT n mass T C' H') {c d : ℝ}
    (hC : ∀ a b, |C a b| ≤ c) (hC' : ∀ a b, |C' a b| ≤ c) (hc : c * ν < 1) (hd : ∀ a b, |C a b - C' a b| ≤ d) (a b : Fin m) :
    |(H a b - C a b) - (H' a b - C' a b)| ≤ ((1 / (1 - c * ν)) ^ 2 - 1) * d := by
  have h1 := fun a b => (ozT_indirect hn hm hT hν h hC hc a b).1
  have key := sup_self (u := fun i : Fin m × Fin m => (H i.1 i.2 - C i.1 i.2) - (H' i.1 i.2 - C' i.1 i.2))
    (α := d * ν * (c / (1 - c * ν)) + c * ν * d) hc (fun t ht i => ?_) (a, b)
  · refine key.trans_eq ?_
    obtain ⟨y, hy⟩ : ∃ y, c * ν = 1 - y := ⟨1 - c * ν, by ring⟩
    have hy0 : y ≠ 0 := by intro h0; rw [hy, h0] at hc; linarith
    have e1 : d * ν * (c / (1 - c * ν)) = d * (1 - y) / y := by
      rw [← hy, hy, sub_sub_cancel]
      rw [← hy]
      ring
    rw [e1, hy, sub_sub_cancel]
    field_simp
    ring
  · have s1 := sumT_le hn hm hT hν (C := fun a b => C a b - C' a b) hd h1 i.1 i.2
    have s2 := sumT_le hn hm hT hν hC' (H := fun a b => C a b - C' a b) hd i.1 i.2
    have s3 := sumT_le hn hm hT hν hC' (H := fun a b => (H a b - C a b) - (H' a b - C' a b)) (fun a b => ht (a, b)) i.1 i.2
    show |(H i.1 i.2 - C i.1 i.2) - (H' i.1 i.2 - C' i.1 i.2)| ≤ _
    rw [sub_eq_iff_eq_add'.2 (h i.1 i.2), sub_eq_iff_eq_add'.2 (h' i.1 i.2), ← Finset.sum_sub_distrib]
    refine le_trans ?_ ((add_le_add (add_le_add s1 s2) s3).trans_eq (by ring))
    refine le_trans (le_of_eq ?_) (abs_add_three _ _ _)
    congr 1
    rw [← Finset.sum_add_distrib, ← Finset.sum_add_distrib]
    refine Finset.sum_congr rfl fun s _ => ?_
    ring

end

namespace Input

variable {m : ℕ} {p : Input m} {M : ℕ} {A B V W R ν : ℝ} {mass : Fin m → ℝ}

/-! ### The scheme for several temperatures -/

/-- The condition of `Weak` with the density of `Effective`. -/
structure WeakT (p : Input m) (mass : Fin m → ℝ) (ν : ℝ) (M : ℕ) (A B V W R : ℝ) : Prop where
  grid : p.GridOk M
  symm : p.DataSymm
  dens : ∀ a, 0 ≤ p.n a
  masses : ∀ a, 0 < mass a
  temps : ∀ a b, 0 < p.T a b
  eff : Effective p.n mass p.T ν
  eff0 : 0 ≤ ν
  mix0 : 0 ≤ p.mix
  mix1 : p.mix < 1
  A0 : 0 ≤ A
  B0 : 0 ≤ B
  V0 : 0 ≤ V
  W0 : 0 ≤ W
  R0 : 0 ≤ R
  toK : ∀ i < p.N, 4 * π * |p.r 1 - p.r 0| * ∑ j ∈ Finset.range p.N, |p.r j| ≤ A * |p.k i|
  toR : ∀ j < p.N, 4 * π * |p.k 1 - p.k 0| * ∑ i ∈ Finset.range p.N, |p.k i| ≤ (B * (2 * π) ^ 3) * |p.r j|
  short : ∀ a b, ∀ j < p.N, |p.vs 1 a b j| ≤ V
  long : ∀ a b, ∀ j < p.N, |p.vlk 1 a b j| ≤ W
  small : cBound A V W R * ν < 1
  ball : B * (cBound A V W R ^ 2 * ν / (1 - cBound A V W R * ν) + W) ≤ R
  contracts : rate A B V W R ν < 1

/-- The relation in use. -/
noncomputable abbrev ozT (p : Input m) (mass : Fin m → ℝ) : ℝ → Matrix (Fin m) (Fin m) ℝ → Matrix (Fin m) (Fin m) ℝ :=
  fun mult => svtOzr p.n mass (fun a b => mult * p.T a b)

theorem ozT_symm (hm : ∀ a, 0 < mass a) (h : p.DataSymm) (mult : ℝ) {C : Matrix (Fin m) (Fin m) ℝ} (hC : PairSymm C) :
    PairSymm (p.ozT mass mult C) := by
  by_cases hd : (svtMatrix p.n mass (fun a b => mult * p.T a b) C).det = 0
  · have h0 : (svtMatrix p.n mass (fun a b => mult * p.T a b) C)⁻¹ = 0 :=
      Matrix.nonsing_inv_apply_not_isUnit _ (by rw [hd]; exact not_isUnit_zero)
    intro a b
    simp [ozT, svtOzr, h0]
  · exact svt_symm hm (fun a b => by rw [h.2.2 a b]) hC hd

theorem WeakT.toContracts (hw : p.WeakT mass ν M A B V W R) : p.Contracts (p.ozT mass) ν M A B V W R := by
  have hsolve : ∀ mult C, 1 ≤ mult → (∀ a b, |C a b| ≤ cBound A V W R) →
      OrnsteinZernikeT p.n mass p.T C (p.ozT mass mult C) := by
    intro mult C hmult hC
    rw [ozT, svt_scale (by linarith : mult ≠ 0)]
    exact (svt_solves hw.masses p.T (svt_det hw.dens hw.masses hw.temps hw.eff hC hw.small) _).2 rfl
  refine ⟨hw.grid, hw.symm, hw.eff0, hw.mix0, hw.mix1, hw.A0, hw.B0, hw.V0, hw.W0, hw.R0, hw.toK, hw.toR,
    hw.short, hw.long, hw.small, hw.ball, hw.contracts, fun mult C hC => ozT_symm hw.masses hw.symm mult hC, ?_, ?_⟩
  · intro mult C hmult _ hC a b
    exact (ozT_indirect hw.dens hw.masses hw.temps hw.eff (hsolve mult C hmult hC) hC hw.small a b).2
  · intro mult C C' hmult _ _ hC hC' d hd a b
    exact ozT_diff hw.dens hw.masses hw.temps hw.eff (hsolve mult C hmult hC) (hsolve mult C' hmult hC') hC hC' hw.small hd a b

section

variable (hw : p.WeakT mass ν M A B V W R)

include hw

theorem fixedT_iff {u : State m} (hu : p.Settled V R 1 u) :
    (∀ a b, ∀ j < p.N, p.nodal (p.ozT mass) 1 u a b j = u.Ns a b j) ↔
      HncEquationsT p.N (fourierSine p.N p.k p.r) p.n mass p.T (p.vs 1) (p.vlk 1) (fun a b j => exp (u.logG a b j))
        (fun a b j => exp (u.logG a b j) - 1 - u.Ns a b j) := by
  have hdet : ∀ i < p.N, (svtMatrix p.n mass p.T (p.cK 1 u i)).det ≠ 0 := fun i hi =>
    svt_det hw.dens hw.masses hw.temps hw.eff (cK_le hw.toContracts le_rfl hu.near hi) hw.small
  have e : p.ozT mass 1 = svtOzr p.n mass p.T := by rw [ozT, svt_scale one_ne_zero]
  rw [nodal, full_iff hw.grid 1 u, e]
  constructor
  · intro h
    refine ⟨fun a b j hj => ?_, fun i hi => ?_⟩
    · congr 1
      rw [hu.rel a b j hj]
      ring
    · refine (svt_solves hw.masses p.T (hdet i hi) _).2 ?_
      funext a b
      exact (h a b i hi).symm
  · intro h a b i hi
    have := (svt_solves hw.masses p.T (hdet i hi) _).1 (h.oz i hi)
    exact (congrFun (congrFun this a) b).symm

/-- C111: if the interactions are weak or the densities low, the scheme for several temperatures stops before the
maximal number of cycles, its equations have a solution, and what is returned is close to it. -/
theorem svtReturns_converge (hm : 0 < m) {tmult : List ℝ} (ht : ∀ x ∈ tmult, 1 ≤ x) {n : ℕ}
    (hn : m * (m * (p.N * (mixed p.mix (rate A B V W R ν) ^ n * (2 * R)) ^ 2)) ≤ 1 / 1000000) (hn' : n + 1 < 2000)
    {g : Fin m → Fin m → ℕ → ℝ} {it : ℕ} (hr : p.SvtReturns mass tmult g it) :
    it ≤ n + 1 ∧ ∃ gs c, PairSymm gs ∧
      HncEquationsT p.N (fourierSine p.N p.k p.r) p.n mass p.T (p.vs 1) (p.vlk 1) gs c ∧
      (∀ a b, ∀ j < p.N, |log (gs a b j) + p.vs 1 a b j| ≤ R) ∧
      ∀ a b, ∀ j < p.N, |log (g a b j) - log (gs a b j)| ≤
        mixed p.mix (rate A B V W R ν) / (1000 * (1 - mixed p.mix (rate A B V W R ν))) := by
  obtain ⟨t, total, hruns, rfl, rfl⟩ := hr
  obtain ⟨_, hit, u, hu, hfix, hlog⟩ := runs_converge hw.toContracts hm ht hn hn' hruns
  refine ⟨hit, fun a b j => exp (u.logG a b j), fun a b j => exp (u.logG a b j) - 1 - u.Ns a b j, ?_, (fixedT_iff hw hu).1 hfix, ?_, ?_⟩
  · intro a b
    show (fun j => exp (u.logG a b j)) = fun j => exp (u.logG b a j)
    rw [hu.near.symm.1 a b]
  · intro a b j hj
    rw [log_exp, hu.rel a b j hj, sub_add_cancel]
    exact hu.near.ns a b j hj
  · intro a b j hj
    simp only [log_exp]
    exact hlog a b j hj

/-- C111: there is no other solution within these bounds. -/
theorem solutionT_unique {gs c gs' c' : Fin m → Fin m → ℕ → ℝ} (hs : PairSymm gs) (hs' : PairSymm gs')
    (h : HncEquationsT p.N (fourierSine p.N p.k p.r) p.n mass p.T (p.vs 1) (p.vlk 1) gs c)
    (h' : HncEquationsT p.N (fourierSine p.N p.k p.r) p.n mass p.T (p.vs 1) (p.vlk 1) gs' c')
    (hR : ∀ a b, ∀ j < p.N, |log (gs a b j) + p.vs 1 a b j| ≤ R) (hR' : ∀ a b, ∀ j < p.N, |log (gs' a b j) + p.vs 1 a b j| ≤ R)
    (a b : Fin m) {j : ℕ} (hj : j < p.N) : gs a b j = gs' a b j := by
  have key : ∀ gs c : Fin m → Fin m → ℕ → ℝ, PairSymm gs →
      HncEquationsT p.N (fourierSine p.N p.k p.r) p.n mass p.T (p.vs 1) (p.vlk 1) gs c →
      (∀ a b, ∀ j < p.N, |log (gs a b j) + p.vs 1 a b j| ≤ R) →
      ∃ u, p.Settled V R 1 u ∧ (∀ a b, ∀ j < p.N, p.nodal (p.ozT mass) 1 u a b j = u.Ns a b j) ∧
        ∀ a b, ∀ j < p.N, gs a b j = exp (u.logG a b j) := by
    intro gs c hs h hR
    set L : Fin m → Fin m → ℕ → ℝ := fun a b j => log (gs a b j) + p.vs 1 a b j with hL
    have hLs : PairSymm L := by
      intro a b
      rw [hL]
      simp only
      rw [hs a b, vs_symm hw.symm 1 a b]
    set u : State m := ⟨fun a b j => L a b j - p.vs 1 a b j, L, L, 0⟩ with hu
    have hpos : ∀ a b, ∀ j < p.N, gs a b j = exp (u.logG a b j) := by
      intro a b j hj
      show _ = exp (log (gs a b j) + p.vs 1 a b j - p.vs 1 a b j)
      rw [add_sub_cancel_right, exp_log]
      rw [h.closure a b j hj]
      exact exp_pos _
    have hset : p.Settled V R 1 u := by
      refine ⟨⟨⟨fun a b => ?_, hLs, hLs⟩, hR, fun a b j hj => ?_⟩, fun a b j _ => rfl⟩
      · show (fun j => L a b j - p.vs 1 a b j) = fun j => L b a j - p.vs 1 b a j
        rw [hLs a b, vs_symm hw.symm 1 a b]
      · show |L a b j - p.vs 1 a b j - L a b j| ≤ V
        rw [sub_sub_cancel_left, abs_neg]
        exact hw.short a b j hj
    have hc : ∀ a b, ∀ j < p.N, c a b j = exp (u.logG a b j) - 1 - u.Ns a b j := by
      intro a b j hj
      have h1 := h.closure a b j hj
      have h2 : log (gs a b j) = -p.vs 1 a b j + (gs a b j - 1) - c a b j := by
        conv_lhs => rw [h1]
        rw [log_exp]
      rw [← hpos a b j hj]
      show _ = gs a b j - 1 - (log (gs a b j) + p.vs 1 a b j)
      linarith
    refine ⟨u, hset, ?_, hpos⟩
    refine (fixedT_iff hw hset).2 ?_
    · refine ⟨fun a b j hj => ?_, fun i hi => ?_⟩
      · rw [← hpos a b j hj]
        have h1 := h.closure a b j hj
        have h2 := hc a b j hj
        rw [← hpos a b j hj] at h2
        rw [← h2]
        exact h1
      · have h1 := h.oz i hi
        have e1 : ∀ a b, fourierSine p.N p.k p.r (c a b) i =
            fourierSine p.N p.k p.r (fun j => exp (u.logG a b j) - 1 - u.Ns a b j) i := by
          intro a b
          have hc1 := hc a b
          have hi1 := hi
          rw [hw.grid.even] at hc1 hi1 ⊢
          exact fourierSine_congr hw.grid.pos hc1 hi1
        have e2 : ∀ a b, fourierSine p.N p.k p.r (fun j => gs a b j - 1) i =
            fourierSine p.N p.k p.r (fun j => exp (u.logG a b j) - 1) i := by
          intro a b
          have hc1 := hpos a b
          have hi1 := hi
          rw [hw.grid.even] at hc1 hi1 ⊢
          exact fourierSine_congr hw.grid.pos (fun j hj => by rw [hc1 j hj]) hi1
        intro a b
        have h2 := h1 a b
        simp only [e1, e2] at h2
        exact h2
  obtain ⟨u, hu, hfu, hgu⟩ := key gs c hs h hR
  obtain ⟨v, hv, hfv, hgv⟩ := key gs' c' hs' h' hR'
  have h1 := residual_near hw.toContracts le_rfl hu hv hfv (d := 0) (fun a b j hj => by rw [hfu a b j hj]; simp) a b hj
  rw [zero_div] at h1
  have h2 := sub_eq_zero.1 (abs_eq_zero.1 (le_antisymm h1 (abs_nonneg _)))
  rw [hgu a b j hj, hgv a b j hj, hu.rel a b j hj, hv.rel a b j hj, h2]

end

/-- The ratios of the temperatures are bounded. -/
theorem exists_ratio (hT : ∀ a b, 0 < p.T a b) :
    ∃ κ, 0 < κ ∧ ∀ a b s, p.T a s / p.T a b ≤ κ ∧ p.T b s / p.T a b ≤ κ := by
  refine ⟨1 + ∑ a, ∑ b, ∑ c, ∑ d, p.T a b / p.T c d, ?_, ?_⟩
  · have : 0 ≤ ∑ a, ∑ b, ∑ c, ∑ d, p.T a b / p.T c d := Finset.sum_nonneg fun a _ => Finset.sum_nonneg fun b _ =>
      Finset.sum_nonneg fun c _ => Finset.sum_nonneg fun d _ => div_nonneg (hT a b).le (hT c d).le
    linarith
  · have key : ∀ a b c d, p.T a b / p.T c d ≤ 1 + ∑ a, ∑ b, ∑ c, ∑ d, p.T a b / p.T c d := by
      intro a b c d
      have s1 := Finset.single_le_sum (f := fun d => p.T a b / p.T c d) (fun d _ => div_nonneg (hT a b).le (hT c d).le) (Finset.mem_univ d)
      have s2 := Finset.single_le_sum (f := fun c => ∑ d, p.T a b / p.T c d)
        (fun c _ => Finset.sum_nonneg fun d _ => div_nonneg (hT a b).le (hT c d).le) (Finset.mem_univ c)
      have s3 := Finset.single_le_sum (f := fun b => ∑ c, ∑ d, p.T a b / p.T c d)
        (fun b _ => Finset.sum_nonneg fun c _ => Finset.sum_nonneg fun d _ => div_nonneg (hT a b).le (hT c d).le) (Finset.mem_univ b)
      have s4 := Finset.single_le_sum (f := fun a => ∑ b, ∑ c, ∑ d, p.T a b / p.T c d)
        (fun a _ => Finset.sum_nonneg fun b _ => Finset.sum_nonneg fun c _ => Finset.sum_nonneg fun d _ =>
          div_nonneg (hT a b).le (hT c d).le) (Finset.mem_univ a)
      have := s1.trans (s2.trans (s3.trans s4))
      linarith
    exact fun a b s => ⟨key _ _ _ _, key _ _ _ _⟩

/-- C111: for every grid, all potentials, masses and temperatures there is a density below which the scheme without
mixing ends after few cycles, with the solution of the equations up to any given accuracy. -/
theorem svtReturns_dilute (hm : 0 < m) (hg : p.GridOk M) (hd : p.DataSymm) (hmix : p.mix = 0) (hmass : ∀ a, 0 < mass a)
    (hT : ∀ a b, 0 < p.T a b) {δ : ℝ} (hδ : 0 < δ) :
    ∃ n0 > 0, ∀ n : Fin m → ℝ, (∀ a, 0 ≤ n a) → ∑ a, n a ≤ n0 → ∀ tmult : List ℝ, (∀ x ∈ tmult, 1 ≤ x) →
      ∀ g it, (p.withDensity n).SvtReturns mass tmult g it → it ≤ 2 ∧ ∃ gs c,
        HncEquationsT p.N (fourierSine p.N p.k p.r) n mass p.T (p.vs 1) (p.vlk 1) gs c ∧
        ∀ a b, ∀ j < p.N, |log (g a b j) - log (gs a b j)| ≤ δ := by
  have hN : 0 < p.N := by have := hg.even; have := hg.pos; omega
  have hm1 : (0 : ℝ) < m := by exact_mod_cast hm
  have hN1 : (0 : ℝ) < p.N := by exact_mod_cast hN
  obtain ⟨ε, hε0, ε1, ε2, ε3⟩ : ∃ ε : ℝ, 0 < ε ∧ ε ≤ 1 / (2000 * (m * m * p.N)) ∧ ε ≤ 1 / 2 ∧ ε ≤ δ :=
    ⟨min (1 / (2000 * (m * m * p.N))) (min (1 / 2) δ), lt_min (by positivity) (lt_min (by norm_num) hδ), min_le_left _ _,
      (min_le_right _ _).trans (min_le_left _ _), (min_le_right _ _).trans (min_le_right _ _)⟩
  obtain ⟨A, B, V, W, R, n0, hn0, hA0, hB0, hV0, hW0, hR1, hA, hB, hV, hW, hall⟩ := dilute_bounds hg hε0
  obtain ⟨κ, hκ0, hκ⟩ := exists_ratio hT
  refine ⟨n0 / κ, by positivity, fun n hn hsum tmult ht g it hr => ?_⟩
  have hν0 : 0 ≤ κ * ∑ a, n a := mul_nonneg hκ0.le (Finset.sum_nonneg fun a _ => hn a)
  obtain ⟨g1, g2, g3, g4⟩ := hall (κ * ∑ a, n a) hν0 (by rw [le_div_iff₀ hκ0] at hsum; linarith)
  have hw : (p.withDensity n).WeakT mass (κ * ∑ a, n a) M A B V W R :=
    ⟨⟨hg.pos, hg.even, hg.r, hg.k, hg.dr⟩, hd, hn, hmass, hT, effective_ratio hn hmass hκ, hν0, hmix.ge, by
      show p.mix < 1
      rw [hmix]
      norm_num, hA0, hB0, hV0, hW0, by linarith, hA, hB, hV, hW, g1, g2, by linarith⟩
  obtain ⟨f1, f2⟩ := fast hw.toContracts hm hmix g3.le g4 ε1 ε2
  obtain ⟨h1, gs, c, _, h2, _, h3⟩ := svtReturns_converge hw hm ht f1 (by norm_num) hr
  exact ⟨h1, gs, c, h2, fun a b j hj => (h3 a b j hj).trans (f2.trans ε3)⟩

/-- C111: for every grid, all potentials, masses and densities, and all ratios of the temperatures, there is a factor
above which the scheme without mixing ends after few cycles, with the solution of the equations up to any given accuracy. -/
theorem svtReturns_hot (hm : 0 < m) (hg : p.GridOk M) (hd : p.DataSymm) (hmix : p.mix = 0) (hn : ∀ a, 0 ≤ p.n a)
    (hmass : ∀ a, 0 < mass a) (hT : ∀ a b, 0 < p.T a b) {δ : ℝ} (hδ : 0 < δ) :
    ∃ τ0 > 0, ∀ τ, τ0 ≤ τ → ∀ tmult : List ℝ, (∀ x ∈ tmult, 1 ≤ x) →
      ∀ g it, (p.withFactor τ).SvtReturns mass tmult g it → it ≤ 2 ∧ ∃ gs c,
        HncEquationsT p.N (fourierSine p.N p.k p.r) p.n mass (fun a b => τ * p.T a b) (p.vs τ) (p.vlk τ) gs c ∧
        ∀ a b, ∀ j < p.N, |log (g a b j) - log (gs a b j)| ≤ δ := by
  have hN : 0 < p.N := by have := hg.even; have := hg.pos; omega
  have hm1 : (0 : ℝ) < m := by exact_mod_cast hm
  have hN1 : (0 : ℝ) < p.N := by exact_mod_cast hN
  obtain ⟨ε, hε0, ε1, ε2, ε3⟩ : ∃ ε : ℝ, 0 < ε ∧ ε ≤ 1 / (2000 * (m * m * p.N)) ∧ ε ≤ 1 / 2 ∧ ε ≤ δ :=
    ⟨min (1 / (2000 * (m * m * p.N))) (min (1 / 2) δ), lt_min (by positivity) (lt_min (by norm_num) hδ), min_le_left _ _,
      (min_le_right _ _).trans (min_le_left _ _), (min_le_right _ _).trans (min_le_right _ _)⟩
  obtain ⟨κ, hκ0, hκ⟩ := exists_ratio hT
  have hν0 : 0 ≤ κ * ∑ a, p.n a := mul_nonneg hκ0.le (Finset.sum_nonneg fun a _ => hn a)
  obtain ⟨A, B, V, W, R, x0, hx0, hA0, hB0, hV0, hW0, hR0, hA, hB, hV, hW, hall⟩ := hot_bounds hg (κ * ∑ a, p.n a) hε0
  refine ⟨1 / x0, by positivity, fun τ hτ tmult ht g it hr => ?_⟩
  have hτ0 : 0 < τ := lt_of_lt_of_le (by positivity) hτ
  have hx : τ⁻¹ ≤ x0 := by
    rw [inv_le_comm₀ hτ0 hx0, ← one_div]
    exact hτ
  have hi : 0 < τ⁻¹ := inv_pos.2 hτ0
  obtain ⟨g1, g2, g3, g4⟩ := hall τ⁻¹ hi hx
  have hv : ∀ a b, ∀ j < p.N, |(p.withFactor τ).vs 1 a b j| ≤ τ⁻¹ * V := by
    intro a b j hj
    rw [withFactor_vs, mul_one, vs_mult, abs_div, abs_of_pos hτ0, div_eq_inv_mul]
    exact mul_le_mul_of_nonneg_left (hV a b j hj) hi.le
  have hv' : ∀ a b, ∀ j < p.N, |(p.withFactor τ).vlk 1 a b j| ≤ τ⁻¹ * W := by
    intro a b j hj
    rw [withFactor_vlk, mul_one, vlk_mult, abs_div, abs_of_pos hτ0, div_eq_inv_mul]
    exact mul_le_mul_of_nonneg_left (hW a b j hj) hi.le
  have heff : Effective p.n mass (fun a b => τ * p.T a b) (κ * ∑ a, p.n a) := by
    refine effective_ratio hn hmass fun a b s => ?_
    rw [mul_div_mul_left _ _ hτ0.ne', mul_div_mul_left _ _ hτ0.ne']
    exact hκ a b s
  have hw : (p.withFactor τ).WeakT mass (κ * ∑ a, p.n a) M A B (τ⁻¹ * V) (τ⁻¹ * W) (τ⁻¹ * R) :=
    ⟨⟨hg.pos, hg.even, hg.r, hg.k, hg.dr⟩, ⟨hd.1, hd.2.1, fun a b => by
      show τ * p.T a b = τ * p.T b a
      rw [hd.2.2 a b]⟩, hn, hmass, fun a b => mul_pos hτ0 (hT a b), heff, hν0, hmix.ge, by
      show p.mix < 1
      rw [hmix]
      norm_num, hA0, hB0, by positivity, by positivity, by positivity, hA, hB, hv, hv', g1, g2, by linarith⟩
  obtain ⟨f1, f2⟩ := fast hw.toContracts hm hmix g3.le g4 ε1 ε2
  obtain ⟨h1, gs, c, _, h2, _, h3⟩ := svtReturns_converge hw hm ht f1 (by norm_num) hr
  rw [withFactor_vs, withFactor_vlk, mul_one] at h2
  exact ⟨h1, gs, c, h2, fun a b j hj => (h3 a b j hj).trans (f2.trans ε3)⟩

/-- The hypotheses are met, with different masses and temperatures. -/
example : ∃ n0 > 0, ∀ n : Fin 2 → ℝ, (∀ a, 0 ≤ n a) → ∑ a, n a ≤ n0 → ∃ g it gs c,
    (Input.withDensity ⟨2, fun j => j + 1, fun _ _ _ => 1, fun _ _ _ => 1, fun a b => a + b + 1, fun _ => 0, 0, 4, 1⟩ n).SvtReturns
      (fun a => 1 + 1836 * a) [2] g it ∧ it ≤ 2 ∧
      HncEquationsT 2 (fourierSine 2 (kGrid 2 fun j => j + 1) fun j => j + 1) n (fun a => 1 + 1836 * a) (fun a b => a + b + 1)
        (fun a b _ => 1 / (a + b + 1)) (fun a b _ => 1 / (a + b + 1)) gs c ∧
      ∀ a b, ∀ j < 2, |log (g a b j) - log (gs a b j)| ≤ 1 / 1000000 := by
  set p : Input 2 := ⟨2, fun j => j + 1, fun _ _ _ => 1, fun _ _ _ => 1, fun a b => a + b + 1, fun _ => 0, 0, 4, 1⟩ with hp
  have hg : p.GridOk 1 := by
    refine ⟨one_pos, rfl, fun j _ => ?_, fun i _ => ?_, ?_⟩
    · show ((j : ℝ) + 1) ≠ 0
      positivity
    · have hpi := pi_pos
      show π / (((2 - 1 : ℕ) : ℝ) + 1) + i * (π / ((2 : ℕ) * ((((1 : ℕ) : ℝ) + 1) - (((0 : ℕ) : ℝ) + 1)))) ≠ 0
      have e : (((1 : ℕ) : ℝ) + 1) - (((0 : ℕ) : ℝ) + 1) = 1 := by norm_num
      rw [e]
      positivity
    · show (((1 : ℕ) : ℝ) + 1) - (((0 : ℕ) : ℝ) + 1) ≠ 0
      norm_num
  have hd : p.DataSymm := ⟨fun _ _ => rfl, fun _ _ => rfl, fun a b => by
    show (a : ℝ) + b + 1 = b + a + 1
    ring⟩
  obtain ⟨n0, hn0, h⟩ := svtReturns_dilute (mass := fun a => 1 + 1836 * (a : ℝ)) two_pos hg hd rfl (fun a => by positivity)
    (fun a b => by
      show 0 < (a : ℝ) + b + 1
      positivity) (by norm_num : (0 : ℝ) < 1 / 1000000)
  refine ⟨n0, hn0, fun n hn hsum => ?_⟩
  obtain ⟨g, it, hr⟩ := (svtReturns_spec_partial (p.withDensity n) (fun a => 1 + 1836 * (a : ℝ)) [2]).1
  obtain ⟨h1, gs, c, h2, h3⟩ := h n hn hsum [2] (by simp) g it hr
  have e1 : p.vs 1 = fun (a b : Fin 2) (_ : ℕ) => 1 / ((a : ℝ) + b + 1) := by
    funext a b j
    simp [vs, hp]
  have e2 : p.vlk 1 = fun (a b : Fin 2) (_ : ℕ) => 1 / ((a : ℝ) + b + 1) := by
    funext a b j
    simp [vlk, hp]
  rw [e1, e2] at h2
  exact ⟨g, it, gs, c, hr, h1, h2, h3⟩

end Input

end Verif.Hnc
