/-
Property C111: the hypernetted chain scheme converges to the solution of its equations if the interactions
are weak or the densities low.
-/
import Verif.Props.HncSolution
import Mathlib.LinearAlgebra.Matrix.Gershgorin
import Mathlib.Analysis.Calculus.MeanValue
import Mathlib.Analysis.SpecificLimits.Basic
import Mathlib.Analysis.SpecialFunctions.ExpDeriv

set_option autoImplicit false

namespace Verif.Hnc

open Real

/-! ### Bounds -/

/-- A bound which a finite family puts on itself. -/
theorem sup_self {ι : Type*} [Fintype ι] {u : ι → ℝ} {α θ : ℝ} (hθ : θ < 1)
    (h : ∀ t, (∀ i, |u i| ≤ t) → ∀ i, |u i| ≤ α + θ * t) (i : ι) : |u i| ≤ α / (1 - θ) := by
  obtain ⟨i0, _, h0⟩ := Finset.exists_max_image Finset.univ (fun i => |u i|) ⟨i, Finset.mem_univ i⟩
  have h1 := h _ (fun i => h0 i (Finset.mem_univ i)) i0
  refine (h0 i (Finset.mem_univ i)).trans ?_
  rw [le_div_iff₀ (by linarith)]
  linarith

theorem sum_le {m : ℕ} {n X Y : Fin m → ℝ} (hn : ∀ a, 0 ≤ n a) {x y : ℝ} (hX : ∀ a, |X a| ≤ x) (hY : ∀ a, |Y a| ≤ y) :
    |∑ s, X s * n s * Y s| ≤ x * (∑ s, n s) * y := by
  refine (Finset.abs_sum_le_sum_abs _ _).trans ?_
  rw [Finset.mul_sum, Finset.sum_mul]
  refine Finset.sum_le_sum fun s _ => ?_
  rw [abs_mul, abs_mul, abs_of_nonneg (hn s)]
  have hx : 0 ≤ x := (abs_nonneg _).trans (hX s)
  exact mul_le_mul (mul_le_mul_of_nonneg_right (hX s) (hn s)) (hY s) (abs_nonneg _) (mul_nonneg hx (hn s))

theorem oz_det {m : ℕ} {n : Fin m → ℝ} (hn : ∀ a, 0 ≤ n a) {C : Matrix (Fin m) (Fin m) ℝ} {c : ℝ}
    (hC : ∀ a b, |C a b| ≤ c) (hc : c * ∑ s, n s < 1) : (1 - C * Matrix.diagonal n).det ≠ 0 := by
  refine det_ne_zero_of_sum_row_lt_diag fun a => ?_
  have e : ∀ b, (1 - C * Matrix.diagonal n) a b = (if a = b then 1 else 0) - C a b * n b := by
    intro b
    rw [Matrix.sub_apply, Matrix.one_apply, Matrix.mul_diagonal]
  have h1 : ∑ b ∈ Finset.univ.erase a, ‖(1 - C * Matrix.diagonal n) a b‖ ≤ ∑ b ∈ Finset.univ.erase a, c * n b := by
    refine Finset.sum_le_sum fun b hb => ?_
    rw [e, if_neg (Finset.ne_of_mem_erase hb).symm, zero_sub, norm_neg, Real.norm_eq_abs, abs_mul, abs_of_nonneg (hn b)]
    exact mul_le_mul_of_nonneg_right (hC a b) (hn b)
  have h2 : 1 - c * n a ≤ ‖(1 - C * Matrix.diagonal n) a a‖ := by
    rw [e, if_pos rfl, Real.norm_eq_abs]
    have := (abs_le.1 (hC a a)).2
    have h3 : C a a * n a ≤ c * n a := mul_le_mul_of_nonneg_right this (hn a)
    exact (by linarith : 1 - c * n a ≤ 1 - C a a * n a).trans (le_abs_self _)
  have h3 : c * ∑ s, n s = c * n a + ∑ b ∈ Finset.univ.erase a, c * n b := by
    rw [← Finset.mul_sum, ← mul_add, Finset.add_sum_erase _ _ (Finset.mem_univ a)]
  linarith

/-- The indirect correlations. -/
theorem oz_indirect {m : ℕ} {n : Fin m → ℝ} (hn : ∀ a, 0 ≤ n a) {C H : Matrix (Fin m) (Fin m) ℝ} (h : OrnsteinZernike n C H)
    {c : ℝ} (hC : ∀ a b, |C a b| ≤ c) (hc : c * ∑ s, n s < 1) (a b : Fin m) :
    |H a b| ≤ c / (1 - c * ∑ s, n s) ∧ |H a b - C a b| ≤ c ^ 2 * (∑ s, n s) / (1 - c * ∑ s, n s) := by
  have h1 : ∀ a b, |H a b| ≤ c / (1 - c * ∑ s, n s) := by
    intro a b
    refine sup_self (u := fun i : Fin m × Fin m => H i.1 i.2) hc (fun t ht i => ?_) (a, b)
    show |H i.1 i.2| ≤ _
    rw [h i.1 i.2]
    have := sum_le hn (fun s => hC i.1 s) (fun s => ht (s, i.2))
    exact (abs_add_le _ _).trans (add_le_add (hC _ _) this)
  refine ⟨h1 a b, ?_⟩
  have e : H a b - C a b = ∑ s, C a s * n s * H s b := by
    rw [h a b]
    ring
  rw [e]
  refine (sum_le hn (fun s => hC a s) (fun s => h1 s b)).trans_eq ?_
  ring

/-- How the indirect correlations change. -/
theorem oz_diff {m : ℕ} {n : Fin m → ℝ} (hn : ∀ a, 0 ≤ n a) {C H C' H' : Matrix (Fin m) (Fin m) ℝ}
    (h : OrnsteinZernike n C H) (h' : OrnsteinZernike n C' H') {c d : ℝ} (hC : ∀ a b, |C a b| ≤ c) (hC' : ∀ a b, |C' a b| ≤ c)
    (hc : c * ∑ s, n s < 1) (hd : ∀ a b, |C a b - C' a b| ≤ d) (a b : Fin m) :
    |(H a b - C a b) - (H' a b - C' a b)| ≤ ((1 / (1 - c * ∑ s, n s)) ^ 2 - 1) * d := by
  have h1 := fun a b => (oz_indirect hn h hC hc a b).1
  set ν := ∑ s, n s with hν
  have key := sup_self (u := fun i : Fin m × Fin m => (H i.1 i.2 - C i.1 i.2) - (H' i.1 i.2 - C' i.1 i.2))
    (α := d * ν * (c / (1 - c * ν)) + c * ν * d) hc (fun t ht i => ?_) (a, b)
  · refine key.trans_eq ?_
    obtain ⟨y, hy⟩ : ∃ y, c * ν = 1 - y := ⟨1 - c * ν, by ring⟩
    have hy0 : y ≠ 0 := by intro h0; rw [hy, h0] at hc; linarith
    have e1 : d * ν * (c / (1 - c * ν)) = d * (1 - y) / y := by
      rw [← hy, hy, sub_sub_cancel]
      rw [← hy]
      ring
    rw [e1, hy, sub_sub_cancel]
    field_simp
    ring
  · show |(H i.1 i.2 - C i.1 i.2) - (H' i.1 i.2 - C' i.1 i.2)| ≤ _
    have e : (H i.1 i.2 - C i.1 i.2) - (H' i.1 i.2 - C' i.1 i.2) =
        ∑ s, (C i.1 s - C' i.1 s) * n s * H s i.2 + ∑ s, C' i.1 s * n s * (C s i.2 - C' s i.2) +
          ∑ s, C' i.1 s * n s * ((H s i.2 - C s i.2) - (H' s i.2 - C' s i.2)) := by
      rw [h i.1 i.2, h' i.1 i.2, ← Finset.sum_add_distrib, ← Finset.sum_add_distrib]
      simp only [add_sub_cancel_left]
      rw [← Finset.sum_sub_distrib]
      refine Finset.sum_congr rfl fun s _ => ?_
      ring
    rw [e]
    refine (abs_add_three _ _ _).trans ?_
    have s1 := sum_le hn (fun s => hd i.1 s) (fun s => h1 s i.2)
    have s2 := sum_le hn (fun s => hC' i.1 s) (fun s => hd s i.2)
    have s3 := sum_le hn (fun s => hC' i.1 s) (fun s => ht (s, i.2))
    rw [← hν] at s1 s2 s3
    linarith

theorem fourierSine_le {M : ℕ} (hM : 0 < M) (k r f : ℕ → ℝ) {x : ℝ} (hx : ∀ j < 2 * M, |f j| ≤ x) {n : ℕ} (hn : n < 2 * M)
    {A : ℝ} (hk : k n ≠ 0) (hA : 4 * π * |r 1 - r 0| * ∑ j ∈ Finset.range (2 * M), |r j| ≤ A * |k n|) :
    |fourierSine (2 * M) k r f n| ≤ A * x := by
  have hx0 : 0 ≤ x := (abs_nonneg _).trans (hx 0 (by omega))
  have hpi := pi_pos
  have hk0 : 0 < |k n| := abs_pos.2 hk
  rw [fourierSine_eq hM _ _ _ hn, abs_mul, abs_div, abs_mul, abs_of_pos (by positivity : 0 < 4 * π)]
  have h1 : |sineSum (2 * M) (fun j => r j * f j) n| ≤ (∑ j ∈ Finset.range (2 * M), |r j|) * x := by
    unfold sineSum
    refine (Finset.abs_sum_le_sum_abs _ _).trans ?_
    rw [Finset.sum_mul]
    refine Finset.sum_le_sum fun j hj => ?_
    rw [abs_mul, abs_mul]
    have := abs_sin_le_one (π / ((2 * M : ℕ) : ℝ) * (j + 1 / 2) * (n + 1 / 2))
    have h2 := hx j (Finset.mem_range.1 hj)
    calc |r j| * |f j| * _ ≤ |r j| * |f j| * 1 := mul_le_mul_of_nonneg_left this (by positivity)
      _ ≤ _ := by
        rw [mul_one]
        exact mul_le_mul_of_nonneg_left h2 (abs_nonneg _)
  refine (mul_le_mul_of_nonneg_left h1 (by positivity)).trans ?_
  rw [div_mul_eq_mul_div, div_le_iff₀ hk0]
  have := mul_le_mul_of_nonneg_right hA hx0
  linarith

theorem abs_exp_sub_one {x L : ℝ} (h : |x| ≤ L) : |exp x - 1| ≤ exp L - 1 := by
  have h2 := abs_le.1 h
  have h3 : exp x ≤ exp L := exp_le_exp.2 h2.2
  have h4 : exp (-x) ≤ exp L := exp_le_exp.2 (by linarith)
  have h5 := add_one_le_exp x
  have h6 := add_one_le_exp (-x)
  rw [abs_le]
  constructor <;> linarith

theorem exp_sub_id_lipschitz {x y L : ℝ} (hx : |x| ≤ L) (hy : |y| ≤ L) :
    |(exp x - x) - (exp y - y)| ≤ (exp L - 1) * |x - y| := by
  have hd : ∀ z ∈ Set.Icc (-L) L, HasDerivWithinAt (fun z => exp z - z) (exp z - 1) (Set.Icc (-L) L) z := fun z _ =>
    ((Real.hasDerivAt_exp z).sub (hasDerivAt_id z)).hasDerivWithinAt
  have := (convex_Icc (-L) L).norm_image_sub_le_of_norm_hasDerivWithin_le (C := exp L - 1) hd
    (fun z hz => abs_exp_sub_one (abs_le.2 hz)) (abs_le.1 hy) (abs_le.1 hx)
  simpa [Real.norm_eq_abs] using this

/-! ### When the scheme contracts -/

/-- A bound on the direct correlation function. -/
noncomputable def cBound (A V W R : ℝ) : ℝ := A * (exp (R + V) - 1 + R) + W

/-- A bound on the rate at which distances shrink in a cycle without mixing. -/
noncomputable def rate (A B V W R ν : ℝ) : ℝ := B * (((1 / (1 - cBound A V W R * ν)) ^ 2 - 1) * (A * (exp (R + V) - 1)))

/-- The rate with mixing. -/
noncomputable def mixed (mix q : ℝ) : ℝ := mix + (1 - mix) * q

namespace Input

variable {m : ℕ} {p : Input m}

/-- What is needed of the relation between the direct and the total correlation functions. -/
structure OzBound (oz : ℝ → Matrix (Fin m) (Fin m) ℝ → Matrix (Fin m) (Fin m) ℝ) (c ν : ℝ) : Prop where
  symm : ∀ mult C, PairSymm C → PairSymm (oz mult C)
  indirect : ∀ mult C, 1 ≤ mult → PairSymm C → (∀ a b, |C a b| ≤ c) → ∀ a b, |oz mult C a b - C a b| ≤ c ^ 2 * ν / (1 - c * ν)
  diff : ∀ mult C C', 1 ≤ mult → PairSymm C → PairSymm C' → (∀ a b, |C a b| ≤ c) → (∀ a b, |C' a b| ≤ c) →
    ∀ d, (∀ a b, |C a b - C' a b| ≤ d) → ∀ a b,
      |(oz mult C a b - C a b) - (oz mult C' a b - C' a b)| ≤ ((1 / (1 - c * ν)) ^ 2 - 1) * d

/-- A condition under which the cycles contract.  `A` and `B` bound the sine transforms to and from the
space of wavenumbers, `V` and `W` bound the parts of the potential of short and long range, divided by the
temperature, `R` the nodal function, and `ν` stands for the density.  See `Weak` and `WeakT`. -/
structure Contracts (p : Input m) (oz : ℝ → Matrix (Fin m) (Fin m) ℝ → Matrix (Fin m) (Fin m) ℝ) (ν : ℝ) (M : ℕ)
    (A B V W R : ℝ) : Prop where
  grid : p.GridOk M
  symm : p.DataSymm
  dens : 0 ≤ ν
  mix0 : 0 ≤ p.mix
  mix1 : p.mix < 1
  A0 : 0 ≤ A
  B0 : 0 ≤ B
  V0 : 0 ≤ V
  W0 : 0 ≤ W
  R0 : 0 ≤ R
  toK : ∀ i < p.N, 4 * π * |p.r 1 - p.r 0| * ∑ j ∈ Finset.range p.N, |p.r j| ≤ A * |p.k i|
  toR : ∀ j < p.N, 4 * π * |p.k 1 - p.k 0| * ∑ i ∈ Finset.range p.N, |p.k i| ≤ (B * (2 * π) ^ 3) * |p.r j|
  short : ∀ a b, ∀ j < p.N, |p.vs 1 a b j| ≤ V
  long : ∀ a b, ∀ j < p.N, |p.vlk 1 a b j| ≤ W
  small : cBound A V W R * ν < 1
  ball : B * (cBound A V W R ^ 2 * ν / (1 - cBound A V W R * ν) + W) ≤ R
  contracts : rate A B V W R ν < 1
  relation : OzBound oz (cBound A V W R) ν

/-- States which the bounds hold for. -/
structure Near (p : Input m) (V R : ℝ) (s : State m) : Prop where
  symm : StateSymm s
  ns : ∀ a b, ∀ j < p.N, |s.Ns a b j| ≤ R
  log : ∀ a b, ∀ j < p.N, |s.logG a b j - s.Ns a b j| ≤ V

/-- The cycle. -/
noncomputable abbrev cycle (p : Input m) (oz : ℝ → Matrix (Fin m) (Fin m) ℝ → Matrix (Fin m) (Fin m) ℝ) : ℝ → State m → State m := p.step oz

/-- The new nodal function before the mixing. -/
noncomputable abbrev nodal (p : Input m) (oz : ℝ → Matrix (Fin m) (Fin m) ℝ → Matrix (Fin m) (Fin m) ℝ) : ℝ → State m → Fin m → Fin m → ℕ → ℝ := p.full oz

variable {M : ℕ} {A B V W R ν : ℝ} {oz : ℝ → Matrix (Fin m) (Fin m) ℝ → Matrix (Fin m) (Fin m) ℝ}

theorem vs_mult (p : Input m) (mult : ℝ) (a b : Fin m) (j : ℕ) : p.vs mult a b j = p.vs 1 a b j / mult := by
  unfold vs
  rw [mul_one, ← div_div]
  ring

theorem vlk_mult (p : Input m) (mult : ℝ) (a b : Fin m) (j : ℕ) : p.vlk mult a b j = p.vlk 1 a b j / mult := by
  unfold vlk
  rw [mul_one, ← div_div]
  ring

theorem abs_div_le {x y t : ℝ} (h : |x| ≤ y) (ht : 1 ≤ t) : |x / t| ≤ y := by
  rw [abs_div, abs_of_pos (by linarith : 0 < t)]
  exact (div_le_self (abs_nonneg _) ht).trans h

section

variable (hw : p.Contracts oz ν M A B V W R)

include hw

theorem csK_le {s : State m} (hs : p.Near V R s) (a b : Fin m) {i : ℕ} (hi : i < p.N) :
    |p.csK s a b i| ≤ A * (exp (R + V) - 1 + R) := by
  have h1 := hw.toK i hi
  have hk := hw.grid.k i hi
  have h2 : ∀ j < p.N, |(exp (s.logG a b j) - 1) - s.Ns a b j| ≤ exp (R + V) - 1 + R := by
    intro j hj
    have n1 := hs.ns a b j hj
    have l1 : |s.logG a b j| ≤ R + V := by
      have e : s.logG a b j = s.Ns a b j + (s.logG a b j - s.Ns a b j) := by ring
      rw [e]
      exact (abs_add_le _ _).trans (add_le_add n1 (hs.log a b j hj))
    exact (abs_sub _ _).trans (add_le_add (abs_exp_sub_one l1) n1)
  unfold csK
  rw [hw.grid.even] at h1 h2 hi ⊢
  exact fourierSine_le hw.grid.pos _ _ _ h2 hi hk h1

theorem cK_le {mult : ℝ} (hmult : 1 ≤ mult) {s : State m} (hs : p.Near V R s) {i : ℕ} (hi : i < p.N) (a b : Fin m) :
    |p.cK mult s i a b| ≤ cBound A V W R := by
  unfold cK cBound
  refine (abs_sub _ _).trans (add_le_add (csK_le hw hs a b hi) ?_)
  rw [vlk_mult]
  exact abs_div_le (hw.long a b i hi) hmult

theorem back_le {f : ℕ → ℝ} {x : ℝ} (hx : ∀ i < p.N, |f i| ≤ x) {j : ℕ} (hj : j < p.N) :
    |fourierSine p.N p.r p.k f j / (2 * π) ^ 3| ≤ B * x := by
  have hpi := pi_pos
  have h1 := hw.toR j hj
  have hr := hw.grid.r j hj
  rw [abs_div, abs_of_pos (by positivity : 0 < (2 * π) ^ 3), div_le_iff₀ (by positivity)]
  rw [hw.grid.even] at h1 hx hj ⊢
  refine (fourierSine_le hw.grid.pos _ _ _ hx hj hr h1).trans_eq ?_
  ring

theorem nodal_le {mult : ℝ} (hmult : 1 ≤ mult) {s : State m} (hs : p.Near V R s) (a b : Fin m) {j : ℕ} (hj : j < p.N) :
    |p.nodal oz mult s a b j| ≤ R := by
  refine (back_le hw (x := cBound A V W R ^ 2 * ν / (1 - cBound A V W R * ν) + W)
    (fun i hi => ?_) hj).trans hw.ball
  have h1 := hw.relation.indirect mult _ hmult (cK_symm hw.symm hs.symm mult i) (cK_le hw hmult hs hi) a b
  have e : oz mult (p.cK mult s i) a b - p.csK s a b i =
      (oz mult (p.cK mult s i) a b - p.cK mult s i a b) - p.vlk mult a b i := by
    unfold cK
    ring
  rw [e]
  refine (abs_sub _ _).trans (add_le_add h1 ?_)
  rw [vlk_mult]
  exact abs_div_le (hw.long a b i hi) hmult

theorem nodal_diff {mult : ℝ} (hmult : 1 ≤ mult) {s s' : State m} (hs : p.Near V R s) (hs' : p.Near V R s')
    (hl : ∀ a b, ∀ j < p.N, s.logG a b j = s.Ns a b j - p.vs mult a b j)
    (hl' : ∀ a b, ∀ j < p.N, s'.logG a b j = s'.Ns a b j - p.vs mult a b j) {d : ℝ}
    (hd : ∀ a b, ∀ j < p.N, |s.Ns a b j - s'.Ns a b j| ≤ d) (a b : Fin m) {j : ℕ} (hj : j < p.N) :
    |p.nodal oz mult s a b j - p.nodal oz mult s' a b j| ≤ rate A B V W R ν * d := by
  have hcs : ∀ i < p.N, ∀ a b, |p.cK mult s i a b - p.cK mult s' i a b| ≤ A * ((exp (R + V) - 1) * d) := by
    intro i hi a b
    have h1 := hw.toK i hi
    have hk := hw.grid.k i hi
    have e : p.cK mult s i a b - p.cK mult s' i a b = p.csK s a b i - p.csK s' a b i := by
      unfold cK
      ring
    rw [e]
    have h2 : ∀ j < p.N, |(exp (s.logG a b j) - 1 - s.Ns a b j) - (exp (s'.logG a b j) - 1 - s'.Ns a b j)| ≤
        (exp (R + V) - 1) * d := by
      intro j hj
      have hv : |p.vs mult a b j| ≤ V := by
        rw [vs_mult]
        exact abs_div_le (hw.short a b j hj) hmult
      have b1 : |s.logG a b j| ≤ R + V := by
        rw [hl a b j hj]
        exact (abs_sub _ _).trans (add_le_add (hs.ns a b j hj) hv)
      have b2 : |s'.logG a b j| ≤ R + V := by
        rw [hl' a b j hj]
        exact (abs_sub _ _).trans (add_le_add (hs'.ns a b j hj) hv)
      have e2 : (exp (s.logG a b j) - 1 - s.Ns a b j) - (exp (s'.logG a b j) - 1 - s'.Ns a b j) =
          (exp (s.logG a b j) - s.logG a b j) - (exp (s'.logG a b j) - s'.logG a b j) := by
        have x1 := hl a b j hj
        have x2 := hl' a b j hj
        linarith
      have e3 : s.logG a b j - s'.logG a b j = s.Ns a b j - s'.Ns a b j := by
        rw [hl a b j hj, hl' a b j hj]
        ring
      rw [e2]
      refine (exp_sub_id_lipschitz b1 b2).trans ?_
      rw [e3]
      refine mul_le_mul_of_nonneg_left (hd a b j hj) ?_
      have := add_one_le_exp (R + V)
      have := hw.R0
      have := hw.V0
      linarith
    unfold csK
    rw [hw.grid.even] at h1 h2 hi ⊢
    rw [← fourierSine_sub hw.grid.pos _ _ _ _ hi]
    exact fourierSine_le hw.grid.pos _ _ _ h2 hi hk h1
  have e : p.nodal oz mult s a b j - p.nodal oz mult s' a b j = fourierSine p.N p.r p.k (fun i =>
      (oz mult (p.cK mult s i) a b - p.csK s a b i) -
        (oz mult (p.cK mult s' i) a b - p.csK s' a b i)) j / (2 * π) ^ 3 := by
    unfold nodal full
    have hj' := hj
    rw [hw.grid.even] at hj' ⊢
    rw [← sub_div, ← fourierSine_sub hw.grid.pos _ _ _ _ hj']
  rw [e]
  refine (back_le hw (fun i hi => ?_) hj).trans_eq (?_ : B * (((1 / (1 - cBound A V W R * ν)) ^ 2 - 1) *
    (A * ((exp (R + V) - 1) * d))) = _)
  · have e1 : (oz mult (p.cK mult s i) a b - p.csK s a b i) -
        (oz mult (p.cK mult s' i) a b - p.csK s' a b i) =
      (oz mult (p.cK mult s i) a b - p.cK mult s i a b) -
        (oz mult (p.cK mult s' i) a b - p.cK mult s' i a b) := by
      unfold cK
      ring
    rw [e1]
    exact hw.relation.diff mult _ _ hmult (cK_symm hw.symm hs.symm mult i) (cK_symm hw.symm hs'.symm mult i)
      (cK_le hw hmult hs hi) (cK_le hw hmult hs' hi) _ (hcs i hi) a b
  · unfold rate
    ring

theorem near_cycle {mult : ℝ} (hmult : 1 ≤ mult) {s : State m} (hs : p.Near V R s) : p.Near V R (p.cycle oz mult s) := by
  refine ⟨step_symm hw.relation.symm hw.symm hs.symm mult, fun a b j hj => ?_, fun a b j hj => ?_⟩
  · show |(1 - p.mix) * p.nodal oz mult s a b j + p.mix * s.Ns a b j| ≤ R
    have h1 := abs_le.1 (nodal_le hw hmult hs a b hj)
    have h2 := abs_le.1 (hs.ns a b j hj)
    have m0 := hw.mix0
    have m1 := hw.mix1
    rw [abs_le]
    constructor <;> nlinarith
  · show |(p.cycle oz mult s).Ns a b j - p.vs mult a b j - (p.cycle oz mult s).Ns a b j| ≤ V
    rw [sub_sub_cancel_left, abs_neg, vs_mult]
    exact abs_div_le (hw.short a b j hj) hmult

theorem near_init {mult : ℝ} (hmult : 1 ≤ mult) : p.Near V R (p.init mult) := by
  refine ⟨init_symm hw.symm mult, fun a b j hj => ?_, fun a b j hj => ?_⟩
  · show |(0 : ℝ)| ≤ R
    rw [abs_zero]
    exact hw.R0
  · show |-p.vs mult a b j - 0| ≤ V
    rw [sub_zero, abs_neg, vs_mult]
    exact abs_div_le (hw.short a b j hj) hmult

theorem rate_nonneg : 0 ≤ rate A B V W R ν := by
  have hν : 0 ≤ ν := hw.dens
  have he : 0 ≤ exp (R + V) - 1 := by
    have := add_one_le_exp (R + V)
    have := hw.R0
    have := hw.V0
    linarith
  have hc : 0 ≤ cBound A V W R := by
    unfold cBound
    have := hw.A0
    have := hw.W0
    have := hw.R0
    positivity
  have h1 : 1 ≤ 1 / (1 - cBound A V W R * ν) := by
    rw [le_div_iff₀ (by linarith [hw.small])]
    have := mul_nonneg hc hν
    linarith
  unfold rate
  refine mul_nonneg hw.B0 (mul_nonneg ?_ (mul_nonneg hw.A0 he))
  nlinarith

theorem mixed_nonneg : 0 ≤ mixed p.mix (rate A B V W R ν) := by
  unfold mixed
  have := rate_nonneg hw
  have := hw.mix0
  have h1 : 0 ≤ 1 - p.mix := by linarith [hw.mix1]
  positivity

theorem mixed_lt_one : mixed p.mix (rate A B V W R ν) < 1 := by
  unfold mixed
  have h1 : 0 < 1 - p.mix := by linarith [hw.mix1]
  have := mul_lt_mul_of_pos_left hw.contracts h1
  linarith

/-- The states of the loop at one temperature. -/
structure Settled (p : Input m) (V R mult : ℝ) (s : State m) : Prop where
  near : p.Near V R s
  rel : ∀ a b, ∀ j < p.N, s.logG a b j = s.Ns a b j - p.vs mult a b j

theorem settled_cycle {mult : ℝ} (hmult : 1 ≤ mult) {s : State m} (hs : p.Near V R s) : p.Settled V R mult (p.cycle oz mult s) :=
  ⟨near_cycle hw hmult hs, fun _ _ _ _ => rfl⟩

theorem settled_init {mult : ℝ} (hmult : 1 ≤ mult) : p.Settled V R mult (p.init mult) :=
  ⟨near_init hw hmult, fun a b j _ => by simp [init]⟩

/-- The residual shrinks. -/
theorem residual_cycle {mult : ℝ} (hmult : 1 ≤ mult) {s : State m} (hs : p.Settled V R mult s) {d : ℝ}
    (hd : ∀ a b, ∀ j < p.N, |p.nodal oz mult s a b j - s.Ns a b j| ≤ d) :
    (∀ a b, ∀ j < p.N, |(p.cycle oz mult s).Ns a b j - s.Ns a b j| ≤ (1 - p.mix) * d) ∧
      ∀ a b, ∀ j < p.N, |p.nodal oz mult (p.cycle oz mult s) a b j - (p.cycle oz mult s).Ns a b j| ≤
        mixed p.mix (rate A B V W R ν) * d := by
  have m1 : 0 < 1 - p.mix := by linarith [hw.mix1]
  have h1 : ∀ a b, ∀ j < p.N, |(p.cycle oz mult s).Ns a b j - s.Ns a b j| ≤ (1 - p.mix) * d := by
    intro a b j hj
    have e : (p.cycle oz mult s).Ns a b j - s.Ns a b j = (1 - p.mix) * (p.nodal oz mult s a b j - s.Ns a b j) := by
      show (1 - p.mix) * p.nodal oz mult s a b j + p.mix * s.Ns a b j - _ = _
      ring
    rw [e, abs_mul, abs_of_pos m1]
    exact mul_le_mul_of_nonneg_left (hd a b j hj) m1.le
  refine ⟨h1, fun a b j hj => ?_⟩
  have hc := settled_cycle hw hmult hs.near
  have h2 := nodal_diff hw hmult hc.near hs.near hc.rel hs.rel h1 a b hj
  have e : p.nodal oz mult (p.cycle oz mult s) a b j - (p.cycle oz mult s).Ns a b j =
      (p.nodal oz mult (p.cycle oz mult s) a b j - p.nodal oz mult s a b j) + p.mix * (p.nodal oz mult s a b j - s.Ns a b j) := by
    show _ - ((1 - p.mix) * p.nodal oz mult s a b j + p.mix * s.Ns a b j) = _
    ring
  rw [e]
  refine (abs_add_le _ _).trans ?_
  rw [abs_mul, abs_of_nonneg hw.mix0]
  have h3 := mul_le_mul_of_nonneg_left (hd a b j hj) hw.mix0
  unfold mixed
  linarith

theorem iterate_settled {mult : ℝ} (hmult : 1 ≤ mult) (i : ℕ) :
    p.Settled V R mult ((p.cycle oz mult)^[i] (p.init mult)) ∧ ∀ a b, ∀ j < p.N,
      |p.nodal oz mult ((p.cycle oz mult)^[i] (p.init mult)) a b j - ((p.cycle oz mult)^[i] (p.init mult)).Ns a b j| ≤
        mixed p.mix (rate A B V W R ν) ^ i * R := by
  induction i with
  | zero =>
    refine ⟨settled_init hw hmult, fun a b j hj => ?_⟩
    simp only [Function.iterate_zero, id, pow_zero, one_mul]
    show |p.nodal oz mult (p.init mult) a b j - 0| ≤ R
    rw [sub_zero]
    exact nodal_le hw hmult (near_init hw hmult) a b hj
  | succ i ih =>
    rw [Function.iterate_succ_apply']
    refine ⟨settled_cycle hw hmult ih.1.near, fun a b j hj => ?_⟩
    refine ((residual_cycle hw hmult ih.1 ih.2).2 a b j hj).trans_eq ?_
    ring

/-- There is a solution. -/
theorem solution_exists {mult : ℝ} (hmult : 1 ≤ mult) : ∃ u, p.Settled V R mult u ∧
    ∀ a b, ∀ j < p.N, p.nodal oz mult u a b j = u.Ns a b j := by
  set ρ := mixed p.mix (rate A B V W R ν) with hρ
  have hρ0 : 0 ≤ ρ := mixed_nonneg hw
  have hρ1 : ρ < 1 := mixed_lt_one hw
  have hq0 := rate_nonneg hw
  have hit := iterate_settled hw hmult
  set U := fun i => (p.cycle oz mult)^[i] (p.init mult) with hU
  have hdist : ∀ a b, ∀ j < p.N, ∀ i, dist ((U i).Ns a b j) ((U (i + 1)).Ns a b j) ≤ R * ρ ^ i := by
    intro a b j hj i
    have h1 := (residual_cycle hw hmult (hit i).1 (hit i).2).1 a b j hj
    rw [dist_comm, Real.dist_eq]
    have e : U (i + 1) = p.cycle oz mult (U i) := by rw [hU]; exact Function.iterate_succ_apply' _ _ _
    rw [e]
    refine h1.trans ?_
    have h2 : 0 ≤ ρ ^ i * R := mul_nonneg (pow_nonneg hρ0 i) hw.R0
    have := hw.mix0
    nlinarith
  have hlim : ∀ a b, ∀ j, ∃ l, j < p.N → Filter.Tendsto (fun i => (U i).Ns a b j) Filter.atTop (nhds l) := by
    intro a b j
    by_cases hj : j < p.N
    · obtain ⟨l, hl⟩ := cauchySeq_tendsto_of_complete (cauchySeq_of_le_geometric ρ R hρ1 (hdist a b j hj))
      exact ⟨l, fun _ => hl⟩
    · exact ⟨0, fun h => absurd h hj⟩
  choose L hL using hlim
  have hLs : ∀ a b, ∀ j < p.N, L a b j = L b a j := by
    intro a b j hj
    refine tendsto_nhds_unique (hL a b j hj) ?_
    have e : (fun i => (U i).Ns a b j) = fun i => (U i).Ns b a j := by
      funext i
      rw [(hit i).1.near.symm.2.1 a b]
    rw [e]
    exact hL b a j hj
  have hLR : ∀ a b, ∀ j < p.N, |L a b j| ≤ R := fun a b j hj =>
    le_of_tendsto (hL a b j hj).abs (Filter.Eventually.of_forall fun i => (hit i).1.near.ns a b j hj)
  have hLd : ∀ a b, ∀ j < p.N, ∀ i, |(U i).Ns a b j - L a b j| ≤ R * ρ ^ i / (1 - ρ) := fun a b j hj i =>
    dist_le_of_le_geometric_of_tendsto ρ R hρ1 (hdist a b j hj) (hL a b j hj) i
  set L' : Fin m → Fin m → ℕ → ℝ := fun a b j => if j < p.N then L a b j else 0 with hL'
  have hL'e : ∀ a b, ∀ j < p.N, L' a b j = L a b j := fun a b j hj => by rw [hL']; exact if_pos hj
  have hL's : PairSymm L' := by
    intro a b
    funext j
    rw [hL']
    simp only
    split_ifs with hj
    · exact hLs a b j hj
    · rfl
  set u : State m := ⟨fun a b j => L' a b j - p.vs mult a b j, L', L', 0⟩ with hu
  have hset : p.Settled V R mult u := by
    refine ⟨⟨⟨fun a b => ?_, hL's, hL's⟩, fun a b j hj => ?_, fun a b j hj => ?_⟩, fun a b j _ => rfl⟩
    · show (fun j => L' a b j - p.vs mult a b j) = fun j => L' b a j - p.vs mult b a j
      rw [hL's a b, vs_symm hw.symm mult a b]
    · show |L' a b j| ≤ R
      rw [hL'e a b j hj]
      exact hLR a b j hj
    · show |L' a b j - p.vs mult a b j - L' a b j| ≤ V
      rw [sub_sub_cancel_left, abs_neg, vs_mult]
      exact abs_div_le (hw.short a b j hj) hmult
  refine ⟨u, hset, fun a b j hj => ?_⟩
  have hb : ∀ i, |p.nodal oz mult u a b j - u.Ns a b j| ≤
      (rate A B V W R ν * (R / (1 - ρ)) + R + R / (1 - ρ)) * ρ ^ i := by
    intro i
    have hd : ∀ a b, ∀ j < p.N, |u.Ns a b j - (U i).Ns a b j| ≤ R * ρ ^ i / (1 - ρ) := by
      intro a b j hj
      rw [abs_sub_comm]
      show |(U i).Ns a b j - L' a b j| ≤ _
      rw [hL'e a b j hj]
      exact hLd a b j hj i
    have h1 := nodal_diff hw hmult hset.near (hit i).1.near hset.rel (hit i).1.rel hd a b hj
    have h2 := (hit i).2 a b j hj
    have h3 := hd a b j hj
    rw [abs_sub_comm] at h3
    have e : p.nodal oz mult u a b j - u.Ns a b j = (p.nodal oz mult u a b j - p.nodal oz mult (U i) a b j) +
        (p.nodal oz mult (U i) a b j - (U i).Ns a b j) + ((U i).Ns a b j - u.Ns a b j) := by ring
    rw [e]
    refine (abs_add_three _ _ _).trans ((add_le_add (add_le_add h1 h2) h3).trans_eq ?_)
    ring
  have ht : Filter.Tendsto (fun i : ℕ => (rate A B V W R ν * (R / (1 - ρ)) + R + R / (1 - ρ)) * ρ ^ i) Filter.atTop
      (nhds 0) := by
    simpa using (tendsto_pow_atTop_nhds_zero_of_lt_one hρ0 hρ1).const_mul
      (rate A B V W R ν * (R / (1 - ρ)) + R + R / (1 - ρ))
  have h0 : |p.nodal oz mult u a b j - u.Ns a b j| ≤ 0 := ge_of_tendsto' ht hb
  exact sub_eq_zero.1 (abs_eq_zero.1 (le_antisymm h0 (abs_nonneg _)))

/-- A small residual means a small distance to the solution. -/
theorem residual_near {mult : ℝ} (hmult : 1 ≤ mult) {s u : State m} (hs : p.Settled V R mult s) (hu : p.Settled V R mult u)
    (hfix : ∀ a b, ∀ j < p.N, p.nodal oz mult u a b j = u.Ns a b j) {d : ℝ}
    (hd : ∀ a b, ∀ j < p.N, |p.nodal oz mult s a b j - s.Ns a b j| ≤ d) (a b : Fin m) {j : ℕ} (hj : j < p.N) :
    |s.Ns a b j - u.Ns a b j| ≤ d / (1 - rate A B V W R ν) := by
  refine sup_self (u := fun i : Fin m × Fin m × Fin p.N => s.Ns i.1 i.2.1 i.2.2 - u.Ns i.1 i.2.1 i.2.2) hw.contracts
    (fun t ht i => ?_) (a, b, ⟨j, hj⟩)
  have h1 := nodal_diff hw hmult hs.near hu.near hs.rel hu.rel (fun a b j hj => ht (a, b, ⟨j, hj⟩)) i.1 i.2.1 i.2.2.2
  have h2 := hd i.1 i.2.1 i.2.2 i.2.2.2
  rw [hfix i.1 i.2.1 i.2.2 i.2.2.2] at h1
  have e : s.Ns i.1 i.2.1 i.2.2 - u.Ns i.1 i.2.1 i.2.2 = -(p.nodal oz mult s i.1 i.2.1 i.2.2 - s.Ns i.1 i.2.1 i.2.2) +
    (p.nodal oz mult s i.1 i.2.1 i.2.2 - u.Ns i.1 i.2.1 i.2.2) := by ring
  show |s.Ns i.1 i.2.1 i.2.2 - u.Ns i.1 i.2.1 i.2.2| ≤ _
  rw [e]
  refine (abs_add_le _ _).trans ?_
  rw [abs_neg]
  linarith

/-! ### The loop -/

/-- The change in the last cycle bounds the residual. -/
def Link (p : Input m) (oz : ℝ → Matrix (Fin m) (Fin m) ℝ → Matrix (Fin m) (Fin m) ℝ) (ρ mult : ℝ) (s : State m) : Prop :=
  ∀ d, (∀ a b, ∀ j < p.N, |s.Ns a b j - s.NsOld a b j| ≤ d) →
    ∀ a b, ∀ j < p.N, |p.nodal oz mult s a b j - s.Ns a b j| ≤ ρ * (d / (1 - p.mix))

theorem link_cycle {mult : ℝ} (hmult : 1 ≤ mult) {s : State m} (hs : p.Settled V R mult s) :
    p.Link oz (mixed p.mix (rate A B V W R ν)) mult (p.cycle oz mult s) := by
  intro d hd
  have m1 : 0 < 1 - p.mix := by linarith [hw.mix1]
  refine (residual_cycle hw hmult hs (d := d / (1 - p.mix)) fun a b j hj => ?_).2
  have h1 := hd a b j hj
  have e : (p.cycle oz mult s).Ns a b j - (p.cycle oz mult s).NsOld a b j = (1 - p.mix) * (p.nodal oz mult s a b j - s.Ns a b j) := by
    show (1 - p.mix) * p.nodal oz mult s a b j + p.mix * s.Ns a b j - s.Ns a b j = _
    ring
  rw [e, abs_mul, abs_of_pos m1] at h1
  rw [le_div_iff₀ m1]
  linarith

omit hw in
theorem err_le {s : State m} {x : ℝ} (h : ∀ a b, ∀ j < p.N, |s.Ns a b j - s.NsOld a b j| ≤ x) :
    p.err s ≤ m * (m * (p.N * x ^ 2)) := by
  unfold err
  have e : (m * (m * (p.N * x ^ 2)) : ℝ) = ∑ _a : Fin m, ∑ _b : Fin m, ∑ _j ∈ Finset.range p.N, x ^ 2 := by simp
  rw [e]
  refine Finset.sum_le_sum fun a _ => Finset.sum_le_sum fun b _ => Finset.sum_le_sum fun j hj => ?_
  rw [← sq_abs]
  exact pow_le_pow_left₀ (abs_nonneg _) (h a b j (Finset.mem_range.1 hj)) 2

omit hw in
theorem le_of_err {s : State m} (h : p.err s ≤ 1 / 1000000) (a b : Fin m) {j : ℕ} (hj : j < p.N) :
    |s.Ns a b j - s.NsOld a b j| ≤ 1 / 1000 := by
  have h1 : (s.Ns a b j - s.NsOld a b j) ^ 2 ≤ p.err s := by
    unfold err
    have s1 : (s.Ns a b j - s.NsOld a b j) ^ 2 ≤ ∑ j ∈ Finset.range p.N, (s.Ns a b j - s.NsOld a b j) ^ 2 :=
      Finset.single_le_sum (f := fun j => (s.Ns a b j - s.NsOld a b j) ^ 2) (fun _ _ => sq_nonneg _) (Finset.mem_range.2 hj)
    have s2 := Finset.single_le_sum (f := fun b => ∑ j ∈ Finset.range p.N, (s.Ns a b j - s.NsOld a b j) ^ 2)
      (fun _ _ => Finset.sum_nonneg fun _ _ => sq_nonneg _) (Finset.mem_univ b)
    have s3 := Finset.single_le_sum (f := fun a => ∑ b, ∑ j ∈ Finset.range p.N, (s.Ns a b j - s.NsOld a b j) ^ 2)
      (fun _ _ => Finset.sum_nonneg fun _ _ => Finset.sum_nonneg fun _ _ => sq_nonneg _) (Finset.mem_univ a)
    exact s1.trans (s2.trans s3)
  exact abs_le_of_sq_le_sq (by linarith) (by norm_num)

/-- The loop at one temperature. -/
theorem while_converges {mult : ℝ} (hmult : 1 ≤ mult) {n : ℕ}
    (hn : m * (m * (p.N * (mixed p.mix (rate A B V W R ν) ^ n * (2 * R)) ^ 2)) ≤ 1 / 1000000) (hn' : n + 1 < 2000)
    {s t : State m} (hs : p.Settled V R mult s) (h0 : s.iter = 0)
    (hl : p.Link oz (mixed p.mix (rate A B V W R ν)) mult s ∨ p.cond s = true)
    (h : p.While oz mult s t) :
    t.iter ≤ n + 1 ∧ p.Settled V R mult t ∧ ∀ a b, ∀ j < p.N,
      |p.nodal oz mult t a b j - t.Ns a b j| ≤
        mixed p.mix (rate A B V W R ν) / (1000 * (1 - p.mix)) := by
  set ρ := mixed p.mix (rate A B V W R ν) with hρ
  have hρ0 : 0 ≤ ρ := mixed_nonneg hw
  have hρ1 : ρ < 1 := mixed_lt_one hw
  have m1 : 0 < 1 - p.mix := by linarith [hw.mix1]
  have m0 := hw.mix0
  have hR := hw.R0
  have key : ∀ s t : State m, p.While oz mult s t → p.Settled V R mult s → s.iter ≤ n + 1 →
      (∀ a b, ∀ j < p.N, |p.nodal oz mult s a b j - s.Ns a b j| ≤ ρ ^ s.iter * (2 * R)) →
      (1 ≤ s.iter → ∀ a b, ∀ j < p.N, |s.Ns a b j - s.NsOld a b j| ≤ ρ ^ (s.iter - 1) * (2 * R)) →
      (p.Link oz ρ mult s ∨ p.cond s = true) → t.iter ≤ n + 1 ∧ p.Settled V R mult t ∧ p.Link oz ρ mult t := by
    intro s t h
    induction h with
    | stop hc =>
      intro hs hi _ _ hl
      refine ⟨hi, hs, hl.resolve_right ?_⟩
      rw [hc]
      simp
    | @step s s' hc _ ih =>
      intro hs hi hres hch hl
      have hlt : s.iter ≤ n := by
        by_contra hcon
        push Not at hcon
        have h1 := err_le (hch (by omega))
        have h2 := ((cond_iff s).1 hc).2
        have h3 : ρ ^ (s.iter - 1) * (2 * R) ≤ ρ ^ n * (2 * R) :=
          mul_le_mul_of_nonneg_right (pow_le_pow_of_le_one hρ0 hρ1.le (by omega)) (by linarith)
        have h4 : (ρ ^ (s.iter - 1) * (2 * R)) ^ 2 ≤ (ρ ^ n * (2 * R)) ^ 2 :=
          pow_le_pow_left₀ (mul_nonneg (pow_nonneg hρ0 _) (by linarith)) h3 2
        have h5 : (m : ℝ) * (m * (p.N * (ρ ^ (s.iter - 1) * (2 * R)) ^ 2)) ≤ m * (m * (p.N * (ρ ^ n * (2 * R)) ^ 2)) := by
          gcongr
        linarith
      have hr := residual_cycle hw hmult hs hres
      refine ih (settled_cycle hw hmult hs.near) (by show s.iter + 1 ≤ n + 1; omega) ?_ ?_ (Or.inl (link_cycle hw hmult hs))
      · intro a b j hj
        refine (hr.2 a b j hj).trans_eq ?_
        show _ = ρ ^ (s.iter + 1) * (2 * R)
        rw [← hρ]
        ring
      · intro _ a b j hj
        refine (hr.1 a b j hj).trans ?_
        show _ ≤ ρ ^ (s.iter + 1 - 1) * (2 * R)
        rw [Nat.add_sub_cancel]
        have : 0 ≤ ρ ^ s.iter * (2 * R) := mul_nonneg (pow_nonneg hρ0 _) (by linarith)
        nlinarith
  obtain ⟨h1, h2, h3⟩ := key s t h hs (by omega) (by
    intro a b j hj
    rw [h0, pow_zero, one_mul]
    have x1 := nodal_le hw hmult hs.near a b hj
    have x2 := hs.near.ns a b j hj
    exact (abs_sub _ _).trans (by linarith)) (by omega) hl
  refine ⟨h1, h2, fun a b j hj => ?_⟩
  have h4 : p.err t ≤ 1 / 1000000 := h.converged.resolve_left (by omega)
  refine (h3 (1 / 1000) (fun a b j hj => le_of_err h4 a b hj) a b j hj).trans_eq ?_
  field_simp

theorem near_iterate {mult : ℝ} (hmult : 1 ≤ mult) {s : State m} (hs : p.Near V R s) (i : ℕ) :
    p.Near V R ((p.cycle oz mult)^[i] s) := by
  induction i with
  | zero => exact hs
  | succ i ih =>
    rw [Function.iterate_succ_apply']
    exact near_cycle hw hmult ih

theorem warm_settled {mult : ℝ} (hmult : 1 ≤ mult) {s : State m} (hs : p.Near V R s) :
    p.Settled V R mult (p.warm oz mult s) ∧
      p.Link oz (mixed p.mix (rate A B V W R ν)) mult (p.warm oz mult s) := by
  have h3 := near_iterate hw hmult hs 3
  have h4 : p.Settled V R mult ((p.cycle oz mult)^[4] s) := by
    rw [Function.iterate_succ_apply']
    exact settled_cycle hw hmult h3
  have h5 := settled_cycle hw hmult h4.near
  have l5 := link_cycle hw hmult h4
  rw [← Function.iterate_succ_apply' (p.cycle oz mult) 4 s] at h5 l5
  exact ⟨⟨⟨h5.near.symm, h5.near.ns, h5.near.log⟩, h5.rel⟩, l5⟩

theorem rest_converges {n : ℕ}
    (hn : m * (m * (p.N * (mixed p.mix (rate A B V W R ν) ^ n * (2 * R)) ^ 2)) ≤ 1 / 1000000) (hn' : n + 1 < 2000)
    {ms : List ℝ} (hms : ∀ x ∈ ms, 1 ≤ x) {s t : State m} {i i' : ℕ} (hs : p.Near V R s)
    (h : p.Rest oz (ms ++ [1]) s i t i') :
    i' ≤ i + (n + 6) * (ms.length + 1) ∧ t.iter ≤ n + 1 ∧ p.Settled V R 1 t ∧ ∀ a b, ∀ j < p.N,
      |p.nodal oz 1 t a b j - t.Ns a b j| ≤ mixed p.mix (rate A B V W R ν) / (1000 * (1 - p.mix)) := by
  induction ms generalizing s i with
  | nil =>
    cases h with
    | next hw1 hr =>
      cases hr
      have hwarm := warm_settled hw le_rfl hs
      obtain ⟨h1, h2, h3⟩ := while_converges hw le_rfl hn hn' hwarm.1 rfl (Or.inl hwarm.2) hw1
      refine ⟨?_, h1, h2, h3⟩
      simp only [List.length_nil]
      omega
  | cons x l ih =>
    cases h with
    | next hw1 hr =>
      have hx := hms x (by simp)
      have hwarm := warm_settled hw hx hs
      obtain ⟨h1, h2, _⟩ := while_converges hw hx hn hn' hwarm.1 rfl (Or.inl hwarm.2) hw1
      obtain ⟨h4, h4', h5, h6⟩ := ih (fun y hy => hms y (by simp [hy])) h2.near hr
      refine ⟨?_, h4', h5, h6⟩
      simp only [List.length_cons]
      have e : (n + 6) * (l.length + 1 + 1) = (n + 6) * (l.length + 1) + (n + 6) := by ring
      omega

/-- The whole scheme. -/
theorem runs_converge (hm : 0 < m) {tmult : List ℝ} (ht : ∀ x ∈ tmult, 1 ≤ x) {n : ℕ}
    (hn : m * (m * (p.N * (mixed p.mix (rate A B V W R ν) ^ n * (2 * R)) ^ 2)) ≤ 1 / 1000000) (hn' : n + 1 < 2000)
    {t : State m} {it : ℕ} (hruns : p.Runs oz (tmult ++ [1]) t it) :
    it ≤ (n + 6) * (tmult.length + 1) ∧ t.iter ≤ n + 1 ∧ ∃ u, p.Settled V R 1 u ∧
      (∀ a b, ∀ j < p.N, p.nodal oz 1 u a b j = u.Ns a b j) ∧
      ∀ a b, ∀ j < p.N, |t.logG a b j - u.logG a b j| ≤
        mixed p.mix (rate A B V W R ν) / (1000 * (1 - mixed p.mix (rate A B V W R ν))) := by
  have hN : 0 < p.N := by have := hw.grid.even; have := hw.grid.pos; omega
  have hend : it ≤ (n + 6) * (tmult.length + 1) ∧ t.iter ≤ n + 1 ∧ p.Settled V R 1 t ∧ ∀ a b, ∀ j < p.N,
      |p.nodal oz 1 t a b j - t.Ns a b j| ≤ mixed p.mix (rate A B V W R ν) / (1000 * (1 - p.mix)) := by
    cases tmult with
    | nil =>
      obtain ⟨s, hw1, hrest⟩ := hruns
      cases hrest
      obtain ⟨h1, h2, h3⟩ := while_converges hw le_rfl hn hn' (settled_init hw le_rfl) rfl (Or.inr (err_init hm hN)) hw1
      refine ⟨?_, h1, h2, h3⟩
      simp only [List.length_nil]
      omega
    | cons x l =>
      obtain ⟨s, hw1, hrest⟩ := hruns
      have hx := ht x (by simp)
      obtain ⟨h1, h2, _⟩ := while_converges hw hx hn hn' (settled_init hw hx) rfl (Or.inr (err_init hm hN)) hw1
      obtain ⟨h4, h4', h5, h6⟩ := rest_converges hw hn hn' (fun y hy => ht y (by simp [hy])) h2.near hrest
      refine ⟨?_, h4', h5, h6⟩
      simp only [List.length_cons]
      have e : (n + 6) * (l.length + 1 + 1) = (n + 6) * (l.length + 1) + (n + 6) := by ring
      omega
  obtain ⟨hit, hit', hset, hres⟩ := hend
  obtain ⟨u, hu, hfix⟩ := solution_exists hw le_rfl
  refine ⟨hit, hit', u, hu, hfix, fun a b j hj => ?_⟩
  have h1 := residual_near hw le_rfl hset hu hfix hres a b hj
  rw [hset.rel a b j hj, hu.rel a b j hj, sub_sub_sub_cancel_right]
  refine h1.trans_eq ?_
  have m1 : (1 - p.mix) ≠ 0 := by linarith [hw.mix1]
  have q1 : 1 - rate A B V W R ν ≠ 0 := by linarith [hw.contracts]
  have e : 1 - mixed p.mix (rate A B V W R ν) = (1 - p.mix) * (1 - rate A B V W R ν) := by
    unfold mixed
    ring
  rw [e, div_div]
  congr 1
  ring

omit hw in
theorem fast_sq {K q ε : ℝ} (hK1 : 1 ≤ K) (hqR : 0 ≤ R * q) (hrate : R * q < ε) (hε : ε ≤ 1 / (2000 * K)) :
    K * (q ^ 1 * (2 * R)) ^ 2 ≤ 1 / 1000000 := by
  have e : K * (q ^ 1 * (2 * R)) ^ 2 = K * (2 * (R * q)) ^ 2 := by ring
  have h1 : 2 * (R * q) ≤ 1 / (1000 * K) := by
    have : 2 * (1 / (2000 * K)) = 1 / (1000 * K) := by field_simp; norm_num
    linarith
  have h2 : (2 * (R * q)) ^ 2 ≤ (1 / (1000 * K)) ^ 2 := pow_le_pow_left₀ (by positivity) h1 2
  have h3 : K * (1 / (1000 * K)) ^ 2 = 1 / 1000000 / K := by field_simp; norm_num
  rw [e]
  refine (mul_le_mul_of_nonneg_left h2 (by linarith)).trans ?_
  rw [h3]
  exact div_le_self (by norm_num) hK1

/-- Without mixing, and if the rate is small, two cycles suffice at each temperature. -/
theorem fast (hm : 0 < m) (hmix : p.mix = 0) {ε : ℝ} (hqε : rate A B V W R ν ≤ ε) (hrate : R * rate A B V W R ν < ε)
    (hε : ε ≤ 1 / (2000 * (m * m * p.N))) (hε2 : ε ≤ 1 / 2) :
    m * (m * (p.N * (mixed p.mix (rate A B V W R ν) ^ 1 * (2 * R)) ^ 2)) ≤ 1 / 1000000 ∧
      mixed p.mix (rate A B V W R ν) / (1000 * (1 - mixed p.mix (rate A B V W R ν))) ≤ ε := by
  have hN : 0 < p.N := by have := hw.grid.even; have := hw.grid.pos; omega
  have hm1 : (1 : ℝ) ≤ m := by exact_mod_cast hm
  have hN1 : (1 : ℝ) ≤ p.N := by exact_mod_cast hN
  have hq0 := rate_nonneg hw
  have hmx : mixed p.mix (rate A B V W R ν) = rate A B V W R ν := by
    unfold mixed
    rw [hmix]
    ring
  rw [hmx]
  generalize rate A B V W R ν = q at hrate hq0 hqε
  obtain ⟨K, hK⟩ : ∃ K : ℝ, K = m * m * p.N := ⟨_, rfl⟩
  rw [← hK] at hε
  have hK1 : 1 ≤ K := by
    rw [hK]
    nlinarith
  have hqR : 0 ≤ R * q := mul_nonneg hw.R0 hq0
  refine ⟨?_, ?_⟩
  · have e : (m : ℝ) * (m * (p.N * (q ^ 1 * (2 * R)) ^ 2)) = K * (q ^ 1 * (2 * R)) ^ 2 := by rw [hK]; ring
    rw [e]
    exact fast_sq hK1 hqR hrate hε
  · rw [div_le_iff₀ (by linarith)]
    nlinarith

end

/-! ### The scheme for one temperature -/

/-- A condition under which the scheme contracts.  `A` and `B` bound the sine transforms to and from the
space of wavenumbers, `V` and `W` bound the parts of the potential of short and long range, divided by the
temperature, and `R` the nodal function.  The first three conditions are met by enough large numbers; the
last three are met for low densities, see `weak_of_dilute`. -/
structure Weak (p : Input m) (M : ℕ) (A B V W R : ℝ) : Prop where
  grid : p.GridOk M
  symm : p.DataSymm
  dens : ∀ a, 0 ≤ p.n a
  mix0 : 0 ≤ p.mix
  mix1 : p.mix < 1
  A0 : 0 ≤ A
  B0 : 0 ≤ B
  V0 : 0 ≤ V
  W0 : 0 ≤ W
  R0 : 0 ≤ R
  toK : ∀ i < p.N, 4 * π * |p.r 1 - p.r 0| * ∑ j ∈ Finset.range p.N, |p.r j| ≤ A * |p.k i|
  toR : ∀ j < p.N, 4 * π * |p.k 1 - p.k 0| * ∑ i ∈ Finset.range p.N, |p.k i| ≤ (B * (2 * π) ^ 3) * |p.r j|
  short : ∀ a b, ∀ j < p.N, |p.vs 1 a b j| ≤ V
  long : ∀ a b, ∀ j < p.N, |p.vlk 1 a b j| ≤ W
  small : cBound A V W R * ∑ a, p.n a < 1
  ball : B * (cBound A V W R ^ 2 * (∑ a, p.n a) / (1 - cBound A V W R * ∑ a, p.n a) + W) ≤ R
  contracts : rate A B V W R (∑ a, p.n a) < 1


theorem ozBound {n : Fin m → ℝ} (hn : ∀ a, 0 ≤ n a) (N : ℕ) {c : ℝ} (hc : c * ∑ a, n a < 1) :
    OzBound (fun _ => ozr n N) c (∑ a, n a) := by
  refine ⟨fun _ C hC => ozr_symm n N hC, fun _ C _ hC hb a b => ?_, fun _ C C' _ hC hC' hb hb' d hd a b => ?_⟩
  · exact (oz_indirect hn ((ornstein_zernike n N hC (oz_det hn hb hc) _).2 rfl) hb hc a b).2
  · exact oz_diff hn ((ornstein_zernike n N hC (oz_det hn hb hc) _).2 rfl)
      ((ornstein_zernike n N hC' (oz_det hn hb' hc) _).2 rfl) hb hb' hc hd a b

theorem Weak.toContracts (hw : p.Weak M A B V W R) : p.Contracts (fun _ => ozr p.n p.maxSize) (∑ a, p.n a) M A B V W R :=
  ⟨hw.grid, hw.symm, Finset.sum_nonneg fun a _ => hw.dens a, hw.mix0, hw.mix1, hw.A0, hw.B0, hw.V0, hw.W0, hw.R0, hw.toK, hw.toR,
    hw.short, hw.long, hw.small, hw.ball, hw.contracts, ozBound hw.dens _ hw.small⟩

section

variable (hw : p.Weak M A B V W R)

include hw

/-- C111: if the interactions are weak or the densities low, the scheme stops before the maximal number of
cycles, the equations of the hypernetted chain approximation have a solution, and what is returned is close to it; the
intermediate temperatures may be any that are not below the final one. -/
theorem returns_converge (hm : 0 < m) {tmult : List ℝ} (ht : ∀ x ∈ tmult, 1 ≤ x) {n : ℕ}
    (hn : m * (m * (p.N * (mixed p.mix (rate A B V W R (∑ a, p.n a)) ^ n * (2 * R)) ^ 2)) ≤ 1 / 1000000) (hn' : n + 1 < 2000)
    {g : Fin m → Fin m → ℕ → ℝ} {it : ℕ} (hr : p.Returns tmult g it) :
    it ≤ (n + 6) * (tmult.length + 1) ∧ ∃ gs c, PairSymm gs ∧
      HncEquations p.N (fourierSine p.N p.k p.r) p.n (p.vs 1) (p.vlk 1) gs c ∧
      (∀ a b, ∀ j < p.N, |log (gs a b j) + p.vs 1 a b j| ≤ R) ∧
      ∀ a b, ∀ j < p.N, |log (g a b j) - log (gs a b j)| ≤
        mixed p.mix (rate A B V W R (∑ a, p.n a)) /
          (1000 * (1 - mixed p.mix (rate A B V W R (∑ a, p.n a)))) := by
  obtain ⟨t, hruns, rfl⟩ := hr
  obtain ⟨hit, _, u, hu, hfix, hlog⟩ := runs_converge hw.toContracts hm ht hn hn' hruns
  refine ⟨hit, fun a b j => exp (u.logG a b j), fun a b j => exp (u.logG a b j) - 1 - u.Ns a b j, ?_, ?_, ?_, ?_⟩
  · intro a b
    show (fun j => exp (u.logG a b j)) = fun j => exp (u.logG b a j)
    rw [hu.near.symm.1 a b]
  · refine (fixed_iff hw.grid (by linarith [hw.mix1]) hw.symm hu.near.symm hu.rel
      (fun i hi => oz_det hw.dens (cK_le hw.toContracts le_rfl hu.near hi) hw.small)).1 fun a b j hj => ?_
    rw [step_Ns]
    have := hfix a b j hj
    rw [nodal] at this
    rw [this]
    ring
  · intro a b j hj
    rw [log_exp, hu.rel a b j hj, sub_add_cancel]
    exact hu.near.ns a b j hj
  · intro a b j hj
    simp only [log_exp]
    exact hlog a b j hj

/-- C111: there is no other solution within these bounds. -/
theorem solution_unique {gs c gs' c' : Fin m → Fin m → ℕ → ℝ} (hs : PairSymm gs) (hs' : PairSymm gs')
    (h : HncEquations p.N (fourierSine p.N p.k p.r) p.n (p.vs 1) (p.vlk 1) gs c)
    (h' : HncEquations p.N (fourierSine p.N p.k p.r) p.n (p.vs 1) (p.vlk 1) gs' c')
    (hR : ∀ a b, ∀ j < p.N, |log (gs a b j) + p.vs 1 a b j| ≤ R) (hR' : ∀ a b, ∀ j < p.N, |log (gs' a b j) + p.vs 1 a b j| ≤ R)
    (a b : Fin m) {j : ℕ} (hj : j < p.N) : gs a b j = gs' a b j := by
  have key : ∀ gs c : Fin m → Fin m → ℕ → ℝ, PairSymm gs →
      HncEquations p.N (fourierSine p.N p.k p.r) p.n (p.vs 1) (p.vlk 1) gs c →
      (∀ a b, ∀ j < p.N, |log (gs a b j) + p.vs 1 a b j| ≤ R) →
      ∃ u, p.Settled V R 1 u ∧ (∀ a b, ∀ j < p.N, p.nodal (fun _ => ozr p.n p.maxSize) 1 u a b j = u.Ns a b j) ∧
        ∀ a b, ∀ j < p.N, gs a b j = exp (u.logG a b j) := by
    intro gs c hs h hR
    set L : Fin m → Fin m → ℕ → ℝ := fun a b j => log (gs a b j) + p.vs 1 a b j with hL
    have hLs : PairSymm L := by
      intro a b
      rw [hL]
      simp only
      rw [hs a b, vs_symm hw.symm 1 a b]
    set u : State m := ⟨fun a b j => L a b j - p.vs 1 a b j, L, L, 0⟩ with hu
    have hpos : ∀ a b, ∀ j < p.N, gs a b j = exp (u.logG a b j) := by
      intro a b j hj
      show _ = exp (log (gs a b j) + p.vs 1 a b j - p.vs 1 a b j)
      rw [add_sub_cancel_right, exp_log]
      rw [h.closure a b j hj]
      exact exp_pos _
    have hset : p.Settled V R 1 u := by
      refine ⟨⟨⟨fun a b => ?_, hLs, hLs⟩, hR, fun a b j hj => ?_⟩, fun a b j _ => rfl⟩
      · show (fun j => L a b j - p.vs 1 a b j) = fun j => L b a j - p.vs 1 b a j
        rw [hLs a b, vs_symm hw.symm 1 a b]
      · show |L a b j - p.vs 1 a b j - L a b j| ≤ V
        rw [sub_sub_cancel_left, abs_neg]
        exact hw.short a b j hj
    have hc : ∀ a b, ∀ j < p.N, c a b j = exp (u.logG a b j) - 1 - u.Ns a b j := by
      intro a b j hj
      have h1 := h.closure a b j hj
      have h2 : log (gs a b j) = -p.vs 1 a b j + (gs a b j - 1) - c a b j := by
        conv_lhs => rw [h1]
        rw [log_exp]
      rw [← hpos a b j hj]
      show _ = gs a b j - 1 - (log (gs a b j) + p.vs 1 a b j)
      linarith
    refine ⟨u, hset, ?_, hpos⟩
    have hfix := (fixed_iff hw.grid (by linarith [hw.mix1]) hw.symm hset.near.symm hset.rel
      (fun i hi => oz_det hw.dens (cK_le hw.toContracts le_rfl hset.near hi) hw.small)).2 ?_
    · intro a b j hj
      have h1 := hfix a b j hj
      rw [step_Ns] at h1
      have m1 : (1 - p.mix) ≠ 0 := by linarith [hw.mix1]
      apply mul_left_cancel₀ m1
      show (1 - p.mix) * p.full (fun _ => ozr p.n p.maxSize) 1 u a b j = _
      linarith
    · refine ⟨fun a b j hj => ?_, fun i hi => ?_⟩
      · rw [← hpos a b j hj]
        have h1 := h.closure a b j hj
        have h2 := hc a b j hj
        rw [← hpos a b j hj] at h2
        rw [← h2]
        exact h1
      · have h1 := h.oz i hi
        have e1 : ∀ a b, fourierSine p.N p.k p.r (c a b) i =
            fourierSine p.N p.k p.r (fun j => exp (u.logG a b j) - 1 - u.Ns a b j) i := by
          intro a b
          have hc1 := hc a b
          have hi1 := hi
          rw [hw.grid.even] at hc1 hi1 ⊢
          exact fourierSine_congr hw.grid.pos hc1 hi1
        have e2 : ∀ a b, fourierSine p.N p.k p.r (fun j => gs a b j - 1) i =
            fourierSine p.N p.k p.r (fun j => exp (u.logG a b j) - 1) i := by
          intro a b
          have hc1 := hpos a b
          have hi1 := hi
          rw [hw.grid.even] at hc1 hi1 ⊢
          exact fourierSine_congr hw.grid.pos (fun j hj => by rw [hc1 j hj]) hi1
        intro a b
        have h2 := h1 a b
        simp only [e1, e2] at h2
        exact h2
  obtain ⟨u, hu, hfu, hgu⟩ := key gs c hs h hR
  obtain ⟨v, hv, hfv, hgv⟩ := key gs' c' hs' h' hR'
  have h1 := residual_near hw.toContracts le_rfl hu hv hfv (d := 0) (fun a b j hj => by rw [hfu a b j hj]; simp) a b hj
  rw [zero_div] at h1
  have h2 := sub_eq_zero.1 (abs_eq_zero.1 (le_antisymm h1 (abs_nonneg _)))
  rw [hgu a b j hj, hgv a b j hj, hu.rel a b j hj, hv.rel a b j hj, h2]

/-- C111: what is returned depends on the mixing parameter and on the intermediate temperatures by no more than
the sum of the two distances to the solution. -/
theorem returns_agree (hm : 0 < m) {mix : ℝ} (h0 : 0 ≤ mix) (h1 : mix < 1) {tmult tmult' : List ℝ} (ht : ∀ x ∈ tmult, 1 ≤ x)
    (ht' : ∀ x ∈ tmult', 1 ≤ x) {n n' : ℕ}
    (hn : m * (m * (p.N * (mixed p.mix (rate A B V W R (∑ a, p.n a)) ^ n * (2 * R)) ^ 2)) ≤ 1 / 1000000) (hn1 : n + 1 < 2000)
    (hn' : m * (m * (p.N * (mixed mix (rate A B V W R (∑ a, p.n a)) ^ n' * (2 * R)) ^ 2)) ≤ 1 / 1000000) (hn1' : n' + 1 < 2000)
    {g g' : Fin m → Fin m → ℕ → ℝ} {it it' : ℕ} (hr : p.Returns tmult g it) (hr' : (p.withMix mix).Returns tmult' g' it')
    (a b : Fin m) {j : ℕ} (hj : j < p.N) :
    |log (g a b j) - log (g' a b j)| ≤
      mixed p.mix (rate A B V W R (∑ a, p.n a)) / (1000 * (1 - mixed p.mix (rate A B V W R (∑ a, p.n a)))) +
        mixed mix (rate A B V W R (∑ a, p.n a)) / (1000 * (1 - mixed mix (rate A B V W R (∑ a, p.n a)))) := by
  have hw' : (p.withMix mix).Weak M A B V W R :=
    ⟨⟨hw.grid.pos, hw.grid.even, hw.grid.r, hw.grid.k, hw.grid.dr⟩, hw.symm, hw.dens, h0, h1, hw.A0, hw.B0, hw.V0, hw.W0, hw.R0,
      hw.toK, hw.toR, hw.short, hw.long, hw.small, hw.ball, hw.contracts⟩
  obtain ⟨_, gs, c, s1, e1, b1, d1⟩ := returns_converge hw hm ht hn hn1 hr
  obtain ⟨_, gs', c', s2, e2, b2, d2⟩ := returns_converge hw' hm ht' hn' hn1' hr'
  have e := solution_unique hw s1 s2 e1 e2 b1 b2 a b hj
  have x1 := d1 a b j hj
  have x2 := d2 a b j hj
  rw [← e, abs_sub_comm] at x2
  have e3 : log (g a b j) - log (g' a b j) = (log (g a b j) - log (gs a b j)) + (log (gs a b j) - log (g' a b j)) := by ring
  rw [e3]
  exact (abs_add_le _ _).trans (add_le_add x1 x2)

end

/-! ### Low densities and weak potentials -/

theorem exists_bound (N : ℕ) (f : ℕ → ℝ) : ∃ A, 0 ≤ A ∧ ∀ i < N, f i ≤ A :=
  ⟨∑ i ∈ Finset.range N, |f i|, Finset.sum_nonneg fun _ _ => abs_nonneg _, fun _ hi => (le_abs_self _).trans
    (Finset.single_le_sum (f := fun i => |f i|) (fun _ _ => abs_nonneg _) (Finset.mem_range.2 hi))⟩

theorem exists_bound₃ (N : ℕ) (f : Fin m → Fin m → ℕ → ℝ) : ∃ A, 0 ≤ A ∧ ∀ a b, ∀ j < N, |f a b j| ≤ A := by
  refine ⟨∑ a, ∑ b, ∑ j ∈ Finset.range N, |f a b j|,
    Finset.sum_nonneg fun _ _ => Finset.sum_nonneg fun _ _ => Finset.sum_nonneg fun _ _ => abs_nonneg _, fun a b j hj => ?_⟩
  have s1 := Finset.single_le_sum (f := fun j => |f a b j|) (fun _ _ => abs_nonneg _) (Finset.mem_range.2 hj)
  have s2 := Finset.single_le_sum (f := fun b => ∑ j ∈ Finset.range N, |f a b j|)
    (fun _ _ => Finset.sum_nonneg fun _ _ => abs_nonneg _) (Finset.mem_univ b)
  have s3 := Finset.single_le_sum (f := fun a => ∑ b, ∑ j ∈ Finset.range N, |f a b j|)
    (fun _ _ => Finset.sum_nonneg fun _ _ => Finset.sum_nonneg fun _ _ => abs_nonneg _) (Finset.mem_univ a)
  exact s1.trans (s2.trans s3)

/-- The bounds of the transforms exist on every grid. -/
theorem exists_transform_bounds (hg : p.GridOk M) : ∃ A B, 0 ≤ A ∧ 0 ≤ B ∧
    (∀ i < p.N, 4 * π * |p.r 1 - p.r 0| * ∑ j ∈ Finset.range p.N, |p.r j| ≤ A * |p.k i|) ∧
    ∀ j < p.N, 4 * π * |p.k 1 - p.k 0| * ∑ i ∈ Finset.range p.N, |p.k i| ≤ (B * (2 * π) ^ 3) * |p.r j| := by
  have hpi := pi_pos
  obtain ⟨A, hA0, hA⟩ := exists_bound p.N fun i => (4 * π * |p.r 1 - p.r 0| * ∑ j ∈ Finset.range p.N, |p.r j|) / |p.k i|
  obtain ⟨B, hB0, hB⟩ := exists_bound p.N fun j =>
    (4 * π * |p.k 1 - p.k 0| * ∑ i ∈ Finset.range p.N, |p.k i|) / ((2 * π) ^ 3 * |p.r j|)
  refine ⟨A, B, hA0, hB0, fun i hi => ?_, fun j hj => ?_⟩
  · exact (div_le_iff₀ (abs_pos.2 (hg.k i hi))).1 (hA i hi)
  · have := abs_pos.2 (hg.r j hj)
    have h1 := (div_le_iff₀ (by positivity : 0 < (2 * π) ^ 3 * |p.r j|)).1 (hB j hj)
    linarith

/-- The same problem with other densities. -/
def withDensity (p : Input m) (n : Fin m → ℝ) : Input m := { p with n := n }

/-- The bounds, and what they mean for the density. -/
theorem dilute_bounds (hg : p.GridOk M) {ε : ℝ} (hε : 0 < ε) :
    ∃ A B V W R n0 : ℝ, 0 < n0 ∧ 0 ≤ A ∧ 0 ≤ B ∧ 0 ≤ V ∧ 0 ≤ W ∧ 1 ≤ R ∧
      (∀ i < p.N, 4 * π * |p.r 1 - p.r 0| * ∑ j ∈ Finset.range p.N, |p.r j| ≤ A * |p.k i|) ∧
      (∀ j < p.N, 4 * π * |p.k 1 - p.k 0| * ∑ i ∈ Finset.range p.N, |p.k i| ≤ (B * (2 * π) ^ 3) * |p.r j|) ∧
      (∀ a b, ∀ j < p.N, |p.vs 1 a b j| ≤ V) ∧ (∀ a b, ∀ j < p.N, |p.vlk 1 a b j| ≤ W) ∧
      ∀ ν, 0 ≤ ν → ν ≤ n0 → cBound A V W R * ν < 1 ∧
        B * (cBound A V W R ^ 2 * ν / (1 - cBound A V W R * ν) + W) ≤ R ∧ rate A B V W R ν < ε ∧ R * rate A B V W R ν < ε := by
  obtain ⟨A, B, hA0, hB0, hA, hB⟩ := exists_transform_bounds hg
  obtain ⟨V, hV0, hV⟩ := exists_bound₃ p.N (p.vs 1)
  obtain ⟨W, hW0, hW⟩ := exists_bound₃ p.N (p.vlk 1)
  set R := B * W + 1 with hR
  have hR1 : 1 ≤ R := by rw [hR]; have := mul_nonneg hB0 hW0; linarith
  set c := cBound A V W R with hc
  have c1 : ContinuousAt (fun ν : ℝ => c * ν) 0 := by fun_prop
  have c2 : ContinuousAt (fun ν : ℝ => B * (c ^ 2 * ν / (1 - c * ν) + W)) 0 := by
    refine ContinuousAt.mul continuousAt_const (ContinuousAt.add (ContinuousAt.div (by fun_prop) (by fun_prop) ?_) continuousAt_const)
    simp
  have c3 : ContinuousAt (fun ν : ℝ => R * rate A B V W R ν) 0 := by
    unfold rate
    refine ContinuousAt.mul continuousAt_const (ContinuousAt.mul continuousAt_const (ContinuousAt.mul (ContinuousAt.sub
      (ContinuousAt.pow (ContinuousAt.div continuousAt_const (by fun_prop) ?_) 2) continuousAt_const) continuousAt_const))
    simp
  have e1 := c1.eventually_lt_const (show c * 0 < 1 by simp)
  have e2 := c2.eventually_lt_const (show B * (c ^ 2 * 0 / (1 - c * 0) + W) < R by rw [hR]; simp)
  have e3 := c3.eventually_lt_const (show R * rate A B V W R 0 < ε by unfold rate; simpa using hε)
  obtain ⟨δ, hδ, hall⟩ := Metric.eventually_nhds_iff.1 ((e1.and e2).and e3)
  refine ⟨A, B, V, W, R, δ / 2, by positivity, hA0, hB0, hV0, hW0, hR1, hA, hB, hV, hW, fun ν hν hsum => ?_⟩
  obtain ⟨⟨g1, g2⟩, g3⟩ := hall (y := ν) (by rw [Real.dist_eq, sub_zero, abs_of_nonneg hν]; linarith)
  refine ⟨g1, g2.le, ?_, g3⟩
  by_contra hcon
  push Not at hcon
  nlinarith

/-- For every potential, the condition is met at low densities, with any rate. -/
theorem weak_of_dilute (hg : p.GridOk M) (hd : p.DataSymm) (h0 : 0 ≤ p.mix) (h1 : p.mix < 1) {ε : ℝ} (hε : 0 < ε) (hε1 : ε ≤ 1) :
    ∃ A B V W R n0 : ℝ, 0 < n0 ∧ ∀ n : Fin m → ℝ, (∀ a, 0 ≤ n a) → ∑ a, n a ≤ n0 →
      (p.withDensity n).Weak M A B V W R ∧ rate A B V W R (∑ a, n a) ≤ ε ∧ R * rate A B V W R (∑ a, n a) < ε := by
  obtain ⟨A, B, V, W, R, n0, hn0, hA0, hB0, hV0, hW0, hR1, hA, hB, hV, hW, hall⟩ := dilute_bounds hg hε
  refine ⟨A, B, V, W, R, n0, hn0, fun n hn hsum => ?_⟩
  obtain ⟨g1, g2, g3, g4⟩ := hall _ (Finset.sum_nonneg fun a _ => hn a) hsum
  exact ⟨⟨⟨hg.pos, hg.even, hg.r, hg.k, hg.dr⟩, hd, hn, h0, h1, hA0, hB0, hV0, hW0, by linarith, hA, hB, hV, hW, g1, g2, lt_of_lt_of_le g3 hε1⟩, g3.le, g4⟩

/-- C111: for every grid and every potential there is a density below which the scheme without mixing ends after
few cycles, with the solution of the equations up to any given accuracy. -/
theorem returns_dilute (hm : 0 < m) (hg : p.GridOk M) (hd : p.DataSymm) (hmix : p.mix = 0) {δ : ℝ} (hδ : 0 < δ) :
    ∃ n0 > 0, ∀ n : Fin m → ℝ, (∀ a, 0 ≤ n a) → ∑ a, n a ≤ n0 → ∀ tmult : List ℝ, (∀ x ∈ tmult, 1 ≤ x) →
      ∀ g it, (p.withDensity n).Returns tmult g it → it ≤ 7 * (tmult.length + 1) ∧ ∃ gs c,
        HncEquations p.N (fourierSine p.N p.k p.r) n (p.vs 1) (p.vlk 1) gs c ∧
        ∀ a b, ∀ j < p.N, |log (g a b j) - log (gs a b j)| ≤ δ := by
  have hN : 0 < p.N := by have := hg.even; have := hg.pos; omega
  have hm1 : (0 : ℝ) < m := by exact_mod_cast hm
  have hN1 : (0 : ℝ) < p.N := by exact_mod_cast hN
  obtain ⟨ε, hε0, ε1, ε2, ε3⟩ : ∃ ε : ℝ, 0 < ε ∧ ε ≤ 1 / (2000 * (m * m * p.N)) ∧ ε ≤ 1 / 2 ∧ ε ≤ δ :=
    ⟨min (1 / (2000 * (m * m * p.N))) (min (1 / 2) δ), lt_min (by positivity) (lt_min (by norm_num) hδ), min_le_left _ _,
      (min_le_right _ _).trans (min_le_left _ _), (min_le_right _ _).trans (min_le_right _ _)⟩
  obtain ⟨A, B, V, W, R, n0, hn0, hall⟩ := weak_of_dilute hg hd (by rw [hmix]) (by rw [hmix]; norm_num) hε0 (by linarith)
  refine ⟨n0, hn0, fun n hn hsum tmult ht g it hr => ?_⟩
  obtain ⟨hw, hq, hrate⟩ := hall n hn hsum
  obtain ⟨f1, f2⟩ := fast hw.toContracts hm hmix hq hrate ε1 ε2
  obtain ⟨h1, gs, c, _, h2, _, h3⟩ := returns_converge hw hm ht f1 (by norm_num) hr
  exact ⟨h1, gs, c, h2, fun a b j hj => (h3 a b j hj).trans (f2.trans ε3)⟩

/-- The same problem with the temperatures multiplied by a factor. -/
noncomputable def withFactor (p : Input m) (τ : ℝ) : Input m := { p with T := fun a b => τ * p.T a b }

theorem withFactor_vs (p : Input m) (τ mult : ℝ) : (p.withFactor τ).vs mult = p.vs (τ * mult) := by
  funext a b j
  simp only [vs, withFactor]
  congr 1
  ring

theorem withFactor_vlk (p : Input m) (τ mult : ℝ) : (p.withFactor τ).vlk mult = p.vlk (τ * mult) := by
  funext a b j
  simp only [vlk, withFactor]
  congr 1
  ring

/-- The bounds at high temperatures: those of the potential are multiplied by `x`, the inverse of the factor. -/
theorem hot_bounds (hg : p.GridOk M) (ν : ℝ) {ε : ℝ} (hε : 0 < ε) :
    ∃ A B V W R x0 : ℝ, 0 < x0 ∧ 0 ≤ A ∧ 0 ≤ B ∧ 0 ≤ V ∧ 0 ≤ W ∧ 0 ≤ R ∧
      (∀ i < p.N, 4 * π * |p.r 1 - p.r 0| * ∑ j ∈ Finset.range p.N, |p.r j| ≤ A * |p.k i|) ∧
      (∀ j < p.N, 4 * π * |p.k 1 - p.k 0| * ∑ i ∈ Finset.range p.N, |p.k i| ≤ (B * (2 * π) ^ 3) * |p.r j|) ∧
      (∀ a b, ∀ j < p.N, |p.vs 1 a b j| ≤ V) ∧ (∀ a b, ∀ j < p.N, |p.vlk 1 a b j| ≤ W) ∧
      ∀ x, 0 < x → x ≤ x0 → cBound A (x * V) (x * W) (x * R) * ν < 1 ∧
        B * (cBound A (x * V) (x * W) (x * R) ^ 2 * ν / (1 - cBound A (x * V) (x * W) (x * R) * ν) + x * W) ≤ x * R ∧
        rate A B (x * V) (x * W) (x * R) ν < ε ∧ x * R * rate A B (x * V) (x * W) (x * R) ν < ε := by
  obtain ⟨A, B, hA0, hB0, hA, hB⟩ := exists_transform_bounds hg
  obtain ⟨V, hV0, hV⟩ := exists_bound₃ p.N (p.vs 1)
  obtain ⟨W, hW0, hW⟩ := exists_bound₃ p.N (p.vlk 1)
  set R := B * W + 1 with hR
  have hR1 : 1 ≤ R := by rw [hR]; have := mul_nonneg hB0 hW0; linarith
  have cc : ContinuousAt (fun x : ℝ => cBound A (x * V) (x * W) (x * R)) 0 := by
    unfold cBound
    fun_prop
  have cc0 : cBound A (0 * V) (0 * W) (0 * R) = 0 := by
    unfold cBound
    simp
  have c1 : ContinuousAt (fun x : ℝ => cBound A (x * V) (x * W) (x * R) * ν) 0 := cc.mul continuousAt_const
  have cd : ContinuousAt (fun x : ℝ => 1 - cBound A (x * V) (x * W) (x * R) * ν) 0 := continuousAt_const.sub c1
  have cd0 : 1 - cBound A (0 * V) (0 * W) (0 * R) * ν ≠ 0 := by rw [cc0]; simp
  have c3 : ContinuousAt (fun x : ℝ => rate A B (x * V) (x * W) (x * R) ν) 0 := by
    unfold rate
    refine ContinuousAt.mul continuousAt_const (ContinuousAt.mul (ContinuousAt.sub
      (ContinuousAt.pow (ContinuousAt.div continuousAt_const cd cd0) 2) continuousAt_const) (by fun_prop))
  have c30 : rate A B (0 * V) (0 * W) (0 * R) ν = 0 := by
    unfold rate
    simp
  have c4 : ContinuousAt (fun x : ℝ => x * R * rate A B (x * V) (x * W) (x * R) ν) 0 := ContinuousAt.mul (by fun_prop) c3
  obtain ⟨C, hC0, hC⟩ : ∃ C, 0 ≤ C ∧ ∀ x, 0 < x → x ≤ 1 → cBound A (x * V) (x * W) (x * R) ≤ C * x := by
    refine ⟨A * ((R + V) * exp (R + V) + R) + W, by positivity, fun x hx hx1 => ?_⟩
    have h1 : exp (x * R + x * V) - 1 ≤ x * (R + V) * exp (R + V) := by
      have h2 := add_one_le_exp (-(x * (R + V)))
      have h3 : exp (x * (R + V)) * exp (-(x * (R + V))) = 1 := by rw [← exp_add]; simp
      have h4 : exp (x * (R + V)) ≤ exp (R + V) := exp_le_exp.2 (mul_le_of_le_one_left (by linarith) hx1)
      have h5 : 0 ≤ x * (R + V) := mul_nonneg hx.le (by linarith)
      have h6 := mul_le_mul_of_nonneg_left h2 (exp_pos (x * (R + V))).le
      rw [h3] at h6
      have h7 := mul_le_mul_of_nonneg_left h4 h5
      rw [← mul_add]
      linarith
    have h2 := mul_le_mul_of_nonneg_left h1 hA0
    unfold cBound
    linarith
  have c5 : ContinuousAt (fun x : ℝ => B * (C ^ 2 * x * |ν|) / (1 - cBound A (x * V) (x * W) (x * R) * ν)) 0 :=
    ContinuousAt.div (by fun_prop) cd cd0
  have e1 := c1.eventually_lt_const (show cBound A (0 * V) (0 * W) (0 * R) * ν < 1 by rw [cc0]; simp)
  have e3 := c3.eventually_lt_const (show rate A B (0 * V) (0 * W) (0 * R) ν < ε by rw [c30]; exact hε)
  have e4 := c4.eventually_lt_const (show 0 * R * rate A B (0 * V) (0 * W) (0 * R) ν < ε by simpa using hε)
  have e5 := c5.eventually_lt_const (show B * (C ^ 2 * 0 * |ν|) / (1 - cBound A (0 * V) (0 * W) (0 * R) * ν) < 1 by simp)
  obtain ⟨δ, hδ, hall⟩ := Metric.eventually_nhds_iff.1 ((e1.and e3).and (e4.and e5))
  refine ⟨A, B, V, W, R, min 1 (δ / 2), lt_min one_pos (by positivity), hA0, hB0, hV0, hW0, by linarith, hA, hB, hV, hW, fun x hx hx0 => ?_⟩
  have hx1 := hx0.trans (min_le_left _ _)
  have hx2 := hx0.trans (min_le_right _ _)
  obtain ⟨⟨g1, g3⟩, g4, g5⟩ := hall (y := x) (by rw [Real.dist_eq, sub_zero, abs_of_pos hx]; linarith)
  refine ⟨g1, ?_, g3, g4⟩
  have hcx := hC x hx hx1
  have hc0 : 0 ≤ cBound A (x * V) (x * W) (x * R) := by
    unfold cBound
    have := add_one_le_exp (x * R + x * V)
    have h1 : 0 ≤ x * R := mul_nonneg hx.le (by linarith)
    have h2 : 0 ≤ x * V := mul_nonneg hx.le hV0
    have h3 : 0 ≤ x * W := mul_nonneg hx.le hW0
    have := mul_nonneg hA0 (by linarith : 0 ≤ exp (x * R + x * V) - 1 + x * R)
    linarith
  generalize cBound A (x * V) (x * W) (x * R) = c at g1 g5 hcx hc0
  have hy : 0 < 1 - c * ν := by linarith
  have h1 : c ^ 2 * ν ≤ x * (C ^ 2 * x * |ν|) := by
    have h2 : c ^ 2 ≤ (C * x) ^ 2 := pow_le_pow_left₀ hc0 hcx 2
    have h3 := mul_le_mul_of_nonneg_right h2 (abs_nonneg ν)
    have h4 := mul_le_mul_of_nonneg_left (le_abs_self ν) (sq_nonneg c)
    linarith
  have h2 : c ^ 2 * ν / (1 - c * ν) ≤ x * (C ^ 2 * x * |ν|) / (1 - c * ν) := div_le_div_of_nonneg_right h1 hy.le
  have h3 := mul_le_mul_of_nonneg_left h2 hB0
  have h4 : B * (x * (C ^ 2 * x * |ν|) / (1 - c * ν)) = x * (B * (C ^ 2 * x * |ν|) / (1 - c * ν)) := by ring
  have h5 := mul_le_mul_of_nonneg_left g5.le hx.le
  rw [hR]
  linarith

/-- C111: for every grid, all potentials and densities there is a temperature above which the scheme without
mixing ends after few cycles, with the solution of the equations up to any given accuracy. -/
theorem returns_hot (hm : 0 < m) (hg : p.GridOk M) (hd : p.DataSymm) (hmix : p.mix = 0) (hn : ∀ a, 0 ≤ p.n a) {δ : ℝ} (hδ : 0 < δ) :
    ∃ τ0 > 0, ∀ τ, τ0 ≤ τ → ∀ tmult : List ℝ, (∀ x ∈ tmult, 1 ≤ x) →
      ∀ g it, (p.withFactor τ).Returns tmult g it → it ≤ 7 * (tmult.length + 1) ∧ ∃ gs c,
        HncEquations p.N (fourierSine p.N p.k p.r) p.n (p.vs τ) (p.vlk τ) gs c ∧
        ∀ a b, ∀ j < p.N, |log (g a b j) - log (gs a b j)| ≤ δ := by
  have hN : 0 < p.N := by have := hg.even; have := hg.pos; omega
  have hm1 : (0 : ℝ) < m := by exact_mod_cast hm
  have hN1 : (0 : ℝ) < p.N := by exact_mod_cast hN
  obtain ⟨ε, hε0, ε1, ε2, ε3⟩ : ∃ ε : ℝ, 0 < ε ∧ ε ≤ 1 / (2000 * (m * m * p.N)) ∧ ε ≤ 1 / 2 ∧ ε ≤ δ :=
    ⟨min (1 / (2000 * (m * m * p.N))) (min (1 / 2) δ), lt_min (by positivity) (lt_min (by norm_num) hδ), min_le_left _ _,
      (min_le_right _ _).trans (min_le_left _ _), (min_le_right _ _).trans (min_le_right _ _)⟩
  obtain ⟨A, B, V, W, R, x0, hx0, hA0, hB0, hV0, hW0, hR0, hA, hB, hV, hW, hall⟩ := hot_bounds hg (∑ a, p.n a) hε0
  refine ⟨1 / x0, by positivity, fun τ hτ tmult ht g it hr => ?_⟩
  have hτ0 : 0 < τ := lt_of_lt_of_le (by positivity) hτ
  have hx : τ⁻¹ ≤ x0 := by
    rw [inv_le_comm₀ hτ0 hx0, ← one_div]
    exact hτ
  have hi : 0 < τ⁻¹ := inv_pos.2 hτ0
  obtain ⟨g1, g2, g3, g4⟩ := hall τ⁻¹ hi hx
  have hv : ∀ a b, ∀ j < p.N, |(p.withFactor τ).vs 1 a b j| ≤ τ⁻¹ * V := by
    intro a b j hj
    rw [withFactor_vs, mul_one, vs_mult, abs_div, abs_of_pos hτ0, div_eq_inv_mul]
    exact mul_le_mul_of_nonneg_left (hV a b j hj) hi.le
  have hv' : ∀ a b, ∀ j < p.N, |(p.withFactor τ).vlk 1 a b j| ≤ τ⁻¹ * W := by
    intro a b j hj
    rw [withFactor_vlk, mul_one, vlk_mult, abs_div, abs_of_pos hτ0, div_eq_inv_mul]
    exact mul_le_mul_of_nonneg_left (hW a b j hj) hi.le
  have hw : (p.withFactor τ).Weak M A B (τ⁻¹ * V) (τ⁻¹ * W) (τ⁻¹ * R) :=
    ⟨⟨hg.pos, hg.even, hg.r, hg.k, hg.dr⟩, ⟨hd.1, hd.2.1, fun a b => by
      show τ * p.T a b = τ * p.T b a
      rw [hd.2.2 a b]⟩, hn, hmix.ge, by
      show p.mix < 1
      rw [hmix]
      norm_num, hA0, hB0, by positivity, by positivity, by positivity, hA, hB, hv, hv', g1, g2, by
      show rate A B (τ⁻¹ * V) (τ⁻¹ * W) (τ⁻¹ * R) (∑ a, p.n a) < 1
      linarith⟩
  obtain ⟨f1, f2⟩ := fast hw.toContracts hm hmix g3.le g4 ε1 ε2
  obtain ⟨h1, gs, c, _, h2, _, h3⟩ := returns_converge hw hm ht f1 (by norm_num) hr
  rw [withFactor_vs, withFactor_vlk, mul_one] at h2
  exact ⟨h1, gs, c, h2, fun a b j hj => (h3 a b j hj).trans (f2.trans ε3)⟩

/-- The hypotheses are met, with a potential that does not vanish. -/
example : ∃ n0 > 0, ∀ n : Fin 1 → ℝ, (∀ a, 0 ≤ n a) → ∑ a, n a ≤ n0 → ∃ g it gs c,
    (Input.withDensity ⟨2, fun j => j + 1, fun _ _ _ => 1, fun _ _ _ => 1, fun _ _ => 1, fun _ => 0, 0, 4, 1⟩ n).Returns [2] g it ∧
      it ≤ 14 ∧ HncEquations 2 (fourierSine 2 (kGrid 2 fun j => j + 1) fun j => j + 1) n (fun _ _ _ => 1) (fun _ _ _ => 1) gs c ∧
      ∀ a b, ∀ j < 2, |log (g a b j) - log (gs a b j)| ≤ 1 / 1000000 := by
  set p : Input 1 := ⟨2, fun j => j + 1, fun _ _ _ => 1, fun _ _ _ => 1, fun _ _ => 1, fun _ => 0, 0, 4, 1⟩ with hp
  have hg : p.GridOk 1 := by
    refine ⟨one_pos, rfl, fun j _ => ?_, fun i _ => ?_, ?_⟩
    · show ((j : ℝ) + 1) ≠ 0
      positivity
    · have hpi := pi_pos
      show π / (((2 - 1 : ℕ) : ℝ) + 1) + i * (π / ((2 : ℕ) * ((((1 : ℕ) : ℝ) + 1) - (((0 : ℕ) : ℝ) + 1)))) ≠ 0
      have e : (((1 : ℕ) : ℝ) + 1) - (((0 : ℕ) : ℝ) + 1) = 1 := by norm_num
      rw [e]
      positivity
    · show (((1 : ℕ) : ℝ) + 1) - (((0 : ℕ) : ℝ) + 1) ≠ 0
      norm_num
  have hd : p.DataSymm := ⟨fun _ _ => rfl, fun _ _ => rfl, fun _ _ => rfl⟩
  obtain ⟨n0, hn0, h⟩ := returns_dilute one_pos hg hd rfl (by norm_num : (0 : ℝ) < 1 / 1000000)
  refine ⟨n0, hn0, fun n hn hsum => ?_⟩
  obtain ⟨g, it, hr⟩ := (returns_unique (p.withDensity n) [2]).1
  obtain ⟨h1, gs, c, h2, h3⟩ := h n hn hsum [2] (by simp) g it hr
  have e1 : p.vs 1 = fun _ _ _ => 1 := by
    funext a b j
    simp [vs, hp]
  have e2 : p.vlk 1 = fun _ _ _ => 1 := by
    funext a b j
    simp [vlk, hp]
  rw [e1, e2] at h2
  exact ⟨g, it, gs, c, hr, h1, h2, h3⟩

/-- The hypotheses are met, with a potential and a density that do not vanish. -/
example : ∃ τ0 > 0, ∀ τ ≥ τ0, ∃ g it gs c,
    (Input.withFactor ⟨2, fun j => j + 1, fun _ _ _ => 1, fun _ _ _ => 1, fun _ _ => 1, fun _ => 5, 0, 4, 1⟩ τ : Input 1).Returns [2] g it ∧
      it ≤ 14 ∧ HncEquations 2 (fourierSine 2 (kGrid 2 fun j => j + 1) fun j => j + 1) (fun _ : Fin 1 => 5) (fun _ _ _ => 1 / τ)
        (fun _ _ _ => 1 / τ) gs c ∧ ∀ a b, ∀ j < 2, |log (g a b j) - log (gs a b j)| ≤ 1 / 1000000 := by
  set p : Input 1 := ⟨2, fun j => j + 1, fun _ _ _ => 1, fun _ _ _ => 1, fun _ _ => 1, fun _ => 5, 0, 4, 1⟩ with hp
  have hg : p.GridOk 1 := by
    refine ⟨one_pos, rfl, fun j _ => ?_, fun i _ => ?_, ?_⟩
    · show ((j : ℝ) + 1) ≠ 0
      positivity
    · have hpi := pi_pos
      show π / (((2 - 1 : ℕ) : ℝ) + 1) + i * (π / ((2 : ℕ) * ((((1 : ℕ) : ℝ) + 1) - (((0 : ℕ) : ℝ) + 1)))) ≠ 0
      have e : (((1 : ℕ) : ℝ) + 1) - (((0 : ℕ) : ℝ) + 1) = 1 := by norm_num
      rw [e]
      positivity
    · show (((1 : ℕ) : ℝ) + 1) - (((0 : ℕ) : ℝ) + 1) ≠ 0
      norm_num
  have hd : p.DataSymm := ⟨fun _ _ => rfl, fun _ _ => rfl, fun _ _ => rfl⟩
  obtain ⟨τ0, hτ0, h⟩ := returns_hot one_pos hg hd rfl (fun _ => by
    show (0 : ℝ) ≤ 5
    norm_num) (by norm_num : (0 : ℝ) < 1 / 1000000)
  refine ⟨τ0, hτ0, fun τ hτ => ?_⟩
  obtain ⟨g, it, hr⟩ := (returns_unique (p.withFactor τ) [2]).1
  obtain ⟨h1, gs, c, h2, h3⟩ := h τ hτ [2] (by simp) g it hr
  have e1 : p.vs τ = fun _ _ _ => 1 / τ := by
    funext a b j
    simp [vs, hp]
  have e2 : p.vlk τ = fun _ _ _ => 1 / τ := by
    funext a b j
    simp [vlk, hp]
  rw [e1, e2] at h2
  exact ⟨g, it, gs, c, hr, h1, h2, h3⟩

end Input

end Verif.Hnc
