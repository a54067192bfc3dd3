/-
Properties C37 and C70: the hypernetted chain scheme.
-/
import Verif.Props.SineTransform
import Verif.Props.Cramer
import Mathlib.LinearAlgebra.Matrix.SchurComplement

set_option autoImplicit false

namespace Verif.Hnc

open Real

/-! ### Specification -/

/-- The Ornstein-Zernike equation for species with the densities `n`: the total correlation function is
the direct one, plus the indirect correlations by way of all other particles. -/
def OrnsteinZernike {m : ℕ} (n : Fin m → ℝ) (C H : Matrix (Fin m) (Fin m) ℝ) : Prop :=
  ∀ a b, H a b = C a b + ∑ s, C a s * n s * H s b

/-- The equation for different temperatures. -/
def OrnsteinZernikeT {m : ℕ} (n mass : Fin m → ℝ) (T : Fin m → Fin m → ℝ) (C H : Matrix (Fin m) (Fin m) ℝ) : Prop :=
  ∀ a b, H a b = C a b +
    ∑ s, n s * (mass b / (mass a + mass b) * (T a s / T a b) * C a s * H s b +
      mass a / (mass a + mass b) * (T b s / T a b) * C s b * H a s)

/-- A function of a pair of species does not depend on their order. -/
def PairSymm {m : ℕ} {α : Type} (f : Fin m → Fin m → α) : Prop := ∀ a b, f a b = f b a

/-! ### The solver -/

theorem solve1_singular (A : Matrix (Fin 1) (Fin 1) ℝ) (b : Fin 1 → ℝ) (h : A.det = 0) : Cramer.solve1 A b = 0 := by
  rw [Matrix.det_fin_one] at h
  funext i
  simp [Cramer.solve1, h]

theorem solve2_singular (A : Matrix (Fin 2) (Fin 2) ℝ) (b : Fin 2 → ℝ) (h : A.det = 0) : Cramer.solve2 A b = 0 := by
  rw [Matrix.det_fin_two] at h
  funext i
  fin_cases i <;> simp [Cramer.solve2, h]

theorem solve3_singular (A : Matrix (Fin 3) (Fin 3) ℝ) (b : Fin 3 → ℝ) (h : A.det = 0) : Cramer.solve3 A b = 0 := by
  rw [Matrix.det_fin_three] at h
  funext i
  fin_cases i
  all_goals
    simp only [Cramer.solve3, Matrix.cons_val, Matrix.cons_val_zero, Matrix.cons_val_one, Fin.mk_one, Fin.zero_eta,
      Fin.reduceFinMk, Fin.isValue, Pi.zero_apply]
    rw [div_eq_zero_iff]
    right
    rw [← h]
    ring

theorem solve4_singular (A : Matrix (Fin 4) (Fin 4) ℝ) (b : Fin 4 → ℝ) (h : A.det = 0) : Cramer.solve4 A b = 0 := by
  rw [Cramer.det4] at h
  funext i
  fin_cases i
  all_goals
    simp only [Cramer.solve4, Cramer.parts4, Matrix.cons_val, Matrix.cons_val_zero, Matrix.cons_val_one, Fin.mk_one, Fin.zero_eta,
      Fin.reduceFinMk, Fin.isValue, Pi.zero_apply]
    rw [div_eq_zero_iff]
    right
    rw [← h]
    ring

/-- With the convention `x / 0 = 0`, also the solution of a singular system does not depend on the method. -/
theorem cramerSolve_eq {m : ℕ} (A : Matrix (Fin m) (Fin m) ℝ) (b : Fin m → ℝ) (N : ℕ) :
    Cramer.cramerSolve m A b N = A⁻¹.mulVec b := by
  by_cases h : A.det = 0
  · have h0 : A⁻¹.mulVec b = 0 := by
      rw [Matrix.nonsing_inv_apply_not_isUnit A (by rw [h]; exact not_isUnit_zero), Matrix.zero_mulVec]
    rw [h0]
    unfold Cramer.cramerSolve Cramer.linalgSolve
    split
    · split_ifs
      exacts [h0, solve1_singular _ _ h]
    · split_ifs
      exacts [h0, solve2_singular _ _ h]
    · split_ifs
      exacts [h0, solve3_singular _ _ h]
    · split_ifs
      exacts [h0, solve4_singular _ _ h]
    · exact h0
  · have hu : IsUnit A.det := isUnit_iff_ne_zero.2 h
    exact ((Cramer.cramer_solves m A b N h).2 _ (by rw [Matrix.mulVec_mulVec, Matrix.mul_nonsing_inv A hu, Matrix.one_mulVec])).symm

theorem inv_mul_symm {m : ℕ} (n : Fin m → ℝ) {C : Matrix (Fin m) (Fin m) ℝ} (hC : C.transpose = C) :
    C * (1 - C * Matrix.diagonal n)⁻¹.transpose = (1 - C * Matrix.diagonal n)⁻¹ * C := by
  set A := 1 - C * Matrix.diagonal n with hA
  have hAt : A.transpose = 1 - Matrix.diagonal n * C := by
    rw [hA, Matrix.transpose_sub, Matrix.transpose_mul, hC, Matrix.diagonal_transpose, Matrix.transpose_one]
  have hc : C * A.transpose = A * C := by
    rw [hAt, hA, mul_sub, sub_mul, mul_one, one_mul, mul_assoc]
  by_cases h : IsUnit A.det
  · have h2 : IsUnit A.transpose.det := by rwa [Matrix.det_transpose]
    rw [Matrix.transpose_nonsing_inv]
    calc C * A.transpose⁻¹ = A⁻¹ * (A * C) * A.transpose⁻¹ := by
          rw [← mul_assoc, Matrix.nonsing_inv_mul _ h, one_mul]
      _ = A⁻¹ * C * (A.transpose * A.transpose⁻¹) := by rw [← hc]; simp only [mul_assoc]
      _ = A⁻¹ * C := by rw [Matrix.mul_nonsing_inv _ h2, mul_one]
  · rw [Matrix.nonsing_inv_apply_not_isUnit A h]
    simp

theorem ozr_apply {m : ℕ} (n : Fin m → ℝ) (N : ℕ) (C : Matrix (Fin m) (Fin m) ℝ) (a b : Fin m) : ozr n N C a b =
    if m ≤ N ∧ 1 ≤ m ∧ m ≤ 4 then Cramer.cramerSolve m (1 - C * Matrix.diagonal n) (fun i => C a i) N b
    else Cramer.linalgSolve (1 - C * Matrix.diagonal n) (fun i => C i b) a := rfl

/-- For a symmetric matrix, the rows and the columns give the same. -/
theorem ozr_eq {m : ℕ} (n : Fin m → ℝ) (N : ℕ) {C : Matrix (Fin m) (Fin m) ℝ} (hC : PairSymm C) :
    ozr n N C = (1 - C * Matrix.diagonal n)⁻¹ * C := by
  have hC' : C.transpose = C := by
    ext a b
    exact hC b a
  by_cases h : m ≤ N ∧ 1 ≤ m ∧ m ≤ 4
  · rw [← inv_mul_symm n hC']
    ext a b
    rw [ozr_apply, if_pos h, cramerSolve_eq]
    simp only [Matrix.mulVec, dotProduct, Matrix.mul_apply, Matrix.transpose_apply]
    exact Finset.sum_congr rfl fun i _ => mul_comm _ _
  · ext a b
    rw [ozr_apply, if_neg h]
    simp only [Cramer.linalgSolve, Matrix.mulVec, dotProduct, Matrix.mul_apply]

theorem oz_iff {m : ℕ} (n : Fin m → ℝ) (C H : Matrix (Fin m) (Fin m) ℝ) :
    OrnsteinZernike n C H ↔ (1 - C * Matrix.diagonal n) * H = C := by
  rw [sub_mul, one_mul, sub_eq_iff_eq_add]
  have e : ∀ a b, (C * Matrix.diagonal n * H) a b = ∑ s, C a s * n s * H s b := by
    intro a b
    rw [Matrix.mul_apply]
    simp [Matrix.mul_diagonal]
  constructor
  · intro h
    ext a b
    rw [Matrix.add_apply, e, h a b]
  · intro h a b
    rw [← e, ← Matrix.add_apply, ← h]

/-- C37: the step in the space of wavenumbers solves the Ornstein-Zernike equation, and there is no other
solution. -/
theorem ornstein_zernike {m : ℕ} (n : Fin m → ℝ) (N : ℕ) {C : Matrix (Fin m) (Fin m) ℝ} (hC : PairSymm C)
    (hd : (1 - C * Matrix.diagonal n).det ≠ 0) (H : Matrix (Fin m) (Fin m) ℝ) :
    OrnsteinZernike n C H ↔ H = ozr n N C := by
  have hu : IsUnit (1 - C * Matrix.diagonal n).det := isUnit_iff_ne_zero.2 hd
  rw [oz_iff, ozr_eq n N hC]
  constructor
  · intro h
    rw [← Matrix.nonsing_inv_mul_cancel_left _ H hu, h]
  · rintro rfl
    exact Matrix.mul_nonsing_inv_cancel_left _ C hu

/-- C37: it preserves the symmetry. -/
theorem ozr_symm {m : ℕ} (n : Fin m → ℝ) (N : ℕ) {C : Matrix (Fin m) (Fin m) ℝ} (hC : PairSymm C) :
    PairSymm (ozr n N C) := by
  have hC' : C.transpose = C := by
    ext a b
    exact hC b a
  rw [ozr_eq n N hC]
  have h : ((1 - C * Matrix.diagonal n)⁻¹ * C).transpose = (1 - C * Matrix.diagonal n)⁻¹ * C := by
    rw [Matrix.transpose_mul, hC', inv_mul_symm n hC']
  intro a b
  exact (congrFun (congrFun h b) a)

/-- Without the symmetry, the rows and the columns differ: the result then depends on `maxSize`. -/
theorem ozr_asymmetric : ∃ (n : Fin 2 → ℝ) (C : Matrix (Fin 2) (Fin 2) ℝ),
    (1 - C * Matrix.diagonal n).det ≠ 0 ∧ ozr n 4 C ≠ ozr n 0 C ∧ OrnsteinZernike n C (ozr n 0 C) ∧
      ¬OrnsteinZernike n C (ozr n 4 C) := by
  refine ⟨fun _ => 1, !![0, 1; 0, 0], ?_⟩
  have hA : (1 - !![0, 1; 0, 0] * Matrix.diagonal (fun _ => 1) : Matrix (Fin 2) (Fin 2) ℝ) = !![1, -1; 0, 1] := by
    ext a b
    fin_cases a <;> fin_cases b <;> simp
  have hd : (1 - !![0, 1; 0, 0] * Matrix.diagonal (fun _ => 1) : Matrix (Fin 2) (Fin 2) ℝ).det ≠ 0 := by
    rw [hA, Matrix.det_fin_two]
    simp
  have h0 : OrnsteinZernike (fun _ => (1 : ℝ)) !![0, 1; 0, 0] (ozr (fun _ => 1) 0 !![0, 1; 0, 0]) := by
    rw [oz_iff]
    have e : ozr (fun _ => (1 : ℝ)) 0 !![0, 1; 0, 0] =
        (1 - !![0, 1; 0, 0] * Matrix.diagonal (fun _ => 1) : Matrix (Fin 2) (Fin 2) ℝ)⁻¹ * !![0, 1; 0, 0] := by
      ext a b
      rw [ozr_apply, if_neg (by omega)]
      simp only [Cramer.linalgSolve, Matrix.mulVec, dotProduct, Matrix.mul_apply]
    rw [e]
    exact Matrix.mul_nonsing_inv_cancel_left _ _ (isUnit_iff_ne_zero.2 hd)
  have h4 : ¬OrnsteinZernike (fun _ => (1 : ℝ)) !![0, 1; 0, 0] (ozr (fun _ => 1) 4 !![0, 1; 0, 0]) := by
    intro h
    have e : ozr (fun _ => (1 : ℝ)) 4 !![0, 1; 0, 0] = !![1, 1; 0, 0] := by
      ext a b
      rw [ozr_apply, if_pos (by omega), hA]
      simp only [Cramer.cramerSolve]
      fin_cases a <;> fin_cases b <;> simp [Cramer.solve2]
    rw [e] at h
    have := h 0 0
    simp at this
  refine ⟨hd, fun h => h4 (h ▸ h0), h0, h4⟩

/-! ### Splitting and relabelling species -/

/-- Two groups of particles of the same kind are like one: the solution only depends on the sums of the
densities. -/
theorem ozr_split {m m' : ℕ} (n : Fin m → ℝ) (n' : Fin m' → ℝ) (f : Fin m' → Fin m) (N N' : ℕ)
    (hn : ∀ t, n t = ∑ s with f s = t, n' s) {C : Matrix (Fin m) (Fin m) ℝ} (hC : PairSymm C) (a b : Fin m') :
    ozr n' N' (C.submatrix f f) a b = ozr n N C (f a) (f b) := by
  have hC' : PairSymm (C.submatrix f f) := fun a b => hC _ _
  obtain ⟨P, hP⟩ : ∃ P : Matrix (Fin m') (Fin m) ℝ, ∀ s t, P s t = if f s = t then 1 else 0 :=
    ⟨Matrix.of fun s t => if f s = t then 1 else 0, fun _ _ => rfl⟩
  have e1 : C.submatrix f f = P * C * P.transpose := by
    ext a b
    simp [hP, Matrix.mul_apply]
  have e2 : P.transpose * Matrix.diagonal n' * P = Matrix.diagonal n := by
    ext s t
    rw [Matrix.mul_apply]
    simp only [Matrix.mul_diagonal, Matrix.transpose_apply, hP]
    rw [Matrix.diagonal_apply]
    split_ifs with h
    · subst h
      rw [hn, Finset.sum_filter]
      exact Finset.sum_congr rfl fun i _ => by split_ifs <;> simp
    · refine Finset.sum_eq_zero fun i _ => ?_
      split_ifs with h1 h2
      · exact absurd (h1.symm.trans h2) h
      all_goals simp
  have hdet : (1 - C.submatrix f f * Matrix.diagonal n').det =
      (1 - C * Matrix.diagonal n).det := by
    have e3 : C.submatrix f f * Matrix.diagonal n' =
        P * (C * P.transpose * Matrix.diagonal n') := by
      rw [e1]; simp only [Matrix.mul_assoc]
    rw [e3, Matrix.det_one_sub_mul_comm, Matrix.mul_assoc C, Matrix.mul_assoc C, e2]
  by_cases hd : (1 - C * Matrix.diagonal n).det = 0
  · rw [ozr_eq n' N' hC', ozr_eq n N hC, Matrix.nonsing_inv_apply_not_isUnit _ (by rw [hdet, hd]; exact not_isUnit_zero),
      Matrix.nonsing_inv_apply_not_isUnit _ (by rw [hd]; exact not_isUnit_zero)]
    simp
  · have h := (ornstein_zernike n N hC hd _).2 rfl
    have h' : OrnsteinZernike n' (C.submatrix f f) ((ozr n N C).submatrix f f) := by
      intro a b
      simp only [Matrix.submatrix_apply]
      rw [h]
      congr 1
      rw [← Finset.sum_fiberwise (s := Finset.univ) (g := f)]
      refine Finset.sum_congr rfl fun t _ => ?_
      rw [hn, Finset.mul_sum, Finset.sum_mul]
      refine Finset.sum_congr rfl fun s hs => ?_
      rw [(Finset.mem_filter.1 hs).2]
    rw [← (ornstein_zernike n' N' hC' (by rw [hdet]; exact hd) _).1 h', Matrix.submatrix_apply]

/-! ### One cycle -/

namespace Input

variable {m : ℕ} (p : Input m)

/-- The data of the problem do not depend on the order of the species. -/
def DataSymm : Prop := PairSymm p.Vs ∧ PairSymm p.Vlk ∧ PairSymm p.T

/-- A state of the loop is symmetric. -/
def StateSymm (s : State m) : Prop := PairSymm s.logG ∧ PairSymm s.Ns ∧ PairSymm s.NsOld

variable {p}

theorem vs_symm (h : p.DataSymm) (mult : ℝ) : PairSymm (p.vs mult) := fun a b => by
  funext j
  unfold vs
  rw [h.1 a b, h.2.2 a b]

theorem vlk_symm (h : p.DataSymm) (mult : ℝ) : PairSymm (p.vlk mult) := fun a b => by
  funext j
  unfold vlk
  rw [h.2.1 a b, h.2.2 a b]

theorem csK_symm {s : State m} (hs : StateSymm s) : PairSymm (p.csK s) := fun a b => by
  funext j
  unfold csK
  rw [hs.1 a b, hs.2.1 a b]

theorem cK_symm (h : p.DataSymm) {s : State m} (hs : StateSymm s) (mult : ℝ) (i : ℕ) : PairSymm (p.cK mult s i) := fun a b => by
  unfold cK
  rw [csK_symm hs a b, vlk_symm h mult a b]

variable {oz : ℝ → Matrix (Fin m) (Fin m) ℝ → Matrix (Fin m) (Fin m) ℝ}

/-- C37: one cycle preserves the symmetry. -/
theorem step_symm (hoz : ∀ mult C, PairSymm C → PairSymm (oz mult C)) (h : p.DataSymm) {s : State m} (hs : StateSymm s)
    (mult : ℝ) : StateSymm (p.step oz mult s) := by
  have e : ∀ a b, (p.step oz mult s).Ns a b = (p.step oz mult s).Ns b a := by
    intro a b
    simp only [step]
    rw [csK_symm hs a b, hs.2.1 a b]
    funext j
    congr 4
    funext i
    rw [hoz mult _ (cK_symm h hs mult i) a b]
  refine ⟨fun a b => ?_, e, hs.2.1⟩
  have h2 : ∀ a b, (p.step oz mult s).logG a b = fun j => (p.step oz mult s).Ns a b j - p.vs mult a b j := fun a b => rfl
  rw [h2, h2, e a b, vs_symm h mult a b]

theorem init_symm (h : p.DataSymm) (mult : ℝ) : StateSymm (p.init mult) :=
  ⟨fun a b => by simp only [init]; rw [vs_symm h mult a b], fun _ _ => rfl, fun _ _ => rfl⟩

/-- A property which every cycle preserves holds at the end of the loop. -/
theorem While.invariant {P : State m → Prop} {mult : ℝ} (hP : ∀ s, P s → P (p.step oz mult s)) {s t : State m}
    (h : p.While oz mult s t) (hs : P s) : P t := by
  induction h with
  | stop _ => exact hs
  | step _ _ ih => exact ih (hP _ hs)

theorem Rest.invariant {P : State m → Prop} (hP : ∀ mult s, P s → P (p.step oz mult s))
    (hi : ∀ s i, P s → P { s with iter := i }) {ms : List ℝ} {s t : State m}
    {i j : ℕ} (h : p.Rest oz ms s i t j) (hs : P s) : P t := by
  induction h with
  | done => exact hs
  | next hw _ ih =>
    refine ih (hw.invariant (hP _) (hi _ _ ?_))
    simp only [Function.iterate_succ, Function.iterate_zero, Function.comp, id]
    exact hP _ _ (hP _ _ (hP _ _ (hP _ _ (hP _ _ hs))))

theorem Runs.invariant {P : State m → Prop} (hP : ∀ mult s, P s → P (p.step oz mult s))
    (hi : ∀ s i, P s → P { s with iter := i }) (h0 : ∀ mult, P (p.init mult)) {ms : List ℝ} {t : State m}
    {j : ℕ} (h : p.Runs oz ms t j) : P t := by
  cases ms with
  | nil => exact h.elim
  | cons mult ms =>
    obtain ⟨s, hw, hr⟩ := h
    exact hr.invariant hP hi (hw.invariant (hP mult) (h0 mult))

/-- C37: the pair distribution function is symmetric. -/
theorem returns_symm (h : p.DataSymm) {tmult : List ℝ} {g : Fin m → Fin m → ℕ → ℝ} {it : ℕ}
    (hr : p.Returns tmult g it) (a b : Fin m) (j : ℕ) : g a b j = g b a j := by
  obtain ⟨t, hr, rfl⟩ := hr
  have ht : StateSymm t := hr.invariant (P := StateSymm) (fun mult s hs => step_symm (fun _ _ hC => ozr_symm _ _ hC) h hs mult)
    (fun s i hs => hs) (fun mult => init_symm h mult)
  simp only []
  rw [ht.1 a b]

/-- C37: the pair distribution function is positive. -/
theorem returns_pos {tmult : List ℝ} {g : Fin m → Fin m → ℕ → ℝ} {it : ℕ} (hr : p.Returns tmult g it) (a b : Fin m) (j : ℕ) :
    0 < g a b j := by
  obtain ⟨t, -, rfl⟩ := hr
  exact exp_pos _

/-! ### Termination -/

theorem cond_false_of_iter {s : State m} (h : 2000 ≤ s.iter) : p.cond s = false := by
  unfold cond
  simp [not_lt.2 h]

theorem cond_iff (s : State m) : p.cond s = true ↔ s.iter < 2000 ∧ 1 / 1000000 < p.err s := by
  unfold cond
  simp

theorem while_exists (mult : ℝ) (s : State m) : ∃ t, p.While oz mult s t := by
  obtain ⟨d, hd⟩ : ∃ d, 2000 - s.iter = d := ⟨_, rfl⟩
  induction d generalizing s with
  | zero => exact ⟨s, .stop (cond_false_of_iter (by omega))⟩
  | succ d ih =>
    cases hc : p.cond s with
    | false => exact ⟨s, .stop hc⟩
    | true =>
      obtain ⟨t, ht⟩ := ih (p.step oz mult s) (by simp only [step]; omega)
      exact ⟨t, .step hc ht⟩

theorem While.unique {mult : ℝ} {s t t' : State m} (h : p.While oz mult s t) (h' : p.While oz mult s t') : t = t' := by
  induction h with
  | stop hc =>
    cases h' with
    | stop _ => rfl
    | step hc' _ => rw [hc] at hc'; cases hc'
  | step hc _ ih =>
    cases h' with
    | stop hc' => rw [hc] at hc'; cases hc'
    | step _ h2 => exact ih h2

theorem While.iter_le {mult : ℝ} {s t : State m} (h : p.While oz mult s t) (hs : s.iter ≤ 2000) :
    s.iter ≤ t.iter ∧ t.iter ≤ 2000 := by
  induction h with
  | stop _ => exact ⟨le_rfl, hs⟩
  | @step s s' hc _ ih =>
    have := ((cond_iff s).1 hc).1
    have e : (p.step oz mult s).iter = s.iter + 1 := rfl
    have := ih (by rw [e]; omega)
    rw [e] at this
    omega

/-- When the loop stops, either the limit has been reached or the last change is small. -/
theorem While.converged {mult : ℝ} {s t : State m} (h : p.While oz mult s t) :
    2000 ≤ t.iter ∨ p.err t ≤ 1 / 1000000 := by
  induction h with
  | @stop s hc =>
    by_contra hn
    push Not at hn
    rw [(cond_iff s).2 hn] at hc
    cases hc
  | step _ _ ih => exact ih

theorem rest_exists (ms : List ℝ) (s : State m) (i : ℕ) : ∃ t j, p.Rest oz ms s i t j := by
  induction ms generalizing s i with
  | nil => exact ⟨s, i, .done⟩
  | cons mult ms ih =>
    obtain ⟨s', hw⟩ := while_exists (p := p) (oz := oz) mult (p.warm oz mult s)
    obtain ⟨t, j, hr⟩ := ih s' (i + 5 + s'.iter)
    exact ⟨t, j, .next hw hr⟩

theorem Rest.unique {ms : List ℝ} {s t t' : State m} {i j j' : ℕ} (h : p.Rest oz ms s i t j) (h' : p.Rest oz ms s i t' j') :
    t = t' ∧ j = j' := by
  induction h with
  | done => cases h'; exact ⟨rfl, rfl⟩
  | next hw _ ih =>
    cases h' with
    | next hw' hr' =>
      obtain rfl := hw.unique hw'
      exact ih hr'

theorem Rest.count {ms : List ℝ} {s t : State m} {i j : ℕ} (h : p.Rest oz ms s i t j) :
    i + 5 * ms.length ≤ j ∧ j ≤ i + 2005 * ms.length := by
  induction h with
  | done => simp
  | next hw _ ih =>
    have := hw.iter_le (show 0 ≤ 2000 by omega)
    simp only [List.length_cons]
    omega

theorem err_init {mult : ℝ} (hm : 0 < m) (hN : 0 < p.N) : p.cond (p.init mult) = true := by
  rw [cond_iff]
  refine ⟨by simp [init], ?_⟩
  have e : p.err (p.init mult) = (m * (m * p.N) : ℕ) := by
    unfold err init
    simp
  rw [e]
  have : 1 ≤ m * (m * p.N) := Nat.mul_pos hm (Nat.mul_pos hm hN)
  have : (1 : ℝ) ≤ (m * (m * p.N) : ℕ) := by exact_mod_cast this
  linarith

/-- C37: the loop always comes to an end with one result, after at most 2000 cycles for each of the
temperatures and five cycles for each temperature but the first. -/
theorem returns_unique (p : Input m) (tmult : List ℝ) :
    (∃ g it, p.Returns tmult g it) ∧
      (∀ g it g' it', p.Returns tmult g it → p.Returns tmult g' it' → g = g' ∧ it = it') ∧
      ∀ g it, p.Returns tmult g it → it ≤ 2000 * (tmult.length + 1) + 5 * tmult.length ∧
        5 * tmult.length ≤ it ∧ (0 < m → 0 < p.N → 5 * tmult.length < it) := by
  obtain ⟨mult, ms, hms⟩ : ∃ mult ms, tmult ++ [1] = mult :: ms := by
    cases tmult with
    | nil => exact ⟨1, [], rfl⟩
    | cons a l => exact ⟨a, l ++ [1], rfl⟩
  have hlen : ms.length = tmult.length := by
    have := congrArg List.length hms
    simpa using this.symm
  refine ⟨?_, ?_, ?_⟩
  · obtain ⟨s, hw⟩ := while_exists (p := p) (oz := fun _ => ozr p.n p.maxSize) mult (p.init mult)
    obtain ⟨t, j, hr⟩ := rest_exists (p := p) (oz := fun _ => ozr p.n p.maxSize) ms s s.iter
    exact ⟨_, j, t, by rw [hms]; exact ⟨s, hw, hr⟩, rfl⟩
  · rintro g it g' it' ⟨t, h, rfl⟩ ⟨t', h', rfl⟩
    rw [hms] at h h'
    obtain ⟨s, hw, hr⟩ := h
    obtain ⟨s', hw', hr'⟩ := h'
    obtain rfl := hw.unique hw'
    obtain ⟨rfl, rfl⟩ := hr.unique hr'
    exact ⟨rfl, rfl⟩
  · rintro g it ⟨t, h, rfl⟩
    rw [hms] at h
    obtain ⟨s, hw, hr⟩ := h
    have h1 := hw.iter_le (show (0 : ℕ) ≤ 2000 by omega)
    have h2 := hr.count
    rw [hlen] at h2
    refine ⟨by omega, by omega, fun hm hN => ?_⟩
    cases hw with
    | stop hc => rw [err_init hm hN] at hc; cases hc
    | step _ hw' =>
      have := (hw'.iter_le (show (1 : ℕ) ≤ 2000 by omega)).1
      have e : (p.step (fun _ => ozr p.n p.maxSize) mult (p.init mult)).iter = 1 := rfl
      rw [e] at this
      omega

end Input

end Verif.Hnc
