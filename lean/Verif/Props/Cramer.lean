/-
Property C11: the linear solver.
-/
import Verif.Model.Cramer
import Mathlib.LinearAlgebra.Matrix.Determinant.Basic
import Mathlib.Tactic.Ring
import Mathlib.Tactic.FieldSimp
import Mathlib.Tactic.LinearCombination
import Mathlib.Tactic.FinCases
import Mathlib.Tactic.NormNum
import Mathlib.Data.Matrix.Reflection

set_option autoImplicit false

namespace Verif.Cramer

variable {K : Type} [Field K]

theorem solve1_spec (A : Matrix (Fin 1) (Fin 1) K) (b : Fin 1 → K) (h : A.det ≠ 0) :
    A.mulVec (solve1 A b) = b := by
  rw [Matrix.det_fin_one] at h
  funext i
  fin_cases i
  simp [solve1, Matrix.mulVec, dotProduct, h, mul_div_cancel₀]

theorem solve2_spec (A : Matrix (Fin 2) (Fin 2) K) (b : Fin 2 → K) (h : A.det ≠ 0) :
    A.mulVec (solve2 A b) = b := by
  rw [Matrix.det_fin_two] at h
  funext i
  fin_cases i
  all_goals
    simp only [solve2, Matrix.mulVec, dotProduct, Fin.sum_univ_two, Matrix.cons_val_zero,
      Matrix.cons_val_one, Fin.mk_one, Fin.zero_eta, Fin.isValue]
    rw [← mul_div_assoc, ← mul_div_assoc, ← add_div, div_eq_iff h]
    ring

theorem solve3_spec (A : Matrix (Fin 3) (Fin 3) K) (b : Fin 3 → K) (h : A.det ≠ 0) :
    A.mulVec (solve3 A b) = b := by
  rw [Matrix.det_fin_three] at h
  funext i
  fin_cases i
  all_goals
    simp only [solve3, Matrix.mulVec, dotProduct, Fin.sum_univ_three, Matrix.cons_val,
      Matrix.cons_val_zero, Matrix.cons_val_one, Fin.mk_one, Fin.zero_eta, Fin.reduceFinMk, Fin.isValue]
    rw [← mul_div_assoc, ← mul_div_assoc, ← mul_div_assoc, ← add_div, ← add_div, div_eq_iff]
    · ring
    · intro h0; apply h; rw [← h0]; ring

theorem det4 (A : Matrix (Fin 4) (Fin 4) K) : A.det =
    A 0 0 * (A 1 1 * (A 2 2 * A 3 3 - A 2 3 * A 3 2) - A 1 2 * (A 2 1 * A 3 3 - A 2 3 * A 3 1)
      + A 1 3 * (A 2 1 * A 3 2 - A 2 2 * A 3 1))
    - A 0 1 * (A 1 0 * (A 2 2 * A 3 3 - A 2 3 * A 3 2) - A 1 2 * (A 2 0 * A 3 3 - A 2 3 * A 3 0)
      + A 1 3 * (A 2 0 * A 3 2 - A 2 2 * A 3 0))
    + A 0 2 * (A 1 0 * (A 2 1 * A 3 3 - A 2 3 * A 3 1) - A 1 1 * (A 2 0 * A 3 3 - A 2 3 * A 3 0)
      + A 1 3 * (A 2 0 * A 3 1 - A 2 1 * A 3 0))
    - A 0 3 * (A 1 0 * (A 2 1 * A 3 2 - A 2 2 * A 3 1) - A 1 1 * (A 2 0 * A 3 2 - A 2 2 * A 3 0)
      + A 1 2 * (A 2 0 * A 3 1 - A 2 1 * A 3 0)) := by
  rw [Matrix.det_succ_row_zero]
  simp only [Fin.sum_univ_four, Matrix.det_fin_three, Matrix.submatrix_apply]
  simp [Fin.succAbove, Fin.lt_def]
  ring

theorem solve4_spec (A : Matrix (Fin 4) (Fin 4) K) (b : Fin 4 → K) (h : A.det ≠ 0) :
    A.mulVec (solve4 A b) = b := by
  rw [det4] at h
  funext i
  fin_cases i
  all_goals
    simp only [solve4, parts4, Matrix.mulVec, dotProduct, Fin.sum_univ_four, Matrix.cons_val,
      Matrix.cons_val_zero, Matrix.cons_val_one, Fin.mk_one, Fin.zero_eta, Fin.reduceFinMk,
      Fin.isValue]
    rw [← mul_div_assoc, ← mul_div_assoc, ← mul_div_assoc, ← mul_div_assoc, ← add_div, ← add_div,
      ← add_div, div_eq_iff]
    · ring
    · intro h0; apply h; rw [← h0]; ring

/-- C11.  For every size, every `N_max` and every invertible matrix, `cramer_solve` returns a
solution of `A x = b`, and there is no other one. -/
theorem cramer_solves (n : ℕ) (A : Matrix (Fin n) (Fin n) K) (b : Fin n → K) (m : ℕ)
    (h : A.det ≠ 0) :
    A.mulVec (cramerSolve n A b m) = b ∧
      ∀ x, A.mulVec x = b → x = cramerSolve n A b m := by
  have hu : IsUnit A.det := isUnit_iff_ne_zero.2 h
  have hl : A.mulVec (linalgSolve A b) = b := by
    simp [linalgSolve, Matrix.mulVec_mulVec, Matrix.mul_nonsing_inv A hu]
  have hs : A.mulVec (cramerSolve n A b m) = b := by
    unfold cramerSolve
    split
    · split
      · exact hl
      · exact solve1_spec _ _ h
    · split
      · exact hl
      · exact solve2_spec _ _ h
    · split
      · exact hl
      · exact solve3_spec _ _ h
    · split
      · exact hl
      · exact solve4_spec _ _ h
    · exact hl
  refine ⟨hs, fun x hx => ?_⟩
  have := congrArg (A⁻¹.mulVec) (hx.trans hs.symm)
  simpa [Matrix.mulVec_mulVec, Matrix.nonsing_inv_mul A hu] using this

/-- C11.  The value of `N_max` makes no difference. -/
theorem cramer_independent_of_limit (n : ℕ) (A : Matrix (Fin n) (Fin n) K) (b : Fin n → K)
    (m m' : ℕ) (h : A.det ≠ 0) : cramerSolve n A b m = cramerSolve n A b m' :=
  (cramer_solves n A b m' h).2 _ (cramer_solves n A b m h).1

theorem parts4_det (A : Matrix (Fin 4) (Fin 4) K) (b : Fin 4 → K) : (parts4 A b).2 = A.det := by
  rw [det4]
  simp only [parts4]
  ring

/-- C11: in a batch of systems with one to three rows, and in a batch of one system with four rows, every
system is solved.
(Partial: false for larger batches of systems with four rows, see `batch4_fails` and `batch4_iff`.) -/
theorem batch_solves_partial {B n : ℕ} (h : (1 ≤ n ∧ n ≤ 3) ∨ (n = 4 ∧ B = 1)) (A : Fin B → Matrix (Fin n) (Fin n) K)
    (b : Fin B → Fin n → K) (hA : ∀ i, (A i).det ≠ 0) :
    ∃ x, batchSolve B n A b = some x ∧ ∀ i, (A i).mulVec (x i) = b i := by
  rcases h with ⟨h1, h3⟩ | ⟨rfl, rfl⟩
  · obtain rfl | rfl | rfl : n = 1 ∨ n = 2 ∨ n = 3 := by omega
    · exact ⟨_, rfl, fun i => solve1_spec _ _ (hA i)⟩
    · exact ⟨_, rfl, fun i => solve2_spec _ _ (hA i)⟩
    · exact ⟨_, rfl, fun i => solve3_spec _ _ (hA i)⟩
  · refine ⟨fun i => solve4 (A i) (b i), ?_, fun i => solve4_spec _ _ (hA i)⟩
    simp only [batchSolve]
    rw [dif_neg (by norm_num), dif_pos trivial]
    congr 1
    funext i j
    obtain rfl : i = 0 := Subsingleton.elim _ _
    rfl

/-- C11 is false for batches of systems with four rows: they raise, unless there are one or four systems. -/
theorem batch4_fails {B : ℕ} (h1 : B ≠ 1) (h4 : B ≠ 4) (A : Fin B → Matrix (Fin 4) (Fin 4) K) (b : Fin B → Fin 4 → K) :
    batchSolve B 4 A b = none := by
  simp only [batchSolve]
  rw [dif_neg h4, dif_neg h1]

/-- C11 is false for batches of four systems with four rows: the unknown `j` of system `i` is off by the ratio
of the determinants of the systems `i` and `j`, so the result is right if and only if these are equal
wherever the unknown is not zero. -/
theorem batch4_iff (A : Fin 4 → Matrix (Fin 4) (Fin 4) K) (b : Fin 4 → Fin 4 → K) (hA : ∀ i, (A i).det ≠ 0) :
    ∃ x, batchSolve 4 4 A b = some x ∧ ∀ y : Fin 4 → Fin 4 → K, (∀ i, (A i).mulVec (y i) = b i) →
      (∀ i j, x i j = y i j * (A i).det / (A j).det) ∧
      ((∀ i, (A i).mulVec (x i) = b i) ↔ ∀ i j, y i j = 0 ∨ (A i).det = (A j).det) := by
  refine ⟨fun i j => (parts4 (A i) (b i)).1 j / (parts4 (A j) (b j)).2, rfl, fun y hy => ?_⟩
  have hy' : ∀ i, y i = solve4 (A i) (b i) := fun i => by
    have := (cramer_solves 4 (A i) (b i) 4 (hA i)).2 (y i) (hy i)
    simpa [cramerSolve] using this
  have hx : ∀ i j, (parts4 (A i) (b i)).1 j / (parts4 (A j) (b j)).2 = y i j * (A i).det / (A j).det := by
    intro i j
    rw [hy' i, parts4_det]
    unfold solve4
    rw [parts4_det, div_mul_cancel₀ _ (hA i)]
  refine ⟨hx, ?_⟩
  have key : ∀ i j, y i j * (A i).det / (A j).det = y i j ↔ (y i j = 0 ∨ (A i).det = (A j).det) := by
    intro i j
    rw [div_eq_iff (hA j), mul_eq_mul_left_iff, or_comm]
  constructor
  · intro h i j
    rw [← key, ← hx]
    have := (cramer_solves 4 (A i) (b i) 4 (hA i)).2 _ (h i)
    have e : cramerSolve 4 (A i) (b i) 4 = solve4 (A i) (b i) := by simp [cramerSolve]
    rw [e, ← hy' i] at this
    exact congrFun this j
  · intro h i
    have : (fun j => (parts4 (A i) (b i)).1 j / (parts4 (A j) (b j)).2) = y i := by
      funext j
      rw [hx, key]
      exact h i j
    exact (congrArg (A i).mulVec this).trans (hy i)

/-- Four systems for the theorem above whose solution is not returned: multiples of the unit matrix. -/
example : ∃ (A : Fin 4 → Matrix (Fin 4) (Fin 4) ℚ) (b : Fin 4 → Fin 4 → ℚ), (∀ i, (A i).det ≠ 0) ∧
    ∃ x, batchSolve 4 4 A b = some x ∧ ¬ ∀ i, (A i).mulVec (x i) = b i := by
  have hA : ∀ i : Fin 4, (((i : ℚ) + 1) • (1 : Matrix (Fin 4) (Fin 4) ℚ)).det = ((i : ℚ) + 1) ^ 4 := by
    intro i
    rw [Matrix.det_smul, Matrix.det_one, mul_one, Fintype.card_fin]
  have hA0 : ∀ i : Fin 4, (((i : ℚ) + 1) • (1 : Matrix (Fin 4) (Fin 4) ℚ)).det ≠ 0 := by
    intro i
    rw [hA]
    positivity
  refine ⟨fun i => ((i : ℚ) + 1) • 1, fun i _ => (i : ℚ) + 1, hA0, ?_⟩
  obtain ⟨x, h1, h2⟩ := batch4_iff (fun i : Fin 4 => ((i : ℚ) + 1) • (1 : Matrix (Fin 4) (Fin 4) ℚ)) (fun i _ => (i : ℚ) + 1) hA0
  refine ⟨x, h1, fun h => ?_⟩
  have h3 := ((h2 (fun _ _ => 1) (fun i => by rw [Matrix.smul_mulVec, Matrix.one_mulVec]; funext j; simp)).2.mp h) 0 1
  rw [hA, hA] at h3
  norm_num at h3

/-- A four by four matrix with determinant 1 that is not triangular. -/
example : (!![2, 1, 0, 0; 1, 1, 0, 0; 0, 0, 2, 3; 0, 0, 1, 2] : Matrix (Fin 4) (Fin 4) ℚ).det ≠ 0 := by
  rw [det4]; simp; norm_num

end Verif.Cramer
