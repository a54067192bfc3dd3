/-
`cramer_solve`, /repo/src/jaxrts/helpers.py 443-750, over a field, for one system and for a batch of
systems with one leading axis.
-/
import Mathlib.LinearAlgebra.Matrix.NonsingularInverse

set_option autoImplicit false

namespace Verif.Cramer

variable {K : Type} [Field K]

/-- The case `N == 1`: helpers.py 483-484. -/
def solve1 (A : Matrix (Fin 1) (Fin 1) K) (b : Fin 1 → K) : Fin 1 → K :=
  fun i => b i / A 0 0

/-- The case `N == 2`: helpers.py 486-494. -/
def solve2 (A : Matrix (Fin 2) (Fin 2) K) (b : Fin 2 → K) : Fin 2 → K :=
  let a00 := A 0 0; let a01 := A 0 1
  let a10 := A 1 0; let a11 := A 1 1
  let b0 := b 0; let b1 := b 1
  let det := a00 * a11 - a01 * a10
  let x0 := (a11 * b0 - a01 * b1) / det
  let x1 := (-a10 * b0 + a00 * b1) / det
  ![x0, x1]

/-- The case `N == 3`: helpers.py 496-517. -/
def solve3 (A : Matrix (Fin 3) (Fin 3) K) (b : Fin 3 → K) : Fin 3 → K :=
  let a00 := A 0 0; let a01 := A 0 1; let a02 := A 0 2
  let a10 := A 1 0; let a11 := A 1 1; let a12 := A 1 2
  let a20 := A 2 0; let a21 := A 2 1; let a22 := A 2 2
  let b0 := b 0; let b1 := b 1; let b2 := b 2
  let c00 := a11 * a22 - a12 * a21
  let c01 := -(a10 * a22 - a12 * a20)
  let c02 := a10 * a21 - a11 * a20
  let c10 := -(a01 * a22 - a02 * a21)
  let c11 := a00 * a22 - a02 * a20
  let c12 := -(a00 * a21 - a01 * a20)
  let c20 := a01 * a12 - a02 * a11
  let c21 := -(a00 * a12 - a02 * a10)
  let c22 := a00 * a11 - a01 * a10
  let det := a00 * c00 + a01 * c01 + a02 * c02
  let x0 := (c00 * b0 + c10 * b1 + c20 * b2) / det
  let x1 := (c01 * b0 + c11 * b1 + c21 * b2) / det
  let x2 := (c02 * b0 + c12 * b1 + c22 * b2) / det
  ![x0, x1, x2]

/-- The case `N == 4`: helpers.py 519-746, the numerators and the determinant. -/
def parts4 (A : Matrix (Fin 4) (Fin 4) K) (b : Fin 4 → K) : (Fin 4 → K) × K :=
  let a00 := A 0 0; let a01 := A 0 1; let a02 := A 0 2; let a03 := A 0 3
  let a10 := A 1 0; let a11 := A 1 1; let a12 := A 1 2; let a13 := A 1 3
  let a20 := A 2 0; let a21 := A 2 1; let a22 := A 2 2; let a23 := A 2 3
  let a30 := A 3 0; let a31 := A 3 1; let a32 := A 3 2; let a33 := A 3 3
  let b0 := b 0; let b1 := b 1; let b2 := b 2; let b3 := b 3
  let t0 := a01 * a10
  let t1 := a02 * a20
  let t2 := a03 * a30
  let t3 := a23 * a32
  let t4 := a22 + a33
  let t5 := a22 * a33
  let t6 := a12 * a21
  let t7 := a13 * a31
  let t8 := t6 + t7
  let t9 := a12 * a20
  let t10 := a13 * a30
  let t11 := a10 * a11 + t10 + t9
  let t12 := a10 * a21
  let t13 := a23 * a30
  let t14 := a20 * a22 + t12 + t13
  let t15 := a10 * a31
  let t16 := a20 * a32
  let t17 := a30 * a33 + t15 + t16
  let t18 := a23 * a31
  let t19 := a21 * a32
  let t20 := a01 * a12
  let t21 := a03 * a11
  let t22 := a01 * a13
  let t23 := a02 * a33
  let t24 := a03 * a31
  let t25 := a13 * a21
  let t26 := a02 * a23
  let t27 := a00 * a12
  let t28 := a03 * a10
  let t29 := a00 * a13
  let t30 := a11 * a33
  let t31 := a00 * a11
  let t32 := a22 * a30
  let t33 := a02 * a30
  let det := a00 * (a11 * (-t3 + t5) + a12 * (a21 * a22 + t18) + a13 * (a31 * a33 + t19) - t4 *
      t8) - a01 * (a11 * t11 + a12 * t14 + a13 * t17) - a02 * (a21 * t11 + a22 * t14 + a23 * t17)
      - a03 * (a31 * t11 + a32 * t14 + a33 * t17) + (a11 + t4) * (a01 * t11 + a02 * t14 + a03 *
      t17) + (t0 + t1 + t2) * (-a11 * t4 + t3 - t5 + t8)
  let num0 := b0 * (-a11 * t3 + a11 * t5 + a12 * t18 + a13 * t19 - a22 * t7 - a33 * t6) - b1 *
      (-a01 * t3 + a01 * t5 + a02 * t18 + a03 * t19 - a21 * t23 - a22 * t24) + b2 * (a02 * t7 -
      a11 * t23 - a12 * t24 + a32 * t21 - a32 * t22 + a33 * t20) - b3 * (a02 * t25 - a03 * t6 -
      a11 * t26 + a22 * t21 - a22 * t22 + a23 * t20)
  let num1 := -b0 * (-a10 * t3 + a10 * t5 + a12 * t13 + a13 * t16 - a22 * t10 - a33 * t9) + b1 *
      (-a00 * t3 + a00 * t5 + a02 * t13 + a03 * t16 - a22 * t2 - a33 * t1) - b2 * (a02 * t10 - a10
      * t23 - a12 * t2 + a32 * t28 - a32 * t29 + a33 * t27) + b3 * (-a03 * t9 - a10 * t26 + a13 *
      t1 + a22 * t28 - a22 * t29 + a23 * t27)
  let num2 := b0 * (-a10 * t18 + a11 * t13 - a20 * t30 + a20 * t7 - a21 * t10 + a33 * t12) - b1 *
      (a00 * a21 * a33 - a00 * t18 - a01 * a20 * a33 + a01 * t13 + a20 * t24 - a21 * t2) + b2 *
      (a00 * t30 - a00 * t7 + a01 * t10 + a03 * t15 - a11 * t2 - a33 * t0) - b3 * (-a00 * t25 +
      a03 * t12 - a20 * t21 + a20 * t22 - a23 * t0 + a23 * t31)
  let num3 := -b0 * (a10 * t19 - a11 * t16 + a11 * t32 - a22 * t15 - a30 * t6 + a31 * t9) + b1 *
      (-a00 * a22 * a31 + a00 * t19 - a01 * t16 + a01 * t32 - a21 * t33 + a31 * t1) - b2 * (a02 *
      t15 - a11 * t33 + a30 * t20 - a31 * t27 - a32 * t0 + a32 * t31) + b3 * (-a00 * t6 + a01 * t9
      + a02 * t12 - a11 * t1 - a22 * t0 + a22 * t31)
  (![num0, num1, num2, num3], det)

/-- The case `N == 4` for one system: helpers.py 747. -/
def solve4 (A : Matrix (Fin 4) (Fin 4) K) (b : Fin 4 → K) : Fin 4 → K :=
  fun j => (parts4 A b).1 j / (parts4 A b).2

/-- `jnp.linalg.solve`, the fallback of helpers.py 479-481 and 749-750, modelled as the exact
solution (by the inverse matrix). -/
noncomputable def linalgSolve {n : ℕ} (A : Matrix (Fin n) (Fin n) K) (b : Fin n → K) : Fin n → K :=
  A⁻¹.mulVec b

/-- `cramer_solve(A, b, N_max)`: helpers.py 443-750. -/
noncomputable def cramerSolve : (n : ℕ) → Matrix (Fin n) (Fin n) K → (Fin n → K) → ℕ → Fin n → K
  | 1, A, b, m => if m < 1 then linalgSolve A b else solve1 A b
  | 2, A, b, m => if m < 2 then linalgSolve A b else solve2 A b
  | 3, A, b, m => if m < 3 then linalgSolve A b else solve3 A b
  | 4, A, b, m => if m < 4 then linalgSolve A b else solve4 A b
  | _, A, b, _ => linalgSolve A b

/-- `cramer_solve(A, b)` for a batch of `B` systems, `A` with the shape `(B, n, n)` and `b` with `(B, n)`, and one of
the sizes that are written out; the fallback is not modelled.  For one to three rows all operations are on
arrays of length `B`.  For four rows (helpers.py 747) an array of the shape `(B, 4)` is divided by one of the
shape `(B,)`: the axis of the batch meets that of the rows, which fails unless `B` is four or one. -/
def batchSolve (B : ℕ) : (n : ℕ) → (Fin B → Matrix (Fin n) (Fin n) K) → (Fin B → Fin n → K) → Option (Fin B → Fin n → K)
  | 1, A, b => some fun i => solve1 (A i) (b i)
  | 2, A, b => some fun i => solve2 (A i) (b i)
  | 3, A, b => some fun i => solve3 (A i) (b i)
  | 4, A, b =>
    if h : B = 4 then some fun i j => (parts4 (A i) (b i)).1 j / (parts4 (A (j.cast h.symm)) (b (j.cast h.symm))).2
    else if h : B = 1 then some fun i j => (parts4 (A i) (b i)).1 j / (parts4 (A ⟨0, by omega⟩) (b ⟨0, by omega⟩)).2
    else none
  | _, _, _ => none

end Verif.Cramer
