/-
Piecewise linear interpolation: `jnp.interp` as used through `jnpu.interp`, and the functions of
jaxrts that are tables with interpolation.

`jnp.interp` itself is not part of /repo; it is modelled after its documented implementation:
binary search of the nodes by `searchsorted(xp, x, side="right")`, the index clipped to
`1 .. len(xp) - 1`, a linear formula between the two nodes, constant continuation (or the values
`left` and `right`) outside.  Numbers are real, so the guard against tiny distances of nodes is a
comparison with zero.
-/
import Mathlib.Data.Real.Basic
import Mathlib.Data.Nat.Log

set_option autoImplicit false

namespace Verif.Interp

/-- One step of the binary search, on the half open range `low, high`. -/
noncomputable def bstep (xp : ℕ → ℝ) (x : ℝ) (p : ℕ × ℕ) : ℕ × ℕ :=
  let mid := (p.1 + p.2) / 2
  if x < xp mid then (p.1, mid) else (mid, p.2)

/-- `searchsorted(xp, x, side="right")` for `n` nodes: `ceil(log2(n + 1))` steps. -/
noncomputable def searchsorted (n : ℕ) (xp : ℕ → ℝ) (x : ℝ) : ℕ :=
  ((bstep xp x)^[Nat.clog 2 (n + 1)] (0, n)).2

/-- The linear formula between the nodes `i - 1` and `i`. -/
noncomputable def segment (xp fp : ℕ → ℝ) (i : ℕ) (x : ℝ) : ℝ :=
  if xp i - xp (i - 1) = 0 then fp (i - 1)
  else fp (i - 1) + (x - xp (i - 1)) / (xp i - xp (i - 1)) * (fp i - fp (i - 1))

/-- `jnp.interp(x, xp, fp, left, right)` for arrays of `n` entries. -/
noncomputable def interpLR (n : ℕ) (xp fp : ℕ → ℝ) (left right x : ℝ) : ℝ :=
  if xp (n - 1) < x then right
  else if x < xp 0 then left
  else segment xp fp (min (max (searchsorted n xp x) 1) (n - 1)) x

/-- `jnp.interp(x, xp, fp)`: constant continuation. -/
noncomputable def interp (n : ℕ) (xp fp : ℕ → ℝ) (x : ℝ) : ℝ :=
  interpLR n xp fp (fp 0) (fp (n - 1)) x

/-- An array as a function of the index. -/
def arr (l : List ℝ) (i : ℕ) : ℝ := l.getD i 0

/-- `jnpu.interp(x, onp.array(xp), onp.array(fp))`. -/
noncomputable def interpL (xp fp : List ℝ) (x : ℝ) : ℝ :=
  interp xp.length (arr xp) (arr fp) x

/-- The nodes and values of `pauling_size_screening_constants`, for the orbitals
1s 2s 2p 3s 3p 3d 4s 4p 4d 4f: /repo/src/jaxrts/form_factors.py 22-45. -/
noncomputable def paulingTable : List (List ℝ × List ℝ) :=
  [([1, 2], [0, 0.19]),
   ([3, 10], [1.25, 3.10]),
   ([5, 10], [2.50, 4.57]),
   ([11, 18, 20, 30], [6.6, 9.1, 9.1, 10.9]),
   ([13, 18, 20, 30], [8.7, 10.9, 10.9, 13.2]),
   ([21, 30], [14.7, 17.7]),
   ([19, 20, 30, 26, 38, 48, 57, 71], [13.4, 13.9, 21.5, 24.2, 24.2, 25.6, 25.6, 29.4]),
   ([31, 36, 38, 48, 57, 71], [24.4, 26.6, 26.6, 28.4, 28.4, 32.8]),
   ([39, 48, 57, 71], [31.8, 34.0, 34.0, 39.6]),
   ([58, 71], [43, 49.8])]

/-- `pauling_size_screening_constants(Z)`: form_factors.py 18-85. -/
noncomputable def paulingScreening (Z : ℝ) : List ℝ :=
  paulingTable.map fun t => interpL t.1 t.2 Z

/-- The nodes and values of `electron_distribution_ionized_state`, in the order of the returned
array: /repo/src/jaxrts/elements.py 1589-1612. -/
noncomputable def shellTable : List (List ℝ × List ℝ) :=
  [([0, 2], [0, 2]),     -- 1s
   ([2, 4], [0, 2]),     -- 2s
   ([4, 10], [0, 6]),    -- 2p
   ([10, 12], [0, 2]),   -- 3s
   ([12, 18], [0, 6]),   -- 3p
   ([20, 30], [0, 10]),  -- 3d
   ([18, 20], [0, 2]),   -- 4s
   ([30, 36], [0, 6]),   -- 4p
   ([0, 99], [0, 0]),    -- 4d
   ([0, 99], [0, 0])]    -- 4f

/-- `electron_distribution_ionized_state(Z_core)`: elements.py 1563-1613. -/
noncomputable def electronDistribution (Zcore : ℝ) : List ℝ :=
  shellTable.map fun t => interpL t.1 t.2 Zcore

end Verif.Interp
