/-
`bisection`, /repo/src/jaxrts/helpers.py 327-382, over the real numbers.
-/
import Mathlib.Data.Real.Basic
import Mathlib.Data.Real.Sign

set_option autoImplicit false

namespace Verif.Bisection

/-- The state `(a, b, i)` of the loop: helpers.py 374-378. -/
structure State where
  prev : ℝ
  next : ℝ
  count : ℕ

/-- The arguments other than the bounds: helpers.py 328-330.  The iteration numbers, floats in
python, are natural numbers here. -/
structure Options where
  tolerance : ℝ
  maxIter : ℕ
  minIter : ℕ

open Classical in
/-- `condition`: helpers.py 359-366. -/
noncomputable def condition (f : ℝ → ℝ) (o : Options) (s : State) : Bool :=
  (decide (s.count < o.maxIter) && decide (|f s.next| > o.tolerance) &&
    decide (|s.prev - s.next| > o.tolerance)) || decide (s.count < o.minIter)

open Classical in
/-- `body`: helpers.py 368-372. -/
noncomputable def body (f : ℝ → ℝ) (s : State) : State :=
  let c := (s.prev + s.next) / 2
  let bound := if Real.sign (f c) = Real.sign (f s.next) then s.prev else s.next
  ⟨bound, c, s.count + 1⟩

/-- `jax.lax.while_loop(condition, body, s)`: `While s s'` says that the loop started in `s` ends
in `s'`. -/
inductive While (f : ℝ → ℝ) (o : Options) : State → State → Prop
  | stop {s} : condition f o s = false → While f o s s
  | step {s s'} : condition f o s = true → While f o (body f s) s' → While f o s s'

/-- `bisection(f, a, b, ...)` returns `(x, n)`: helpers.py 374-382. -/
def Returns (f : ℝ → ℝ) (o : Options) (a b x : ℝ) (n : ℕ) : Prop :=
  ∃ s, While f o ⟨a, b, 0⟩ s ∧ s.next = x ∧ s.count = n

end Verif.Bisection
