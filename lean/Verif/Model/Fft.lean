/-
Model of the transforms in hypernetted_chain.py 102-264: `four1`, `realfft`, `realfftnp` and `sinft`.

An array of length `n` is a function on the natural numbers of which the first `n` values count.
Every assignment to an element, every loop and every loop variable of the code is there.  Real numbers
instead of floating point numbers.
-/
import Verif.Model.Hnc

set_option autoImplicit false

namespace Verif.Fft

open Real

/-- `range(a, b, s)` of python. -/
def pyRange (a b s : ℕ) : List ℕ := (List.range ((b - a + s - 1) / s)).map fun i => a + s * i

/-- `y = y.at[i].set(v)`. -/
def set (y : ℕ → ℝ) (i : ℕ) (v : ℝ) : ℕ → ℝ := Function.update y i v

/-- hypernetted_chain.py 129-133: the while loop, and the addition behind it, for the values `m` and
`j` at its start. -/
def bitInc (m j : ℕ) : ℕ := if 2 ≤ m ∧ m < j then bitInc (m / 2) (j - m) else j + m
termination_by m
decreasing_by omega

/-- hypernetted_chain.py 120-128: the exchange of two elements (real and imaginary part). -/
def exchange (y : ℕ → ℝ) (i j : ℕ) : ℕ → ℝ :=
  let temp1 := y (i - 1)
  let temp2 := y (j - 1)
  let y := set y (j - 1) temp1
  let y := set y (i - 1) temp2
  let temp1 := y i
  let temp2 := y j
  let y := set y j temp1
  set y i temp2

/-- hypernetted_chain.py 119-133: the body of the first loop; the state is `y` and `j`. -/
def reverseStep (nn : ℕ) (s : (ℕ → ℝ) × ℕ) (i : ℕ) : (ℕ → ℝ) × ℕ :=
  (if i < s.2 then exchange s.1 i s.2 else s.1, bitInc nn s.2)

/-- hypernetted_chain.py 116-133: the first loop. -/
def bitReversal (nn : ℕ) (y : ℕ → ℝ) : ℕ → ℝ :=
  ((pyRange 1 (2 * nn) 2).foldl (reverseStep nn) (y, 1)).1

/-- hypernetted_chain.py 147-153: the body of the innermost loop. -/
def butterfly (mmax : ℕ) (wr wi : ℝ) (y : ℕ → ℝ) (i : ℕ) : ℕ → ℝ :=
  let j := i + mmax
  let tempr := wr * y (j - 1) - wi * y j
  let tempi := wr * y j + wi * y (j - 1)
  let y := set y (j - 1) (y (i - 1) - tempr)
  let y := set y j (y i - tempi)
  let y := set y (i - 1) (y (i - 1) + tempr)
  set y i (y i + tempi)

/-- hypernetted_chain.py 146-156: the body of the loop over `m`; the state is `y`, `wr` and `wi`. -/
def twiddleStep (n mmax : ℕ) (wpr wpi : ℝ) (s : (ℕ → ℝ) × ℝ × ℝ) (m : ℕ) : (ℕ → ℝ) × ℝ × ℝ :=
  let y := (pyRange m (n + 1) (2 * mmax)).foldl (butterfly mmax s.2.1 s.2.2) s.1
  let wtemp := s.2.1
  let wr := wtemp * wpr - s.2.2 * wpi + s.2.1
  let wi := s.2.2 * wpr + wtemp * wpi + s.2.2
  (y, wr, wi)

/-- hypernetted_chain.py 137-156: one pass of the outer loop, without the doubling of `mmax`. -/
noncomputable def pass (isign : ℝ) (n mmax : ℕ) (y : ℕ → ℝ) : ℕ → ℝ :=
  let theta := isign * (2 * π / mmax)
  let wtemp := sin (0.5 * theta)
  let wpr := -2 * wtemp ^ 2
  let wpi := sin theta
  ((pyRange 1 mmax 2).foldl (twiddleStep n mmax wpr wpi) (y, 1, 0)).1

/-- hypernetted_chain.py 136-158: the outer loop.  (The test that `mmax` is positive is not in the code,
where it starts at two.) -/
noncomputable def passes (isign : ℝ) (n mmax : ℕ) (y : ℕ → ℝ) : ℕ → ℝ :=
  if 0 < mmax ∧ mmax < n then passes isign n (2 * mmax) (pass isign n mmax y) else y
termination_by n - mmax
decreasing_by omega

/-- hypernetted_chain.py 102-160 `four1`, for an array of length `len`. -/
noncomputable def four1 (len : ℕ) (y : ℕ → ℝ) (isign : ℝ) : ℕ → ℝ :=
  let nn := len / 2
  passes isign (2 * nn) 2 (bitReversal nn y)

/-- hypernetted_chain.py 188-209: the body of the loop; the state is `y`, `wr` and `wi`. -/
noncomputable def realStep (n : ℕ) (c1 c2 wpr wpi : ℝ) (s : (ℕ → ℝ) × ℝ × ℝ) (i : ℕ) : (ℕ → ℝ) × ℝ × ℝ :=
  let y := s.1
  let wr := s.2.1
  let wi := s.2.2
  let i1 := i + i - 1
  let i2 := 1 + i1
  let i3 := n + 3 - i2
  let i4 := 1 + i3
  let h1r := c1 * (y (i1 - 1) + y (i3 - 1))
  let h1i := c1 * (y (i2 - 1) - y (i4 - 1))
  let h2r := -c2 * (y (i2 - 1) + y (i4 - 1))
  let h2i := c2 * (y (i1 - 1) - y (i3 - 1))
  let y := set y (i1 - 1) (h1r + wr * h2r - wi * h2i)
  let y := set y (i2 - 1) (h1i + wr * h2i + wi * h2r)
  let y := set y (i3 - 1) (h1r - wr * h2r + wi * h2i)
  let y := set y (i4 - 1) (-h1i + wr * h2i + wi * h2r)
  (y, wr * wpr - wi * wpi + wr, wi * wpr + wr * wpi + wi)

/-- hypernetted_chain.py 163-221 `realfft`, for an array of length `n`; `forward` is `isign == 1`, else
`isign` is minus one. -/
noncomputable def realfft (n : ℕ) (y : ℕ → ℝ) (forward : Bool) : ℕ → ℝ :=
  let isign : ℝ := if forward then 1 else -1
  let theta := π / (n / 2 : ℕ)
  let c2 := -isign * 0.5
  let y := if forward then four1 n y 1 else y
  let theta := isign * theta
  let wtemp := sin (0.5 * theta)
  let wpr := -2 * wtemp ^ 2
  let wpi := sin theta
  let c1 := 0.5
  let y := ((pyRange 2 (n / 4 + 1) 1).foldl (realStep n c1 c2 wpr wpi) (y, 1 + wpr, wpi)).1
  let h1r := y 0
  if forward then
    let y := set y 0 (h1r + y 1)
    set y 1 (h1r - y 1)
  else
    let y := set y 0 (c1 * (h1r + y 1))
    let y := set y 1 (c1 * (h1r - y 1))
    four1 n y (-1)

/-- hypernetted_chain.py 224-229 `realfftnp`, for an even length `n`: `jnp.fft.rfft` is the discrete Fourier
transform at the first half of the frequencies. -/
noncomputable def realfftnp (n : ℕ) (y : ℕ → ℝ) : ℕ → ℝ := fun i =>
  let rfft := Hnc.fft n fun j => (y j : ℂ)
  if i % 2 = 0 then (rfft (i / 2)).re else -(rfft (i / 2)).im

/-- hypernetted_chain.py 232-264 `sinft`, for an even length `n`.  The slice `y[n : halfn - 1 : -1]` has the
elements `n - 1` down to `halfn`, so its element `i - 1` is `n - i`; where both slices meet, at `halfn`, the
two assignments agree. -/
noncomputable def sinft (n : ℕ) (y : ℕ → ℝ) : ℕ → ℝ :=
  let halfn := n / 2
  let wi : ℕ → ℝ := fun i => (Complex.exp (Complex.I * i / (2 * n) * π * 2)).im
  let y := set y 0 0
  let f1 : ℕ → ℝ := fun i => wi i * (y i + y (n - i))
  let f2 : ℕ → ℝ := fun i => 0.5 * (y i - y (n - i))
  let y : ℕ → ℝ := fun i => if 1 ≤ i ∧ i ≤ halfn then f1 i + f2 i else y i
  let y : ℕ → ℝ := fun i => if halfn ≤ i ∧ i < n then f1 (n - i) - f2 (n - i) else y i
  let y := realfftnp n y
  let y := set y 0 (y 0 * 0.5)
  let y := set y 1 0
  let sumVal : ℕ → ℝ := fun k => ∑ j ∈ Finset.range (k + 1), y (2 * j)
  fun i => if i % 2 = 0 then y (i + 1) else sumVal (i / 2)

end Verif.Fft
