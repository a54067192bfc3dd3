/-
Model of the dielectric function of the electron gas at zero temperature and of the collision
frequency in Born approximation based on it (free_free.py).

Numbers are exact.  The code adds `0j` to the real argument of `_gFortmann` and takes the complex
logarithm of the quotient `(x + 1) / (x - 1)`.  Where the quotient is negative, the argument of the
logarithm is `π` or `-π`, depending on the sign of the floating-point zero that the division leaves
in the imaginary part.  Exact numbers have no signed zero, so this sign is a parameter `s` of the
model: `-1` for a negative zero (what the textbook formula of the complex quotient gives for
`-1 < x < 1`) and `1` for a positive zero.
-/
import Verif.Model.Mermin

set_option autoImplicit false

namespace Verif.Resp

open Real Verif.Expt

variable (u : Consts)

/-- `jnpu.log((x + 1) / (x - 1))` in free_free.py 323 for a real `x`; `s` is the sign of the zero in
the imaginary part. -/
noncomputable def logFortmann (s x : ℝ) : ℂ :=
  ⟨log |(x + 1) / (x - 1)|, if (x + 1) / (x - 1) < 0 then s * π else 0⟩

/-- free_free.py 318-323 `_gFortmann`. -/
noncomputable def gFortmann (s x : ℝ) : ℂ :=
  (x : ℂ) + 1 / 2 * (1 - (x : ℂ) ^ 2) * logFortmann s x

/-- free_free.py 326-347 `noninteracting_susceptibility_0K`. -/
noncomputable def xi0K (s k E n : ℝ) : ℂ :=
  let w := E / u.hbar
  let kf := fermiWavenumber n
  let z := k / (2 * kf)
  let v := u.me * w / (u.hbar * k * kf)
  let chi0square := 1 / (π * bohr u * kf)
  let pref : ℝ := -chi0square / (4 * z ^ 3 * vee u k);
  (pref : ℂ) * (gFortmann s (v + z) - gFortmann s (v - z))

/-- free_free.py 350-362 `dielectric_function_RPA_0K`. -/
noncomputable def eps0K (s k E n : ℝ) : ℂ := 1 - (vee u k : ℂ) * xi0K u s k E n

/-- free_free.py 1360-1409 `collision_frequency_BA_0K` for `KKT=False`: the steps are those of
`collision_frequency_BA_full` with the dielectric function at zero temperature. -/
noncomputable def bornNu0K (s n : ℝ) (V S : ℝ → ℝ) (Zf E : ℝ) : ℂ :=
  bornNu u (fun q E => eps0K u s q E n) V S Zf E

end Verif.Resp
