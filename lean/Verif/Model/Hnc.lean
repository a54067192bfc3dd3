/-
The hypernetted chain scheme, /repo/src/jaxrts/hypernetted_chain.py, over the real numbers.  Arrays along
a grid are functions of the natural numbers of which the first `N` values are used; units are not
modelled.
-/
import Verif.Model.Cramer
import Mathlib.Analysis.SpecialFunctions.Trigonometric.Basic
import Mathlib.Analysis.SpecialFunctions.Pow.Real

set_option autoImplicit false

namespace Verif.Hnc

open Real

/-- `jnp.fft.fft` of an array with `M` entries, from its documentation. -/
noncomputable def fft (M : ℕ) (y : ℕ → ℂ) (m : ℕ) : ℂ :=
  ∑ i ∈ Finset.range M, y i * Complex.exp (-2 * π * Complex.I * m * i / M)

/-- hypernetted_chain.py 295-296: `fac`. -/
noncomputable def dstFac (N i : ℕ) : ℂ := Complex.exp (-Complex.I * π * (i + 1 / 8) / N)

/-- hypernetted_chain.py 266-313 `dst4`; one row of the input. -/
noncomputable def dst4 (N : ℕ) (f : ℕ → ℝ) (n : ℕ) : ℝ :=
  let M := N / 2
  let c := fun j => f (N - 1 - j)
  let y := fun i => ((c (2 * i) : ℂ) + Complex.I * c (N - 1 - 2 * i)) * dstFac N i
  let Y := fun m => fft M y m * dstFac N m
  if M ≤ n / 2 then 0 else if n % 2 = 0 then (Y (n / 2)).re else -1 * (-(Y (M - 1 - n / 2)).im)

/-- hypernetted_chain.py 94-100 `fourier_transform_sine`. -/
noncomputable def fourierSine (N : ℕ) (k r f : ℕ → ℝ) (n : ℕ) : ℝ :=
  dst4 N (fun j => r j * f j) n * (4 * π) / k n * (r 1 - r 0)

/-- hypernetted_chain.py 364-367 and 545-547, and models.py 842-847 and 1033-1038: the wavenumbers which
belong to the distances `r`. -/
noncomputable def kGrid (N : ℕ) (r : ℕ → ℝ) (n : ℕ) : ℝ :=
  let dr := r 1 - r 0
  let dk := π / (N * dr)
  π / r (N - 1) + n * dk

/-- models.py 838-840 and 1029-1031: the distances, `jnpu.linspace(r_min, r_max, N)`. -/
noncomputable def rGrid (N : ℕ) (rmin rmax : ℝ) (j : ℕ) : ℝ := rmin + j * ((rmax - rmin) / (N - 1))

/-- The arguments of `pair_distribution_function_HNC`, hypernetted_chain.py 517-519, for `m` species;
`T` is the matrix of temperatures without its last axis of length one. -/
structure Input (m : ℕ) where
  N : ℕ
  r : ℕ → ℝ
  Vs : Fin m → Fin m → ℕ → ℝ
  Vlk : Fin m → Fin m → ℕ → ℝ
  T : Fin m → Fin m → ℝ
  n : Fin m → ℝ
  mix : ℝ
  maxSize : ℕ
  kB : ℝ

/-- The tuple `val` of the loop, hypernetted_chain.py 583. -/
structure State (m : ℕ) where
  logG : Fin m → Fin m → ℕ → ℝ
  Ns : Fin m → Fin m → ℕ → ℝ
  NsOld : Fin m → Fin m → ℕ → ℝ
  iter : ℕ

/-- hypernetted_chain.py 554-564 `ozr`.  `cramer_solve` solves one system for each row of its second
argument if it uses the rule of Cramer, `jnp.linalg.solve` one system for each column. -/
noncomputable def ozr {m : ℕ} (n : Fin m → ℝ) (maxSize : ℕ) (C : Matrix (Fin m) (Fin m) ℝ) :
    Matrix (Fin m) (Fin m) ℝ :=
  let A := 1 - C * Matrix.diagonal n
  Matrix.of fun a b =>
    if m ≤ maxSize ∧ 1 ≤ m ∧ m ≤ 4 then Cramer.cramerSolve m A (fun i => C a i) maxSize b
    else Cramer.linalgSolve A (fun i => C i b) a

namespace Input

variable {m : ℕ} (p : Input m) (oz : ℝ → Matrix (Fin m) (Fin m) ℝ → Matrix (Fin m) (Fin m) ℝ)

/-- hypernetted_chain.py 364-367 and 545-547. -/
noncomputable def k : ℕ → ℝ := kGrid p.N p.r

/-- hypernetted_chain.py 406-408 and 577-579: `v_s`. -/
noncomputable def vs (mult : ℝ) (a b : Fin m) (j : ℕ) : ℝ := 1 / (p.kB * p.T a b * mult) * p.Vs a b j

/-- hypernetted_chain.py 406-409 and 577-580: `v_l_k`. -/
noncomputable def vlk (mult : ℝ) (a b : Fin m) (j : ℕ) : ℝ := 1 / (p.kB * p.T a b * mult) * p.Vlk a b j

/-- hypernetted_chain.py 460-464 and 585-587: `cs_k`. -/
noncomputable def csK (s : State m) (a b : Fin m) (i : ℕ) : ℝ :=
  fourierSine p.N p.k p.r (fun j => (exp (s.logG a b j) - 1) - s.Ns a b j) i

/-- hypernetted_chain.py 466 and 588: `c_k`, the matrix at one wavenumber. -/
noncomputable def cK (mult : ℝ) (s : State m) (i : ℕ) : Matrix (Fin m) (Fin m) ℝ :=
  fun a b => p.csK s a b i - p.vlk mult a b i

/-- hypernetted_chain.py 457-491 and 582-604 `step`: the functions `pair_distribution_function_HNC` and
`pair_distribution_function_SVT_HNC` have the same steps, except for the relation `oz` between the
direct and the total correlation functions (lines 469 and 591), which gets the multiplier of the
temperatures as its first argument. -/
noncomputable def step (mult : ℝ) (s : State m) : State m :=
  let hK := fun i => oz mult (p.cK mult s i)
  let NsK := fun a b i => hK i a b - p.csK s a b i
  let full := fun a b j => fourierSine p.N p.r p.k (NsK a b) j / (2 * π) ^ 3
  let new := fun a b j => (1 - p.mix) * full a b j + p.mix * s.Ns a b j
  ⟨fun a b j => new a b j - p.vs mult a b j, new, s.Ns, s.iter + 1⟩

/-- hypernetted_chain.py 453-454 and 571-572: the sum in `condition`. -/
noncomputable def err (s : State m) : ℝ :=
  ∑ a, ∑ b, ∑ j ∈ Finset.range p.N, (s.Ns a b j - s.NsOld a b j) ^ 2

open Classical in
/-- hypernetted_chain.py 448-455 and 566-573 `condition`. -/
noncomputable def cond (s : State m) : Bool := decide (s.iter < 2000) && decide (p.err s > 1 / 1000000)

/-- `jax.lax.while_loop`, hypernetted_chain.py 508-510 and 625-627. -/
inductive While (mult : ℝ) : State m → State m → Prop
  | stop {s} : p.cond s = false → While mult s s
  | step {s s'} : p.cond s = true → While mult (p.step oz mult s) s' → While mult s s'

/-- hypernetted_chain.py 493-496 and 610-613: the first initial condition. -/
noncomputable def init (mult : ℝ) : State m :=
  ⟨fun a b j => -p.vs mult a b j, fun _ _ _ => 0, fun _ _ _ => -1, 0⟩

/-- hypernetted_chain.py 498-506 and 615-623: the other initial conditions. -/
noncomputable def warm (mult : ℝ) (s : State m) : State m := { (p.step oz mult)^[5] s with iter := 0 }

/-- hypernetted_chain.py 405-511 and 576-628: the rest of the loop over the temperatures, from the second
one, with the number of iterations up to now. -/
inductive Rest : List ℝ → State m → ℕ → State m → ℕ → Prop
  | done {s it} : Rest [] s it s it
  | next {mult ms s s' t it it'} : p.While oz mult (p.warm oz mult s) s' → Rest ms s' (it + 5 + s'.iter) t it' →
      Rest (mult :: ms) s it t it'

/-- hypernetted_chain.py 405-511 and 576-628: the loop over the temperatures. -/
def Runs : List ℝ → State m → ℕ → Prop
  | [], _, _ => False
  | mult :: ms, t, it => ∃ s, p.While oz mult (p.init mult) s ∧ p.Rest oz ms s s.iter t it

/-- hypernetted_chain.py 516-630 `pair_distribution_function_HNC` returns `g` and `it`. -/
def Returns (tmult : List ℝ) (g : Fin m → Fin m → ℕ → ℝ) (it : ℕ) : Prop :=
  ∃ t, p.Runs (fun _ => ozr p.n p.maxSize) (tmult ++ [1]) t it ∧ g = fun a b j => exp (t.logG a b j)

end Input

/-- hypernetted_chain.py 673-683: `S_k` of `S_ii_HNC`. -/
noncomputable def sK {m : ℕ} (N : ℕ) (k r : ℕ → ℝ) (n : Fin m → ℝ) (g : Fin m → Fin m → ℕ → ℝ) (i : ℕ) :
    Matrix (Fin m) (Fin m) ℝ :=
  fun a b => (if a = b then 1 else 0) + fourierSine N k r (fun j => g a b j - 1) i * sqrt (n a * n b)

/-- hypernetted_chain.py 662-687 `S_ii_HNC`. -/
noncomputable def sIiHNC {m : ℕ} (N : ℕ) (k r : ℕ → ℝ) (n : Fin m → ℝ) (g : Fin m → Fin m → ℕ → ℝ) (i : ℕ) :
    Matrix (Fin m) (Fin m) ℝ :=
  if i = 0 then sK N k r n g 1 else sK N k r n g i

/-- hypernetted_chain.py 633-643 `geometric_mean_T`. -/
noncomputable def geometricMeanT {m : ℕ} (T : Fin m → ℝ) (a b : Fin m) : ℝ := sqrt (T b * T a)

/-- hypernetted_chain.py 646-659 `mass_weighted_T`. -/
noncomputable def massWeightedT {m : ℕ} (mass T : Fin m → ℝ) (a b : Fin m) : ℝ :=
  (mass a * T b + mass b * T a) / (mass a + mass b)

/-! ### Different temperatures -/

/-- hypernetted_chain.py 369-371: `m_ab`. -/
noncomputable def mAb {m : ℕ} (mass : Fin m → ℝ) (a b : Fin m) : ℝ := mass a * mass b / (mass a + mass b)

/-- hypernetted_chain.py 395-397: `coeff1`. -/
noncomputable def coeff1 {m : ℕ} (n mass : Fin m → ℝ) (T : Fin m → Fin m → ℝ) (a b s : Fin m) : ℝ :=
  n s * (mAb mass a b * T a s / (mass a * T a b))

/-- hypernetted_chain.py 399-401: `coeff2`. -/
noncomputable def coeff2 {m : ℕ} (n mass : Fin m → ℝ) (T : Fin m → Fin m → ℝ) (a b s : Fin m) : ℝ :=
  n s * (mAb mass a b * T b s / (mass b * T a b))

/-- hypernetted_chain.py 422-440: the matrix `A` of `svt_ozr_ei`; the flattened indices are pairs. -/
noncomputable def svtMatrix {m : ℕ} (n mass : Fin m → ℝ) (T : Fin m → Fin m → ℝ) (C : Matrix (Fin m) (Fin m) ℝ) :
    Matrix (Fin m × Fin m) (Fin m × Fin m) ℝ :=
  fun ab st =>
    (if ab = st then 1 else 0) +
      -(coeff1 n mass T ab.1 ab.2 st.1 * C ab.1 st.1) * (if ab.2 = st.2 then 1 else 0) +
      -(coeff2 n mass T ab.1 ab.2 st.2 * C.transpose ab.2 st.2) * (if ab.1 = st.1 then 1 else 0)

/-- hypernetted_chain.py 416-446 `svt_ozr_ei`; `cramer_solve` is the exact solution. -/
noncomputable def svtOzr {m : ℕ} (n mass : Fin m → ℝ) (T : Fin m → Fin m → ℝ) (C : Matrix (Fin m) (Fin m) ℝ) :
    Matrix (Fin m) (Fin m) ℝ :=
  fun a b => (svtMatrix n mass T C)⁻¹.mulVec (fun st => C st.1 st.2) (a, b)

/-- hypernetted_chain.py 341-513 `pair_distribution_function_SVT_HNC` returns `g` and `it`; the number which
is returned is `niter` (line 513), the number of steps of the last loop. -/
def Input.SvtReturns {m : ℕ} (p : Input m) (mass : Fin m → ℝ) (tmult : List ℝ) (g : Fin m → Fin m → ℕ → ℝ) (it : ℕ) : Prop :=
  ∃ t total, p.Runs (fun mult => svtOzr p.n mass (fun a b => mult * p.T a b)) (tmult ++ [1]) t total ∧
    (g = fun a b j => exp (t.logG a b j)) ∧ it = t.iter

end Verif.Hnc
