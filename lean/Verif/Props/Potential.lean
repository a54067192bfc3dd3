/-
Short- and long-range parts of the potentials for the hypernetted chain scheme (C31), and Fourier
transforms (C32).
-/
import Verif.Model.Potential
import Verif.Lemmas.Laplace
import Verif.Props.HncSolution
import Mathlib.Analysis.Real.Pi.Bounds

set_option autoImplicit false

namespace Verif.Pot

open Real Verif.Expt Verif.Hnc Verif.Interp MeasureTheory Set Filter Topology

/-! ### Statements about all classes in a potential -/

mutual

/-- Every class which occurs in the potential satisfies `Q`. -/
def AllLeaves (Q : Leaf → Prop) : Potential → Prop
  | .leaf l => Q l
  | .sum ps => AllLeavesOf Q ps
  | .scaled p _ => AllLeaves Q p

/-- The same for all members of a list. -/
def AllLeavesOf (Q : Leaf → Prop) : List Potential → Prop
  | [] => True
  | p :: ps => AllLeaves Q p ∧ AllLeavesOf Q ps

end

/-- Three methods return, and the first is the sum of the others. -/
def AddsUp {α : Type} (full short long : Option (α → ℝ)) : Prop :=
  ∃ f s l, full = some f ∧ short = some s ∧ long = some l ∧ ∀ x, f x = s x + l x

section
variable {α : Type} {full short long : Leaf → Option (α → ℝ)} {Q : Leaf → Prop}

mutual

theorem addsUp_eval (h : ∀ l, Q l → AddsUp (full l) (short l) (long l)) :
    ∀ p, AllLeaves Q p → AddsUp (eval full p) (eval short p) (eval long p)
  | .leaf l, hp => h l hp
  | .sum ps, hp => addsUp_evalAll h ps hp
  | .scaled p c, hp => by
    obtain ⟨f, s, l, h1, h2, h3, h4⟩ := addsUp_eval h p hp
    refine ⟨fun x => f x * c, fun x => s x * c, fun x => l x * c, ?_, ?_, ?_, fun x => ?_⟩
    · simp only [eval, h1, Option.map_some]
    · simp only [eval, h2, Option.map_some]
    · simp only [eval, h3, Option.map_some]
    · simp only [h4 x]
      ring

theorem addsUp_evalAll (h : ∀ l, Q l → AddsUp (full l) (short l) (long l)) :
    ∀ ps, AllLeavesOf Q ps → AddsUp (evalAll full ps) (evalAll short ps) (evalAll long ps)
  | [], _ => ⟨fun _ => 0, fun _ => 0, fun _ => 0, rfl, rfl, rfl, fun _ => by simp⟩
  | p :: ps, hp => by
    obtain ⟨f, s, l, h1, h2, h3, h4⟩ := addsUp_eval h p hp.1
    obtain ⟨f', s', l', h1', h2', h3', h4'⟩ := addsUp_evalAll h ps hp.2
    refine ⟨fun x => f x + f' x, fun x => s x + s' x, fun x => l x + l' x, ?_, ?_, ?_, fun x => ?_⟩
    · simp only [evalAll, h1, h1', addUp]
    · simp only [evalAll, h2, h2', addUp]
    · simp only [evalAll, h3, h3', addUp]
    · simp only [h4 x, h4' x]
      ring

end

end

variable (u : Consts)

/-! ### Splitting in r space -/

/-- The classes whose parts add up. -/
def Splits : Leaf → Prop
  | .yukawa _ => False
  | .softCore _ => False
  | _ => True

theorem leaf_split_r (P : Pair) (l : Leaf) (h : Splits l) : AddsUp (fullR u P l) (shortR u P l) (longR u P l) := by
  cases l with
  | yukawa s => exact h.elim
  | softCore b => exact h.elim
  | emptyCore => exact ⟨_, _, _, rfl, rfl, rfl, fun x => by simp⟩
  | kelbg => exact ⟨_, _, _, rfl, rfl, rfl, fun x => by simp⟩
  | deutsch => exact ⟨_, _, _, rfl, rfl, rfl, fun x => by simp⟩
  | _ => exact ⟨_, _, _, rfl, rfl, rfl, fun x => by ring⟩

/-- At every distance the short-range part plus the long-range part of a potential is the potential, for
all sums and multiples of potentials other than `YukawaShortRangeRepulsion` and `SoftCorePotential`. -/
theorem split_r_partial (P : Pair) (p : Potential) (h : AllLeaves Splits p) :
    AddsUp (eval (fullR u P) p) (eval (shortR u P) p) (eval (longR u P) p) :=
  addsUp_eval (leaf_split_r u P) p h

/-- A potential of several classes. -/
example : AllLeaves Splits (.scaled (.sum [.leaf .coulomb, .scaled (.leaf .kelbg) 2, .leaf .exchangeSeparated]) (1 / 2)) := by
  simp [AllLeaves, AllLeavesOf, Splits]

/-- `YukawaShortRangeRepulsion.full_r` never returns: it adds an energy and an energy times a volume. -/
theorem yukawa_full_r_fails (P : Pair) (sigma : ℝ) : fullR u P (.yukawa sigma) = none := by
  have h : yukawaDim1.add yukawaDim2 = none := by decide
  simp [fullR, h]

/-- The parts of `YukawaShortRangeRepulsion` are there, so that the potential which is used is their sum;
with a number in place of the quantities, the formula of `full_r` agrees with it at the distance one
only. -/
theorem yukawa_formula_ne_parts (P : Pair) (sigma r : ℝ) (hT : 0 < P.T) (hs : sigma ≠ 0) (hr : 0 < r) :
    ∃ s l, shortR u P (.yukawa sigma) = some s ∧ longR u P (.yukawa sigma) = some l ∧
      (yukawaR u sigma P r = s r + l r ↔ r = 1) := by
  refine ⟨_, _, rfl, rfl, ?_⟩
  have hk := u.kB_pos
  have h4 : 0 < sigma ^ 4 := by positivity
  constructor
  · intro h
    simp only [yukawaR] at h
    have h2 : u.kB * P.T * sigma ^ 4 * r ^ 3 = u.kB * P.T * sigma ^ 4 := by
      have h1 : 1 * u.kB * P.T * sigma ^ 4 / r = sigma ^ 4 / r ^ 4 * 1 * u.kB * P.T := by linarith
      field_simp at h1
      linear_combination (u.kB * P.T * sigma ^ 4) * h1
    have h3 : r ^ 3 = 1 := by
      have : 0 < u.kB * P.T * sigma ^ 4 := by positivity
      exact mul_left_cancel₀ this.ne' (h2.trans (mul_one _).symm)
    exact (pow_eq_one_iff_of_nonneg hr.le (by norm_num)).1 h3
  · rintro rfl
    simp only [yukawaR]
    ring

/-- The short-range part of `SoftCorePotential` is not there, in r space and in k space, and neither is its
long-range part in k space, whatever the potential is added to or multiplied with. -/
theorem softCore_parts_fail (g : Grid) (P : Pair) (beta : ℝ) :
    shortR u P (.softCore beta) = none ∧ shortK u g P (.softCore beta) = none ∧
      longK u g P (.softCore beta) = none := ⟨rfl, rfl, rfl⟩

/-- A sum with a member for which a method fails has no result. -/
theorem sum_fails {α : Type} (method : Leaf → Option (α → ℝ)) (l : Leaf) (h : method l = none)
    (before after : List Potential) : eval method (.sum (before ++ .leaf l :: after)) = none := by
  simp only [eval]
  induction before with
  | nil => simp [evalAll, eval, h, addUp]
  | cons p ps ih =>
    rw [List.cons_append, evalAll, ih]
    cases eval method p <;> rfl

/-! ### Splitting in k space -/

/-- Interpolation of a sum. -/
theorem interp_add (n : ℕ) (xp f f' f'' : ℕ → ℝ) (hn : 0 < n) (h : ∀ i < n, f'' i = f i + f' i) (x : ℝ) :
    interp n xp f'' x = interp n xp f x + interp n xp f' x := by
  unfold interp interpLR
  split_ifs
  · exact h _ (by omega)
  · exact h _ hn
  · unfold Interp.segment
    have h1 := h (min (max (searchsorted n xp x) 1) (n - 1)) (by omega)
    have h2 := h (min (max (searchsorted n xp x) 1) (n - 1) - 1) (by omega)
    split_ifs
    · exact h2
    · rw [h1, h2]
      ring

theorem fourierSine_add {M : ℕ} (hM : 0 < M) (k r f f' : ℕ → ℝ) {n : ℕ} (hn : n < 2 * M) :
    fourierSine (2 * M) k r (fun j => f j + f' j) n =
      fourierSine (2 * M) k r f n + fourierSine (2 * M) k r f' n := by
  have h := fourierSine_sub hM k r (fun j => f j + f' j) f' hn
  have e : (fun j => (f j + f' j) - f' j) = f := by
    funext j
    ring
  rw [e] at h
  linarith

/-- The numerical transform of a sum, on a grid with an even number of points. -/
theorem transform_add {M : ℕ} (hM : 0 < M) (r : ℕ → ℝ) (f f' : ℝ → ℝ) (k : ℝ) :
    transform ⟨2 * M, r⟩ (fun x => f x + f' x) k =
      transform ⟨2 * M, r⟩ f k + transform ⟨2 * M, r⟩ f' k :=
  interp_add _ _ _ _ _ (by omega) (fun _ hi => fourierSine_add hM _ _ _ _ hi) k

/-- The classes for which the k space methods add up as they stand. -/
def SplitsK : Leaf → Prop
  | .kelbg | .klimontovichKraeft | .emptyCore | .yukawa _ | .exchangeSeparated => True
  | _ => False

theorem leaf_split_k (g : Grid) (P : Pair) (N : ℕ) (k : ℕ → ℝ) (l : Leaf) (h : SplitsK l) :
    AddsUp (fullK u g P N k l) ((shortK u g P l).map fun f i => f (k i))
      ((longK u g P l).map fun f i => f (k i)) := by
  cases l with
  | kelbg => exact ⟨_, _, _, rfl, rfl, rfl, fun x => rfl⟩
  | klimontovichKraeft => exact ⟨_, _, _, rfl, rfl, rfl, fun x => rfl⟩
  | yukawa s => exact ⟨_, _, _, rfl, rfl, rfl, fun x => rfl⟩
  | exchangeSeparated => exact ⟨_, _, _, rfl, rfl, rfl, fun x => rfl⟩
  | emptyCore => exact ⟨_, _, _, rfl, rfl, rfl, fun x => by simp⟩
  | _ => exact h.elim

/-- The same in k space, for the classes which do not define all three methods by a formula of their
own. -/
theorem split_k_partial (g : Grid) (P : Pair) (N : ℕ) (k : ℕ → ℝ) (p : Potential) (h : AllLeaves SplitsK p) :
    AddsUp (eval (fullK u g P N k) p) (eval (fun l => (shortK u g P l).map fun f i => f (k i)) p)
      (eval (fun l => (longK u g P l).map fun f i => f (k i)) p) :=
  addsUp_eval (leaf_split_k u g P N k) p h

example : AllLeaves SplitsK (.sum [.leaf .kelbg, .scaled (.leaf (.yukawa 3)) 2]) := by
  simp [AllLeaves, AllLeavesOf, SplitsK]

/-- Where all k space methods are numerical transforms, their sum is the transform of the potential
itself: it does not depend on where the potential is split. -/
theorem numerical_full_k {M : ℕ} (hM : 0 < M) (r : ℕ → ℝ) (P : Pair) (N : ℕ) (k : ℕ → ℝ) (l : Leaf)
    (hl : l = .klimontovichKraeft ∨ l = .exchangeSeparated) :
    ∃ f, fullR u P l = some f ∧
      fullK u ⟨2 * M, r⟩ P N k l = some fun i => transform ⟨2 * M, r⟩ f (k i) := by
  rcases hl with rfl | rfl
  · refine ⟨_, rfl, ?_⟩
    simp only [fullK, shortK, longK, shortR, longR, fullR, Option.map_some, Option.bind_eq_bind, Option.bind_some,
      Option.pure_def, Option.some.injEq]
    funext i
    rw [← transform_add hM]
    congr 1
    funext x
    ring
  · refine ⟨_, rfl, ?_⟩
    simp only [fullK, shortK, longK, shortR, longR, fullR, Option.map_some, Option.bind_eq_bind, Option.bind_some,
      Option.pure_def, Option.some.injEq]
    funext i
    rw [← transform_add hM]
    congr 1
    funext x
    ring

/-! ### Fourier transforms -/

/-- `L` is the value at `k` of the Fourier transform of the spherically symmetric function `f` on the
space: the limit of the transforms of `f(r) exp(-μ r)` for `μ → 0`, which exists for the Coulomb potential
as well. -/
def IsRadialFT (f : ℝ → ℝ) (k L : ℝ) : Prop :=
  (∀ μ > 0, IntegrableOn (fun r => r * f r * exp (-(μ * r)) * sin (k * r)) (Ioi 0)) ∧
    Tendsto (fun μ => 4 * π / k * ∫ r in Ioi (0 : ℝ), r * f r * exp (-(μ * r)) * sin (k * r)) (𝓝[>] 0) (𝓝 L)

namespace IsRadialFT

variable {f f' : ℝ → ℝ} {k L L' : ℝ}

/-- There is at most one transform. -/
theorem unique (h : IsRadialFT f k L) (h' : IsRadialFT f k L') : L = L' := tendsto_nhds_unique h.2 h'.2

/-- The values at the origin and beyond do not matter. -/
theorem congr (h : IsRadialFT f k L) (he : ∀ r > 0, f' r = f r) : IsRadialFT f' k L := by
  have e : ∀ μ : ℝ, EqOn (fun r => r * f r * exp (-(μ * r)) * sin (k * r))
      (fun r => r * f' r * exp (-(μ * r)) * sin (k * r)) (Ioi 0) := by
    intro μ r hr
    simp only [he r hr]
  refine ⟨fun μ hμ => (h.1 μ hμ).congr_fun (e μ) measurableSet_Ioi, ?_⟩
  refine h.2.congr fun μ => ?_
  rw [setIntegral_congr_fun measurableSet_Ioi (e μ)]

theorem add (h : IsRadialFT f k L) (h' : IsRadialFT f' k L') : IsRadialFT (fun r => f r + f' r) k (L + L') := by
  have e : ∀ μ : ℝ, (fun r => r * (f r + f' r) * exp (-(μ * r)) * sin (k * r)) =
      fun r => r * f r * exp (-(μ * r)) * sin (k * r) + r * f' r * exp (-(μ * r)) * sin (k * r) := by
    intro μ
    funext r
    ring
  refine ⟨fun μ hμ => ?_, ?_⟩
  · rw [e]
    exact (h.1 μ hμ).add (h'.1 μ hμ)
  · refine (h.2.add h'.2).congr' ?_
    filter_upwards [self_mem_nhdsWithin] with μ hμ
    rw [e, integral_add (h.1 μ hμ) (h'.1 μ hμ)]
    ring

theorem mul_const (h : IsRadialFT f k L) (c : ℝ) : IsRadialFT (fun r => f r * c) k (L * c) := by
  have e : ∀ μ : ℝ, (fun r => r * (f r * c) * exp (-(μ * r)) * sin (k * r)) =
      fun r => c * (r * f r * exp (-(μ * r)) * sin (k * r)) := by
    intro μ
    funext r
    ring
  refine ⟨fun μ hμ => ?_, ?_⟩
  · rw [e]
    exact (h.1 μ hμ).const_mul c
  · refine (h.2.mul_const c).congr fun μ => ?_
    rw [e, integral_const_mul]
    ring

theorem sub (h : IsRadialFT f k L) (h' : IsRadialFT f' k L') : IsRadialFT (fun r => f r - f' r) k (L - L') := by
  have h1 := h.add (h'.mul_const (-1))
  have e : L + L' * -1 = L - L' := by ring
  rw [e] at h1
  exact h1.congr fun r _ => by ring

theorem zero : IsRadialFT (fun _ => 0) k 0 := by
  refine ⟨fun μ _ => ?_, ?_⟩ <;> simp

end IsRadialFT

/-- The transform of the Yukawa potential, and of the Coulomb potential for `b = 0`. -/
theorem ft_yukawa (c : ℝ) {b k : ℝ} (hb : 0 ≤ b) (hk : 0 < k) :
    IsRadialFT (fun r => c / r * exp (-(b * r))) k (4 * π * c / (k ^ 2 + b ^ 2)) := by
  have e : ∀ μ : ℝ, EqOn (fun r => c * (exp (-((b + μ) * r)) * sin (k * r)))
      (fun r => r * (c / r * exp (-(b * r))) * exp (-(μ * r)) * sin (k * r)) (Ioi 0) := by
    intro μ r hr
    have hr' : r ≠ 0 := (show (0 : ℝ) < r from hr).ne'
    have h1 : exp (-((b + μ) * r)) = exp (-(b * r)) * exp (-(μ * r)) := by
      rw [← exp_add]
      congr 1
      ring
    simp only [h1]
    field_simp
  refine ⟨fun μ hμ => ?_, ?_⟩
  · refine IntegrableOn.congr_fun ?_ (e μ) measurableSet_Ioi
    have h := Laplace.integrableOn_pow_exp_sin 0 (b := b + μ) (by linarith) k
    have h2 : IntegrableOn (fun t : ℝ => c * (t ^ 0 * exp (-((b + μ) * t)) * sin (k * t))) (Ioi 0) := h.const_mul c
    simpa using h2
  · have h1 : ∀ μ > 0, 4 * π / k * ∫ r in Ioi (0 : ℝ), r * (c / r * exp (-(b * r))) * exp (-(μ * r)) * sin (k * r) =
        4 * π * c / ((b + μ) ^ 2 + k ^ 2) := by
      intro μ hμ
      rw [← setIntegral_congr_fun measurableSet_Ioi (e μ), integral_const_mul, Laplace.sine_exp (by linarith) k]
      have : 0 < (b + μ) ^ 2 + k ^ 2 := by positivity
      field_simp
    have h2 : Tendsto (fun μ : ℝ => 4 * π * c / ((b + μ) ^ 2 + k ^ 2)) (𝓝[>] 0)
        (𝓝 (4 * π * c / (k ^ 2 + b ^ 2))) := by
      have hc : ContinuousAt (fun μ : ℝ => 4 * π * c / ((b + μ) ^ 2 + k ^ 2)) 0 := by
        refine ContinuousAt.div (by fun_prop) (by fun_prop) ?_
        positivity
      have h3 := hc.tendsto.mono_left (nhdsWithin_le_nhds (s := Ioi 0))
      have e2 : 4 * π * c / ((b + 0) ^ 2 + k ^ 2) = 4 * π * c / (k ^ 2 + b ^ 2) := by
        rw [add_zero, add_comm]
      rwa [e2] at h3
    refine h2.congr' ?_
    filter_upwards [self_mem_nhdsWithin] with μ hμ
    exact (h1 μ hμ).symm

/-- The sine integral beyond a radius. -/
theorem sine_exp_beyond {μ k c : ℝ} (hμ : 0 < μ) :
    IntegrableOn (fun r => exp (-(μ * r)) * sin (k * r)) (Ioi c) ∧
      ∫ r in Ioi c, exp (-(μ * r)) * sin (k * r) =
        exp (-(μ * c)) * (μ * sin (k * c) + k * cos (k * c)) / (μ ^ 2 + k ^ 2) := by
  have hD : 0 < μ ^ 2 + k ^ 2 := by positivity
  have hi : IntegrableOn (fun r => exp (-(μ * r)) * sin (k * r)) (Ioi c) := by
    have h0 : IntegrableOn (fun r => exp (-(μ * r))) (Ioi c) := by
      simpa [neg_mul] using (integrableOn_exp_mul_Ioi (a := -μ) (by linarith) c)
    refine Integrable.mono' h0 (Continuous.aestronglyMeasurable (by fun_prop)) (Eventually.of_forall fun r => ?_)
    rw [norm_mul, norm_of_nonneg (exp_pos _).le]
    exact mul_le_of_le_one_right (exp_pos _).le (abs_sin_le_one _)
  refine ⟨hi, ?_⟩
  have hd : ∀ r : ℝ, HasDerivAt (fun r => -(exp (-(μ * r)) * (μ * sin (k * r) + k * cos (k * r)) / (μ ^ 2 + k ^ 2)))
      (exp (-(μ * r)) * sin (k * r)) r := by
    intro r
    have h1 : HasDerivAt (fun r : ℝ => exp (-(μ * r))) (exp (-(μ * r)) * -μ) r := by
      have := ((hasDerivAt_id r).const_mul μ).neg
      simpa using this.exp
    have hkr : HasDerivAt (fun r : ℝ => k * r) k r := by simpa using (hasDerivAt_id r).const_mul k
    have h2 := (hkr.sin).const_mul μ
    have h3 := (hkr.cos).const_mul k
    refine (((h1.mul (h2.add h3)).div_const (μ ^ 2 + k ^ 2)).neg).congr_deriv ?_
    simp only [Pi.add_apply]
    field_simp
    ring
  have ht : Tendsto (fun r => -(exp (-(μ * r)) * (μ * sin (k * r) + k * cos (k * r)) / (μ ^ 2 + k ^ 2))) atTop (𝓝 0) := by
    have h0 : Tendsto (fun r : ℝ => exp (-(μ * r)) * ((μ + |k|) / (μ ^ 2 + k ^ 2))) atTop (𝓝 0) := by
      have : Tendsto (fun r : ℝ => exp (-(μ * r))) atTop (𝓝 0) :=
        tendsto_exp_neg_atTop_nhds_zero.comp (tendsto_id.const_mul_atTop hμ)
      simpa using this.mul_const ((μ + |k|) / (μ ^ 2 + k ^ 2))
    refine squeeze_zero_norm (fun r => ?_) h0
    rw [norm_neg, norm_div, norm_mul, norm_of_nonneg (exp_pos _).le, norm_of_nonneg hD.le, mul_div_assoc]
    refine mul_le_mul_of_nonneg_left (div_le_div_of_nonneg_right ?_ hD.le) (exp_pos _).le
    refine (norm_add_le _ _).trans (add_le_add ?_ ?_)
    · rw [norm_mul, norm_of_nonneg hμ.le]
      exact mul_le_of_le_one_right hμ.le (abs_sin_le_one _)
    · rw [norm_mul]
      exact mul_le_of_le_one_right (norm_nonneg _) (abs_cos_le_one _)
  rw [integral_Ioi_of_hasDerivAt_of_tendsto' (fun r _ => hd r) hi ht]
  ring

/-- The transform of a Coulomb potential outside of a core. -/
theorem ft_core (c : ℝ) {rc k : ℝ} (hrc : 0 ≤ rc) (hk : 0 < k) :
    IsRadialFT (fun r => heaviside0 (r - rc) * (c / r)) k (4 * π * c / k ^ 2 * cos (k * rc)) := by
  have e : ∀ μ : ℝ, EqOn ((Ioi rc).indicator fun r => c * (exp (-(μ * r)) * sin (k * r)))
      (fun r => r * (heaviside0 (r - rc) * (c / r)) * exp (-(μ * r)) * sin (k * r)) (Ioi 0) := by
    intro μ r hr
    have hr' : r ≠ 0 := (show (0 : ℝ) < r from hr).ne'
    by_cases h : rc < r
    · rw [indicator_of_mem (show r ∈ Ioi rc from h)]
      have h1 : heaviside0 (r - rc) = 1 := by
        rw [heaviside0, if_neg (by linarith), if_neg (by linarith)]
      simp only [h1]
      field_simp
    · rw [indicator_of_notMem (show r ∉ Ioi rc from h)]
      have h1 : heaviside0 (r - rc) = 0 := by
        rw [heaviside0]
        split_ifs with h2 h3
        · rfl
        · rfl
        · exact absurd (lt_of_le_of_ne (not_lt.1 h2) (Ne.symm h3)) (by linarith)
      simp only [h1]
      ring
  have hsub : Ioi rc ∩ Ioi 0 = Ioi rc := inter_eq_left.2 fun x hx => lt_of_le_of_lt hrc hx
  refine ⟨fun μ hμ => ?_, ?_⟩
  · refine IntegrableOn.congr_fun ?_ (e μ) measurableSet_Ioi
    have h : IntegrableOn (fun r => c * (exp (-(μ * r)) * sin (k * r))) (Ioi rc) :=
      (sine_exp_beyond (k := k) (c := rc) hμ).1.const_mul c
    exact (h.integrable_indicator measurableSet_Ioi).integrableOn
  · have h1 : ∀ μ > 0, 4 * π / k * ∫ r in Ioi (0 : ℝ), r * (heaviside0 (r - rc) * (c / r)) * exp (-(μ * r)) * sin (k * r) =
        4 * π / k * (c * (exp (-(μ * rc)) * (μ * sin (k * rc) + k * cos (k * rc)) / (μ ^ 2 + k ^ 2))) := by
      intro μ hμ
      rw [← setIntegral_congr_fun measurableSet_Ioi (e μ), setIntegral_indicator measurableSet_Ioi, inter_comm, hsub,
        integral_const_mul, (sine_exp_beyond hμ).2]
    have hc : ContinuousAt (fun μ : ℝ => 4 * π / k *
        (c * (exp (-(μ * rc)) * (μ * sin (k * rc) + k * cos (k * rc)) / (μ ^ 2 + k ^ 2)))) 0 := by
      refine ContinuousAt.mul (by fun_prop) (ContinuousAt.mul (by fun_prop) (ContinuousAt.div (by fun_prop) (by fun_prop) ?_))
      positivity
    have h3 := hc.tendsto.mono_left (nhdsWithin_le_nhds (s := Ioi 0))
    have e2 : 4 * π / k * (c * (exp (-(0 * rc)) * (0 * sin (k * rc) + k * cos (k * rc)) / (0 ^ 2 + k ^ 2))) =
        4 * π * c / k ^ 2 * cos (k * rc) := by
      rw [zero_mul, neg_zero, exp_zero]
      field_simp
      ring
    rw [e2] at h3
    refine h3.congr' ?_
    filter_upwards [self_mem_nhdsWithin] with μ hμ
    exact (h1 μ hμ).symm

/-! ### The classes -/

section
variable (P : Pair) {k : ℝ} (hk : 0 < k)
include hk

/-- `CoulombPotential.full_k` is the transform of `full_r`. -/
theorem coulomb_pair : IsRadialFT (coulombR u P) k (coulombK u P k) := by
  have h := ft_yukawa (P.q2 / (4 * π * u.eps0)) le_rfl hk
  have hp := pi_pos
  have he := u.eps0_pos
  have e : 4 * π * (P.q2 / (4 * π * u.eps0)) / (k ^ 2 + 0 ^ 2) = coulombK u P k := by
    unfold coulombK
    field_simp
    ring
  rw [e] at h
  refine h.congr fun r hr => ?_
  simp only [coulombR, zero_mul, neg_zero, exp_zero, mul_one]
  field_simp

/-- `DebyeHueckelPotential.full_k`, and the long-range part of `YukawaShortRangeRepulsion`. -/
theorem debye_pair (hκ : 0 ≤ P.kappa) : IsRadialFT (debyeR u P) k (debyeK u P k) := by
  have h := ft_yukawa (P.q2 / (4 * π * u.eps0)) hκ hk
  have hp := pi_pos
  have he := u.eps0_pos
  have e : 4 * π * (P.q2 / (4 * π * u.eps0)) / (k ^ 2 + P.kappa ^ 2) = debyeK u P k := by
    unfold debyeK coulombK
    have : 0 < k ^ 2 + P.kappa ^ 2 := by positivity
    have h2 : 0 < 1 + (P.kappa / k) ^ 2 := by positivity
    field_simp
  rw [e] at h
  refine h.congr fun r hr => ?_
  simp only [debyeR, neg_mul]
  field_simp

/-- The transform of the Coulomb potential times `exp(-b r)`. -/
theorem coulomb_damped {b : ℝ} (hb : 0 ≤ b) :
    IsRadialFT (fun r => coulombR u P r * exp (-b * r)) k (P.q2 / (u.eps0 * (k ^ 2 + b ^ 2))) := by
  have h := ft_yukawa (P.q2 / (4 * π * u.eps0)) hb hk
  have hp := pi_pos
  have he := u.eps0_pos
  have e : 4 * π * (P.q2 / (4 * π * u.eps0)) / (k ^ 2 + b ^ 2) = P.q2 / (u.eps0 * (k ^ 2 + b ^ 2)) := by
    have : 0 < k ^ 2 + b ^ 2 := by positivity
    field_simp
  rw [e] at h
  refine h.congr fun r hr => ?_
  simp only [coulombR, neg_mul]
  field_simp

/-- The long-range part of the Coulomb potential, which the Kelbg and Deutsch potentials share. -/
theorem coulomb_long_pair (hα : 0 ≤ P.alpha) :
    IsRadialFT (fun r => coulombR u P r * (1 - exp (-P.alpha * r))) k (coulombLongK u P k) := by
  have h := (coulomb_pair u P hk).sub (coulomb_damped u P hk hα)
  have he := u.eps0_pos
  have e : coulombK u P k - P.q2 / (u.eps0 * (k ^ 2 + P.alpha ^ 2)) = coulombLongK u P k := by
    unfold coulombK coulombLongK
    have : 0 < k ^ 2 + P.alpha ^ 2 := by positivity
    field_simp
    ring
  rw [e] at h
  exact h.congr fun r _ => by ring

/-- The long-range part of the Debye-Hueckel potential. -/
theorem debye_long_pair (hκ : 0 ≤ P.kappa) (hα : 0 ≤ P.alpha) :
    IsRadialFT (fun r => debyeR u P r * (1 - exp (-P.alpha * r))) k (debyeLongK u P k) := by
  have h := (debye_pair u P hk hκ).sub (coulomb_damped u P hk (add_nonneg hκ hα))
  have he := u.eps0_pos
  have e : debyeK u P k - P.q2 / (u.eps0 * (k ^ 2 + (P.kappa + P.alpha) ^ 2)) = debyeLongK u P k := by
    unfold debyeK coulombK debyeLongK
    have h1 : 0 < k ^ 2 + P.kappa ^ 2 := by positivity
    have h2 : 0 < k ^ 2 + (P.kappa + P.alpha) ^ 2 := by positivity
    have h3 : 0 < 1 + (P.kappa / k) ^ 2 := by positivity
    field_simp
    ring
  rw [e] at h
  refine h.congr fun r _ => ?_
  have : exp (-(P.kappa + P.alpha) * r) = exp (-P.kappa * r) * exp (-P.alpha * r) := by
    rw [← exp_add]
    congr 1
    ring
  simp only [debyeR, coulombR, this]
  ring

/-- `EmptyCorePotential`. -/
theorem emptyCore_pair (hr : 0 ≤ P.rcut) : IsRadialFT (emptyCoreR u P) k (emptyCoreK u P k) := by
  have h := ft_core (P.q2 / (4 * π * u.eps0)) hr hk
  have hp := pi_pos
  have he := u.eps0_pos
  have e : 4 * π * (P.q2 / (4 * π * u.eps0)) / k ^ 2 * cos (k * P.rcut) = emptyCoreK u P k := by
    unfold emptyCoreK
    field_simp
  rw [e] at h
  refine h.congr fun r hr => ?_
  simp only [emptyCoreR]
  field_simp

/-- The transform of `DeutschPotential.full_r` is `π` times `full_k`. -/
theorem deutsch_transform (hl : 0 < P.lam) : IsRadialFT (deutschR u P) k (π * deutschK u P k) := by
  have hp := pi_pos
  have hb : 0 < sqrt π / P.lam := div_pos (sqrt_pos.2 hp) hl
  have h := (coulomb_pair u P hk).sub (coulomb_damped u P hk hb.le)
  have he := u.eps0_pos
  have hs : sqrt π ^ 2 = π := sq_sqrt hp.le
  have e : coulombK u P k - P.q2 / (u.eps0 * (k ^ 2 + (sqrt π / P.lam) ^ 2)) = π * deutschK u P k := by
    have e1 : (1 / (P.lam / sqrt π)) ^ 2 = π / P.lam ^ 2 := by
      rw [one_div_div, div_pow, hs]
    have e2 : (sqrt π / P.lam) ^ 2 = π / P.lam ^ 2 := by rw [div_pow, hs]
    unfold coulombK deutschK
    rw [e1, e2]
    have h1 : 0 < k ^ 2 + π / P.lam ^ 2 := by positivity
    have h2 : 0 < k ^ 2 * P.lam ^ 2 + π := by positivity
    field_simp
    ring
  rw [e] at h
  refine h.congr fun r _ => ?_
  have : -r / (P.lam / sqrt π) = -(sqrt π / P.lam) * r := by
    rw [div_div_eq_mul_div]
    ring
  simp only [deutschR, coulombR, this]
  ring

/-- `DeutschPotential.full_k` is not the transform of `full_r`, at any wavenumber. -/
theorem deutsch_not_pair (hl : 0 < P.lam) (hq : P.q2 ≠ 0) : ¬ IsRadialFT (deutschR u P) k (deutschK u P k) := by
  intro h
  have h1 := h.unique (deutsch_transform u P hk hl)
  have hp : 2 < π := by linarith [pi_gt_d2]
  have he := u.eps0_pos
  have hne : deutschK u P k ≠ 0 := by
    unfold deutschK
    have hs : 0 < sqrt π := sqrt_pos.2 pi_pos
    have h2 : k ^ 2 + (1 / (P.lam / sqrt π)) ^ 2 ≠ 0 := by positivity
    have h3 : (1 / P.lam) ^ 2 ≠ 0 := by positivity
    have h4 : k ^ 2 * u.eps0 ≠ 0 := by positivity
    exact div_ne_zero (mul_ne_zero (div_ne_zero hq h4) h3) h2
  have h2 : (π - 1) * deutschK u P k = 0 := by linear_combination -h1
  rcases mul_eq_zero.1 h2 with h3 | h3
  · linarith
  · exact hne h3

/-- The exact short-range part in k space is the difference of the formulas for the Coulomb and the
Debye-Hueckel potential, so that their parts add up in k space as well. -/
theorem split_k_exact (hκ : 0 ≤ P.kappa) (hα : 0 ≤ P.alpha) :
    (∃ s, shortR u P .coulomb = some s ∧ IsRadialFT s k (coulombK u P k - coulombLongK u P k)) ∧
      ∃ s, shortR u P .debyeHueckel = some s ∧ IsRadialFT s k (debyeK u P k - debyeLongK u P k) := by
  refine ⟨⟨_, rfl, ?_⟩, ⟨_, rfl, ?_⟩⟩
  · refine ((coulomb_pair u P hk).sub (coulomb_long_pair u P hk hα)).congr fun r _ => ?_
    ring
  · refine ((debye_pair u P hk hκ).sub (debye_long_pair u P hk hκ hα)).congr fun r _ => ?_
    ring

/-- For the Deutsch potential they do not: the exact short-range part is not the difference of `full_k`
and `long_k`. -/
theorem deutsch_not_split_k (hl : 0 < P.lam) (hq : P.q2 ≠ 0) (hα : 0 ≤ P.alpha) :
    ∃ s, shortR u P .deutsch = some s ∧ ¬ IsRadialFT s k (deutschK u P k - coulombLongK u P k) := by
  refine ⟨_, rfl, fun h => deutsch_not_pair u P hk hl hq ?_⟩
  have h1 := h.add (coulomb_long_pair u P hk hα)
  have e : deutschK u P k - coulombLongK u P k + coulombLongK u P k = deutschK u P k := by ring
  rw [e] at h1
  exact h1.congr fun r _ => by ring

end

/-- The condition under which a class has a long-range part with a formula in k space. -/
def LongFormula (P : Pair) : Leaf → Prop
  | .coulomb | .kelbg | .deutsch => 0 ≤ P.alpha
  | .debyeHueckel => 0 ≤ P.kappa ∧ 0 ≤ P.alpha
  | .emptyCore => 0 ≤ P.rcut
  | .yukawa _ => 0 ≤ P.kappa
  | _ => False

theorem leaf_long_pair (g : Grid) (P : Pair) {k : ℝ} (hk : 0 < k) (l : Leaf) (h : LongFormula P l) :
    ∃ f F, longR u P l = some f ∧ longK u g P l = some F ∧ IsRadialFT f k (F k) := by
  cases l with
  | coulomb => exact ⟨_, _, rfl, rfl, coulomb_long_pair u P hk h⟩
  | kelbg => exact ⟨_, _, rfl, rfl, coulomb_long_pair u P hk h⟩
  | deutsch => exact ⟨_, _, rfl, rfl, coulomb_long_pair u P hk h⟩
  | debyeHueckel => exact ⟨_, _, rfl, rfl, debye_long_pair u P hk h.1 h.2⟩
  | emptyCore => exact ⟨_, _, rfl, rfl, emptyCore_pair u P hk h⟩
  | yukawa s => exact ⟨_, _, rfl, rfl, debye_pair u P hk h⟩
  | _ => exact h.elim

mutual

/-- The long-range parts, which are all that the hypernetted chain scheme takes from the k space, are a
pair of Fourier transforms, for all sums and multiples of the classes with a formula. -/
theorem long_pair (g : Grid) (P : Pair) {k : ℝ} (hk : 0 < k) : ∀ p, AllLeaves (LongFormula P) p →
    ∃ f F, eval (longR u P) p = some f ∧ eval (longK u g P) p = some F ∧ IsRadialFT f k (F k)
  | .leaf l, hp => leaf_long_pair u g P hk l hp
  | .sum ps, hp => long_pair_all g P hk ps hp
  | .scaled p c, hp => by
    obtain ⟨f, F, h1, h2, h3⟩ := long_pair g P hk p hp
    refine ⟨fun r => f r * c, fun k => F k * c, ?_, ?_, h3.mul_const c⟩
    · simp only [eval, h1, Option.map_some]
    · simp only [eval, h2, Option.map_some]

theorem long_pair_all (g : Grid) (P : Pair) {k : ℝ} (hk : 0 < k) : ∀ ps, AllLeavesOf (LongFormula P) ps →
    ∃ f F, evalAll (longR u P) ps = some f ∧ evalAll (longK u g P) ps = some F ∧ IsRadialFT f k (F k)
  | [], _ => ⟨fun _ => 0, fun _ => 0, rfl, rfl, IsRadialFT.zero⟩
  | p :: ps, hp => by
    obtain ⟨f, F, h1, h2, h3⟩ := long_pair g P hk p hp.1
    obtain ⟨f', F', h1', h2', h3'⟩ := long_pair_all g P hk ps hp.2
    refine ⟨fun r => f r + f' r, fun k => F k + F' k, ?_, ?_, h3.add h3'⟩
    · simp only [evalAll, h1, h1', addUp]
    · simp only [evalAll, h2, h2', addUp]

end

/-- A potential and a pair which meet the conditions. -/
example : AllLeaves (LongFormula ⟨-2, 1, 1, 1, 1 / 2, 3, false⟩)
    (.sum [.scaled (.leaf .debyeHueckel) 2, .leaf .emptyCore, .leaf .kelbg]) := by
  simp only [AllLeaves, AllLeavesOf, LongFormula]
  norm_num

/-- C31: the units of quotients and products belong together, so that sums are refused for the right reason: the second term of
`full_r` is an energy times a volume. -/
theorem yukawa_units (a b : Dim) : (a.mul b).div b = a ∧ (a.div b).mul b = a ∧ (a.add b = none ↔ a ≠ b) ∧
    yukawaDim2 = yukawaDim1.mul ((⟨0, 1⟩ : Dim).pow 3) := by
  refine ⟨?_, ?_, ?_, by decide⟩
  · cases a; cases b; simp [Dim.mul, Dim.div]
  · cases a; cases b; simp [Dim.mul, Dim.div]
  · unfold Dim.add
    split_ifs with h
    · simp [h]
    · simp [h]

end Verif.Pot
