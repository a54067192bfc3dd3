/-
Properties C19, C63: the charge states of the Saha solver.
-/
import Verif.Model.Saha
import Verif.Props.Bisection
import Mathlib.Analysis.SpecialFunctions.Log.Basic
import Mathlib.Analysis.SpecialFunctions.Exp
import Mathlib.Algebra.BigOperators.Ring.Finset
import Mathlib.Algebra.Order.BigOperators.Ring.Finset
import Mathlib.Topology.Algebra.Order.Field
import Mathlib.Tactic.LinearCombination
import Mathlib.Tactic.GCongr

set_option autoImplicit false

namespace Verif.Saha

open Real Verif.Expt Verif.Resp Finset

variable (u : Consts)

/-! ### The weights are a probability distribution -/

theorem weightSum_pos (s : Species) (y : ℝ) :
    0 < ∑ j ∈ range (s.Z + 1), exp (clip500 (logP s y j)) :=
  sum_pos (fun _ _ => exp_pos _) ⟨0, by simp⟩

/-- C19.  Every charge state has a positive weight. -/
theorem weight_pos (s : Species) (y : ℝ) (i : ℕ) : 0 < weight s y i :=
  div_pos (exp_pos _) (weightSum_pos s y)

/-- C19.  The weights of an element sum to one. -/
theorem weight_sum (s : Species) (y : ℝ) : ∑ i ∈ range (s.Z + 1), weight s y i = 1 := by
  unfold weight
  rw [← sum_div, div_self (weightSum_pos s y).ne']

/-- C19.  The mean charge is between zero and the atomic number, strictly so for every atom that has
electrons. -/
theorem zbar_mem (s : Species) (y : ℝ) :
    0 ≤ zbar s y ∧ zbar s y ≤ s.Z ∧ (0 < s.Z → 0 < zbar s y ∧ zbar s y < s.Z) := by
  have h1 : ∑ i ∈ range (s.Z + 1), (s.Z : ℝ) * weight s y i = s.Z := by
    rw [← mul_sum, weight_sum, mul_one]
  have hle : ∀ i ∈ range (s.Z + 1), (i : ℝ) * weight s y i ≤ (s.Z : ℝ) * weight s y i := by
    intro i hi
    have : (i : ℝ) ≤ s.Z := by exact_mod_cast Nat.lt_succ_iff.1 (mem_range.1 hi)
    exact mul_le_mul_of_nonneg_right this (weight_pos s y i).le
  refine ⟨sum_nonneg fun i _ => mul_nonneg i.cast_nonneg (weight_pos s y i).le, ?_, fun hZ => ⟨?_, ?_⟩⟩
  · calc zbar s y ≤ _ := sum_le_sum hle
      _ = s.Z := h1
  · refine sum_pos' (fun i _ => mul_nonneg i.cast_nonneg (weight_pos s y i).le) ⟨s.Z, by simp, ?_⟩
    exact mul_pos (by exact_mod_cast hZ) (weight_pos s y _)
  · calc zbar s y < ∑ i ∈ range (s.Z + 1), (s.Z : ℝ) * weight s y i :=
          sum_lt_sum hle ⟨0, by simp, by
            have : (0 : ℝ) < s.Z := by exact_mod_cast hZ
            have := mul_pos this (weight_pos s y 0)
            simpa using this⟩
      _ = s.Z := h1

theorem list_sum_range (n : ℕ) (f : ℕ → ℝ) : ((List.range n).map f).sum = ∑ i ∈ range n, f i := by
  induction n with
  | zero => simp
  | succ n ih => rw [List.range_succ, List.map_append, List.sum_append, ih, sum_range_succ]; simp

/-- C19.  The densities of the charge states of an element sum to its density. -/
theorem densities_sum (s : Species) (y : ℝ) : (densities s y).sum = s.N := by
  unfold densities
  rw [list_sum_range, ← mul_sum, weight_sum, mul_one]

/-- C19.  The first result of the solver sums to the density of all ions: it is not a list of
fractions. -/
theorem allDensities_sum (l : List Species) (y : ℝ) :
    (allDensities l y).sum = (l.map fun s => s.N).sum := by
  unfold allDensities
  rw [List.sum_flatten, List.map_map]
  congr 1
  refine List.map_congr_left fun s _ => ?_
  exact densities_sum s y

theorem allDensities_nonneg {l : List Species} (hN : ∀ s ∈ l, 0 ≤ s.N) (y : ℝ) :
    ∀ x ∈ allDensities l y, 0 ≤ x := by
  intro x hx
  simp only [allDensities, List.mem_flatten, List.mem_map] at hx
  obtain ⟨_, ⟨s, hs, rfl⟩, hx⟩ := hx
  obtain ⟨i, -, rfl⟩ := List.mem_map.1 hx
  exact mul_nonneg (hN s hs) (weight_pos s y i).le

/-- C19.  The charge state fractions are not negative, sum to one, and there is one for every charge
state of every element. -/
theorem fractions_dist {l : List Species} (hN : ∀ s ∈ l, 0 ≤ s.N) (ht : 0 < (l.map fun s => s.N).sum)
    (y : ℝ) : (∀ x ∈ fractions l y, 0 ≤ x) ∧ (fractions l y).sum = 1 ∧
      (fractions l y).length = (l.map fun s => s.Z + 1).sum := by
  have hs := allDensities_sum l y
  refine ⟨?_, ?_, ?_⟩
  · intro x hx
    obtain ⟨v, hv, rfl⟩ := List.mem_map.1 hx
    exact div_nonneg (allDensities_nonneg hN y v hv) (by rw [hs]; exact ht.le)
  · unfold fractions
    have : ∀ (L : List ℝ) (c : ℝ), (L.map fun x => x / c).sum = L.sum / c := by
      intro L c
      induction L with
      | nil => simp
      | cons a L ih => simp [ih, add_div]
    rw [this, div_self (by rw [hs]; exact ht.ne')]
  · simp [fractions, allDensities, densities, List.length_flatten, Function.comp_def]

/-- A mixture of carbon and hydrogen meets the hypotheses. -/
example : (∀ s ∈ [(⟨6, fun _ => 1, fun _ => 1, 2⟩ : Species), ⟨1, fun _ => 1, fun _ => 1, 3⟩], 0 ≤ s.N) ∧
    0 < ([(⟨6, fun _ => 1, fun _ => 1, 2⟩ : Species), ⟨1, fun _ => 1, fun _ => 1, 3⟩].map fun s => s.N).sum := by
  constructor
  · intro s hs
    simp only [List.mem_cons, List.not_mem_nil, or_false] at hs
    rcases hs with rfl | rfl <;> norm_num
  · norm_num

/-! ### The exact equilibrium -/

/-- Specification: `n 0, …, n Z` are the densities of the charge states of an element of total density
`N` in ionization equilibrium with electrons of density `ne`. -/
structure IsSaha (Z : ℕ) (c : ℕ → ℝ) (N ne : ℝ) (n : ℕ → ℝ) : Prop where
  nonneg : ∀ i ≤ Z, 0 ≤ n i
  total : ∑ i ∈ range (Z + 1), n i = N
  balance : ∀ i < Z, n (i + 1) * ne = n i * c i

/-- Specification: the plasma is neutral and all its elements are in equilibrium. -/
structure Equilibrium (l : List Species) (pop : Species → ℕ → ℝ) (ne : ℝ) : Prop where
  pos : 0 < ne
  saha : ∀ s ∈ l, IsSaha s.Z s.coeff s.N ne (pop s)
  neutral : ne = (l.map fun s => ∑ i ∈ range (s.Z + 1), (i : ℝ) * pop s i).sum

/-- The product of the first coefficients. -/
noncomputable def pr (c : ℕ → ℝ) (i : ℕ) : ℝ := ∏ k ∈ range i, c k

theorem pr_pos {Z : ℕ} {c : ℕ → ℝ} (hc : ∀ k < Z, 0 < c k) {i : ℕ} (hi : i ≤ Z) : 0 < pr c i :=
  prod_pos fun k hk => hc k (lt_of_lt_of_le (mem_range.1 hk) hi)

/-- Partition sum and mean charge of the equilibrium as functions of the reciprocal density. -/
noncomputable def part (Z : ℕ) (c : ℕ → ℝ) (t : ℝ) : ℝ := ∑ i ∈ range (Z + 1), pr c i * t ^ i
noncomputable def part1 (Z : ℕ) (c : ℕ → ℝ) (t : ℝ) : ℝ := ∑ i ∈ range (Z + 1), (i : ℝ) * (pr c i * t ^ i)

theorem part_pos {Z : ℕ} {c : ℕ → ℝ} (hc : ∀ k < Z, 0 < c k) {t : ℝ} (ht : 0 < t) : 0 < part Z c t :=
  sum_pos (fun i hi => mul_pos (pr_pos hc (Nat.lt_succ_iff.1 (mem_range.1 hi))) (by positivity)) ⟨0, by simp⟩

theorem IsSaha.formula {Z : ℕ} {c : ℕ → ℝ} {N ne : ℝ} {n : ℕ → ℝ} (h : IsSaha Z c N ne n)
    (hc : ∀ k < Z, 0 < c k) (hne : 0 < ne) :
    ∀ i ≤ Z, n i = N * (pr c i * (1 / ne) ^ i / part Z c (1 / ne)) := by
  have h1 : ∀ i ≤ Z, n i = n 0 * (pr c i * (1 / ne) ^ i) := by
    intro i
    induction i with
    | zero => intro _; simp [pr]
    | succ i ih =>
      intro hi
      have hb := h.balance i hi
      rw [ih (by omega)] at hb
      have : pr c (i + 1) = pr c i * c i := prod_range_succ _ _
      rw [this, pow_succ]
      field_simp
      field_simp at hb
      linear_combination hb
  have h2 : N = n 0 * part Z c (1 / ne) := by
    rw [← h.total, part, mul_sum]
    exact sum_congr rfl fun i hi => h1 i (Nat.lt_succ_iff.1 (mem_range.1 hi))
  intro i hi
  have hp := part_pos hc (one_div_pos.2 hne)
  rw [h2, h1 i hi]
  generalize part Z c (1 / ne) = P at *
  generalize pr c i * (1 / ne) ^ i = Q at *
  field_simp

theorem IsSaha.mean {Z : ℕ} {c : ℕ → ℝ} {N ne : ℝ} {n : ℕ → ℝ} (h : IsSaha Z c N ne n)
    (hc : ∀ k < Z, 0 < c k) (hne : 0 < ne) :
    ∑ i ∈ range (Z + 1), (i : ℝ) * n i = N * (part1 Z c (1 / ne) / part Z c (1 / ne)) := by
  rw [part1, sum_div, mul_sum]
  refine sum_congr rfl fun i hi => ?_
  rw [h.formula hc hne i (Nat.lt_succ_iff.1 (mem_range.1 hi))]
  ring

theorem isSaha_of_formula {Z : ℕ} {c : ℕ → ℝ} {N ne : ℝ} (hN : 0 ≤ N) (hc : ∀ k < Z, 0 < c k) (hne : 0 < ne) :
    IsSaha Z c N ne fun i => N * (pr c i * (1 / ne) ^ i / part Z c (1 / ne)) := by
  have hp := part_pos hc (one_div_pos.2 hne)
  refine ⟨fun i hi => ?_, ?_, fun i hi => ?_⟩
  · have := pr_pos hc hi
    positivity
  · rw [← mul_sum, ← sum_div]
    change N * (part Z c (1 / ne) / part Z c (1 / ne)) = N
    rw [div_self hp.ne', mul_one]
  · have : pr c (i + 1) = pr c i * c i := prod_range_succ _ _
    rw [this, pow_succ]
    generalize part Z c (1 / ne) = P at *
    field_simp

/-- The mean charge grows with the reciprocal density. -/
theorem mean_mono {Z : ℕ} {c : ℕ → ℝ} (hc : ∀ k < Z, 0 < c k) {s t : ℝ} (hs : 0 < s) (hst : s ≤ t) :
    part1 Z c s / part Z c s ≤ part1 Z c t / part Z c t := by
  have ht := hs.trans_le hst
  rw [div_le_div_iff₀ (part_pos hc hs) (part_pos hc ht)]
  have e1 : ∀ a b : ℝ, part1 Z c a * part Z c b =
      ∑ i ∈ range (Z + 1), ∑ j ∈ range (Z + 1), (i : ℝ) * (pr c i * pr c j * (a ^ i * b ^ j)) := by
    intro a b
    rw [part1, part, sum_mul_sum]
    exact sum_congr rfl fun i _ => sum_congr rfl fun j _ => by ring
  have e2 : ∀ a b : ℝ, part1 Z c a * part Z c b =
      ∑ i ∈ range (Z + 1), ∑ j ∈ range (Z + 1), (j : ℝ) * (pr c i * pr c j * (b ^ i * a ^ j)) := by
    intro a b
    rw [e1, sum_comm]
    exact sum_congr rfl fun i _ => sum_congr rfl fun j _ => by ring
  have key : 0 ≤ ∑ i ∈ range (Z + 1), ∑ j ∈ range (Z + 1),
      ((i : ℝ) - j) * (pr c i * pr c j * (t ^ i * s ^ j - s ^ i * t ^ j)) := by
    refine sum_nonneg fun i hi => sum_nonneg fun j hj => ?_
    have hi' := pr_pos hc (Nat.lt_succ_iff.1 (mem_range.1 hi))
    have hj' := pr_pos hc (Nat.lt_succ_iff.1 (mem_range.1 hj))
    have hp := mul_pos hi' hj'
    have gen : ∀ a b : ℕ, b ≤ a → s ^ a * t ^ b ≤ t ^ a * s ^ b := by
      intro a b hab
      obtain ⟨d, rfl⟩ := Nat.exists_eq_add_of_le hab
      rw [pow_add, pow_add]
      have := pow_le_pow_left₀ hs.le hst d
      have h3 : 0 < s ^ b * t ^ b := by positivity
      nlinarith
    rcases le_total j i with h | h
    · refine mul_nonneg (sub_nonneg.2 (by exact_mod_cast h)) (mul_nonneg hp.le ?_)
      linarith [gen i j h]
    · refine mul_nonneg_of_nonpos_of_nonpos (sub_nonpos.2 (by exact_mod_cast h))
        (mul_nonpos_of_nonneg_of_nonpos hp.le ?_)
      linarith [gen j i h]
  have hsum : ∑ i ∈ range (Z + 1), ∑ j ∈ range (Z + 1),
      ((i : ℝ) - j) * (pr c i * pr c j * (t ^ i * s ^ j - s ^ i * t ^ j)) =
      2 * (part1 Z c t * part Z c s - part1 Z c s * part Z c t) := by
    have : 2 * (part1 Z c t * part Z c s - part1 Z c s * part Z c t) =
        part1 Z c t * part Z c s - part1 Z c s * part Z c t - part1 Z c s * part Z c t + part1 Z c t * part Z c s := by ring
    rw [this]
    nth_rewrite 1 [e1 t s]
    nth_rewrite 1 [e1 s t]
    rw [e2 s t, e2 t s, ← sum_sub_distrib, ← sum_sub_distrib, ← sum_add_distrib]
    refine sum_congr rfl fun i _ => ?_
    rw [← sum_sub_distrib, ← sum_sub_distrib, ← sum_add_distrib]
    exact sum_congr rfl fun j _ => by ring
  linarith [hsum ▸ key]

/-- The excess of electrons over free charges. -/
noncomputable def excess (l : List Species) (ne : ℝ) : ℝ :=
  ne - (l.map fun s => s.N * (part1 s.Z s.coeff (1 / ne) / part s.Z s.coeff (1 / ne))).sum

/-- All elements have positive coefficients and densities that are not negative. -/
def Regular (l : List Species) : Prop := ∀ s ∈ l, 0 ≤ s.N ∧ ∀ k < s.Z, 0 < s.coeff k

theorem excess_mono {l : List Species} (hl : Regular l) {a b : ℝ} (ha : 0 < a) (hab : a ≤ b) :
    b - a ≤ excess l b - excess l a := by
  have : (l.map fun s => s.N * (part1 s.Z s.coeff (1 / b) / part s.Z s.coeff (1 / b))).sum ≤
      (l.map fun s => s.N * (part1 s.Z s.coeff (1 / a) / part s.Z s.coeff (1 / a))).sum := by
    refine List.sum_le_sum fun s hs => ?_
    exact mul_le_mul_of_nonneg_left (mean_mono (hl s hs).2 (one_div_pos.2 (ha.trans_le hab))
      (one_div_le_one_div_of_le ha hab)) (hl s hs).1
  unfold excess
  linarith

theorem Equilibrium.excess_zero {l : List Species} (hl : Regular l) {pop : Species → ℕ → ℝ} {ne : ℝ}
    (h : Equilibrium l pop ne) : excess l ne = 0 := by
  unfold excess
  have := h.neutral
  have e : (l.map fun s => ∑ i ∈ range (s.Z + 1), (i : ℝ) * pop s i) =
      l.map fun s => s.N * (part1 s.Z s.coeff (1 / ne) / part s.Z s.coeff (1 / ne)) :=
    List.map_congr_left fun s hs => (h.saha s hs).mean (hl s hs).2 h.pos
  rw [e] at this
  linarith

/-- C63.  There is at most one equilibrium: the electron density and the densities of all charge states
are determined by the densities of the elements and the coefficients. -/
theorem equilibrium_unique {l : List Species} (hl : Regular l) {pop pop' : Species → ℕ → ℝ} {ne ne' : ℝ}
    (h : Equilibrium l pop ne) (h' : Equilibrium l pop' ne') :
    ne = ne' ∧ ∀ s ∈ l, ∀ i ≤ s.Z, pop s i = pop' s i := by
  have e1 := h.excess_zero hl
  have e2 := h'.excess_zero hl
  have hne : ne = ne' := by
    rcases le_total ne ne' with hh | hh
    · have := excess_mono hl h.pos hh
      linarith
    · have := excess_mono hl h'.pos hh
      linarith
  subst hne
  refine ⟨rfl, fun s hs i hi => ?_⟩
  rw [(h.saha s hs).formula (hl s hs).2 h.pos i hi, (h'.saha s hs).formula (hl s hs).2 h.pos i hi]

theorem part1_le {Z : ℕ} {c : ℕ → ℝ} (hc : ∀ k < Z, 0 < c k) {t : ℝ} (ht : 0 < t) :
    part1 Z c t / part Z c t ≤ Z := by
  rw [div_le_iff₀ (part_pos hc ht), part, mul_sum]
  refine sum_le_sum fun i hi => ?_
  have hi' := Nat.lt_succ_iff.1 (mem_range.1 hi)
  have := pr_pos hc hi'
  have h2 : (i : ℝ) ≤ Z := by exact_mod_cast hi'
  exact mul_le_mul_of_nonneg_right h2 (by positivity)

/-! ### The solver -/

/-- Every charge state is bound. -/
def AllBound (s : Species) : Prop := ∀ k < s.Z, 0 < s.mask k

/-- No logarithm is cut at plus or minus 500. -/
def Unclipped (s : Species) (y : ℝ) : Prop :=
  ∀ i ≤ s.Z, |∑ k ∈ range i, (log (s.coeff k) - y)| ≤ 500

theorem logP_allBound {s : Species} (hb : AllBound s) (y : ℝ) {i : ℕ} (hi : i ≤ s.Z) :
    logP s y i = some (∑ k ∈ range i, (log (s.coeff k) - y)) := by
  unfold logP
  rw [if_neg (by rintro ⟨h1, h2⟩; exact h2 (hb i h1))]
  congr 1
  refine sum_congr rfl fun k hk => ?_
  rw [if_pos (hb k (lt_of_lt_of_le (mem_range.1 hk) hi))]

theorem exp_logsum {Z : ℕ} {c : ℕ → ℝ} (hc : ∀ k < Z, 0 < c k) (y : ℝ) {i : ℕ} (hi : i ≤ Z) :
    exp (∑ k ∈ range i, (log (c k) - y)) = pr c i * (1 / exp y) ^ i := by
  rw [exp_sum, pr]
  have : (1 / exp y) ^ i = ∏ _k ∈ range i, (1 / exp y) := by simp
  rw [this, ← prod_mul_distrib]
  refine prod_congr rfl fun k hk => ?_
  rw [exp_sub, exp_log (hc k (lt_of_lt_of_le (mem_range.1 hk) hi))]
  ring

theorem exp_clip {s : Species} (hb : AllBound s) (hc : ∀ k < s.Z, 0 < s.coeff k) {y : ℝ}
    (hu : Unclipped s y) {i : ℕ} (hi : i ≤ s.Z) :
    exp (clip500 (logP s y i)) = pr s.coeff i * (1 / exp y) ^ i := by
  rw [logP_allBound hb y hi, ← exp_logsum hc y hi, clip500]
  have := abs_le.1 (hu i hi)
  rw [max_eq_left (by linarith), min_eq_left (by linarith)]

theorem weight_eq {s : Species} (hb : AllBound s) (hc : ∀ k < s.Z, 0 < s.coeff k) {y : ℝ}
    (hu : Unclipped s y) {i : ℕ} (hi : i ≤ s.Z) :
    weight s y i = pr s.coeff i * (1 / exp y) ^ i / part s.Z s.coeff (1 / exp y) := by
  unfold weight part
  rw [exp_clip hb hc hu hi]
  congr 1
  exact sum_congr rfl fun j hj => exp_clip hb hc hu (Nat.lt_succ_iff.1 (mem_range.1 hj))

theorem zbar_eq {s : Species} (hb : AllBound s) (hc : ∀ k < s.Z, 0 < s.coeff k) {y : ℝ}
    (hu : Unclipped s y) : zbar s y = part1 s.Z s.coeff (1 / exp y) / part s.Z s.coeff (1 / exp y) := by
  rw [part1, sum_div, zbar]
  refine sum_congr rfl fun i hi => ?_
  rw [weight_eq hb hc hu (Nat.lt_succ_iff.1 (mem_range.1 hi))]
  ring

/-- C63.  When all states are bound and no logarithm is cut, the densities of an element are in exact
equilibrium with the returned electron density. -/
theorem saha_weights {s : Species} (hN : 0 ≤ s.N) (hb : AllBound s) (hc : ∀ k < s.Z, 0 < s.coeff k) {y : ℝ}
    (hu : Unclipped s y) : IsSaha s.Z s.coeff s.N (exp y) fun i => s.N * weight s y i := by
  have h := isSaha_of_formula hN hc (exp_pos y)
  refine ⟨fun i _ => mul_nonneg hN (weight_pos s y i).le, ?_, fun i hi => ?_⟩
  · rw [← mul_sum, weight_sum, mul_one]
  · rw [weight_eq hb hc hu hi, weight_eq hb hc hu hi.le]
    exact h.balance i hi

theorem residual_eq_excess {l : List Species} (hl : Regular l) (hb : ∀ s ∈ l, AllBound s) {y : ℝ}
    (hu : ∀ s ∈ l, Unclipped s y) : residual l y = excess l (exp y) := by
  unfold residual excess
  congr 2
  refine List.map_congr_left fun s hs => ?_
  rw [zbar_eq (hb s hs) (hl s hs).2 (hu s hs)]

/-- C63.  A root of the residual is the equilibrium. -/
theorem equilibrium_of_root {l : List Species} (hl : Regular l) (hb : ∀ s ∈ l, AllBound s) {y : ℝ}
    (hu : ∀ s ∈ l, Unclipped s y) (h0 : residual l y = 0) :
    Equilibrium l (fun s i => s.N * weight s y i) (exp y) := by
  refine ⟨exp_pos y, fun s hs => saha_weights (hl s hs).1 (hb s hs) (hl s hs).2 (hu s hs), ?_⟩
  unfold residual at h0
  have e : (l.map fun s => ∑ i ∈ range (s.Z + 1), (i : ℝ) * (s.N * weight s y i)) =
      l.map fun s => s.N * zbar s y := by
    refine List.map_congr_left fun s _ => ?_
    rw [zbar, mul_sum]
    exact sum_congr rfl fun i _ => by ring
  rw [e]
  linarith

theorem continuous_clip (s : Species) (i : ℕ) : Continuous fun y => exp (clip500 (logP s y i)) := by
  unfold logP
  split_ifs
  · exact continuous_const
  · simp only [clip500]
    refine continuous_exp.comp (Continuous.min (Continuous.max (continuous_finsetSum _ fun k _ => ?_)
      continuous_const) continuous_const)
    split_ifs
    · exact continuous_const.sub continuous_id
    · exact continuous_const

theorem continuous_zbar (s : Species) : Continuous fun y => zbar s y := by
  unfold zbar weight
  refine continuous_finsetSum _ fun i _ => continuous_const.mul ((continuous_clip s i).div
    (continuous_finsetSum _ fun j _ => continuous_clip s j) fun y => (weightSum_pos s y).ne')

theorem continuous_residual (l : List Species) : Continuous (residual l) := by
  unfold residual
  refine continuous_exp.sub ?_
  induction l with
  | nil => simpa using continuous_const
  | cons s l ih =>
    simp only [List.map_cons, List.sum_cons]
    exact (continuous_const.mul (continuous_zbar s)).add ih

/-- At the largest possible density there are enough electrons. -/
theorem residual_hi {l : List Species} (hN : ∀ s ∈ l, 0 ≤ s.N) (hm : 0 < maxNe l) :
    0 ≤ residual l (log (maxNe l)) := by
  unfold residual
  rw [exp_log hm, sub_nonneg, maxNe]
  refine List.sum_le_sum fun s hs => ?_
  rw [mul_comm]
  exact mul_le_mul_of_nonneg_right (zbar_mem s _).2.1 (hN s hs)

/-- C63.  The solver returns one electron density, not larger than the density of all electrons.  If
there are free electrons at its lower bound, the density is the root of the neutrality condition up to
`1e-8` in its logarithm, or the condition is violated by at most `1e-8` per cubic metre. -/
theorem solve_accuracy {l : List Species} (hN : ∀ s ∈ l, 0 ≤ s.N) (hm : 1 / 100000000 ≤ maxNe l)
    (hr : maxNe l ≤ exp 1000) (hlo : residual l (log (1 / 100000000)) ≤ 0) :
    (∃ y, Solves l y) ∧ ∀ y, Solves l y → log (1 / 100000000) ≤ y ∧ y ≤ log (maxNe l) ∧
      (|residual l y| ≤ 1 / 100000000 ∨ ∃ r, residual l r = 0 ∧ |y - r| ≤ 1 / 100000000) := by
  have hm0 : 0 < maxNe l := lt_of_lt_of_le (by norm_num) hm
  have hle : log (1 / 100000000) ≤ log (maxNe l) := log_le_log (by norm_num) hm
  obtain ⟨x, n, hx, huniq, -, hn, hmem⟩ := Bisection.bisection_returns (residual l)
    ⟨1 / 100000000, 1000, 1⟩ (log (1 / 100000000)) (log (maxNe l))
  refine ⟨⟨x, n, hx⟩, ?_⟩
  rintro y ⟨n', hy⟩
  obtain ⟨rfl, rfl⟩ := huniq y n' hy
  rw [Set.uIcc_of_le hle] at hmem
  refine ⟨hmem.1, hmem.2, ?_⟩
  have hs : residual l (log (1 / 100000000)) * residual l (log (maxNe l)) ≤ 0 :=
    mul_nonpos_of_nonpos_of_nonneg hlo (residual_hi hN hm0)
  have hc := (continuous_residual l).continuousOn (s := Set.uIcc (log (1 / 100000000)) (log (maxNe l)))
  rcases lt_or_ge n' 1000 with h | h
  · rcases Bisection.bisection_accuracy _ _ _ _ _ _ hc hs hy h with h1 | ⟨r, -, h1, h2⟩
    · exact Or.inl h1
    · exact Or.inr ⟨r, h1, h2⟩
  · right
    obtain ⟨r, -, h1, h2⟩ := Bisection.bisection_encloses_root _ _ _ _ _ _ hc hs hy
    refine ⟨r, h1, h2.trans ?_⟩
    rw [div_le_iff₀ (by positivity)]
    have hl1 : log (maxNe l) ≤ 1000 := by
      rw [← log_exp 1000]
      exact log_le_log hm0 hr
    have hl2 : -100000000 ≤ log (1 / 100000000) := by
      have := one_sub_inv_le_log_of_pos (x := 1 / 100000000) (by norm_num)
      norm_num at this ⊢
      linarith
    rw [abs_of_nonneg (by linarith)]
    have h3 : (2 : ℝ) ^ 100 ≤ 2 ^ n' := pow_le_pow_right₀ (by norm_num) (by omega)
    norm_num at h3
    linarith

/-- C63.  The solver finds the equilibrium: the electron density is exact up to `1e-8` per cubic metre
or a relative error of `1e-8`, whenever no logarithm is cut near the returned point. -/
theorem solve_equilibrium_partial {l : List Species} (hl : Regular l) (hb : ∀ s ∈ l, AllBound s)
    (hm : 1 / 100000000 ≤ maxNe l) (hr : maxNe l ≤ exp 1000)
    (hlo : residual l (log (1 / 100000000)) ≤ 0) {pop : Species → ℕ → ℝ} {ne : ℝ}
    (he : Equilibrium l pop ne) {y : ℝ} (hy : Solves l y)
    (hu : ∀ z, |y - z| ≤ 1 / 100000000 → ∀ s ∈ l, Unclipped s z) :
    |exp y - ne| ≤ 1 / 100000000 ∨ |y - log ne| ≤ 1 / 100000000 := by
  rcases ((solve_accuracy (fun s hs => (hl s hs).1) hm hr hlo).2 y hy).2.2 with h | ⟨r, h1, h2⟩
  · left
    rw [residual_eq_excess hl hb (hu y (by norm_num))] at h
    have h0 := he.excess_zero hl
    rcases le_total ne (exp y) with hh | hh
    · have := excess_mono hl he.pos hh
      rw [abs_of_nonneg (by linarith)]
      linarith [abs_le.1 h]
    · have := excess_mono hl (exp_pos y) hh
      rw [abs_of_nonpos (by linarith)]
      linarith [(abs_le.1 h).1]
  · right
    have := equilibrium_unique hl he (equilibrium_of_root hl hb (hu r h2) h1)
    rw [this.1, log_exp]
    exact h2

/-- C63.  There are free electrons at the lower bound as soon as one element has at least
`2e-8` ions per cubic metre and a first coefficient of that size. -/
theorem residual_lo {l : List Species} (hN : ∀ s ∈ l, 0 ≤ s.N) {s : Species} (hs : s ∈ l) (hZ : 0 < s.Z)
    (hb : AllBound s) (hc : 1 / 100000000 ≤ s.coeff 0) (hsN : 2 / 100000000 ≤ s.N) :
    residual l (log (1 / 100000000)) ≤ 0 := by
  set y := log (1 / 100000000) with hyd
  have h01 : weight s y 0 ≤ weight s y 1 := by
    unfold weight
    refine div_le_div_of_nonneg_right (exp_le_exp.2 ?_) (weightSum_pos s y).le
    rw [logP_allBound hb y (Nat.zero_le _), logP_allBound hb y hZ]
    have : 0 ≤ log (s.coeff 0) - y := sub_nonneg.2 (log_le_log (by norm_num) hc)
    simp only [clip500, sum_range_zero, sum_range_one]
    gcongr
  have hz : 1 / 2 ≤ zbar s y := by
    have hsum := weight_sum s y
    obtain ⟨m, hm⟩ := Nat.exists_eq_succ_of_ne_zero hZ.ne'
    have hw0 : weight s y 0 ≤ 1 / 2 := by
      have h2 : weight s y 0 + weight s y 1 ≤ ∑ i ∈ range (s.Z + 1), weight s y i := by
        rw [hm, sum_range_succ', sum_range_succ']
        have : 0 ≤ ∑ k ∈ range m, weight s y (k + 1 + 1) := sum_nonneg fun k _ => (weight_pos s y _).le
        simp only [zero_add]
        linarith
      linarith
    have h3 : ∑ i ∈ range (s.Z + 1), weight s y i - weight s y 0 ≤ zbar s y := by
      unfold zbar
      rw [sum_range_succ', sum_range_succ']
      simp only [Nat.cast_zero, zero_mul, add_zero, add_sub_cancel_right]
      refine sum_le_sum fun i _ => ?_
      have := weight_pos s y (i + 1)
      push_cast
      have hi : (0 : ℝ) ≤ i := i.cast_nonneg
      nlinarith
    linarith
  have hmem : s.N * zbar s y ≤ (l.map fun s => s.N * zbar s y).sum := by
    refine List.single_le_sum ?_ _ (List.mem_map.2 ⟨s, hs, rfl⟩)
    intro x hx
    obtain ⟨t, ht, rfl⟩ := List.mem_map.1 hx
    exact mul_nonneg (hN t ht) (zbar_mem t y).1
  unfold residual
  rw [hyd, exp_log (by norm_num), ← hyd]
  nlinarith

/-- C63.  States that do not exist are populated with at most `exp(-500)` of the ions, if a state above
them is the lowest bound one. -/
theorem masked_weight {s : Species} {m : ℕ} (hm : m ≤ s.Z) (hlow : ∀ k < m, ¬ 0 < s.mask k)
    (hbound : m < s.Z → 0 < s.mask m) (y : ℝ) {i : ℕ} (hi : i < m) : weight s y i ≤ exp (-500) := by
  have h1 : logP s y i = none := by
    unfold logP
    rw [if_pos ⟨lt_of_lt_of_le hi hm, hlow i hi⟩]
  have h2 : logP s y m = some 0 := by
    unfold logP
    rw [if_neg (by rintro ⟨h1, h2⟩; exact h2 (hbound h1))]
    congr 1
    refine sum_eq_zero fun k hk => ?_
    rw [if_neg (hlow k (mem_range.1 hk))]
  unfold weight
  rw [h1, div_le_iff₀ (weightSum_pos s y)]
  have h3 : exp (clip500 (logP s y m)) ≤ ∑ j ∈ range (s.Z + 1), exp (clip500 (logP s y j)) :=
    single_le_sum (f := fun j => exp (clip500 (logP s y j))) (fun j _ => (exp_pos _).le)
      (mem_range.2 (Nat.lt_succ_of_le hm))
  rw [h2] at h3
  have h4 : clip500 (some 0) = 0 := by simp [clip500]
  rw [h4, exp_zero] at h3
  change exp (-500) ≤ _
  nlinarith [exp_pos (-500)]

/-- C63.  Neighbouring bound states are in balance unless one of the logarithms is cut. -/
theorem bound_balance {s : Species} {y : ℝ} {i : ℕ} (hb : 0 < s.mask i)
    (hb' : i + 1 < s.Z → 0 < s.mask (i + 1)) (hc : 0 < s.coeff i) {a b : ℝ} (ha : logP s y i = some a)
    (hb2 : logP s y (i + 1) = some b) (hA : |a| ≤ 500) (hB : |b| ≤ 500) :
    weight s y (i + 1) * exp y = weight s y i * s.coeff i := by
  have hab : b = a + (log (s.coeff i) - y) := by
    unfold logP at ha hb2
    rw [if_neg (by rintro ⟨_, h2⟩; exact h2 hb), Option.some_inj] at ha
    rw [if_neg (by rintro ⟨h1, h2⟩; exact h2 (hb' h1)), Option.some_inj, sum_range_succ, if_pos hb] at hb2
    rw [← hb2, ← ha]
  have hA' := abs_le.1 hA
  have hB' := abs_le.1 hB
  unfold weight
  rw [ha, hb2]
  simp only [clip500]
  rw [max_eq_left hA'.1, min_eq_left hA'.2, max_eq_left hB'.1, min_eq_left hB'.2, hab, exp_add, exp_sub,
    exp_log hc]
  have := weightSum_pos s y
  have := exp_pos y
  field_simp

/-- A plasma of hydrogen with `1e20` atoms per cubic metre meets the hypotheses of
`solve_equilibrium_partial`. -/
example : let s : Species := ⟨1, fun _ => 10 ^ 20, fun _ => 1, 10 ^ 20⟩
    Regular [s] ∧ (∀ t ∈ [s], AllBound t) ∧ 1 / 100000000 ≤ maxNe [s] ∧ maxNe [s] ≤ exp 1000 ∧
      residual [s] (log (1 / 100000000)) ≤ 0 ∧
      ∀ z, -100 ≤ z → z ≤ 100 → ∀ t ∈ [s], Unclipped t z := by
  intro s
  have e1 : maxNe [s] = 10 ^ 20 := by simp [maxNe, s]
  have hl : log ((10 : ℝ) ^ 20) ≤ 200 := by
    rw [log_pow]
    have := log_le_sub_one_of_pos (x := 10) (by norm_num)
    push_cast
    linarith
  have hl0 : 0 ≤ log ((10 : ℝ) ^ 20) := log_nonneg (by norm_num)
  refine ⟨?_, ?_, ?_, ?_, ?_, ?_⟩
  · intro t ht
    rw [List.mem_singleton] at ht
    subst ht
    exact ⟨by norm_num [s], fun k _ => by norm_num [s]⟩
  · intro t ht
    rw [List.mem_singleton] at ht
    subst ht
    intro k _
    norm_num [s]
  · rw [e1]; norm_num
  · rw [e1, ← log_le_iff_le_exp (by positivity)]
    linarith
  · refine residual_lo (s := s) ?_ (by simp) (by norm_num [s]) ?_ (by norm_num [s]) (by norm_num [s])
    · intro t ht
      rw [List.mem_singleton] at ht
      subst ht
      norm_num [s]
    · intro k _
      norm_num [s]
  · intro z hz1 hz2 t ht
    rw [List.mem_singleton] at ht
    subst ht
    intro i hi
    have hi' : i = 0 ∨ i = 1 := by
      have : i ≤ 1 := hi
      omega
    rcases hi' with rfl | rfl
    · simp
    · rw [sum_range_one, abs_le]
      change -500 ≤ log ((10 : ℝ) ^ 20) - z ∧ log ((10 : ℝ) ^ 20) - z ≤ 500
      constructor <;> linarith

end Verif.Saha
