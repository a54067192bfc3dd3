/-
Property C27: thermometry with the imaginary time correlation function.
-/
import Verif.Model.Itcf
import Verif.Lemmas.Interp
import Verif.Props.Interp
import Mathlib.Data.List.Sort
import Mathlib.Data.List.GetD
import Mathlib.Analysis.Convex.SpecificFunctions.Basic
import Mathlib.Analysis.SpecialFunctions.ExpDeriv
import Mathlib.Algebra.BigOperators.Intervals
import Mathlib.Algebra.BigOperators.Field
import Mathlib.Tactic.Linarith
import Mathlib.Tactic.FieldSimp
import Mathlib.Tactic.Positivity

set_option autoImplicit false

namespace Verif.Itcf

open Real

/-! ### Specification -/

/-- The energies of a spectrum. -/
def energies (d : List (ℝ × ℝ)) : List ℝ := d.map Prod.fst

/-- A spectrum in detailed balance at the inverse temperature `beta`: no energy occurs twice, and with each
energy there is the opposite one, with an intensity smaller by the factor of Boltzmann. -/
structure DetailedBalance (beta : ℝ) (d : List (ℝ × ℝ)) : Prop where
  distinct : (energies d).Nodup
  balance : ∀ E I, (E, I) ∈ d → (-E, exp (-beta * E) * I) ∈ d

/-! ### Sorting -/

theorem sortedPairs_perm (d : List (ℝ × ℝ)) : (sortedPairs d).Perm d := List.mergeSort_perm _ _

theorem sortedPairs_sorted (d : List (ℝ × ℝ)) : (sortedPairs d).Pairwise (fun a b => a.1 ≤ b.1) := by
  have := List.pairwise_mergeSort (le := fun a b : ℝ × ℝ => decide (a.1 ≤ b.1))
    (by intro a b c h1 h2; simp only [decide_eq_true_eq] at *; exact h1.trans h2)
    (by intro a b; simp only [Bool.or_eq_true, decide_eq_true_eq]; exact le_total _ _) d
  refine this.imp ?_
  intro a b h
  simpa using h

theorem nodes_perm (d : List (ℝ × ℝ)) (a b : ℝ) :
    (nodes d a b).Perm (energies d ++ [a - small, a + small, b + small, b - small]) :=
  (List.mergeSort_perm _ _).trans (((sortedPairs_perm d).map _).append_right _)

theorem nodes_sorted (d : List (ℝ × ℝ)) (a b : ℝ) : (nodes d a b).Pairwise (· ≤ ·) := by
  have := List.pairwise_mergeSort (le := fun a b : ℝ => decide (a ≤ b))
    (by intro a b c h1 h2; simp only [decide_eq_true_eq] at *; exact h1.trans h2)
    (by intro a b; simp only [Bool.or_eq_true, decide_eq_true_eq]; exact le_total _ _)
    ((sortedPairs d).map Prod.fst ++ [a - small, a + small, b + small, b - small])
  refine this.imp ?_
  intro a b h
  simpa using h

theorem sortedPairs_strict {d : List (ℝ × ℝ)} (h : (energies d).Nodup) : (sortedPairs d).Pairwise (fun a b => a.1 < b.1) := by
  have h1 : ((sortedPairs d).map Prod.fst).Nodup := ((sortedPairs_perm d).map Prod.fst).nodup_iff.2 h
  have h2 : (sortedPairs d).Pairwise (fun a b => a.1 ≠ b.1) := List.pairwise_map.1 h1
  exact (sortedPairs_sorted d).imp₂ (fun a b h1 h2 => lt_of_le_of_ne h1 h2) h2

/-- C27: the order in which the data are given does not matter. -/
theorem sortedPairs_of_perm {d d' : List (ℝ × ℝ)} (hp : d.Perm d') (h : (energies d).Nodup) : sortedPairs d = sortedPairs d' := by
  have h' : (energies d').Nodup := (hp.map _).nodup_iff.1 h
  refine List.Perm.eq_of_pairwise (le := fun a b => a.1 < b.1) ?_ (sortedPairs_strict h) (sortedPairs_strict h')
    ((sortedPairs_perm d).trans (hp.trans (sortedPairs_perm d').symm))
  intro a b _ _ h1 h2
  exact absurd h1 (not_lt.2 h2.le)

theorem laplace_of_perm {d d' : List (ℝ × ℝ)} (hp : d.Perm d') (h : (energies d).Nodup) (hbar tau a b : ℝ) :
    laplace hbar d tau a b = laplace hbar d' tau a b := by
  have hs := sortedPairs_of_perm hp h
  have hv : value d = value d' := by unfold value; rw [hs]
  have hn : nodes d a b = nodes d' a b := by unfold nodes; rw [hs]
  have hk : cutKernel hbar d tau a b = cutKernel hbar d' tau a b := by unfold cutKernel; rw [hv]
  unfold laplace
  rw [hn, hk]

/-! ### The values at the data -/

theorem arr_map {α : Type} (l : List α) (f : α → ℝ) {i : ℕ} (hi : i < l.length) : Interp.arr (l.map f) i = f (l[i]) := by
  unfold Interp.arr
  rw [List.getD_eq_getElem _ _ (by simpa using hi), List.getElem_map]

theorem arr_eq (l : List ℝ) {i : ℕ} (hi : i < l.length) : Interp.arr l i = l[i] := by
  unfold Interp.arr
  rw [List.getD_eq_getElem _ _ hi]

theorem increasing_of_nodup {d : List (ℝ × ℝ)} (h : (energies d).Nodup) :
    Interp.Increasing ((sortedPairs d).map Prod.fst).length (Interp.arr ((sortedPairs d).map Prod.fst)) := by
  intro i hi
  rw [List.length_map] at hi
  rw [arr_map _ _ (by omega), arr_map _ _ hi]
  exact List.pairwise_iff_getElem.1 (sortedPairs_strict h) i (i + 1) (by omega) hi (by omega)

/-- At the energy of a datum, the intensity is that of the datum. -/
theorem value_data {d : List (ℝ × ℝ)} (h : (energies d).Nodup) {E I : ℝ} (hm : (E, I) ∈ d) : value d E = I := by
  have hm' : (E, I) ∈ sortedPairs d := (sortedPairs_perm d).mem_iff.2 hm
  obtain ⟨i, hi, he⟩ := List.getElem_of_mem hm'
  have h1 := Interp.interp_at_node _ _ (Interp.arr ((sortedPairs d).map Prod.snd)) (increasing_of_nodup h) i (by simpa using hi)
  rw [arr_map _ _ hi, arr_map _ _ hi, he] at h1
  exact h1

theorem value_nonneg {d : List (ℝ × ℝ)} (h : (energies d).Nodup) (hd : d ≠ []) (hI : ∀ E I, (E, I) ∈ d → 0 ≤ I) (x : ℝ) : 0 ≤ value d x := by
  have hlen : 0 < (sortedPairs d).length := by
    rw [(sortedPairs_perm d).length_eq]
    exact List.length_pos_iff.2 hd
  obtain ⟨M, hM⟩ : ∃ M, ∀ i < (sortedPairs d).length, Interp.arr ((sortedPairs d).map Prod.snd) i ≤ M := by
    refine ⟨∑ i ∈ Finset.range (sortedPairs d).length, |Interp.arr ((sortedPairs d).map Prod.snd) i|, fun i hi => ?_⟩
    exact (le_abs_self _).trans (Finset.single_le_sum (f := fun i => |Interp.arr ((sortedPairs d).map Prod.snd) i|)
      (fun i _ => abs_nonneg _) (Finset.mem_range.2 hi))
  have := (Interp.interp_in_range _ _ (Interp.arr ((sortedPairs d).map Prod.snd)) (increasing_of_nodup h) (by simpa using hlen) 0 M
    (fun i hi => ⟨?_, hM i (by simpa using hi)⟩) x).1
  · exact this
  · have hi' : i < (sortedPairs d).length := by simpa using hi
    rw [arr_map _ _ hi']
    exact hI _ _ ((sortedPairs_perm d).mem_iff.1 (List.getElem_mem hi'))

/-! ### The sum -/

theorem laplace_eq (hbar : ℝ) (d : List (ℝ × ℝ)) (tau a b : ℝ) :
    laplace hbar d tau a b = ∑ i ∈ Finset.range ((nodes d a b).length - 1),
      (Interp.arr (nodes d a b) (i + 1) - Interp.arr (nodes d a b) i) *
        (cutKernel hbar d tau a b (Interp.arr (nodes d a b) (i + 1)) + cutKernel hbar d tau a b (Interp.arr (nodes d a b) i)) / 2 := by
  unfold laplace Instrument.trapezoid
  refine Finset.sum_congr rfl fun i hi => ?_
  have := Finset.mem_range.1 hi
  rw [arr_map _ _ (by omega), arr_map _ _ (by omega), arr_eq _ (by omega), arr_eq _ (by omega)]

theorem gap_nonneg (d : List (ℝ × ℝ)) (a b : ℝ) {i : ℕ} (hi : i < (nodes d a b).length - 1) :
    0 ≤ Interp.arr (nodes d a b) (i + 1) - Interp.arr (nodes d a b) i := by
  rw [arr_eq _ (by omega), arr_eq _ (by omega), sub_nonneg]
  exact List.pairwise_iff_getElem.1 (nodes_sorted d a b) i (i + 1) (by omega) (by omega) (by omega)

theorem cutKernel_nonneg {hbar : ℝ} (hh : 0 < hbar) {d : List (ℝ × ℝ)} (h : (energies d).Nodup) (hd : d ≠ [])
    (hI : ∀ E I, (E, I) ∈ d → 0 ≤ I) (tau a b x : ℝ) : 0 ≤ cutKernel hbar d tau a b x := by
  unfold cutKernel
  split_ifs
  · have := value_nonneg h hd hI x
    positivity
  · exact le_rfl

/-- C27: the transform of a spectrum without negative intensities is not negative. -/
theorem laplace_nonneg {hbar : ℝ} (hh : 0 < hbar) {d : List (ℝ × ℝ)} (h : (energies d).Nodup) (hd : d ≠ [])
    (hI : ∀ E I, (E, I) ∈ d → 0 ≤ I) (tau a b : ℝ) : 0 ≤ laplace hbar d tau a b := by
  rw [laplace_eq]
  refine Finset.sum_nonneg fun i hi => ?_
  have h1 := gap_nonneg d a b (Finset.mem_range.1 hi)
  have h2 := cutKernel_nonneg hh h hd hI tau a b
  have h3 := h2 (Interp.arr (nodes d a b) (i + 1))
  have h4 := h2 (Interp.arr (nodes d a b) i)
  positivity

/-- C27: and it is a convex function of the imaginary time. -/
theorem laplace_convex {hbar : ℝ} (hh : 0 < hbar) {d : List (ℝ × ℝ)} (h : (energies d).Nodup) (hd : d ≠ [])
    (hI : ∀ E I, (E, I) ∈ d → 0 ≤ I) (a b : ℝ) : ConvexOn ℝ Set.univ (fun tau => laplace hbar d tau a b) := by
  have hk : ∀ x, ConvexOn ℝ Set.univ (fun tau => cutKernel hbar d tau a b x) := by
    intro x
    unfold cutKernel
    split_ifs
    · have h1 : ConvexOn ℝ Set.univ (fun tau : ℝ => exp (-tau * x)) := by
        have := convexOn_exp.comp_linearMap (LinearMap.mul ℝ ℝ (-x))
        simp only [Set.preimage_univ] at this
        refine this.congr fun t _ => ?_
        simp only [Function.comp, LinearMap.mul_apply']
        congr 1
        ring
      have h2 := h1.smul (div_nonneg (value_nonneg h hd hI x) hh.le)
      refine h2.congr fun t _ => ?_
      simp only [smul_eq_mul]
      ring
    · exact convexOn_const 0 convex_univ
  simp only [laplace_eq]
  have key : ∀ s : Finset ℕ, (∀ i ∈ s, i < (nodes d a b).length - 1) → ConvexOn ℝ Set.univ (fun tau => ∑ i ∈ s,
      (Interp.arr (nodes d a b) (i + 1) - Interp.arr (nodes d a b) i) *
        (cutKernel hbar d tau a b (Interp.arr (nodes d a b) (i + 1)) + cutKernel hbar d tau a b (Interp.arr (nodes d a b) i)) / 2) := by
    intro s
    induction s using Finset.induction_on with
    | empty => intro _; simpa using convexOn_const (0 : ℝ) (convex_univ)
    | insert i s hi ih =>
      intro hs
      simp only [Finset.sum_insert hi]
      refine ConvexOn.add ?_ (ih fun j hj => hs j (Finset.mem_insert_of_mem hj))
      have hg := gap_nonneg d a b (hs i (Finset.mem_insert_self _ _))
      have := ((hk (Interp.arr (nodes d a b) (i + 1))).add (hk (Interp.arr (nodes d a b) i))).smul
        (div_nonneg hg (by norm_num : (0 : ℝ) ≤ 2))
      refine this.congr fun t _ => ?_
      simp only [smul_eq_mul, Pi.add_apply]
      ring
  exact key _ fun i hi => Finset.mem_range.1 hi

/-! ### Symmetry -/

theorem nodes_symm {d : List (ℝ × ℝ)} {beta : ℝ} (h : DetailedBalance beta d) (c : ℝ) {i : ℕ} (hi : i < (nodes d (-c) c).length) :
    Interp.arr (nodes d (-c) c) ((nodes d (-c) c).length - 1 - i) = -Interp.arr (nodes d (-c) c) i := by
  have hE : ((energies d).map (fun x => -x)).Perm (energies d) := by
    rw [List.perm_ext_iff_of_nodup (h.distinct.map neg_injective) h.distinct]
    intro x
    simp only [energies, List.mem_map, Prod.exists, exists_and_right, exists_eq_right]
    constructor
    · rintro ⟨y, ⟨I, hI⟩, rfl⟩
      exact ⟨_, h.balance _ _ hI⟩
    · rintro ⟨I, hI⟩
      exact ⟨-x, ⟨_, h.balance _ _ hI⟩, neg_neg x⟩
  have hp : ((nodes d (-c) c).map (fun x => -x)).reverse.Perm (nodes d (-c) c) := by
    refine (List.reverse_perm _).trans ?_
    refine ((nodes_perm d (-c) c).map _).trans (List.Perm.trans ?_ (nodes_perm d (-c) c).symm)
    rw [List.map_append]
    refine hE.append ?_
    simp only [List.map_cons, List.map_nil]
    have e1 : -(-c - small) = c + small := by ring
    have e2 : -(-c + small) = c - small := by ring
    have e3 : -(c + small) = -c - small := by ring
    have e4 : -(c - small) = -c + small := by ring
    rw [e1, e2, e3, e4]
    exact List.perm_append_comm (l₁ := [c + small, c - small]) (l₂ := [-c - small, -c + small])
  have hs : ((nodes d (-c) c).map (fun x => -x)).reverse.Pairwise (· ≤ ·) := by
    rw [List.pairwise_reverse, List.pairwise_map]
    exact (nodes_sorted d (-c) c).imp fun h => neg_le_neg h
  have he : ((nodes d (-c) c).map (fun x => -x)).reverse = nodes d (-c) c :=
    List.Perm.eq_of_pairwise (fun a b _ _ h1 h2 => le_antisymm h1 h2) hs (nodes_sorted d (-c) c) hp
  have hj : (nodes d (-c) c).length - 1 - i < (nodes d (-c) c).length := by omega
  rw [arr_eq _ hj, arr_eq _ hi]
  have h1 : (nodes d (-c) c)[(nodes d (-c) c).length - 1 - i] =
      (((nodes d (-c) c).map (fun x => -x)).reverse)[(nodes d (-c) c).length - 1 - i]'(by simpa using hj) := by
    simp only [he]
  rw [h1, List.getElem_reverse, List.getElem_map]
  congr 2
  simp only [List.length_map]
  omega

/-- How much the interpolated spectrum violates detailed balance at an energy. -/
noncomputable def violation (hbar : ℝ) (d : List (ℝ × ℝ)) (beta tau c x : ℝ) : ℝ :=
  cutKernel hbar d tau (-c) c (-x) - cutKernel hbar d (beta - tau) (-c) c x

theorem laplace_diff {d : List (ℝ × ℝ)} {beta : ℝ} (h : DetailedBalance beta d) (hbar tau c : ℝ) :
    laplace hbar d tau (-c) c - laplace hbar d (beta - tau) (-c) c = ∑ i ∈ Finset.range ((nodes d (-c) c).length - 1),
      (Interp.arr (nodes d (-c) c) (i + 1) - Interp.arr (nodes d (-c) c) i) *
        (violation hbar d beta tau c (Interp.arr (nodes d (-c) c) (i + 1)) + violation hbar d beta tau c (Interp.arr (nodes d (-c) c) i)) / 2 := by
  rw [laplace_eq hbar d tau, laplace_eq hbar d (beta - tau), ← Finset.sum_range_reflect, ← Finset.sum_sub_distrib]
  refine Finset.sum_congr rfl fun i hi => ?_
  have hi' := Finset.mem_range.1 hi
  have e1 := nodes_symm h c (i := i) (by omega)
  have e2 := nodes_symm h c (i := i + 1) (by omega)
  have n1 : (nodes d (-c) c).length - 1 - 1 - i + 1 = (nodes d (-c) c).length - 1 - i := by omega
  have n2 : (nodes d (-c) c).length - 1 - 1 - i = (nodes d (-c) c).length - 1 - (i + 1) := by omega
  rw [n1, n2, e1, e2]
  unfold violation
  ring

theorem violation_data {d : List (ℝ × ℝ)} {beta : ℝ} (h : DetailedBalance beta d) (hbar tau c : ℝ) {E I : ℝ} (hm : (E, I) ∈ d) :
    violation hbar d beta tau c E = 0 := by
  unfold violation cutKernel
  have h1 : value d E = I := value_data h.distinct hm
  have h2 : value d (-E) = exp (-beta * E) * I := value_data h.distinct (h.balance _ _ hm)
  by_cases hc : -c ≤ E ∧ E ≤ c
  · rw [if_pos hc, if_pos ⟨by linarith [hc.2], by linarith [hc.1]⟩, h1, h2, sub_eq_zero]
    have e : exp (-beta * E) * I * exp (-tau * -E) = I * (exp (-beta * E) * exp (-tau * -E)) := by ring
    rw [e, ← exp_add]
    congr 3
    ring
  · rw [if_neg hc, if_neg (fun h => hc ⟨by linarith [h.2], by linarith [h.1]⟩), sub_zero]

theorem small_pos : 0 < small := by unfold small; norm_num

theorem violation_outer {d : List (ℝ × ℝ)} (hbar beta tau c : ℝ) {x : ℝ} (hx : x = c + small ∨ x = -c - small) :
    violation hbar d beta tau c x = 0 := by
  have := small_pos
  unfold violation cutKernel
  rcases hx with rfl | rfl
  · rw [if_neg (by intro h; linarith [h.1]), if_neg (by intro h; linarith [h.2]), sub_zero]
  · rw [if_neg (by intro h; linarith [h.2]), if_neg (by intro h; linarith [h.1]), sub_zero]

/-- C27: the transform is symmetric about half the inverse temperature, up to the violation of detailed
balance by the interpolated intensities at the two inner ones of the energies which the code inserts. -/
theorem laplace_near_symmetric {d : List (ℝ × ℝ)} {beta : ℝ} (h : DetailedBalance beta d) (hbar tau c : ℝ) {ε : ℝ}
    (h1 : |violation hbar d beta tau c (c - small)| ≤ ε) (h2 : |violation hbar d beta tau c (-c + small)| ≤ ε) :
    |laplace hbar d tau (-c) c - laplace hbar d (beta - tau) (-c) c| ≤
      ε * ∑ i ∈ Finset.range ((nodes d (-c) c).length - 1), (Interp.arr (nodes d (-c) c) (i + 1) - Interp.arr (nodes d (-c) c) i) := by
  have hε : 0 ≤ ε := (abs_nonneg _).trans h1
  have key : ∀ x ∈ nodes d (-c) c, |violation hbar d beta tau c x| ≤ ε := by
    intro x hx
    have := (nodes_perm d (-c) c).mem_iff.1 hx
    rw [List.mem_append] at this
    rcases this with hm | hm
    · obtain ⟨⟨E, I⟩, hd, rfl⟩ := List.mem_map.1 hm
      rw [violation_data h hbar tau c hd, abs_zero]
      exact hε
    · simp only [List.mem_cons, List.not_mem_nil, or_false] at hm
      rcases hm with rfl | rfl | rfl | rfl
      · rw [violation_outer hbar beta tau c (Or.inr rfl), abs_zero]; exact hε
      · exact h2
      · rw [violation_outer hbar beta tau c (Or.inl rfl), abs_zero]; exact hε
      · exact h1
  rw [laplace_diff h, Finset.mul_sum]
  refine (Finset.abs_sum_le_sum_abs _ _).trans (Finset.sum_le_sum fun i hi => ?_)
  have hi' := Finset.mem_range.1 hi
  have hg := gap_nonneg d (-c) c hi'
  have k1 := key (Interp.arr (nodes d (-c) c) (i + 1)) (by rw [arr_eq _ (by omega)]; exact List.getElem_mem _)
  have k2 := key (Interp.arr (nodes d (-c) c) i) (by rw [arr_eq _ (by omega)]; exact List.getElem_mem _)
  rw [abs_div, abs_mul, abs_of_nonneg hg, abs_of_pos (by norm_num : (0 : ℝ) < 2)]
  have k3 := abs_add_le (violation hbar d beta tau c (Interp.arr (nodes d (-c) c) (i + 1)))
    (violation hbar d beta tau c (Interp.arr (nodes d (-c) c) i))
  have k4 : |violation hbar d beta tau c (Interp.arr (nodes d (-c) c) (i + 1)) +
      violation hbar d beta tau c (Interp.arr (nodes d (-c) c) i)| ≤ 2 * ε := by linarith
  have := mul_le_mul_of_nonneg_left k4 hg
  linarith

/-- The interpolated spectrum vanishes next to the cut. -/
def VanishesAtCut (d : List (ℝ × ℝ)) (c : ℝ) : Prop := value d (c - small) = 0 ∧ value d (-c + small) = 0

theorem violation_zero {d : List (ℝ × ℝ)} {beta : ℝ} (h : DetailedBalance beta d) (hbar tau : ℝ) {c : ℝ} (hv : VanishesAtCut d c)
    {x : ℝ} (hx : x ∈ nodes d (-c) c) : violation hbar d beta tau c x = 0 := by
  have e1 : violation hbar d beta tau c (c - small) = 0 := by
    unfold violation cutKernel
    rw [show -(c - small) = -c + small by ring, hv.1, hv.2]
    simp
  have e2 : violation hbar d beta tau c (-c + small) = 0 := by
    unfold violation cutKernel
    rw [show -(-c + small) = c - small by ring, hv.1, hv.2]
    simp
  have := (nodes_perm d (-c) c).mem_iff.1 hx
  rw [List.mem_append] at this
  rcases this with hm | hm
  · obtain ⟨⟨E, I⟩, hd, rfl⟩ := List.mem_map.1 hm
    exact violation_data h hbar tau c hd
  · simp only [List.mem_cons, List.not_mem_nil, or_false] at hm
    rcases hm with rfl | rfl | rfl | rfl
    · exact violation_outer hbar beta tau c (Or.inr rfl)
    · exact e2
    · exact violation_outer hbar beta tau c (Or.inl rfl)
    · exact e1

/-- C27: if the spectrum vanishes next to the cut, the symmetry is exact.
(Partial: for spectra that vanish next to the cut; otherwise see `laplace_near_symmetric`.) -/
theorem laplace_symmetric_partial {d : List (ℝ × ℝ)} {beta : ℝ} (h : DetailedBalance beta d) (hbar tau : ℝ) {c : ℝ} (hv : VanishesAtCut d c) :
    laplace hbar d tau (-c) c = laplace hbar d (beta - tau) (-c) c := by
  rw [← sub_eq_zero, laplace_diff h]
  refine Finset.sum_eq_zero fun i hi => ?_
  have hi' := Finset.mem_range.1 hi
  rw [violation_zero h hbar tau hv (by rw [arr_eq _ (by omega)]; exact List.getElem_mem _),
    violation_zero h hbar tau hv (by rw [arr_eq _ (by omega)]; exact List.getElem_mem _)]
  ring

/-! ### The minimum -/

theorem exp_mean (beta tau x : ℝ) :
    exp (-(beta / 2) * x) ≤ (exp (-tau * x) + exp (-(beta - tau) * x)) / 2 ∧
      (x ≠ 0 → tau ≠ beta / 2 → exp (-(beta / 2) * x) < (exp (-tau * x) + exp (-(beta - tau) * x)) / 2) := by
  have e0 : exp (-(beta / 2) * x) = exp (-tau * x / 2) * exp (-(beta - tau) * x / 2) := by
    rw [← exp_add]; congr 1; ring
  have e1 : exp (-tau * x) = exp (-tau * x / 2) ^ 2 := by rw [← exp_nat_mul]; congr 1; push_cast; ring
  have e2 : exp (-(beta - tau) * x) = exp (-(beta - tau) * x / 2) ^ 2 := by rw [← exp_nat_mul]; congr 1; push_cast; ring
  rw [e0, e1, e2]
  constructor
  · nlinarith [sq_nonneg (exp (-tau * x / 2) - exp (-(beta - tau) * x / 2))]
  · intro hx ht
    have hne : exp (-tau * x / 2) - exp (-(beta - tau) * x / 2) ≠ 0 := by
      rw [sub_ne_zero]
      intro h
      have := exp_injective h
      have h3 : (beta - 2 * tau) * x = 0 := by linarith
      rcases mul_eq_zero.1 h3 with h4 | h4
      · exact ht (by linarith)
      · exact hx h4
    nlinarith [pow_pos (abs_pos.2 hne) 2, sq_abs (exp (-tau * x / 2) - exp (-(beta - tau) * x / 2))]

theorem cutKernel_mean {hbar : ℝ} (hh : 0 < hbar) {d : List (ℝ × ℝ)} (h : (energies d).Nodup) (hd : d ≠ [])
    (hI : ∀ E I, (E, I) ∈ d → 0 ≤ I) (beta tau c x : ℝ) :
    cutKernel hbar d (beta / 2) (-c) c x ≤ (cutKernel hbar d tau (-c) c x + cutKernel hbar d (beta - tau) (-c) c x) / 2 ∧
      (x ≠ 0 → tau ≠ beta / 2 → 0 < value d x → -c ≤ x → x ≤ c →
        cutKernel hbar d (beta / 2) (-c) c x < (cutKernel hbar d tau (-c) c x + cutKernel hbar d (beta - tau) (-c) c x) / 2) := by
  unfold cutKernel
  constructor
  · split_ifs
    · have := mul_le_mul_of_nonneg_left (exp_mean beta tau x).1 (div_nonneg (value_nonneg h hd hI x) hh.le)
      have e : value d x / hbar * exp (-(beta / 2) * x) = value d x * exp (-(beta / 2) * x) / hbar := by ring
      have e2 : value d x / hbar * ((exp (-tau * x) + exp (-(beta - tau) * x)) / 2) =
        (value d x * exp (-tau * x) / hbar + value d x * exp (-(beta - tau) * x) / hbar) / 2 := by ring
      rw [e, e2] at this
      exact this
    · simp
  · intro hx ht hv h1 h2
    rw [if_pos ⟨h1, h2⟩, if_pos ⟨h1, h2⟩, if_pos ⟨h1, h2⟩]
    have := mul_lt_mul_of_pos_left ((exp_mean beta tau x).2 hx ht) (div_pos hv hh)
    have e : value d x / hbar * exp (-(beta / 2) * x) = value d x * exp (-(beta / 2) * x) / hbar := by ring
    have e2 : value d x / hbar * ((exp (-tau * x) + exp (-(beta - tau) * x)) / 2) =
      (value d x * exp (-tau * x) / hbar + value d x * exp (-(beta - tau) * x) / hbar) / 2 := by ring
    rw [e, e2] at this
    exact this

/-- C27: the minimum of the transform is at half the inverse temperature, and nowhere else. -/
theorem laplace_minimum {hbar : ℝ} (hh : 0 < hbar) {d : List (ℝ × ℝ)} {beta : ℝ} (h : DetailedBalance beta d)
    (hI : ∀ E I, (E, I) ∈ d → 0 ≤ I) {c : ℝ} (hv : VanishesAtCut d c)
    {E0 I0 : ℝ} (h0 : (E0, I0) ∈ d) (hE0 : E0 ≠ 0) (hI0 : 0 < I0) (hc1 : -c ≤ E0) (hc2 : E0 ≤ c) {tau : ℝ} (ht : tau ≠ beta / 2) :
    laplace hbar d (beta / 2) (-c) c < laplace hbar d tau (-c) c := by
  have hd : d ≠ [] := List.ne_nil_of_mem h0
  have hmean : laplace hbar d tau (-c) c = (laplace hbar d tau (-c) c + laplace hbar d (beta - tau) (-c) c) / 2 := by
    rw [← laplace_symmetric_partial h hbar tau hv]; ring
  rw [hmean, laplace_eq hbar d (beta / 2), laplace_eq hbar d tau, laplace_eq hbar d (beta - tau), ← Finset.sum_add_distrib, Finset.sum_div]
  have hm0 : E0 ∈ nodes d (-c) c := (nodes_perm d (-c) c).mem_iff.2 (List.mem_append_left _ (List.mem_map_of_mem h0))
  have hlow : -c - small ∈ nodes d (-c) c := (nodes_perm d (-c) c).mem_iff.2 (List.mem_append_right _ (by simp))
  -- the first position of the energy
  obtain ⟨i, hi, hiE, hgap⟩ : ∃ i, i + 1 < (nodes d (-c) c).length ∧ Interp.arr (nodes d (-c) c) (i + 1) = E0 ∧
      0 < Interp.arr (nodes d (-c) c) (i + 1) - Interp.arr (nodes d (-c) c) i := by
    classical
    obtain ⟨j, hj, hje⟩ := List.getElem_of_mem hm0
    have hex : ∃ j, ∃ hj : j < (nodes d (-c) c).length, (nodes d (-c) c)[j] = E0 := ⟨j, hj, hje⟩
    obtain ⟨hk, hke⟩ := Nat.find_spec hex
    have hmin := fun k => Nat.find_min hex (m := k)
    generalize Nat.find hex = k at hk hke hmin
    have hsorted := List.pairwise_iff_getElem.1 (nodes_sorted d (-c) c)
    cases k with
    | zero =>
      exfalso
      obtain ⟨l, hl, hle⟩ := List.getElem_of_mem hlow
      have hs := small_pos
      rcases Nat.eq_zero_or_pos l with rfl | hpos
      · rw [hke] at hle; linarith
      · have := hsorted 0 l hk hl hpos
        rw [hke, hle] at this
        linarith
    | succ k =>
      refine ⟨k, hk, by rw [arr_eq _ hk, hke], ?_⟩
      rw [arr_eq _ hk, arr_eq _ (by omega), sub_pos]
      refine lt_of_le_of_ne (hsorted k (k + 1) (by omega) hk (by omega)) fun he => ?_
      exact hmin k (by omega) ⟨by omega, by rw [he, hke]⟩
  refine Finset.sum_lt_sum (fun j hj => ?_) ⟨i, Finset.mem_range.2 (by omega), ?_⟩
  · have hg := gap_nonneg d (-c) c (Finset.mem_range.1 hj)
    have k1 := (cutKernel_mean hh h.distinct hd hI beta tau c (Interp.arr (nodes d (-c) c) (j + 1))).1
    have k2 := (cutKernel_mean hh h.distinct hd hI beta tau c (Interp.arr (nodes d (-c) c) j)).1
    have := mul_le_mul_of_nonneg_left (add_le_add k1 k2) hg
    linarith
  · have k1 := (cutKernel_mean hh h.distinct hd hI beta tau c (Interp.arr (nodes d (-c) c) (i + 1))).2 (by rw [hiE]; exact hE0) ht
      (by rw [hiE, value_data h.distinct h0]; exact hI0) (by rw [hiE]; exact hc1) (by rw [hiE]; exact hc2)
    have k2 := (cutKernel_mean hh h.distinct hd hI beta tau c (Interp.arr (nodes d (-c) c) i)).1
    have := mul_lt_mul_of_pos_left (add_lt_add_of_lt_of_le k1 k2) hgap
    linarith

/-! ### The temperature -/

theorem argmin_unique {l : List ℝ} {i : ℕ} (hi : i < l.length) (h : ∀ j (hj : j < l.length), j ≠ i → l[i] < l[j]) : argmin l = i := by
  classical
  have hmin : ∀ y ∈ l, l[i] ≤ y := by
    intro y hy
    obtain ⟨j, hj, rfl⟩ := List.getElem_of_mem hy
    by_cases he : j = i
    · subst he; exact le_rfl
    · exact (h j hj he).le
  unfold argmin
  rw [List.findIdx_eq hi]
  refine ⟨by simpa using hmin, fun j hj => ?_⟩
  have := h j (by omega) (by omega)
  simp only [decide_eq_false_iff_not]
  intro hall
  exact absurd (hall _ (List.getElem_mem hi)) (not_le.2 this)

/-- C27: on a grid of imaginary times without repetitions, which contains half the inverse temperature, the
temperature of a spectrum is found exactly.  The spectrum was measured with an instrument whose transform is the factor
`Li`: the transform of the measured spectrum is the product (the theorem of convolution). -/
theorem gridT_exact {hbar kB : ℝ} (hh : 0 < hbar) {d m inst : List (ℝ × ℝ)} {beta c : ℝ} (h : DetailedBalance beta d)
    (hI : ∀ E I, (E, I) ∈ d → 0 ≤ I) (hv : VanishesAtCut d c)
    {E0 I0 : ℝ} (h0 : (E0, I0) ∈ d) (hE0 : E0 ≠ 0) (hI0 : 0 < I0) (hc1 : -c ≤ E0) (hc2 : E0 ≤ c)
    {tau : List ℝ} (hn : tau.Nodup) (ht : beta / 2 ∈ tau)
    (hm : ∀ t ∈ tau, laplace hbar m t (-c) c = laplace hbar d t (-c) c * laplace hbar inst t (-c) c)
    (hi : ∀ t ∈ tau, laplace hbar inst t (-c) c ≠ 0) :
    gridT hbar kB m inst tau c = 1 / (beta * kB) := by
  obtain ⟨i, hil, hie⟩ := List.getElem_of_mem ht
  have hmap : (tau.map fun t => laplace hbar m t (-c) c / laplace hbar inst t (-c) c) = tau.map fun t => laplace hbar d t (-c) c := by
    refine List.map_congr_left fun t ht => ?_
    rw [hm t ht, mul_div_assoc, div_self (hi t ht), mul_one]
  have ha : argmin (tau.map fun t => laplace hbar d t (-c) c) = i := by
    refine argmin_unique (by simpa using hil) fun j hj hne => ?_
    rw [List.getElem_map, List.getElem_map, hie]
    have hj' : j < tau.length := by simpa using hj
    refine laplace_minimum hh h hI hv h0 hE0 hI0 hc1 hc2 fun he => hne ?_
    exact (List.Nodup.getElem_inj_iff hn).1 (he.trans hie.symm)
  unfold gridT
  simp only [hmap, ha]
  rw [List.getD_eq_getElem _ _ hil, hie]
  congr 1
  ring

/-! ### Moments -/

/-- C27: `ITCF_ssf` without deconvolution is the integral of the spectrum. -/
theorem ssf_raw (o : ITCF) (hraw : o.raw = true) (hbar : ℝ) :
    ssf o hbar = laplace hbar o.S 0 (-o.Ecut) o.Ecut := by
  unfold ssf ITCF.F
  simp [hraw]

open Classical in
/-- The integrand of a moment of a spectrum. -/
noncomputable def momentKernel (hbar : ℝ) (d : List (ℝ × ℝ)) (a b x : ℝ) : ℝ :=
  if a ≤ x ∧ x ≤ b then x * value d x / hbar else 0

/-- The first moment of a spectrum, with the rule of the trapezoid on its nodes. -/
noncomputable def firstMoment (hbar : ℝ) (d : List (ℝ × ℝ)) (a b : ℝ) : ℝ :=
  ∑ i ∈ Finset.range ((nodes d a b).length - 1), (Interp.arr (nodes d a b) (i + 1) - Interp.arr (nodes d a b) i) *
    (momentKernel hbar d a b (Interp.arr (nodes d a b) (i + 1)) + momentKernel hbar d a b (Interp.arr (nodes d a b) i)) / 2

theorem laplace_deriv_zero (hbar : ℝ) (d : List (ℝ × ℝ)) (a b : ℝ) :
    HasDerivAt (fun tau => laplace hbar d tau a b) (-firstMoment hbar d a b) 0 := by
  have hk : ∀ x, HasDerivAt (fun tau => cutKernel hbar d tau a b x) (-momentKernel hbar d a b x) 0 := by
    intro x
    unfold cutKernel momentKernel
    split_ifs
    · have h1 : HasDerivAt (fun tau : ℝ => -tau * x) (-1 * x) 0 := (hasDerivAt_neg 0).mul_const x
      have h2 := ((h1.exp.const_mul (value d x)).div_const hbar)
      refine h2.congr_deriv ?_
      simp only [neg_zero, zero_mul, exp_zero]
      ring
    · simpa using hasDerivAt_const (0 : ℝ) (0 : ℝ)
  simp only [laplace_eq]
  unfold firstMoment
  rw [← Finset.sum_neg_distrib]
  refine HasDerivAt.fun_sum fun i _ => ?_
  have := (((hk (Interp.arr (nodes d a b) (i + 1))).fun_add (hk (Interp.arr (nodes d a b) i))).const_mul
    (Interp.arr (nodes d a b) (i + 1) - Interp.arr (nodes d a b) i)).div_const 2
  refine this.congr_deriv ?_
  ring

/-- C27: `ITCF_fsum` without deconvolution is the negative first moment of the spectrum. -/
theorem fsum_raw (o : ITCF) (hraw : o.raw = true) (hbar : ℝ) :
    fsum o hbar = -firstMoment hbar o.S (-o.Ecut) o.Ecut := by
  unfold fsum ITCF.F
  simp only [hraw, if_true]
  exact (laplace_deriv_zero hbar o.S (-o.Ecut) o.Ecut).deriv

/-- C27: with deconvolution, for a measured spectrum whose transform is the product, the instrument drops
out of the static structure factor, and of the sum rule. -/
theorem deconvolved {hbar : ℝ} (o : ITCF) (hraw : o.raw = false) (d : List (ℝ × ℝ))
    (hm : ∀ t, laplace hbar o.S t (-o.Ecut) o.Ecut = laplace hbar d t (-o.Ecut) o.Ecut * laplace hbar o.instrument t (-o.Ecut) o.Ecut)
    (hi : ∀ t, laplace hbar o.instrument t (-o.Ecut) o.Ecut ≠ 0) :
    ssf o hbar = laplace hbar d 0 (-o.Ecut) o.Ecut ∧ fsum o hbar = -firstMoment hbar d (-o.Ecut) o.Ecut := by
  have hF : ∀ t, o.F hbar t = laplace hbar d t (-o.Ecut) o.Ecut := by
    intro t
    unfold ITCF.F
    simp only [hraw, Bool.false_eq_true, if_false]
    rw [hm t, mul_div_assoc, div_self (hi t), mul_one]
  refine ⟨hF 0, ?_⟩
  unfold fsum
  simp only [hF]
  exact (laplace_deriv_zero hbar d (-o.Ecut) o.Ecut).deriv

/-- C27, a spectrum of one line in the instrument: the deconvolution returns one, at every time. -/
theorem instrument_itself {hbar : ℝ} (o : ITCF) (hraw : o.raw = false) (hS : o.S = o.instrument) (t : ℝ)
    (hi : laplace hbar o.instrument t (-o.Ecut) o.Ecut ≠ 0) : o.F hbar t = 1 := by
  unfold ITCF.F
  simp only [hraw, hS, Bool.false_eq_true, if_false]
  exact div_self hi

end Verif.Itcf
