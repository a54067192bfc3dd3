/-
Property C27, spectra on a uniform grid: the transform is a sum of exponentials, the transform of the
convolution with the instrument is the product of the transforms, and the whole chain from the spectrum to
the temperature is exact.
-/
import Verif.Props.Itcf
import Mathlib.Algebra.Order.Group.Int
import Mathlib.Order.Interval.Finset.Basic
import Mathlib.Data.Int.Interval
import Mathlib.Tactic.Ring

set_option autoImplicit false

namespace Verif.Itcf

open Real

/-- A spectrum on the energies `-N h, ..., N h`. -/
noncomputable def gridData (h : ℝ) (N : ℕ) (f : ℤ → ℝ) : List (ℝ × ℝ) :=
  (List.range (2 * N + 1)).map fun i : ℕ => ((((i : ℤ) - N : ℤ) : ℝ) * h, f ((i : ℤ) - N))

theorem gridData_length (h : ℝ) (N : ℕ) (f : ℤ → ℝ) : (gridData h N f).length = 2 * N + 1 := by
  simp [gridData]

theorem gridData_getElem (h : ℝ) (N : ℕ) (f : ℤ → ℝ) {i : ℕ} (hi : i < (gridData h N f).length) :
    (gridData h N f)[i] = ((((i : ℤ) - N : ℤ) : ℝ) * h, f ((i : ℤ) - N)) := by
  simp [gridData]

theorem mem_gridData {h : ℝ} {N : ℕ} {f : ℤ → ℝ} {p : ℝ × ℝ} :
    p ∈ gridData h N f ↔ ∃ k : ℤ, -(N : ℤ) ≤ k ∧ k ≤ N ∧ p = ((k : ℝ) * h, f k) := by
  constructor
  · intro hp
    obtain ⟨i, hi, rfl⟩ := List.getElem_of_mem hp
    rw [gridData_getElem]
    rw [gridData_length] at hi
    exact ⟨(i : ℤ) - N, by omega, by omega, rfl⟩
  · rintro ⟨k, h1, h2, rfl⟩
    refine List.mem_map.2 ⟨(k + N).toNat, List.mem_range.2 (by omega), ?_⟩
    have : (((k + N).toNat : ℕ) : ℤ) - N = k := by omega
    rw [this]

theorem gridData_strict {h : ℝ} (hh : 0 < h) (N : ℕ) (f : ℤ → ℝ) : (gridData h N f).Pairwise (fun a b => a.1 < b.1) := by
  rw [List.pairwise_iff_getElem]
  intro i j hi hj hij
  rw [gridData_getElem, gridData_getElem]
  refine mul_lt_mul_of_pos_right ?_ hh
  exact_mod_cast (by omega : (i : ℤ) - N < (j : ℤ) - N)

theorem gridData_nodup {h : ℝ} (hh : 0 < h) (N : ℕ) (f : ℤ → ℝ) : (energies (gridData h N f)).Nodup := by
  unfold energies List.Nodup
  rw [List.pairwise_map]
  exact (gridData_strict hh N f).imp fun h => ne_of_lt h

theorem sortedPairs_gridData {h : ℝ} (hh : 0 < h) (N : ℕ) (f : ℤ → ℝ) : sortedPairs (gridData h N f) = gridData h N f := by
  refine List.Perm.eq_of_pairwise (le := fun a b => a.1 < b.1) ?_ (sortedPairs_strict (gridData_nodup hh N f)) (gridData_strict hh N f)
    (sortedPairs_perm _)
  intro a b _ _ h1 h2
  exact absurd h1 (not_lt.2 h2.le)

theorem gridData_bounds {h : ℝ} (hh : 0 < h) {N : ℕ} {f : ℤ → ℝ} {x : ℝ} (hx : x ∈ energies (gridData h N f)) :
    -(N * h) ≤ x ∧ x ≤ N * h := by
  obtain ⟨p, hp, rfl⟩ := List.mem_map.1 hx
  obtain ⟨k, h1, h2, rfl⟩ := mem_gridData.1 hp
  have h1' : -(N : ℝ) ≤ k := by exact_mod_cast h1
  have h2' : (k : ℝ) ≤ N := by exact_mod_cast h2
  constructor
  · have := mul_le_mul_of_nonneg_right h1' hh.le
    linarith
  · exact mul_le_mul_of_nonneg_right h2' hh.le

theorem nodes_gridData {h : ℝ} (hh : 0 < h) (N : ℕ) (f : ℤ → ℝ) {c : ℝ} (hc : N * h + small ≤ c) :
    nodes (gridData h N f) (-c) c =
      (-c - small) :: (-c + small) :: (energies (gridData h N f) ++ [c - small, c + small]) := by
  have hs := small_pos
  have hN : (0 : ℝ) ≤ N * h := by positivity
  refine List.Perm.eq_of_pairwise (fun a b _ _ h1 h2 => le_antisymm h1 h2) (nodes_sorted _ _ _) ?_ ?_
  · rw [List.pairwise_cons, List.pairwise_cons, List.pairwise_append]
    refine ⟨?_, ?_, ?_, ?_, ?_⟩
    · intro x hx
      simp only [List.mem_cons, List.mem_append, List.not_mem_nil, or_false] at hx
      rcases hx with rfl | hx | rfl | rfl
      · linarith
      · linarith [(gridData_bounds hh hx).1]
      · linarith
      · linarith
    · intro x hx
      simp only [List.mem_cons, List.mem_append, List.not_mem_nil, or_false] at hx
      rcases hx with hx | rfl | rfl
      · linarith [(gridData_bounds hh hx).1]
      · linarith
      · linarith
    · unfold energies
      rw [List.pairwise_map]
      exact (gridData_strict hh N f).imp fun h => le_of_lt h
    · simp only [List.pairwise_cons, List.mem_cons, List.not_mem_nil, or_false, forall_eq, List.Pairwise.nil, and_true, IsEmpty.forall_iff,
        implies_true]
      linarith
    · intro x hx y hy
      simp only [List.mem_cons, List.not_mem_nil, or_false] at hy
      rcases hy with rfl | rfl
      · linarith [(gridData_bounds hh hx).2]
      · linarith [(gridData_bounds hh hx).2]
  · refine (nodes_perm _ _ _).trans ?_
    have e1 : energies (gridData h N f) ++ [-c - small, -c + small, c + small, c - small] =
        energies (gridData h N f) ++ ([-c - small, -c + small] ++ [c + small, c - small]) := rfl
    have e2 : (-c - small) :: (-c + small) :: (energies (gridData h N f) ++ [c - small, c + small]) =
        ([-c - small, -c + small] ++ energies (gridData h N f)) ++ [c - small, c + small] := rfl
    rw [e1, e2, ← List.append_assoc]
    exact (List.perm_append_comm).append (List.Perm.swap _ _ _)

theorem value_gridData {h : ℝ} (hh : 0 < h) {N : ℕ} {f : ℤ → ℝ} {k : ℤ} (h1 : -(N : ℤ) ≤ k) (h2 : k ≤ N) :
    value (gridData h N f) (k * h) = f k :=
  value_data (gridData_nodup hh N f) (mem_gridData.2 ⟨k, h1, h2, rfl⟩)

/-- A spectrum is continued with its last values. -/
theorem value_gridData_outside {h : ℝ} (hh : 0 < h) {N : ℕ} {f : ℤ → ℝ} (x : ℝ) :
    (x ≤ -(N * h) → value (gridData h N f) x = f (-N)) ∧ (N * h ≤ x → value (gridData h N f) x = f N) := by
  have hinc := increasing_of_nodup (gridData_nodup hh N f)
  have hlen : ((sortedPairs (gridData h N f)).map Prod.fst).length = 2 * N + 1 := by
    rw [List.length_map, (sortedPairs_perm _).length_eq, gridData_length]
  have := Interp.interp_outside _ _ (Interp.arr ((sortedPairs (gridData h N f)).map Prod.snd)) hinc (by omega) x
  rw [hlen] at this
  rw [sortedPairs_gridData hh] at this
  rw [arr_map _ _ (by rw [gridData_length]; omega), arr_map _ _ (by rw [gridData_length]; omega), arr_map _ _ (by rw [gridData_length]; omega),
    arr_map _ _ (by rw [gridData_length]; omega)] at this
  rw [gridData_getElem, gridData_getElem] at this
  have e0 : ((0 : ℕ) : ℤ) - N = -N := by omega
  have eN : ((2 * N + 1 - 1 : ℕ) : ℤ) - N = N := by omega
  rw [e0, eN] at this
  simp only [Int.cast_neg, Int.cast_natCast] at this
  have hv : value (gridData h N f) x = Interp.interp (2 * N + 1) (Interp.arr ((gridData h N f).map Prod.fst))
      (Interp.arr ((gridData h N f).map Prod.snd)) x := by
    unfold value Interp.interpL
    rw [sortedPairs_gridData hh, List.length_map, gridData_length]
  rw [hv]
  exact ⟨fun hx => this.1 (by linarith), fun hx => this.2 hx⟩

theorem arr_cons_succ (a : ℝ) (l : List ℝ) (i : ℕ) : Interp.arr (a :: l) (i + 1) = Interp.arr l i := by
  simp [Interp.arr]

theorem arr_append_left (l r : List ℝ) {i : ℕ} (hi : i < l.length) : Interp.arr (l ++ r) i = Interp.arr l i := by
  unfold Interp.arr
  rw [List.getD_append _ _ _ _ hi]

theorem arr_append_right (l r : List ℝ) (i : ℕ) : Interp.arr (l ++ r) (l.length + i) = Interp.arr r i := by
  unfold Interp.arr
  rw [List.getD_append_right _ _ _ _ (by omega)]
  congr 1
  omega

theorem arr_energies {h : ℝ} {N : ℕ} {f : ℤ → ℝ} {i : ℕ} (hi : i < 2 * N + 1) :
    Interp.arr (energies (gridData h N f)) i = (((i : ℤ) - N : ℤ) : ℝ) * h := by
  unfold energies
  rw [arr_map _ _ (by rw [gridData_length]; exact hi), gridData_getElem]

theorem sum_grid (N : ℕ) (G : ℤ → ℝ) :
    ∑ i ∈ Finset.range (2 * N + 1), G ((i : ℤ) - N) = ∑ k ∈ Finset.Icc (-(N : ℤ)) N, G k := by
  refine Finset.sum_nbij' (fun i : ℕ => (i : ℤ) - N) (fun k : ℤ => (k + N).toNat) ?_ ?_ ?_ ?_ ?_
  · intro i hi
    have := Finset.mem_range.1 hi
    exact Finset.mem_Icc.2 ⟨by omega, by omega⟩
  · intro k hk
    have := Finset.mem_Icc.1 hk
    exact Finset.mem_range.2 (by omega)
  · intro i _
    simp only [sub_add_cancel, Int.toNat_natCast]
  · intro k hk
    have := Finset.mem_Icc.1 hk
    omega
  · intro i _; rfl

/-- C27: the transform of a spectrum on a uniform grid, which vanishes at the ends of the grid, with a cut
beyond the grid. -/
theorem laplace_grid {h : ℝ} (hh : 0 < h) {N : ℕ} {f : ℤ → ℝ} (hf : f (-N) = 0 ∧ f N = 0) {c : ℝ} (hc : N * h + small ≤ c)
    (hbar tau : ℝ) :
    laplace hbar (gridData h N f) tau (-c) c = h / hbar * ∑ k ∈ Finset.Icc (-(N : ℤ)) N, f k * exp (-tau * (k * h)) := by
  have hs := small_pos
  have hN : (0 : ℝ) ≤ N * h := by positivity
  set G : ℤ → ℝ := fun k => f k * exp (-tau * (k * h)) / hbar with hG
  have hlen : (nodes (gridData h N f) (-c) c).length = 2 * N + 5 := by
    rw [nodes_gridData hh N f hc]
    simp [energies, gridData_length]
  rw [laplace_eq, hlen]
  set K := cutKernel hbar (gridData h N f) tau (-c) c with hK
  have hElen : (energies (gridData h N f)).length = 2 * N + 1 := by simp [energies, gridData_length]
  have n0 : Interp.arr (nodes (gridData h N f) (-c) c) 0 = -c - small := by rw [nodes_gridData hh N f hc]; rfl
  have n1 : Interp.arr (nodes (gridData h N f) (-c) c) 1 = -c + small := by rw [nodes_gridData hh N f hc]; rfl
  have nm : ∀ i < 2 * N + 1, Interp.arr (nodes (gridData h N f) (-c) c) (i + 2) = (((i : ℤ) - N : ℤ) : ℝ) * h := by
    intro i hi
    rw [nodes_gridData hh N f hc, arr_cons_succ, arr_cons_succ, arr_append_left _ _ (by omega), arr_energies hi]
  have n3 : Interp.arr (nodes (gridData h N f) (-c) c) (2 * N + 3) = c - small := by
    rw [nodes_gridData hh N f hc, arr_cons_succ, arr_cons_succ]
    have := arr_append_right (energies (gridData h N f)) [c - small, c + small] 0
    rw [hElen] at this
    exact this
  have n4 : Interp.arr (nodes (gridData h N f) (-c) c) (2 * N + 4) = c + small := by
    rw [nodes_gridData hh N f hc, arr_cons_succ, arr_cons_succ]
    have := arr_append_right (energies (gridData h N f)) [c - small, c + small] 1
    rw [hElen] at this
    exact this
  have Km : ∀ k : ℤ, -(N : ℤ) ≤ k → k ≤ N → K ((k : ℝ) * h) = G k := by
    intro k h1 h2
    have hb := gridData_bounds hh (N := N) (f := f) (x := (k : ℝ) * h) (List.mem_map.2 ⟨_, mem_gridData.2 ⟨k, h1, h2, rfl⟩, rfl⟩)
    rw [hK]
    unfold cutKernel
    rw [if_pos ⟨by linarith [hb.1], by linarith [hb.2]⟩, value_gridData hh h1 h2]
  have K0 : K (-c - small) = 0 := by
    rw [hK]; unfold cutKernel; rw [if_neg (by intro h; linarith [h.1])]
  have K4 : K (c + small) = 0 := by
    rw [hK]; unfold cutKernel; rw [if_neg (by intro h; linarith [h.2])]
  have K1 : K (-c + small) = 0 := by
    rw [hK]; unfold cutKernel
    rw [(value_gridData_outside hh (N := N) (f := f) (-c + small)).1 (by linarith), hf.1]
    simp
  have K3 : K (c - small) = 0 := by
    rw [hK]; unfold cutKernel
    rw [(value_gridData_outside hh (N := N) (f := f) (c - small)).2 (by linarith), hf.2]
    simp
  have G0 : G (-N) = 0 := by rw [hG]; simp [hf.1]
  have GN : G N = 0 := by rw [hG]; simp [hf.2]
  have K2 : K (((((0 : ℕ) : ℤ) - N : ℤ) : ℝ) * h) = 0 := by
    rw [Km _ (by omega) (by omega)]
    simpa using G0
  have K2N : K (((((2 * N : ℕ) : ℤ) - N : ℤ) : ℝ) * h) = 0 := by
    rw [Km _ (by omega) (by omega)]
    have : (((2 * N : ℕ) : ℤ) - N : ℤ) = N := by omega
    rw [this]
    exact GN
  rw [show 2 * N + 5 - 1 = 2 * N + 1 + 1 + 1 + 1 by omega, Finset.sum_range_succ, Finset.sum_range_succ]
  rw [show 2 * N + 1 + 1 + 1 + 1 = 2 * N + 4 by omega, show 2 * N + 1 + 1 + 1 = 2 * N + 3 by omega,
    show 2 * N + 1 + 1 = 2 * N + 2 by omega]
  rw [n3, n4, K3, K4, nm (2 * N) (by omega), K2N]
  rw [Finset.sum_range_succ', Finset.sum_range_succ']
  rw [n0, zero_add, n1, show 1 + 1 = 0 + 2 from rfl, nm 0 (by omega), K0, K1, K2]
  have hsum : ∀ i ∈ Finset.range (2 * N), (Interp.arr (nodes (gridData h N f) (-c) c) (i + 1 + 1 + 1) -
        Interp.arr (nodes (gridData h N f) (-c) c) (i + 1 + 1)) *
      (K (Interp.arr (nodes (gridData h N f) (-c) c) (i + 1 + 1 + 1)) + K (Interp.arr (nodes (gridData h N f) (-c) c) (i + 1 + 1))) / 2 =
      h / 2 * (G (((i + 1 : ℕ) : ℤ) - N) + G ((i : ℤ) - N)) := by
    intro i hi
    have hi' := Finset.mem_range.1 hi
    rw [show i + 1 + 1 + 1 = (i + 1) + 2 by omega, show i + 1 + 1 = i + 2 by omega, nm (i + 1) (by omega), nm i (by omega),
      Km _ (by omega) (by omega), Km _ (by omega) (by omega)]
    push_cast
    ring
  rw [Finset.sum_congr rfl hsum, ← Finset.mul_sum, Finset.sum_add_distrib]
  have s1 : ∑ i ∈ Finset.range (2 * N), G (((i + 1 : ℕ) : ℤ) - N) = ∑ i ∈ Finset.range (2 * N + 1), G ((i : ℤ) - N) := by
    rw [Finset.sum_range_succ']
    have : ((0 : ℕ) : ℤ) - N = -N := by omega
    rw [this, G0, add_zero]
  have s2 : ∑ i ∈ Finset.range (2 * N), G ((i : ℤ) - N) = ∑ i ∈ Finset.range (2 * N + 1), G ((i : ℤ) - N) := by
    rw [Finset.sum_range_succ]
    have : ((2 * N : ℕ) : ℤ) - N = N := by omega
    rw [this, GN, add_zero]
  rw [s1, s2, sum_grid N G]
  have s3 : ∑ k ∈ Finset.Icc (-(N : ℤ)) N, G k = (∑ k ∈ Finset.Icc (-(N : ℤ)) N, f k * exp (-tau * (k * h))) / hbar := by
    rw [hG, Finset.sum_div]
  rw [s3]
  ring

/-- The convolution of two spectra on grids with the same step: the integral over the transferred frequency
as a sum. -/
noncomputable def convolved (h hbar : ℝ) (N : ℕ) (f g : ℤ → ℝ) (k : ℤ) : ℝ :=
  h / hbar * ∑ j ∈ Finset.Icc (-(N : ℤ)) N, f j * g (k - j)

theorem sum_shift {M K : ℕ} {G : ℤ → ℝ} (hG : ∀ l : ℤ, (M : ℤ) < |l| → G l = 0) {j : ℤ} (hj : |j| + M ≤ K) :
    ∑ k ∈ Finset.Icc (-(K : ℤ)) K, G (k - j) = ∑ l ∈ Finset.Icc (-(M : ℤ)) M, G l := by
  have hj' := abs_le.1 (le_refl |j|)
  have hsub : Finset.Icc (-(M : ℤ) + j) (M + j) ⊆ Finset.Icc (-(K : ℤ)) K := by
    intro k hk
    have := Finset.mem_Icc.1 hk
    exact Finset.mem_Icc.2 ⟨by omega, by omega⟩
  have hz : ∀ k ∈ Finset.Icc (-(K : ℤ)) K, k ∉ Finset.Icc (-(M : ℤ) + j) (M + j) → G (k - j) = 0 := by
    intro k _ hk
    apply hG
    rw [Finset.mem_Icc] at hk
    rw [lt_abs]
    by_contra hcon
    push Not at hcon
    exact hk ⟨by omega, by omega⟩
  rw [← Finset.sum_subset hsub hz]
  refine Finset.sum_nbij' (fun k => k - j) (fun l => l + j) ?_ ?_ ?_ ?_ ?_
  · intro l hl
    have := Finset.mem_Icc.1 hl
    exact Finset.mem_Icc.2 ⟨by omega, by omega⟩
  · intro l hl
    have := Finset.mem_Icc.1 hl
    exact Finset.mem_Icc.2 ⟨by omega, by omega⟩
  · intro l _; omega
  · intro l _; omega
  · intro l _; rfl

/-- C27, the theorem of convolution: with a cut beyond all the grids, the transform of the convolved spectrum is
the product of the transforms. -/
theorem laplace_convolved {h hbar : ℝ} (hh : 0 < h) {N M K : ℕ} {f g : ℤ → ℝ}
    (hf : f (-N) = 0 ∧ f N = 0) (hg : ∀ l : ℤ, (M : ℤ) ≤ |l| → g l = 0) (hK : N + M ≤ K) {c : ℝ} (hc : K * h + small ≤ c) (tau : ℝ) :
    laplace hbar (gridData h K (convolved h hbar N f g)) tau (-c) c =
      laplace hbar (gridData h N f) tau (-c) c * laplace hbar (gridData h M g) tau (-c) c := by
  have hNK : (N : ℝ) * h ≤ K * h := mul_le_mul_of_nonneg_right (by exact_mod_cast (by omega : N ≤ K)) hh.le
  have hMK : (M : ℝ) * h ≤ K * h := mul_le_mul_of_nonneg_right (by exact_mod_cast (by omega : M ≤ K)) hh.le
  have hgM : g (-M) = 0 ∧ g M = 0 := ⟨hg _ (by simp), hg _ (by simp)⟩
  have hend : ∀ k : ℤ, (K : ℤ) ≤ |k| → convolved h hbar N f g k = 0 := by
    intro k hk
    unfold convolved
    rw [Finset.sum_eq_zero, mul_zero]
    intro j hj
    have hj' := Finset.mem_Icc.1 hj
    rw [hg, mul_zero]
    have h1 : |j| ≤ N := abs_le.2 hj'
    have h2 := abs_sub_abs_le_abs_sub k j
    omega
  rw [laplace_grid hh ⟨hend _ (by simp), hend _ (by simp)⟩ hc, laplace_grid hh hf (by linarith), laplace_grid hh hgM (by linarith)]
  have key : ∑ k ∈ Finset.Icc (-(K : ℤ)) K, convolved h hbar N f g k * exp (-tau * (k * h)) =
      h / hbar * ((∑ j ∈ Finset.Icc (-(N : ℤ)) N, f j * exp (-tau * (j * h))) * ∑ l ∈ Finset.Icc (-(M : ℤ)) M, g l * exp (-tau * (l * h))) := by
    have e1 : ∀ k ∈ Finset.Icc (-(K : ℤ)) K, convolved h hbar N f g k * exp (-tau * (k * h)) =
        h / hbar * ∑ j ∈ Finset.Icc (-(N : ℤ)) N, f j * exp (-tau * (j * h)) * (g (k - j) * exp (-tau * (((k - j : ℤ) : ℝ) * h))) := by
      intro k _
      unfold convolved
      rw [mul_assoc, Finset.sum_mul]
      congr 1
      refine Finset.sum_congr rfl fun j _ => ?_
      have : exp (-tau * (k * h)) = exp (-tau * (j * h)) * exp (-tau * (((k - j : ℤ) : ℝ) * h)) := by
        rw [← exp_add]; congr 1; push_cast; ring
      rw [this]
      ring
    rw [Finset.sum_congr rfl e1, ← Finset.mul_sum, Finset.sum_comm, Finset.sum_mul]
    congr 1
    refine Finset.sum_congr rfl fun j hj => ?_
    rw [← Finset.mul_sum]
    congr 1
    have hj' := Finset.mem_Icc.1 hj
    have h1 : |j| ≤ N := abs_le.2 hj'
    exact sum_shift (G := fun l => g l * exp (-tau * ((l : ℝ) * h))) (fun l hl => by rw [hg l hl.le, zero_mul]) (by omega)
  rw [key]
  ring

/-- C27, from end to end: a spectrum in detailed balance, without negative intensities, is convolved with an instrument
function, and analysed with a cut beyond the data, on a grid of imaginary times which contains half the
inverse temperature.  The temperature is found exactly.
(Partial: for spectra that vanish at the ends of the data; it fails for others, see `ssf_constant`.) -/
theorem thermometry_partial {h hbar kB beta : ℝ} (hh : 0 < h) (hb : 0 < hbar) {N M K : ℕ} {f g : ℤ → ℝ}
    (hbal : ∀ k : ℤ, f (-k) = exp (-beta * (k * h)) * f k) (hpos : ∀ k, 0 ≤ f k) (hend : f N = 0)
    {k0 : ℤ} (hk0 : k0 ≠ 0) (hk0N : |k0| ≤ N) (hk0f : 0 < f k0)
    (hg : ∀ l : ℤ, (M : ℤ) ≤ |l| → g l = 0) (hgpos : ∀ l, 0 ≤ g l) (hg0 : 0 < g 0) (hK : N + M ≤ K)
    {c : ℝ} (hc : K * h + small ≤ c) {tau : List ℝ} (hn : tau.Nodup) (ht : beta / 2 ∈ tau) :
    gridT hbar kB (gridData h K (convolved h hbar N f g)) (gridData h M g) tau c = 1 / (beta * kB) := by
  have hs := small_pos
  have hNK : (N : ℝ) * h ≤ K * h := mul_le_mul_of_nonneg_right (by exact_mod_cast (by omega : N ≤ K)) hh.le
  have hMK : (M : ℝ) * h ≤ K * h := mul_le_mul_of_nonneg_right (by exact_mod_cast (by omega : M ≤ K)) hh.le
  have hendm : f (-N) = 0 := by rw [hbal, hend, mul_zero]
  have hDB : DetailedBalance beta (gridData h N f) := by
    refine ⟨gridData_nodup hh N f, ?_⟩
    intro E I hm
    obtain ⟨k, h1, h2, he⟩ := mem_gridData.1 hm
    obtain ⟨rfl, rfl⟩ := Prod.mk.inj he
    refine mem_gridData.2 ⟨-k, by omega, by omega, ?_⟩
    rw [hbal k]
    rw [show -((k : ℝ) * h) = ((-k : ℤ) : ℝ) * h by push_cast; ring]
  have hI : ∀ E I, (E, I) ∈ gridData h N f → 0 ≤ I := by
    intro E I hm
    obtain ⟨k, _, _, he⟩ := mem_gridData.1 hm
    obtain ⟨rfl, rfl⟩ := Prod.mk.inj he
    exact hpos k
  have hv : VanishesAtCut (gridData h N f) c :=
    ⟨by rw [(value_gridData_outside hh (c - small)).2 (by linarith), hend],
     by rw [(value_gridData_outside hh (-c + small)).1 (by linarith), hendm]⟩
  have hk := abs_le.1 hk0N
  have hm0 : ((k0 : ℝ) * h, f k0) ∈ gridData h N f := mem_gridData.2 ⟨k0, hk.1, hk.2, rfl⟩
  have hbnd := gridData_bounds hh (List.mem_map.2 ⟨_, hm0, rfl⟩ : (k0 : ℝ) * h ∈ energies (gridData h N f))
  refine gridT_exact hb hDB hI hv hm0 (mul_ne_zero (by exact_mod_cast hk0) hh.ne') hk0f (by linarith [hbnd.1]) (by linarith [hbnd.2]) hn ht
    (fun t _ => laplace_convolved hh ⟨hendm, hend⟩ hg hK hc t) ?_
  intro t _
  have hM0 : 0 < M := by
    rcases Nat.eq_zero_or_pos M with rfl | hM
    · exact absurd (hg 0 (by simp)) hg0.ne'
    · exact hM
  rw [laplace_grid hh ⟨hg _ (by simp), hg _ (by simp)⟩ (by linarith)]
  refine (mul_pos (div_pos hh hb) ?_).ne'
  refine Finset.sum_pos' (fun k _ => mul_nonneg (hgpos k) (exp_pos _).le) ⟨0, Finset.mem_Icc.2 ⟨by omega, by omega⟩, ?_⟩
  exact mul_pos hg0 (exp_pos _)

/-- A case for `thermometry_partial`: three intensities, at the temperature one, with the instrument a triangle. -/
example : gridT 1 1 (gridData 1 4 (convolved 1 1 2 (fun k => if |k| ≤ 1 then exp (k / 2) else 0) (fun l => if |l| ≤ 1 then 2 - |(l : ℝ)| else 0)))
    (gridData 1 2 fun l => if |l| ≤ 1 then 2 - |(l : ℝ)| else 0) [1 / 4, 1 / 2, 3 / 4] 5 = 1 / (1 * 1) := by
  refine thermometry_partial (beta := 1) (N := 2) (k0 := 1) one_pos one_pos ?_ ?_ ?_ one_ne_zero (by norm_num) ?_ ?_ ?_ ?_ (by norm_num) ?_ ?_ ?_
  · intro k
    simp only [abs_neg]
    split_ifs
    · rw [← exp_add]; congr 1; push_cast; ring
    · ring
  · intro k
    split_ifs
    · exact (exp_pos _).le
    · exact le_rfl
  · norm_num
  · norm_num [exp_pos]
  · intro l hl
    rw [if_neg]
    have : ((2 : ℕ) : ℤ) = 2 := rfl
    omega
  · intro l
    split_ifs with hl
    · have : |(l : ℝ)| ≤ 1 := by exact_mod_cast hl
      linarith
    · exact le_rfl
  · norm_num
  · unfold small; norm_num
  · norm_num
  · norm_num

/-- C27, where it fails: a spectrum which does not vanish at the end of the data is continued with its last value, up to the cut.
The static structure factor of constant data grows with the cut, whatever the data are: it is not the
integral of the data. -/
theorem ssf_constant {h hbar : ℝ} (hh : 0 < h) (N : ℕ) (a : ℝ) {c : ℝ} (hc : N * h + small ≤ c) :
    ssf ⟨gridData h N fun _ => a, [], c, true⟩ hbar = 2 * c * a / hbar := by
  have hs := small_pos
  have hN : (0 : ℝ) ≤ N * h := by positivity
  rw [ssf_raw _ rfl]
  simp only []
  have hv : ∀ x, value (gridData h N fun _ => a) x = a := by
    intro x
    have hlen : ((sortedPairs (gridData h N fun _ => a)).map Prod.fst).length = 2 * N + 1 := by
      rw [List.length_map, (sortedPairs_perm _).length_eq, gridData_length]
    have := Interp.interp_in_range _ _ (Interp.arr ((sortedPairs (gridData h N fun _ => a)).map Prod.snd))
      (increasing_of_nodup (gridData_nodup hh N fun _ => a)) (by omega) a a (fun i hi => ?_) x
    · exact le_antisymm this.2 this.1
    · rw [hlen] at hi
      rw [sortedPairs_gridData hh, arr_map _ _ (by rw [gridData_length]; exact hi), gridData_getElem]
      exact ⟨le_rfl, le_rfl⟩
  rw [laplace_eq]
  have hlen : (nodes (gridData h N fun _ => a) (-c) c).length = 2 * N + 5 := by
    rw [nodes_gridData hh N _ hc]
    simp [energies, gridData_length]
  have hElen : (energies (gridData h N fun _ => a)).length = 2 * N + 1 := by simp [energies, gridData_length]
  have n0 : Interp.arr (nodes (gridData h N fun _ => a) (-c) c) 0 = -c - small := by rw [nodes_gridData hh N _ hc]; rfl
  have n1 : Interp.arr (nodes (gridData h N fun _ => a) (-c) c) 1 = -c + small := by rw [nodes_gridData hh N _ hc]; rfl
  have n3 : Interp.arr (nodes (gridData h N fun _ => a) (-c) c) (2 * N + 3) = c - small := by
    rw [nodes_gridData hh N _ hc, arr_cons_succ, arr_cons_succ]
    have := arr_append_right (energies (gridData h N fun _ => a)) [c - small, c + small] 0
    rw [hElen] at this
    exact this
  have n4 : Interp.arr (nodes (gridData h N fun _ => a) (-c) c) (2 * N + 4) = c + small := by
    rw [nodes_gridData hh N _ hc, arr_cons_succ, arr_cons_succ]
    have := arr_append_right (energies (gridData h N fun _ => a)) [c - small, c + small] 1
    rw [hElen] at this
    exact this
  have hin : ∀ i, 1 ≤ i → i ≤ 2 * N + 3 → -c ≤ Interp.arr (nodes (gridData h N fun _ => a) (-c) c) i ∧
      Interp.arr (nodes (gridData h N fun _ => a) (-c) c) i ≤ c := by
    intro i h1 h2
    have hsort := List.pairwise_iff_getElem.1 (nodes_sorted (gridData h N fun _ => a) (-c) c)
    have m1 : Interp.arr (nodes (gridData h N fun _ => a) (-c) c) 1 ≤ Interp.arr (nodes (gridData h N fun _ => a) (-c) c) i := by
      rcases h1.lt_or_eq with hlt | rfl
      · rw [arr_eq _ (by omega), arr_eq _ (by omega)]
        exact hsort 1 i (by omega) (by omega) hlt
      · exact le_rfl
    have m2 : Interp.arr (nodes (gridData h N fun _ => a) (-c) c) i ≤ Interp.arr (nodes (gridData h N fun _ => a) (-c) c) (2 * N + 3) := by
      rcases h2.lt_or_eq with hlt | rfl
      · rw [arr_eq _ (by omega), arr_eq _ (by omega)]
        exact hsort i (2 * N + 3) (by omega) (by omega) hlt
      · exact le_rfl
    rw [n1] at m1
    rw [n3] at m2
    constructor <;> linarith
  have hK : ∀ i, 1 ≤ i → i ≤ 2 * N + 3 → cutKernel hbar (gridData h N fun _ => a) 0 (-c) c
      (Interp.arr (nodes (gridData h N fun _ => a) (-c) c) i) = a / hbar := by
    intro i h1 h2
    unfold cutKernel
    rw [if_pos (hin i h1 h2), hv]
    simp
  have K0 : cutKernel hbar (gridData h N fun _ => a) 0 (-c) c (-c - small) = 0 := by
    unfold cutKernel; rw [if_neg (by intro h; linarith [h.1])]
  have K4 : cutKernel hbar (gridData h N fun _ => a) 0 (-c) c (c + small) = 0 := by
    unfold cutKernel; rw [if_neg (by intro h; linarith [h.2])]
  rw [hlen, show 2 * N + 5 - 1 = (2 * N + 2) + 1 + 1 by omega, Finset.sum_range_succ, Finset.sum_range_succ',
    show 2 * N + 2 + 1 + 1 = 2 * N + 4 by omega, show 2 * N + 2 + 1 = 2 * N + 3 by omega, n4, K4, n3, n0, K0, zero_add, n1]
  have k3 := hK (2 * N + 3) (by omega) le_rfl
  have k1 := hK 1 le_rfl (by omega)
  rw [n3] at k3
  rw [n1] at k1
  rw [k1, k3]
  have hsum : ∀ i ∈ Finset.range (2 * N + 2), (Interp.arr (nodes (gridData h N fun _ => a) (-c) c) (i + 1 + 1) -
        Interp.arr (nodes (gridData h N fun _ => a) (-c) c) (i + 1)) *
      (cutKernel hbar (gridData h N fun _ => a) 0 (-c) c (Interp.arr (nodes (gridData h N fun _ => a) (-c) c) (i + 1 + 1)) +
        cutKernel hbar (gridData h N fun _ => a) 0 (-c) c (Interp.arr (nodes (gridData h N fun _ => a) (-c) c) (i + 1))) / 2 =
      a / hbar * (Interp.arr (nodes (gridData h N fun _ => a) (-c) c) ((i + 1) + 1) -
        Interp.arr (nodes (gridData h N fun _ => a) (-c) c) (i + 1)) := by
    intro i hi
    have hi' := Finset.mem_range.1 hi
    rw [hK (i + 1 + 1) (by omega) (by omega), hK (i + 1) (by omega) (by omega)]
    ring
  rw [Finset.sum_congr rfl hsum, ← Finset.mul_sum,
    Finset.sum_range_sub (fun i => Interp.arr (nodes (gridData h N fun _ => a) (-c) c) (i + 1)), show 2 * N + 2 + 1 = 2 * N + 3 by omega,
    zero_add, n3, n1]
  ring

end Verif.Itcf
