/-
Properties C45 (interpolation) and C23 (distribution of bound electrons).
-/
import Verif.Lemmas.Interp
import Mathlib.Tactic.IntervalCases

set_option autoImplicit false

namespace Verif.Interp

/-! ### C45 -/

/-- C45.  Interpolation hits the table at every node, for every table with increasing nodes. -/
theorem interp_at_node (n : ℕ) (xp fp : ℕ → ℝ) (h : Increasing n xp) (i : ℕ) (hi : i < n) :
    interp n xp fp (xp i) = fp i := by
  unfold interp
  rcases Nat.lt_or_ge (i + 1) n with h1 | h1
  · rw [interpLR_on_interval n xp fp _ _ _ h i h1 le_rfl (h i h1).le]
    simp
  · rcases Nat.eq_zero_or_pos i with rfl | hpos
    · have : n = 1 := by omega
      subst this
      simp [interpLR, segment]
    · obtain ⟨j, rfl⟩ := Nat.exists_eq_succ_of_ne_zero hpos.ne'
      have hlt := h j hi
      rw [interpLR_on_interval n xp fp _ _ _ h j hi hlt.le le_rfl, Nat.succ_eq_add_one,
        div_self (by linarith)]
      ring

/-- C45.  Between two neighbouring nodes the interpolation is the straight line through the two
table entries. -/
theorem interp_between_nodes (n : ℕ) (xp fp : ℕ → ℝ) (h : Increasing n xp) (i : ℕ)
    (hi : i + 1 < n) (t : ℝ) (h0 : 0 ≤ t) (h1 : t ≤ 1) :
    interp n xp fp ((1 - t) * xp i + t * xp (i + 1)) = (1 - t) * fp i + t * fp (i + 1) := by
  have hd := h i hi
  have hne : xp (i + 1) - xp i ≠ 0 := by linarith
  unfold interp
  rw [interpLR_on_interval n xp fp _ _ _ h i hi (by nlinarith) (by nlinarith)]
  have : ((1 - t) * xp i + t * xp (i + 1) - xp i) / (xp (i + 1) - xp i) = t := by
    rw [div_eq_iff hne]; ring
  rw [this]; ring

/-- C45.  Outside the nodes the interpolation is constant. -/
theorem interp_outside (n : ℕ) (xp fp : ℕ → ℝ) (h : Increasing n xp) (hn : 0 < n) (x : ℝ) :
    (x ≤ xp 0 → interp n xp fp x = fp 0) ∧ (xp (n - 1) ≤ x → interp n xp fp x = fp (n - 1)) := by
  constructor
  · intro hx
    rcases hx.lt_or_eq with h1 | rfl
    · unfold interp interpLR
      have := h.le (Nat.zero_le (n - 1)) (by omega)
      rw [if_neg (by linarith), if_pos h1]
    · exact interp_at_node n xp fp h 0 hn
  · intro hx
    rcases hx.lt_or_eq with h1 | rfl
    · unfold interp interpLR
      rw [if_pos h1]
    · exact interp_at_node n xp fp h (n - 1) (by omega)

/-- C45.  Interpolated values never leave the range of the tabulated ones. -/
theorem interp_in_range (n : ℕ) (xp fp : ℕ → ℝ) (h : Increasing n xp) (hn : 0 < n) (m M : ℝ)
    (hf : ∀ i, i < n → m ≤ fp i ∧ fp i ≤ M) (x : ℝ) :
    m ≤ interp n xp fp x ∧ interp n xp fp x ≤ M := by
  rcases le_total x (xp 0) with h0 | h0
  · rw [(interp_outside n xp fp h hn x).1 h0]; exact hf 0 hn
  rcases le_total (xp (n - 1)) x with h1 | h1
  · rw [(interp_outside n xp fp h hn x).2 h1]; exact hf (n - 1) (by omega)
  rcases Nat.lt_or_ge n 2 with h2 | h2
  · have : n = 1 := by omega
    subst this
    rw [(interp_outside 1 xp fp h hn x).1 h1]; exact hf 0 hn
  obtain ⟨i, hi, h3, h4⟩ := exists_interval n xp x h2 h0 h1
  have hd := h i hi
  unfold interp
  rw [interpLR_on_interval n xp fp _ _ _ h i hi h3 h4]
  have ht0 : 0 ≤ (x - xp i) / (xp (i + 1) - xp i) := div_nonneg (by linarith) (by linarith)
  have ht1 : (x - xp i) / (xp (i + 1) - xp i) ≤ 1 := (div_le_one (by linarith)).2 (by linarith)
  obtain ⟨a1, a2⟩ := hf i (by omega)
  obtain ⟨b1, b2⟩ := hf (i + 1) hi
  constructor <;> nlinarith

/-- C45.  A table that does not decrease gives an interpolation that does not decrease. -/
theorem interp_monotone (n : ℕ) (xp fp : ℕ → ℝ) (h : Increasing n xp) (hn : 0 < n)
    (hf : ∀ i, i + 1 < n → fp i ≤ fp (i + 1)) : Monotone (interp n xp fp) := by
  have hle : ∀ i j, i ≤ j → j < n → fp i ≤ fp j := by
    intro i j hij hj
    induction j with
    | zero => have : i = 0 := by omega
              subst this; exact le_rfl
    | succ j ih =>
      rcases hij.lt_or_eq with h1 | rfl
      · exact (ih (by omega) (by omega)).trans (hf j hj)
      · exact le_rfl
  have hr := interp_in_range n xp fp h hn (fp 0) (fp (n - 1))
    (fun i hi => ⟨hle 0 i (by omega) hi, hle i (n - 1) (by omega) (by omega)⟩)
  intro x y hxy
  rcases le_total x (xp 0) with h0 | h0
  · rw [(interp_outside n xp fp h hn x).1 h0]; exact (hr y).1
  rcases le_total (xp (n - 1)) y with h1 | h1
  · rw [(interp_outside n xp fp h hn y).2 h1]; exact (hr x).2
  rcases Nat.lt_or_ge n 2 with h2 | h2
  · have : n = 1 := by omega
    subst this
    rw [(interp_outside 1 xp fp h hn x).2 (by simpa using h0),
      (interp_outside 1 xp fp h hn y).2 (by simp; linarith)]
  obtain ⟨i, hi, h3, h4⟩ := exists_interval n xp x h2 h0 (by linarith)
  obtain ⟨j, hj, h5, h6⟩ := exists_interval n xp y h2 (by linarith) h1
  have hdi := h i hi
  have hdj := h j hj
  have e1 : interp n xp fp x =
      fp i + (x - xp i) / (xp (i + 1) - xp i) * (fp (i + 1) - fp i) :=
    interpLR_on_interval n xp fp _ _ _ h i hi h3 h4
  have e2 : interp n xp fp y =
      fp j + (y - xp j) / (xp (j + 1) - xp j) * (fp (j + 1) - fp j) :=
    interpLR_on_interval n xp fp _ _ _ h j hj h5 h6
  have hfi := hf i hi
  have hfj := hf j hj
  rcases Nat.lt_trichotomy i j with hij | rfl | hij
  · have hA : interp n xp fp x ≤ fp (i + 1) := by
      rw [e1]
      have : (x - xp i) / (xp (i + 1) - xp i) ≤ 1 := (div_le_one (by linarith)).2 (by linarith)
      nlinarith
    have hB : fp j ≤ interp n xp fp y := by
      rw [e2]
      have : 0 ≤ (y - xp j) / (xp (j + 1) - xp j) := div_nonneg (by linarith) (by linarith)
      nlinarith
    exact hA.trans ((hle (i + 1) j hij (by omega)).trans hB)
  · rw [e1, e2]
    have : (x - xp i) / (xp (i + 1) - xp i) ≤ (y - xp i) / (xp (i + 1) - xp i) :=
      div_le_div_of_nonneg_right (by linarith) (by linarith)
    nlinarith
  · -- then `x` and `y` are the same node
    have h7 := h.le (i := j + 1) (j := i) hij (by omega)
    have hxy' : x = y := le_antisymm hxy (by linarith)
    rw [hxy']

/-- The nodes of a list are in increasing order. -/
theorem increasing_arr (l : List ℝ) (h : l.Pairwise (· < ·)) : Increasing l.length (arr l) := by
  intro i hi
  have := List.pairwise_iff_getElem.1 h i (i + 1) (by omega) hi (by omega)
  simpa [arr, List.getD_eq_getElem?_getD, List.getElem?_eq_getElem hi,
    List.getElem?_eq_getElem (show i < l.length by omega)] using this

/-- C45.  The tabulated Pauling screening constants are reproduced at all nodes of every orbital
but 4s.  (Partial: 4s is missing, see `pauling_4s_misses_nodes`.) -/
theorem pauling_hits_nodes_partial (o : ℕ) (ho : o < 10) (h4s : o ≠ 6) (i : ℕ)
    (hi : i < (paulingTable.getD o ([], [])).1.length) :
    (paulingScreening (arr (paulingTable.getD o ([], [])).1 i)).getD o 0 =
      arr (paulingTable.getD o ([], [])).2 i := by
  have hinc : (paulingTable.getD o ([], [])).1.Pairwise (· < ·) := by
    interval_cases o <;> first | exact absurd rfl h4s | (simp [paulingTable]; try norm_num)
  have hlen : o < paulingTable.length := ho
  have := interp_at_node _ _ (arr (paulingTable.getD o ([], [])).2) (increasing_arr _ hinc) i hi
  rw [← this]
  unfold paulingScreening interpL
  simp [List.getD_eq_getElem?_getD, List.getElem?_eq_getElem hlen]

/-- A table whose values are below their nodes is below the query from the first node on. -/
theorem interp_lt_query (n : ℕ) (xp fp : ℕ → ℝ) (h : Increasing n xp) (hn : 0 < n)
    (hf : ∀ i, i < n → fp i < xp i) (x : ℝ) (hx : xp 0 ≤ x) : interp n xp fp x < x := by
  rcases hx.eq_or_lt with h0 | h0
  · rw [(interp_outside n xp fp h hn x).1 h0.ge, ← h0]; exact hf 0 hn
  rcases le_total (xp (n - 1)) x with h1 | h1
  · rw [(interp_outside n xp fp h hn x).2 h1]; exact (hf (n - 1) (by omega)).trans_le h1
  rcases Nat.lt_or_ge n 2 with h2 | h2
  · have : n = 1 := by omega
    subst this
    exact absurd h0 (not_lt.2 h1)
  obtain ⟨i, hi, h3, h4⟩ := exists_interval n xp x h2 h0.le h1
  have hd := h i hi
  unfold interp
  rw [interpLR_on_interval n xp fp _ _ _ h i hi h3 h4]
  have ht0 : 0 ≤ (x - xp i) / (xp (i + 1) - xp i) := div_nonneg (by linarith) (by linarith)
  have ht1 : (x - xp i) / (xp (i + 1) - xp i) ≤ 1 := (div_le_one (by linarith)).2 (by linarith)
  have hx : x = xp i + (x - xp i) / (xp (i + 1) - xp i) * (xp (i + 1) - xp i) := by
    rw [div_mul_cancel₀ _ (by linarith)]; ring
  have a := hf i (by omega)
  have b := hf (i + 1) hi
  generalize (x - xp i) / (xp (i + 1) - xp i) = t at *
  rw [hx]
  rcases ht0.eq_or_lt with h5 | h5
  · rw [← h5]; linarith
  · nlinarith

/-- C45.  Every orbital has one screening constant per node, and (but for 4s) the interpolated constant
is not negative and smaller than the nuclear charge, for all nuclear charges from the first node on. -/
theorem pauling_below_charge (o : ℕ) (ho : o < 10) :
    (paulingTable.getD o ([], [])).1.length = (paulingTable.getD o ([], [])).2.length ∧
    ∀ Z : ℝ, o ≠ 6 → arr (paulingTable.getD o ([], [])).1 0 ≤ Z →
      0 ≤ (paulingScreening Z).getD o 0 ∧ (paulingScreening Z).getD o 0 < Z := by
  refine ⟨by interval_cases o <;> rfl, fun Z h4s hZ => ?_⟩
  have hinc : (paulingTable.getD o ([], [])).1.Pairwise (· < ·) := by
    interval_cases o <;> first | exact absurd rfl h4s | (simp [paulingTable]; try norm_num)
  have hlen : o < paulingTable.length := ho
  have e : (paulingScreening Z).getD o 0 =
      interp (paulingTable.getD o ([], [])).1.length (arr (paulingTable.getD o ([], [])).1)
        (arr (paulingTable.getD o ([], [])).2) Z := by
    unfold paulingScreening interpL
    simp [List.getD_eq_getElem?_getD, List.getElem?_eq_getElem hlen]
  have hpos : 0 < (paulingTable.getD o ([], [])).1.length := by
    interval_cases o <;> simp [paulingTable]
  have hb : ∀ i, i < (paulingTable.getD o ([], [])).1.length →
      (0 ≤ arr (paulingTable.getD o ([], [])).2 i ∧ arr (paulingTable.getD o ([], [])).2 i ≤ 100) ∧
        arr (paulingTable.getD o ([], [])).2 i < arr (paulingTable.getD o ([], [])).1 i := by
    intro i hi
    interval_cases o <;> simp [paulingTable] at hi <;> interval_cases i <;>
      simp [paulingTable, arr] <;> norm_num
  rw [e]
  exact ⟨(interp_in_range _ _ _ (increasing_arr _ hinc) hpos 0 100 (fun i hi => (hb i hi).1) Z).1,
    interp_lt_query _ _ _ (increasing_arr _ hinc) hpos (fun i hi => (hb i hi).2) Z hZ⟩

theorem clog_nine : Nat.clog 2 9 = 4 := by
  have h1 : Nat.clog 2 9 ≤ 4 := Nat.clog_le_of_le_pow (by norm_num)
  have h2 : 3 < Nat.clog 2 9 := (Nat.lt_clog_iff_pow_lt (by norm_num)).2 (by norm_num)
  omega

/-- C45 is false for the 4s orbital, whose nodes `19, 20, 30, 26, 38, ...` are not in order: at the
nodes `Z = 30` and `Z = 26` the values are 24.2 and 18.46, while the table says 21.5 and 24.2. -/
theorem pauling_4s_misses_nodes :
    arr (paulingTable.getD 6 ([], [])).1 2 = 30 ∧ arr (paulingTable.getD 6 ([], [])).2 2 = 21.5 ∧
    (paulingScreening 30).getD 6 0 = 24.2 ∧
    arr (paulingTable.getD 6 ([], [])).1 3 = 26 ∧ arr (paulingTable.getD 6 ([], [])).2 3 = 24.2 ∧
    (paulingScreening 26).getD 6 0 = 18.46 := by
  refine ⟨rfl, rfl, ?_, rfl, rfl, ?_⟩
  all_goals
    simp [paulingScreening, paulingTable, interpL, interp, interpLR, searchsorted, clog_nine, bstep,
      arr, segment]
    norm_num

/-- C45 is false for the 4s orbital: the screening constant jumps at `Z = 30`, by at least 2.6 in
every neighbourhood, although interpolation is continuous for ordered nodes. -/
theorem pauling_4s_jumps (e : ℝ) (h0 : 0 < e) (h1 : e ≤ 1) :
    (paulingScreening (30 - e)).getD 6 0 ≤ 21.5 ∧ (paulingScreening 30).getD 6 0 = 24.2 := by
  refine ⟨?_, pauling_4s_misses_nodes.2.2.1⟩
  have a1 : ¬ (71 : ℝ) < 30 - e := by linarith
  have a2 : ¬ (30 - e : ℝ) < 19 := by linarith
  have a3 : (30 - e : ℝ) < 38 := by linarith
  have a5 : ¬ (30 - e : ℝ) < 20 := by linarith
  simp [paulingScreening, paulingTable, interpL, interp, interpLR, searchsorted, clog_nine, bstep,
      arr, segment, a1, a2, a3, h0, a5]
  norm_num
  linarith

/-- The hypotheses of the theorems of this section are met by the nodes of the 3s orbital, with
values that are not monotone in general. -/
example : Increasing 4 (arr [11, 18, 20, 30]) :=
  increasing_arr [11, 18, 20, 30] (by simp; norm_num)

/-! ### C23 -/

/-- A shell that is filled linearly between `a` and `b` electrons. -/
theorem shell_eq (a b x : ℝ) (hab : a < b) :
    interpL [a, b] [0, b - a] x = min x b - min x a := by
  have hinc : Increasing 2 (arr [a, b]) := increasing_arr [a, b] (by simpa using hab)
  unfold interpL
  change interp 2 _ _ _ = _
  rcases le_total x a with h | h
  · rw [(interp_outside 2 _ _ hinc (by norm_num) x).1 (by simpa [arr] using h)]
    rw [min_eq_left (h.trans hab.le), min_eq_left h]; simp [arr]
  rcases le_total b x with h' | h'
  · rw [(interp_outside 2 _ _ hinc (by norm_num) x).2 (by simpa [arr] using h')]
    rw [min_eq_right h', min_eq_right h]; simp [arr]
  · unfold interp
    rw [interpLR_on_interval 2 _ _ _ _ x hinc 0 (by norm_num) (by simpa [arr] using h)
      (by simpa [arr] using h')]
    rw [min_eq_left h', min_eq_right h]
    simp only [arr, List.getD_cons_zero, List.getD_cons_succ, Nat.zero_add]
    have : b - a ≠ 0 := by linarith
    field_simp
    ring

theorem empty_shell (x : ℝ) : interpL [0, 99] [0, 0] x = 0 := by
  have hinc : Increasing 2 (arr [0, 99]) := increasing_arr [0, 99] (by simp)
  have := interp_in_range 2 (arr [0, 99]) (arr [0, 0]) hinc (by norm_num) 0 0
    (by intro i hi; interval_cases i <;> simp [arr]) x
  exact le_antisymm this.2 this.1

theorem distribution_eq (x : ℝ) : electronDistribution x =
    [min x 2 - min x 0, min x 4 - min x 2, min x 10 - min x 4, min x 12 - min x 10,
     min x 18 - min x 12, min x 30 - min x 20, min x 20 - min x 18, min x 36 - min x 30, 0, 0] := by
  have s := fun a b (h : a < b) => shell_eq a b x h
  have h1 := s 0 2 (by norm_num)
  have h2 := s 2 4 (by norm_num)
  have h3 := s 4 10 (by norm_num)
  have h4 := s 10 12 (by norm_num)
  have h5 := s 12 18 (by norm_num)
  have h6 := s 20 30 (by norm_num)
  have h7 := s 18 20 (by norm_num)
  have h8 := s 30 36 (by norm_num)
  norm_num at h1 h2 h3 h4 h5 h6 h7 h8
  simp only [electronDistribution, shellTable, List.map_cons, List.map_nil, empty_shell, h1, h2, h3,
    h4, h5, h6, h7, h8]

/-- C23.  For every (also fractional) number of bound electrons between 0 and 36, the populations
of the orbitals add up to that number. -/
theorem electrons_complete (x : ℝ) (h0 : 0 ≤ x) (h1 : x ≤ 36) :
    (electronDistribution x).sum = x := by
  rw [distribution_eq]
  simp only [List.sum_cons, List.sum_nil]
  rw [min_eq_right h0, min_eq_left h1]
  ring

/-- The number of electrons that fit into each orbital, `2 (2 l + 1)`: 1s 2s 2p 3s 3p 3d 4s 4p 4d
4f. -/
def capacity : List ℝ := [2, 2, 6, 2, 6, 10, 2, 6, 10, 14]

theorem step_nonneg (x a b : ℝ) (hab : a ≤ b) : 0 ≤ min x b - min x a :=
  sub_nonneg.2 (min_le_min_left x hab)

theorem step_le (x a b : ℝ) (hab : a ≤ b) : min x b - min x a ≤ b - a := by
  rcases le_total x a with h | h
  · rw [min_eq_left h, min_eq_left (h.trans hab)]; linarith
  · rw [min_eq_right h]; linarith [min_le_right x b]

theorem step_mono (x y a b : ℝ) (hab : a ≤ b) (hxy : x ≤ y) :
    min x b - min x a ≤ min y b - min y a := by
  rcases le_total y a with h | h
  · rw [min_eq_left h, min_eq_left (h.trans hab), min_eq_left (hxy.trans h),
      min_eq_left ((hxy.trans h).trans hab)]; linarith
  · rw [min_eq_right h]
    rcases le_total x a with h' | h'
    · rw [min_eq_left h', min_eq_left (h'.trans hab)]
      linarith [le_min h hab]
    · rw [min_eq_right h']
      linarith [min_le_min_right b hxy]

/-- C23.  Each population is non-negative, at most the capacity of the orbital, and at most the
population of an atom with more electrons, in particular of the neutral atom. -/
theorem electrons_within_capacity (x y : ℝ) (hxy : x ≤ y) (o : ℕ) (ho : o < 10) :
    0 ≤ (electronDistribution x).getD o 0 ∧
    (electronDistribution x).getD o 0 ≤ capacity.getD o 0 ∧
    (electronDistribution x).getD o 0 ≤ (electronDistribution y).getD o 0 := by
  rw [distribution_eq, distribution_eq]
  have key : ∀ a b : ℝ, a ≤ b → 0 ≤ min x b - min x a ∧ min x b - min x a ≤ b - a ∧
      min x b - min x a ≤ min y b - min y a := fun a b h =>
    ⟨step_nonneg x a b h, step_le x a b h, step_mono x y a b h hxy⟩
  have k1 := key 0 2 (by norm_num)
  have k2 := key 2 4 (by norm_num)
  have k3 := key 4 10 (by norm_num)
  have k4 := key 10 12 (by norm_num)
  have k5 := key 12 18 (by norm_num)
  have k6 := key 20 30 (by norm_num)
  have k7 := key 18 20 (by norm_num)
  have k8 := key 30 36 (by norm_num)
  interval_cases o <;>
    simp only [List.getD_cons_zero, List.getD_cons_succ, capacity] <;>
    refine ⟨?_, ?_, ?_⟩ <;> linarith

/-- Removing one electron empties the outermost orbital first: with 5.5 electrons left, as in
carbon with half an electron removed, 1s and 2s are full and 2p holds 1.5. -/
example : electronDistribution 5.5 = [2, 2, 1.5, 0, 0, 0, 0, 0, 0, 0] := by
  rw [distribution_eq]; norm_num [min_def]

end Verif.Interp
