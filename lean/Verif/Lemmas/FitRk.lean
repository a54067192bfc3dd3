/-
The first moment of a spectrum: linear in the intensities, independent of the order of the channels, and positive
for a spectrum in detailed balance.
-/
import Verif.Model.FitRk
import Verif.Props.Itcf

set_option autoImplicit false

namespace Verif.FitRk

open Real Verif.Expt Verif.Itcf

/-! ### Spectra as functions of the energy -/

/-- A spectrum with the intensity `g x` at the energy `x`. -/
def spectrum (xs : List ℝ) (g : ℝ → ℝ) : List (ℝ × ℝ) := xs.map fun x => (x, g x)

open Classical in
/-- The energies in increasing order. -/
noncomputable def sorted (xs : List ℝ) : List ℝ := xs.mergeSort (fun a b => decide (a ≤ b))

theorem sortedPairs_spectrum (xs : List ℝ) (g : ℝ → ℝ) :
    sortedPairs (spectrum xs g) = (sorted xs).map fun x => (x, g x) := by
  classical
  unfold sortedPairs spectrum sorted
  exact (List.map_mergeSort (f := fun x => (x, g x)) (fun a _ b _ => rfl)).symm

theorem sortedFst (xs : List ℝ) (g : ℝ → ℝ) : (sortedPairs (spectrum xs g)).map Prod.fst = sorted xs := by
  rw [sortedPairs_spectrum, List.map_map]
  exact List.map_id _

theorem sortedSnd (xs : List ℝ) (g : ℝ → ℝ) : (sortedPairs (spectrum xs g)).map Prod.snd = (sorted xs).map g := by
  rw [sortedPairs_spectrum, List.map_map]
  rfl

theorem nodes_spectrum (xs : List ℝ) (g h : ℝ → ℝ) (a b : ℝ) : nodes (spectrum xs g) a b = nodes (spectrum xs h) a b := by
  unfold nodes
  rw [sortedFst, sortedFst]

theorem value_spectrum (xs : List ℝ) (g : ℝ → ℝ) (x : ℝ) :
    value (spectrum xs g) x = Interp.interpL (sorted xs) ((sorted xs).map g) x := by
  unfold value
  rw [sortedFst, sortedSnd]

/-! ### Linearity -/

theorem segment_linear (xp p q : ℕ → ℝ) (r : ℝ) (i : ℕ) (x : ℝ) :
    Interp.segment xp (fun j => p j + r * q j) i x = Interp.segment xp p i x + r * Interp.segment xp q i x := by
  unfold Interp.segment
  split <;> ring

theorem interp_linear (n : ℕ) (xp p q : ℕ → ℝ) (r x : ℝ) :
    Interp.interp n xp (fun j => p j + r * q j) x = Interp.interp n xp p x + r * Interp.interp n xp q x := by
  unfold Interp.interp Interp.interpLR
  split_ifs
  · rfl
  · rfl
  · exact segment_linear xp p q r _ x

theorem arr_linear (l : List ℝ) (p q : ℝ → ℝ) (r : ℝ) (i : ℕ) :
    Interp.arr (l.map fun x => p x + r * q x) i = Interp.arr (l.map p) i + r * Interp.arr (l.map q) i := by
  unfold Interp.arr
  simp only [List.getD_eq_getElem?_getD, List.getElem?_map]
  cases l[i]? <;> simp

theorem value_linear (xs : List ℝ) (p q : ℝ → ℝ) (r x : ℝ) :
    value (spectrum xs fun y => p y + r * q y) x = value (spectrum xs p) x + r * value (spectrum xs q) x := by
  rw [value_spectrum, value_spectrum, value_spectrum]
  unfold Interp.interpL
  rw [← interp_linear]
  congr 1
  funext i
  exact arr_linear _ p q r i

theorem momentKernel_linear (hbar : ℝ) (xs : List ℝ) (p q : ℝ → ℝ) (r a b x : ℝ) :
    momentKernel hbar (spectrum xs fun y => p y + r * q y) a b x =
      momentKernel hbar (spectrum xs p) a b x + r * momentKernel hbar (spectrum xs q) a b x := by
  unfold momentKernel
  rw [value_linear]
  split_ifs <;> ring

theorem firstMoment_linear (hbar : ℝ) (xs : List ℝ) (p q : ℝ → ℝ) (r a b : ℝ) :
    firstMoment hbar (spectrum xs fun y => p y + r * q y) a b =
      firstMoment hbar (spectrum xs p) a b + r * firstMoment hbar (spectrum xs q) a b := by
  unfold firstMoment
  rw [nodes_spectrum xs _ p, nodes_spectrum xs q p, Finset.mul_sum, ← Finset.sum_add_distrib]
  refine Finset.sum_congr rfl fun i _ => ?_
  rw [momentKernel_linear, momentKernel_linear]
  ring

theorem firstMoment_of_perm {d d' : List (ℝ × ℝ)} (hp : d.Perm d') (h : (energies d).Nodup) (hbar a b : ℝ) :
    firstMoment hbar d a b = firstMoment hbar d' a b := by
  have e := sortedPairs_of_perm hp h
  unfold firstMoment momentKernel nodes value
  rw [e]

/-- No energy is between the cuts: the moment is zero. -/
theorem firstMoment_empty (hbar : ℝ) (d : List (ℝ × ℝ)) {a b : ℝ} (h : b < a) : firstMoment hbar d a b = 0 := by
  unfold firstMoment
  refine Finset.sum_eq_zero fun i _ => ?_
  have hk : ∀ x, momentKernel hbar d a b x = 0 := by
    intro x
    unfold momentKernel
    rw [if_neg]
    rintro ⟨h1, h2⟩
    linarith
  rw [hk, hk]
  ring

/-! ### The maximum of a list -/

theorem maximum_mem {l : List ℝ} (h : l ≠ []) : maximum l ∈ l := by
  induction l with
  | nil => exact absurd rfl h
  | cons a l ih =>
    cases l with
    | nil => simp [maximum]
    | cons b l =>
      have := ih (by simp)
      rw [maximum]
      · rcases max_choice a (maximum (b :: l)) with h1 | h1
        · rw [h1]; exact List.mem_cons_self
        · rw [h1]; exact List.mem_cons_of_mem _ this
      · simp

theorem le_maximum {l : List ℝ} {x : ℝ} (h : x ∈ l) : x ≤ maximum l := by
  induction l with
  | nil => simp at h
  | cons a l ih =>
    cases l with
    | nil => simp at h; simp [maximum, h]
    | cons b l =>
      rw [maximum]
      · rcases List.mem_cons.1 h with rfl | h1
        · exact le_max_left _ _
        · exact (ih h1).trans (le_max_right _ _)
      · simp

theorem maximum_eq {l : List ℝ} {c : ℝ} (hm : c ∈ l) (h : ∀ x ∈ l, x ≤ c) : maximum l = c :=
  le_antisymm (h _ (maximum_mem (List.ne_nil_of_mem hm))) (le_maximum hm)

/-! ### Positive moment -/

theorem sorted_perm (xs : List ℝ) : (sorted xs).Perm xs := List.mergeSort_perm _ _

theorem sorted_strict {xs : List ℝ} (h : xs.Nodup) : (sorted xs).Pairwise (· < ·) := by
  have e : energies (spectrum xs id) = xs := by
    unfold energies spectrum
    rw [List.map_map]
    exact List.map_id _
  have := sortedPairs_strict (d := spectrum xs id) (by rw [e]; exact h)
  rw [sortedPairs_spectrum, List.pairwise_map] at this
  exact this

theorem sorted_symm {xs : List ℝ} (h : xs.Nodup) (hs : ∀ x ∈ xs, -x ∈ xs) {i : ℕ} (hi : i < (sorted xs).length) :
    Interp.arr (sorted xs) ((sorted xs).length - 1 - i) = -Interp.arr (sorted xs) i := by
  have hE : (xs.map (fun x => -x)).Perm xs := by
    rw [List.perm_ext_iff_of_nodup (h.map neg_injective) h]
    intro x
    simp only [List.mem_map]
    constructor
    · rintro ⟨y, hy, rfl⟩
      exact hs y hy
    · intro hx
      exact ⟨-x, hs x hx, neg_neg x⟩
  have hp : ((sorted xs).map (fun x => -x)).reverse.Perm (sorted xs) :=
    (List.reverse_perm _).trans (((sorted_perm xs).map _).trans (hE.trans (sorted_perm xs).symm))
  have hs' : ((sorted xs).map (fun x => -x)).reverse.Pairwise (· < ·) := by
    rw [List.pairwise_reverse, List.pairwise_map]
    exact (sorted_strict h).imp fun h => neg_lt_neg h
  have he : ((sorted xs).map (fun x => -x)).reverse = sorted xs :=
    List.Perm.eq_of_pairwise (fun a b _ _ h1 h2 => absurd h1 (not_lt.2 h2.le)) hs' (sorted_strict h) hp
  have hj : (sorted xs).length - 1 - i < (sorted xs).length := by omega
  rw [arr_eq _ hj, arr_eq _ hi]
  have h1 : (sorted xs)[(sorted xs).length - 1 - i] =
      (((sorted xs).map (fun x => -x)).reverse)[(sorted xs).length - 1 - i]'(by simpa using hj) := by
    simp only [he]
  rw [h1, List.getElem_reverse, List.getElem_map]
  congr 2
  simp only [List.length_map]
  omega

/-- On a symmetric axis, an intensity that is larger at the positive energies is so after interpolation. -/
theorem value_ge_mirror {xs : List ℝ} (h : xs.Nodup) (hs : ∀ x ∈ xs, -x ∈ xs) {g : ℝ → ℝ}
    (hg : ∀ x ∈ xs, 0 ≤ x → g (-x) ≤ g x) {x : ℝ} (hx : 0 ≤ x) (hin : ∃ y ∈ xs, x ≤ y) :
    value (spectrum xs g) (-x) ≤ value (spectrum xs g) x := by
  rcases hx.eq_or_lt with rfl | hx0
  · rw [neg_zero]
  have hinc := Interp.increasing_arr _ (sorted_strict h)
  obtain ⟨y, hy, hxy⟩ := hin
  have hlen : 0 < (sorted xs).length := by
    rw [(sorted_perm xs).length_eq]
    exact List.length_pos_of_mem hy
  set n := (sorted xs).length with hn
  set X := Interp.arr (sorted xs) with hX
  have hmem : ∀ i, i < n → X i ∈ xs := by
    intro i hi
    rw [hX, arr_eq _ hi]
    exact (sorted_perm xs).mem_iff.1 (List.getElem_mem _)
  have hval : ∀ i, i < n → Interp.arr ((sorted xs).map g) i = g (X i) := by
    intro i hi
    rw [arr_map _ _ hi, hX, arr_eq _ hi]
  have hsym : ∀ i, i < n → X (n - 1 - i) = -X i := fun i hi => sorted_symm h hs hi
  -- the last energy is the largest
  have hlast : y ≤ X (n - 1) := by
    obtain ⟨j, hj, hje⟩ := List.getElem_of_mem ((sorted_perm xs).mem_iff.2 hy)
    have := hinc.le (show j ≤ n - 1 by omega) (by omega)
    rw [show X j = y by rw [hX, arr_eq _ hj, hje]] at this
    exact this
  have hfirst : X 0 = -X (n - 1) := by
    have := hsym 0 hlen
    simp only [Nat.sub_zero] at this
    rw [this]; ring
  rw [value_spectrum, value_spectrum]
  unfold Interp.interpL
  rcases Nat.lt_or_ge 1 n with h2 | h2
  · obtain ⟨i, hi, h3, h4⟩ := Interp.exists_interval n X x (by omega) (by rw [hfirst]; linarith) (hxy.trans hlast)
    have s1 := hsym i (by omega)
    have s2 := hsym (i + 1) hi
    have hk : n - 1 - (i + 1) + 1 = n - 1 - i := by omega
    have e1 : Interp.interp n X (Interp.arr ((sorted xs).map g)) x =
        g (X i) + (x - X i) / (X (i + 1) - X i) * (g (X (i + 1)) - g (X i)) := by
      unfold Interp.interp
      rw [Interp.interpLR_on_interval n X _ _ _ _ hinc i hi h3 h4, hval i (by omega), hval (i + 1) hi]
    have e2 : Interp.interp n X (Interp.arr ((sorted xs).map g)) (-x) =
        g (-X (i + 1)) + (-x + X (i + 1)) / (X (i + 1) - X i) * (g (-X i) - g (-X (i + 1))) := by
      unfold Interp.interp
      rw [Interp.interpLR_on_interval n X _ _ _ _ hinc (n - 1 - (i + 1)) (by omega) (by rw [s2]; linarith)
        (by rw [hk, s1]; linarith), hval _ (by omega), hval _ (by omega), hk, s1, s2]
      congr 2
      congr 1 <;> ring
    rw [show (sorted xs).length = n from rfl, e1, e2]
    have hd : 0 < X (i + 1) - X i := by have := hinc i hi; linarith
    set t := (x - X i) / (X (i + 1) - X i) with ht
    have ht0 : 0 ≤ t := div_nonneg (by linarith) hd.le
    have ht1 : t ≤ 1 := by rw [ht, div_le_one hd]; linarith
    have et : (-x + X (i + 1)) / (X (i + 1) - X i) = 1 - t := by
      rw [ht]; field_simp; ring
    rw [et]
    have hb : g (-X (i + 1)) ≤ g (X (i + 1)) := hg _ (hmem _ hi) (by linarith)
    rcases le_or_gt 0 (X i) with h5 | h5
    · have ha : g (-X i) ≤ g (X i) := hg _ (hmem _ (by omega)) h5
      nlinarith [mul_nonneg ht0 (sub_nonneg.2 hb), mul_nonneg (sub_nonneg.2 ht1) (sub_nonneg.2 ha)]
    · -- zero lies in the interval, whose ends are opposite
      have hopp : X (i + 1) = -X i := by
        apply le_antisymm
        · by_contra hlt
          push Not at hlt
          -- `-X i` is between the ends
          have hj : n - 1 - i < n := by omega
          rcases Nat.lt_or_ge (n - 1 - i) (i + 1) with hq | hq
          · have := hinc.le (show n - 1 - i ≤ i by omega) (by omega)
            have h6 : X (n - 1 - i) ≤ X i := this
            rw [s1] at h6; linarith
          · have := hinc.le hq hj
            have h6 : X (i + 1) ≤ X (n - 1 - i) := this
            rw [s1] at h6; linarith
        · by_contra hlt
          push Not at hlt
          rcases Nat.lt_or_ge (n - 1 - (i + 1)) (i + 1) with hq | hq
          · have := hinc.le (show n - 1 - (i + 1) ≤ i by omega) (by omega)
            have h6 : X (n - 1 - (i + 1)) ≤ X i := this
            rw [s2] at h6; linarith
          · have := hinc.le hq (by omega)
            have h6 : X (i + 1) ≤ X (n - 1 - (i + 1)) := this
            rw [s2] at h6; linarith
      have ha : X i = -X (i + 1) := by rw [hopp]; ring
      have hx2 : 1 / 2 ≤ t := by
        rw [ht, le_div_iff₀ hd, hopp]; linarith
      rw [show -X i = X (i + 1) from hopp.symm, ha]
      nlinarith [mul_nonneg (sub_nonneg.2 hx2) (sub_nonneg.2 hb)]
  · -- one energy, zero
    have h1 : n = 1 := by omega
    have hz : X 0 = 0 := by
      rw [h1] at hfirst
      simp only [Nat.sub_self] at hfirst
      linarith
    have hx0 : x = 0 := by
      rw [h1] at hlast
      simp only [Nat.sub_self] at hlast
      linarith
    rw [hx0, neg_zero]

/-- The first moment of a spectrum on a symmetric axis, by pairs of opposite energies. -/
theorem firstMoment_pairs {xs : List ℝ} (h : xs.Nodup) (hs : ∀ x ∈ xs, -x ∈ xs) (hbar : ℝ) (g : ℝ → ℝ) (c : ℝ) :
    2 * firstMoment hbar (spectrum xs g) (-c) c =
      ∑ i ∈ Finset.range ((nodes (spectrum xs g) (-c) c).length - 1),
        (Interp.arr (nodes (spectrum xs g) (-c) c) (i + 1) - Interp.arr (nodes (spectrum xs g) (-c) c) i) *
        ((momentKernel hbar (spectrum xs g) (-c) c (Interp.arr (nodes (spectrum xs g) (-c) c) (i + 1)) +
            momentKernel hbar (spectrum xs g) (-c) c (-Interp.arr (nodes (spectrum xs g) (-c) c) (i + 1))) +
          (momentKernel hbar (spectrum xs g) (-c) c (Interp.arr (nodes (spectrum xs g) (-c) c) i) +
            momentKernel hbar (spectrum xs g) (-c) c (-Interp.arr (nodes (spectrum xs g) (-c) c) i))) / 2 := by
  have hsym : ∀ i, i < (nodes (spectrum xs g) (-c) c).length →
      Interp.arr (nodes (spectrum xs g) (-c) c) ((nodes (spectrum xs g) (-c) c).length - 1 - i) =
        -Interp.arr (nodes (spectrum xs g) (-c) c) i := by
    intro i hi
    have hdb : DetailedBalance 0 (spectrum xs fun _ => 0) := by
      constructor
      · unfold energies spectrum
        rw [List.map_map]
        exact (List.map_id xs).symm ▸ h
      · intro E I hm
        unfold spectrum at hm ⊢
        obtain ⟨y, hy, he⟩ := List.mem_map.1 hm
        obtain ⟨rfl, rfl⟩ := Prod.mk.inj he
        exact List.mem_map.2 ⟨-y, hs y hy, by simp⟩
    rw [nodes_spectrum xs g (fun _ => 0)] at hi ⊢
    exact nodes_symm hdb c hi
  generalize hN : nodes (spectrum xs g) (-c) c = N at hsym
  have hfm : firstMoment hbar (spectrum xs g) (-c) c = ∑ i ∈ Finset.range (N.length - 1), (Interp.arr N (i + 1) - Interp.arr N i) *
      (momentKernel hbar (spectrum xs g) (-c) c (Interp.arr N (i + 1)) + momentKernel hbar (spectrum xs g) (-c) c (Interp.arr N i)) / 2 := by
    unfold firstMoment
    rw [hN]
  have hrefl : firstMoment hbar (spectrum xs g) (-c) c = ∑ i ∈ Finset.range (N.length - 1), (Interp.arr N (i + 1) - Interp.arr N i) *
      (momentKernel hbar (spectrum xs g) (-c) c (-Interp.arr N (i + 1)) + momentKernel hbar (spectrum xs g) (-c) c (-Interp.arr N i)) / 2 := by
    rw [hfm, ← Finset.sum_range_reflect]
    refine Finset.sum_congr rfl fun i hi => ?_
    have hi' := Finset.mem_range.1 hi
    have a1 := hsym i (by omega)
    have a2 := hsym (i + 1) (by omega)
    rw [show N.length - 1 - 1 - i + 1 = N.length - 1 - i by omega,
      show N.length - 1 - 1 - i = N.length - 1 - (i + 1) by omega, a1, a2]
    ring
  rw [two_mul]
  nth_rewrite 1 [hfm]
  rw [hrefl, ← Finset.sum_add_distrib]
  refine Finset.sum_congr rfl fun i _ => ?_
  ring

/-- On a symmetric axis, a spectrum that is larger at the positive energies, and strictly so at one of them, has a
positive first moment. -/
theorem firstMoment_pos {xs : List ℝ} (h : xs.Nodup) (hs : ∀ x ∈ xs, -x ∈ xs) {hbar : ℝ} (hh : 0 < hbar) {g : ℝ → ℝ}
    (hg : ∀ x ∈ xs, 0 ≤ x → g (-x) ≤ g x) {c : ℝ} (hc : c ∈ xs) (hmax : ∀ x ∈ xs, x ≤ c)
    {x0 : ℝ} (h0 : x0 ∈ xs) (hx0 : 0 < x0) (hlt : g (-x0) < g x0) : 0 < firstMoment hbar (spectrum xs g) (-c) c := by
  have hd : (energies (spectrum xs g)).Nodup := by
    unfold energies spectrum
    rw [List.map_map]
    exact (List.map_id xs).symm ▸ h
  have hval : ∀ x ∈ xs, value (spectrum xs g) x = g x := fun x hx => value_data hd (List.mem_map.2 ⟨x, hx, rfl⟩)
  have key : ∀ x, 0 ≤ momentKernel hbar (spectrum xs g) (-c) c x + momentKernel hbar (spectrum xs g) (-c) c (-x) := by
    intro x
    unfold momentKernel
    by_cases hx : -c ≤ x ∧ x ≤ c
    · rw [if_pos hx, if_pos (show -c ≤ -x ∧ -x ≤ c from ⟨by linarith [hx.2], by linarith [hx.1]⟩)]
      have e : x * value (spectrum xs g) x / hbar + -x * value (spectrum xs g) (-x) / hbar =
          x * (value (spectrum xs g) x - value (spectrum xs g) (-x)) / hbar := by ring
      rw [e]
      refine div_nonneg ?_ hh.le
      rcases le_total 0 x with hx1 | hx1
      · exact mul_nonneg hx1 (sub_nonneg.2 (value_ge_mirror h hs hg hx1 ⟨c, hc, hx.2⟩))
      · have := value_ge_mirror h hs hg (x := -x) (by linarith) ⟨c, hc, by linarith [hx.1]⟩
        rw [neg_neg] at this
        nlinarith
    · rw [if_neg hx, if_neg (show ¬(-c ≤ -x ∧ -x ≤ c) from fun hn => hx ⟨by linarith [hn.2], by linarith [hn.1]⟩), add_zero]
  have hp := firstMoment_pairs h hs hbar g c
  suffices hsuff : 0 < 2 * firstMoment hbar (spectrum xs g) (-c) c by linarith
  rw [hp]
  have hm0 : x0 ∈ nodes (spectrum xs g) (-c) c :=
    (nodes_perm _ (-c) c).mem_iff.2 (List.mem_append_left _ (List.mem_map.2 ⟨(x0, g x0), List.mem_map.2 ⟨x0, h0, rfl⟩, rfl⟩))
  have hlow : -c - small ∈ nodes (spectrum xs g) (-c) c := (nodes_perm _ (-c) c).mem_iff.2 (List.mem_append_right _ (by simp))
  have hc0 : 0 < c := hx0.trans_le (hmax x0 h0)
  obtain ⟨i, hi, hiE, hgap⟩ : ∃ i, i + 1 < (nodes (spectrum xs g) (-c) c).length ∧ Interp.arr (nodes (spectrum xs g) (-c) c) (i + 1) = x0 ∧
      0 < Interp.arr (nodes (spectrum xs g) (-c) c) (i + 1) - Interp.arr (nodes (spectrum xs g) (-c) c) i := by
    classical
    obtain ⟨j, hj, hje⟩ := List.getElem_of_mem hm0
    have hex : ∃ j, ∃ hj : j < (nodes (spectrum xs g) (-c) c).length, (nodes (spectrum xs g) (-c) c)[j] = x0 := ⟨j, hj, hje⟩
    obtain ⟨hk, hke⟩ := Nat.find_spec hex
    have hmin := fun k => Nat.find_min hex (m := k)
    generalize Nat.find hex = k at hk hke hmin
    have hsorted := List.pairwise_iff_getElem.1 (nodes_sorted (spectrum xs g) (-c) c)
    cases k with
    | zero =>
      exfalso
      obtain ⟨l, hl, hle⟩ := List.getElem_of_mem hlow
      have hs := small_pos
      rcases Nat.eq_zero_or_pos l with rfl | hpos
      · rw [hke] at hle; linarith
      · have := hsorted 0 l hk hl hpos
        rw [hke, hle] at this
        linarith
    | succ k =>
      refine ⟨k, hk, by rw [arr_eq _ hk, hke], ?_⟩
      rw [arr_eq _ hk, arr_eq _ (by omega), sub_pos]
      refine lt_of_le_of_ne (hsorted k (k + 1) (by omega) hk (by omega)) fun he => ?_
      exact hmin k (by omega) ⟨by omega, by rw [he, hke]⟩
  refine Finset.sum_pos' (fun j hj => ?_) ⟨i, Finset.mem_range.2 (by omega), ?_⟩
  · have hg' := gap_nonneg (spectrum xs g) (-c) c (Finset.mem_range.1 hj)
    exact div_nonneg (mul_nonneg hg' (add_nonneg (key _) (key _))) (by norm_num)
  · have hpos : 0 < momentKernel hbar (spectrum xs g) (-c) c x0 + momentKernel hbar (spectrum xs g) (-c) c (-x0) := by
      have hxc := hmax x0 h0
      unfold momentKernel
      rw [if_pos (show -c ≤ x0 ∧ x0 ≤ c from ⟨by linarith, hxc⟩), if_pos (show -c ≤ -x0 ∧ -x0 ≤ c from ⟨by linarith, by linarith⟩),
        hval x0 h0, hval (-x0) (hs x0 h0)]
      have e : x0 * g x0 / hbar + -x0 * g (-x0) / hbar = x0 * (g x0 - g (-x0)) / hbar := by ring
      rw [e]
      exact div_pos (mul_pos hx0 (sub_pos.2 hlt)) hh
    rw [hiE] at hgap ⊢
    exact div_pos (mul_pos hgap (add_pos_of_pos_of_nonneg hpos (key _))) (by norm_num)

end Verif.FitRk
