/-
Properties C13 (convolution with the instrument), C42 (sampling of scattering models) and C54
(direction of the energy axis).
-/
import Verif.Lemmas.Setup
import Verif.Props.Interp

set_option autoImplicit false

namespace Verif.Expt

open Real

variable (u : Consts)

/-! ### C13 -/

/-- Channel `j` contributes to channel `i` if it is at most about half a spectrum away. -/
def InWindow (n i j : ℕ) : Prop := (j : ℤ) - i ≤ ((n - 1) / 2 : ℕ) ∧ (i : ℤ) - j ≤ (n / 2 : ℕ)

instance (n i j : ℕ) : Decidable (InWindow n i j) := by unfold InWindow; infer_instance

theorem inWindow_iff (n i j : ℕ) (hn : 0 < n) :
    InWindow n i j ↔ j ≤ i + (n - 1) / 2 ∧ i + (n - 1) / 2 < j + n := by
  unfold InWindow; omega

/-- C13.  The convolved spectrum on an ascending equidistant grid, with an even or odd number of
channels: channel `i` is the sum over the channels `j` of the spectrum times the instrument function at
the distance of the two energies, without any shift.  Only channels further away than half the spectrum
are left out. -/
theorem convolve_formula (s : Setup) (S : List ℝ) (d : ℝ) (hd : 0 < d)
    (h : Equidistant s.measured d) (hn : 2 ≤ s.measured.length)
    (hS : S.length = s.measured.length) (i : ℕ) (hi : i < S.length) :
    (convolve u S s).getD i 0 = ∑ j ∈ Finset.range S.length,
      if InWindow S.length i j then
        S.getD j 0 * s.instrument ((s.measured.getD i 0 - s.measured.getD j 0) / u.hbar) *
          (d / u.hbar)
      else 0 := by
  rw [convolve_entry u s S d h hn hS i hi]
  apply Finset.sum_congr rfl
  intro j hj
  have hj' : j < S.length := Finset.mem_range.1 hj
  simp only [inWindow_iff S.length i j (by omega)]
  split
  · rw [h.get i (hS ▸ hi), h.get j (hS ▸ hj')]
    have hc : centre S.length d = (S.length - 1) / 2 := by
      unfold centre; rw [if_neg]; intro hh; linarith [hh.1]
    rw [hc]
    congr 3
    ring
  · rfl

/-- C13.  For an instrument function that is narrower than half the energy window, no channel is left
out: the result is the complete convolution sum. -/
theorem convolve_complete (s : Setup) (S : List ℝ) (d : ℝ) (hd : 0 < d)
    (h : Equidistant s.measured d) (hn : 2 ≤ s.measured.length)
    (hS : S.length = s.measured.length)
    (hg : ∀ x, S.length * d / 2 / u.hbar ≤ |x| → s.instrument x = 0) (i : ℕ) (hi : i < S.length) :
    (convolve u S s).getD i 0 = ∑ j ∈ Finset.range S.length,
        S.getD j 0 * s.instrument ((s.measured.getD i 0 - s.measured.getD j 0) / u.hbar) *
          (d / u.hbar) := by
  have hb := u.hbar_pos
  rw [convolve_formula u s S d hd h hn hS i hi]
  apply Finset.sum_congr rfl
  intro j hj
  have hj' : j < S.length := Finset.mem_range.1 hj
  split
  · rfl
  · rename_i hw
    rw [hg, mul_zero, zero_mul]
    rw [h.get i (hS ▸ hi), h.get j (hS ▸ hj')]
    have e : (s.measured.getD 0 0 + i * d - (s.measured.getD 0 0 + j * d)) / u.hbar =
        ((((i : ℤ) - j : ℤ) : ℝ) * d) / u.hbar := by push_cast; ring
    rw [e, abs_div, abs_mul, abs_of_pos hb, abs_of_pos hd, ← Int.cast_abs]
    have h2 : (S.length : ℤ) ≤ 2 * |(i : ℤ) - j| := by
      unfold InWindow at hw
      rcases le_total (i : ℤ) j with hle | hle
      · rw [abs_of_nonpos (by omega)]; omega
      · rw [abs_of_nonneg (by omega)]; omega
    have h3 : (S.length : ℝ) ≤ 2 * ((|(i : ℤ) - j| : ℤ) : ℝ) := by exact_mod_cast h2
    apply div_le_div_of_nonneg_right _ hb.le
    nlinarith

/-- C13.  An instrument function that is non-zero at the channel distance zero only, with area one on
the grid, leaves every spectrum unchanged: no shift by a channel for an even or odd number of
channels. -/
theorem convolve_delta (s : Setup) (S : List ℝ) (d : ℝ) (hd : 0 < d)
    (h : Equidistant s.measured d) (hn : 2 ≤ s.measured.length)
    (hS : S.length = s.measured.length) (hg0 : s.instrument 0 * (d / u.hbar) = 1)
    (hg : ∀ m : ℤ, m ≠ 0 → s.instrument (m * d / u.hbar) = 0) : convolve u S s = S := by
  have hlen : (convolve u S s).length = S.length := by simp [convolve, convolveSame]
  apply List.ext_getElem hlen
  intro i h1 h2
  have e := convolve_formula u s S d hd h hn hS i h2
  rw [List.getD_eq_getElem _ _ h1] at e
  rw [e, Finset.sum_eq_single i]
  · rw [if_pos (by unfold InWindow; omega), sub_self, zero_div, mul_assoc, hg0, mul_one,
      List.getD_eq_getElem _ _ h2]
  · intro j hj hne
    have hj' : j < S.length := Finset.mem_range.1 hj
    split
    · rw [h.get i (hS ▸ h2), h.get j (hS ▸ hj')]
      have : (s.measured.getD 0 0 + i * d - (s.measured.getD 0 0 + j * d)) / u.hbar =
          ((i - j : ℤ) : ℝ) * d / u.hbar := by push_cast; ring
      rw [this, hg _ (by omega)]; ring
    · rfl
  · intro hh; simp at hh; omega

/-- C13.  Convolution is linear in the spectrum. -/
theorem convolve_linear (s : Setup) (S T : List ℝ) (a b d : ℝ) (hd : 0 < d)
    (h : Equidistant s.measured d) (hn : 2 ≤ s.measured.length)
    (hS : S.length = s.measured.length) (hT : T.length = s.measured.length) (i : ℕ)
    (hi : i < s.measured.length) :
    (convolve u (List.zipWith (fun x y => a * x + b * y) S T) s).getD i 0 =
      a * (convolve u S s).getD i 0 + b * (convolve u T s).getD i 0 := by
  have hl : (List.zipWith (fun x y => a * x + b * y) S T).length = s.measured.length := by
    simp [hS, hT]
  rw [convolve_formula u s _ d hd h hn hl i (by rw [hl]; exact hi),
    convolve_formula u s S d hd h hn hS i (by rw [hS]; exact hi),
    convolve_formula u s T d hd h hn hT i (by rw [hT]; exact hi), hl, hS, hT, Finset.mul_sum,
    Finset.mul_sum, ← Finset.sum_add_distrib]
  apply Finset.sum_congr rfl
  intro j hj
  have hj' : j < s.measured.length := Finset.mem_range.1 hj
  split
  · rw [List.getD_eq_getElem (l := List.zipWith (fun x y => a * x + b * y) S T) _ (by rw [hl]; exact hj'),
      List.getD_eq_getElem (l := S) _ (by rw [hS]; exact hj'),
      List.getD_eq_getElem (l := T) _ (by rw [hT]; exact hj')]
    simp only [List.getElem_zipWith]
    ring
  · ring

/-- C13.  Non-negative spectra stay non-negative. -/
theorem convolve_nonneg (s : Setup) (S : List ℝ) (d : ℝ) (hd : 0 < d)
    (h : Equidistant s.measured d) (hn : 2 ≤ s.measured.length)
    (hS : S.length = s.measured.length) (hg : ∀ x, 0 ≤ s.instrument x) (hpos : ∀ j, 0 ≤ S.getD j 0)
    (i : ℕ) (hi : i < S.length) : 0 ≤ (convolve u S s).getD i 0 := by
  rw [convolve_formula u s S d hd h hn hS i hi]
  apply Finset.sum_nonneg
  intro j _
  split
  · exact mul_nonneg (mul_nonneg (hpos j) (hg _)) (div_nonneg hd.le u.hbar_pos.le)
  · exact le_rfl

/-- C13.  A single line at channel `c` appears as the instrument function around the energy of this
channel. -/
theorem convolve_line (s : Setup) (S : List ℝ) (d A : ℝ) (c : ℕ) (hd : 0 < d)
    (h : Equidistant s.measured d) (hn : 2 ≤ s.measured.length)
    (hS : S.length = s.measured.length) (hc : c < S.length)
    (hline : ∀ j, S.getD j 0 = if j = c then A else 0) (i : ℕ) (hi : i < S.length)
    (hw : InWindow S.length i c) :
    (convolve u S s).getD i 0 =
      A * s.instrument ((s.measured.getD i 0 - s.measured.getD c 0) / u.hbar) * (d / u.hbar) := by
  rw [convolve_formula u s S d hd h hn hS i hi, Finset.sum_eq_single c]
  · rw [if_pos hw, hline, if_pos rfl]
  · intro j _ hne
    rw [hline, if_neg hne]; simp
  · intro hh; simp at hh; omega

/-! ### C54 -/

/-- C54.  On a descending grid with an odd number of channels the convolved spectrum has the wrong
sign: it is minus the sum over the channels. -/
theorem convolve_descending_odd (s : Setup) (S : List ℝ) (d : ℝ)
    (h : Equidistant s.measured (-d)) (hn : 2 ≤ s.measured.length)
    (hS : S.length = s.measured.length) (hodd : S.length % 2 = 1) (i : ℕ) (hi : i < S.length) :
    (convolve u S s).getD i 0 = -∑ j ∈ Finset.range S.length,
      if InWindow S.length i j then
        S.getD j 0 * s.instrument ((s.measured.getD i 0 - s.measured.getD j 0) / u.hbar) *
          (d / u.hbar)
      else 0 := by
  rw [convolve_entry u s S (-d) h hn hS i hi, ← Finset.sum_neg_distrib]
  apply Finset.sum_congr rfl
  intro j hj
  have hj' : j < S.length := Finset.mem_range.1 hj
  simp only [inWindow_iff S.length i j (by omega)]
  split
  · rw [h.get i (hS ▸ hi), h.get j (hS ▸ hj')]
    have hc : centre S.length (-d) = (S.length - 1) / 2 := by
      unfold centre; rw [if_neg]; omega
    rw [hc]
    have e : ((i : ℝ) + ((S.length - 1) / 2 : ℕ) - j - ((S.length - 1) / 2 : ℕ)) * (-d / u.hbar) =
      (s.measured.getD 0 0 + i * -d - (s.measured.getD 0 0 + j * -d)) / u.hbar := by ring
    rw [e]; ring
  · ring

/-- C54.  On a descending grid with an even number of channels the convolved spectrum has the wrong
sign and is shifted by one channel: the instrument function is centred at the energy of channel
`j + 1`. -/
theorem convolve_descending_even (s : Setup) (S : List ℝ) (d : ℝ) (hd : 0 < d)
    (h : Equidistant s.measured (-d)) (hn : 2 ≤ s.measured.length)
    (hS : S.length = s.measured.length) (heven : S.length % 2 = 0) (i : ℕ) (hi : i < S.length) :
    (convolve u S s).getD i 0 = -∑ j ∈ Finset.range S.length,
      if InWindow S.length i j then
        S.getD j 0 * s.instrument ((s.measured.getD i 0 - (s.measured.getD j 0 - d)) / u.hbar) *
          (d / u.hbar)
      else 0 := by
  rw [convolve_entry u s S (-d) h hn hS i hi, ← Finset.sum_neg_distrib]
  apply Finset.sum_congr rfl
  intro j hj
  have hj' : j < S.length := Finset.mem_range.1 hj
  simp only [inWindow_iff S.length i j (by omega)]
  split
  · rw [h.get i (hS ▸ hi), h.get j (hS ▸ hj')]
    have hc : ((centre S.length (-d) : ℕ) : ℝ) = ((S.length - 1) / 2 : ℕ) + 1 := by
      unfold centre; rw [if_pos ⟨by linarith, heven⟩]
      exact_mod_cast (by omega : S.length / 2 = (S.length - 1) / 2 + 1)
    rw [hc]
    have e : ((i : ℝ) + ((S.length - 1) / 2 : ℕ) - j - (((S.length - 1) / 2 : ℕ) + 1)) *
        (-d / u.hbar) =
      (s.measured.getD 0 0 + i * -d - (s.measured.getD 0 0 + j * -d - d)) / u.hbar := by ring
    rw [e]; ring
  · ring

/-- C54.  So non-negative spectra become non-positive on every descending grid. -/
theorem convolve_descending_nonpos (s : Setup) (S : List ℝ) (d : ℝ) (hd : 0 < d)
    (h : Equidistant s.measured (-d)) (hn : 2 ≤ s.measured.length)
    (hS : S.length = s.measured.length) (hg : ∀ x, 0 ≤ s.instrument x) (hpos : ∀ j, 0 ≤ S.getD j 0)
    (i : ℕ) (hi : i < S.length) : (convolve u S s).getD i 0 ≤ 0 := by
  have hb := u.hbar_pos
  rcases Nat.mod_two_eq_zero_or_one S.length with h0 | h0
  · rw [convolve_descending_even u s S d hd h hn hS h0 i hi, neg_nonpos]
    apply Finset.sum_nonneg
    intro j _
    split
    · exact mul_nonneg (mul_nonneg (hpos j) (hg _)) (div_nonneg hd.le hb.le)
    · exact le_rfl
  · rw [convolve_descending_odd u s S d h hn hS h0 i hi, neg_nonpos]
    apply Finset.sum_nonneg
    intro j _
    split
    · exact mul_nonneg (mul_nonneg (hpos j) (hg _)) (div_nonneg hd.le hb.le)
    · exact le_rfl

/-- C54.  The energy axis cannot be reversed: for an odd number of channels, reversing the grid and the
spectrum gives the negative of the reversed result, for every spectrum and instrument function.
(Partial: the sign is wrong, and for an even number of channels the result is also shifted, see `convolve_descending_even`.) -/
theorem convolve_reverse_odd_partial (s : Setup) (S : List ℝ) (d : ℝ) (hd : 0 < d)
    (h : Equidistant s.measured d) (hn : 2 ≤ s.measured.length)
    (hS : S.length = s.measured.length) (hodd : S.length % 2 = 1) (i : ℕ) (hi : i < S.length) :
    (convolve u S.reverse { s with measured := s.measured.reverse }).getD i 0 =
      -(convolve u S s).getD (S.length - 1 - i) 0 := by
  have hrev : ∀ (l : List ℝ) (i : ℕ), i < l.length → l.reverse.getD i 0 = l.getD (l.length - 1 - i) 0 := by
    intro l i hi
    rw [List.getD_eq_getElem _ _ (by simpa using hi), List.getElem_reverse,
      List.getD_eq_getElem _ _ (by omega)]
  have hE : Equidistant s.measured.reverse (-d) := by
    intro i hi
    rw [List.length_reverse] at hi
    rw [hrev _ _ hi, hrev _ _ (by omega)]
    have := h (s.measured.length - 1 - (i + 1)) (by omega)
    rw [show s.measured.length - 1 - (i + 1) + 1 = s.measured.length - 1 - i by omega] at this
    rw [this]; ring
  rw [convolve_descending_odd u _ S.reverse d hE (by simpa using hn) (by simpa using hS)
    (by simpa using hodd) i (by simpa using hi), convolve_formula u s S d hd h hn hS _ (by omega)]
  congr 1
  rw [List.length_reverse, ← Finset.sum_range_reflect]
  apply Finset.sum_congr rfl
  intro j hj
  have hj' : j < S.length := Finset.mem_range.1 hj
  have hw : InWindow S.length i (S.length - 1 - j) ↔ InWindow S.length (S.length - 1 - i) j := by
    unfold InWindow; omega
  simp only [hw]
  split
  · rw [hrev S _ (by omega), hrev s.measured i (by omega), hrev s.measured _ (by omega), ← hS,
      show S.length - 1 - (S.length - 1 - j) = j by omega]
  · rfl

/-! ### C42 -/

/-- The nodes of the sampling grid, with `m` points from the first to the last measured energy. -/
theorem sampleGrid_node (s : Setup) (m j : ℕ) (hj : j < m) :
    (sampleGrid s m).getD j 0 = s.measured.getD 0 0 +
      j * ((s.measured.getD (s.measured.length - 1) 0 - s.measured.getD 0 0) / ((m : ℝ) - 1)) := by
  unfold sampleGrid linspace
  rw [getD_map_range, if_pos hj]

theorem sampleGrid_length (s : Setup) (m : ℕ) : (sampleGrid s m).length = m := by
  simp [sampleGrid, linspace]

theorem sampleGrid_increasing (s : Setup) (m : ℕ) (hm : 2 ≤ m)
    (h : s.measured.getD 0 0 < s.measured.getD (s.measured.length - 1) 0) :
    Interp.Increasing m (Interp.arr (sampleGrid s m)) := by
  intro i hi
  have h2 : (2 : ℝ) ≤ m := by exact_mod_cast hm
  unfold Interp.arr
  rw [sampleGrid_node s m i (by omega), sampleGrid_node s m (i + 1) hi]
  have : 0 < (s.measured.getD (s.measured.length - 1) 0 - s.measured.getD 0 0) / ((m : ℝ) - 1) :=
    div_pos (by linarith) (by linarith)
  push_cast
  linarith

theorem interpLR_at_node (n : ℕ) (xp fp : ℕ → ℝ) (l r : ℝ) (h : Interp.Increasing n xp) (i : ℕ)
    (hi : i < n) : Interp.interpLR n xp fp l r (xp i) = fp i := by
  have := Interp.interp_at_node n xp fp h i hi
  unfold Interp.interp Interp.interpLR at this
  have h1 : ¬ xp (n - 1) < xp i := not_lt.2 (h.le (by omega) (by omega))
  have h2 : ¬ xp i < xp 0 := not_lt.2 (h.le (Nat.zero_le i) hi)
  rw [if_neg h1, if_neg h2] at this
  unfold Interp.interpLR
  rw [if_neg h1, if_neg h2, this]

/-- A model that works channel by channel: each value depends on the scattering angle, the photon
energy, the switch for dispersion and the energy of the channel. -/
def ChannelWise (ev : Setup → List ℝ) : Prop :=
  ∃ f : ℝ → ℝ → Bool → ℝ → ℝ, ∀ s, ev s = s.measured.map (f s.angle s.energy s.correctK)

/-- C42 in part.  With the default of `correct_k_dispersion`, sampling gives the same value in all
channels that coincide with a sampling point.  Missing: setups with `correct_k_dispersion` switched
off, see `sampling_ignores_dispersion_switch`. -/
theorem sampling_at_nodes_partial (ev : Setup → List ℝ) (hev : ChannelWise ev) (s : Setup)
    (hs : s.correctK = true) (m : ℕ) (hm : 2 ≤ m)
    (hasc : s.measured.getD 0 0 < s.measured.getD (s.measured.length - 1) 0) (i j : ℕ)
    (hi : i < s.measured.length) (hj : j < m)
    (hij : s.measured.getD i 0 = (sampleGrid s m).getD j 0) :
    (rawSpectrum ev (some m) s).getD i 0 = (rawSpectrum ev none s).getD i 0 := by
  obtain ⟨f, hf⟩ := hev
  have hlen := sampleGrid_length s m
  have hinc := sampleGrid_increasing s m hm hasc
  unfold rawSpectrum
  simp only
  rw [hf, hf, List.getD_eq_getElem _ _ (by simpa using hi), List.getD_eq_getElem _ _ (by simpa using hi)]
  rw [List.getD_eq_getElem _ _ hi] at hij
  have key : Interp.interpLR (sampleGrid s m).length (Interp.arr (sampleGrid s m))
      (Interp.arr (List.map (f s.angle s.energy true) (sampleGrid s m))) 0 0 s.measured[i] =
      f s.angle s.energy true s.measured[i] := by
    rw [hlen, hij]
    change Interp.interpLR m (Interp.arr (sampleGrid s m)) _ 0 0 (Interp.arr (sampleGrid s m) j) = _
    rw [interpLR_at_node m _ _ 0 0 hinc j hj]
    unfold Interp.arr
    rw [List.getD_eq_getElem _ _ (by simpa [hlen] using hj),
      List.getD_eq_getElem _ _ (by rw [hlen]; exact hj)]
    simp
  simpa only [List.getElem_map, lowRes, mkSetup, hs] using key

/-- C42 in part.  On an equidistant ascending grid, sampling with as many points as channels changes
nothing, for models that work channel by channel and the default of `correct_k_dispersion`. -/
theorem sampling_all_channels_partial (ev : Setup → List ℝ) (hev : ChannelWise ev) (s : Setup)
    (hs : s.correctK = true) (d : ℝ) (hd : 0 < d) (h : Equidistant s.measured d)
    (hn : 2 ≤ s.measured.length) :
    evaluate u ev (some s.measured.length) s = evaluate u ev none s := by
  have hlast := h.get (s.measured.length - 1) (by omega)
  have hn' : (2 : ℝ) ≤ s.measured.length := by exact_mod_cast hn
  have hcast : ((s.measured.length - 1 : ℕ) : ℝ) = (s.measured.length : ℝ) - 1 := by
    rw [Nat.cast_sub (by omega)]; simp
  have e : rawSpectrum ev (some s.measured.length) s = rawSpectrum ev none s := by
    have hl1 : (rawSpectrum ev (some s.measured.length) s).length = s.measured.length := by
      simp [rawSpectrum]
    have hl2 : (rawSpectrum ev none s).length = s.measured.length := by
      obtain ⟨f, hf⟩ := hev
      simp [rawSpectrum, hf]
    apply List.ext_getElem (by rw [hl1, hl2])
    intro i h1 h2
    rw [← List.getD_eq_getElem _ 0 h1, ← List.getD_eq_getElem _ 0 h2]
    have hi : i < s.measured.length := by rw [← hl1]; exact h1
    apply sampling_at_nodes_partial ev hev s hs _ hn _ i i hi hi
    · rw [sampleGrid_node s _ i hi, h.get i hi, hlast, hcast]
      congr 2
      have : (s.measured.length : ℝ) - 1 ≠ 0 := by linarith
      field_simp
      ring
    · rw [hlast, hcast]; nlinarith
  unfold evaluate
  rw [e]

/-- C42.  A sampled model does not see `correct_k_dispersion`: for every model and every setup the
sampled spectrum is the one with the switch on. -/
theorem sampling_ignores_dispersion_switch (ev : Setup → List ℝ) (s : Setup) (m : ℕ) (b : Bool) :
    rawSpectrum ev (some m) { s with correctK := b } = rawSpectrum ev (some m) s := rfl

/-- C42.  The property is false in general: the model that returns the wave number of each channel,
sampled at all three channels of a setup for back scattering with `correct_k_dispersion` off, gives
another result than without sampling. -/
theorem sampling_changes_physics :
    ∃ (ev : Setup → List ℝ) (s : Setup), ChannelWise ev ∧ Equidistant s.measured 1 ∧
      s.measured.length = 3 ∧ s.correctK = false ∧
      rawSpectrum ev (some 3) s ≠ rawSpectrum ev none s := by
  let u : Consts :=
    ⟨1, 1, 1, 1, 1, 1, by norm_num, by norm_num, by norm_num, by norm_num, by norm_num, by norm_num⟩
  let s : Setup := mkSetup π 2 [1, 2, 3] (fun _ => 0) false
  have hE : Equidistant s.measured 1 := by
    intro i hi
    simp [s, mkSetup] at hi
    rcases i with _ | _ | i
    · simp [s, mkSetup]; norm_num
    · simp [s, mkSetup]; norm_num
    · omega
  refine ⟨fun s => s.fullK u, s, ?_, hE, rfl, rfl, ?_⟩
  · refine ⟨fun a e b E => if b then transfer (e / u.hbar / u.c) (E / u.hbar / u.c) a else
      4 * π / (2 * π * u.hbar * u.c / e) * sin (a / 2), fun s => ?_⟩
    simp [Setup.fullK, Setup.k, Setup.lambda0]
  · intro h
    have h1 := congrArg (fun l => List.getD l 0 0) h
    have hpar := sampling_at_nodes_partial (fun s => s.fullK u) ⟨fun a e b E =>
      if b then transfer (e / u.hbar / u.c) (E / u.hbar / u.c) a else
      4 * π / (2 * π * u.hbar * u.c / e) * sin (a / 2), fun s => by
        simp [Setup.fullK, Setup.k, Setup.lambda0]⟩ { s with correctK := true } rfl 3 (by norm_num)
      (by simp [s, mkSetup]) 0 0 (by simp [s, mkSetup]) (by norm_num)
      (by rw [sampleGrid_node _ 3 0 (by norm_num)]; simp [s, mkSetup])
    rw [sampling_ignores_dispersion_switch] at hpar
    rw [hpar] at h1
    have a1 : (rawSpectrum (fun s => s.fullK u) none { s with correctK := true }).getD 0 0 = 3 := by
      simp only [rawSpectrum, Setup.fullK, s, mkSetup, u]
      simp [transfer]
      rw [show (1 : ℝ) + 2 ^ 2 + 2 * 2 = 3 ^ 2 by norm_num]
      exact sqrt_sq (by norm_num)
    have a2 : (rawSpectrum (fun s => s.fullK u) none s).getD 0 0 = 4 := by
      simp only [rawSpectrum, Setup.fullK, s, mkSetup, u, Setup.k, Setup.lambda0]
      simp
    rw [a1, a2] at h1
    norm_num at h1

/-- C42.  The frequency redistribution is that of the measured energies, with and without sampling. -/
theorem sampling_keeps_redistribution (ev : Setup → List ℝ) (s : Setup) (m : Option ℕ) :
    evaluate u ev m s = List.zipWith (fun c E => c * (E / s.energy) ^ s.frc)
      (convolve u (rawSpectrum ev m s) s) s.measured := by
  unfold evaluate Setup.frequencyRedistribution
  rw [List.zipWith_map_right]

/-- The hypotheses of the theorems on convolution are met by a grid with four channels and a box of
the width of one channel. -/
example (S : List ℝ) (hS : S.length = 4) :
    convolve ⟨1, 1, 1, 1, 1, 1, by norm_num, by norm_num, by norm_num, by norm_num, by norm_num,
      by norm_num⟩ S (mkSetup 1 1 [5, 7, 9, 11] fun x => if |x| < 1 then 1 / 2 else 0) = S := by
  apply convolve_delta _ _ S 2 (by norm_num)
  · intro i hi
    simp [mkSetup] at hi
    rcases i with _ | _ | _ | i
    · simp [mkSetup]; norm_num
    · simp [mkSetup]; norm_num
    · simp [mkSetup]; norm_num
    · omega
  · simp [mkSetup]
  · simp [mkSetup, hS]
  · simp [mkSetup]
  · intro m hm
    simp only [mkSetup]
    rw [if_neg]
    rw [div_one, abs_mul, abs_two, ← Int.cast_abs, not_lt]
    have : (1 : ℝ) ≤ ((|m| : ℤ) : ℝ) := by exact_mod_cast Int.one_le_abs hm
    linarith

end Verif.Expt
