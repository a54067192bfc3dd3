/-
Property C27, from a setup: the spectrum which the code calculates for a setup, analysed with the same setup, gives the
temperature of the structure factor, whatever the shape of the instrument function.
-/
import Verif.Props.ItcfGrid
import Verif.Props.Convolution
import Verif.Props.Setup

set_option autoImplicit false

namespace Verif.Itcf

open Real

/-- Channels with a distance `h` around the energy of the source, `K` of them on each side. -/
def Centred (s : Expt.Setup) (h : ℝ) (K : ℕ) : Prop :=
  s.measured = (List.range (2 * K + 1)).map fun i : ℕ => s.energy + ((i : ℝ) - K) * h

/-- The structure factor on these channels, as a list: `f k` for a photon which has lost the energy `k h`. -/
def channels (K : ℕ) (f : ℤ → ℝ) : List ℝ := (List.range (2 * K + 1)).map fun i : ℕ => f ((K : ℤ) - i)

/-- The instrument function at the energy loss `l h`. -/
noncomputable def lossInstrument (u : Expt.Consts) (s : Expt.Setup) (h : ℝ) (l : ℤ) : ℝ := s.instrument (-(l * h) / u.hbar)

variable {u : Expt.Consts} {s : Expt.Setup} {h : ℝ} {K : ℕ}

theorem Centred.length (hs : Centred s h K) : s.measured.length = 2 * K + 1 := by rw [hs]; simp

theorem Centred.get (hs : Centred s h K) {i : ℕ} (hi : i < 2 * K + 1) :
    s.measured.getD i 0 = s.energy + ((i : ℝ) - K) * h := by
  rw [List.getD_eq_getElem _ _ (by rw [hs.length]; exact hi)]
  rw [List.getElem_of_eq hs]
  simp

theorem Centred.equidistant (hs : Centred s h K) : Expt.Equidistant s.measured h := by
  intro i hi
  rw [hs.length] at hi
  rw [hs.get hi, hs.get (by omega)]
  push_cast
  ring

/-- Energies of a centred setup paired with values: the reversed grid. -/
theorem zip_shifts (hs : Centred s h K) (f : ℤ → ℝ) :
    (shifts s).zip (channels K f) = (gridData h K f).reverse := by
  have hl : (shifts s).length = 2 * K + 1 := by rw [shifts, List.length_map, hs.length]
  apply List.ext_getElem
  · simp [hl, channels, gridData_length]
  · intro i h1 h2
    have hi : i < 2 * K + 1 := by simpa [gridData_length] using h2
    rw [List.getElem_zip, List.getElem_reverse, gridData_getElem]
    have e : ((((gridData h K f).length - 1 - i : ℕ) : ℤ) - K : ℤ) = (K : ℤ) - i := by
      rw [gridData_length]; omega
    rw [e]
    have hm := hs.get hi
    rw [List.getD_eq_getElem _ _ (by rw [hs.length]; exact hi)] at hm
    simp only [shifts, channels, List.getElem_map, List.getElem_range, hm]
    congr 1
    push_cast
    ring

theorem laplace_shifts (hh : 0 < h) (hs : Centred s h K) (f : ℤ → ℝ) (hbar tau a b : ℝ) :
    laplace hbar ((shifts s).zip (channels K f)) tau a b = laplace hbar (gridData h K f) tau a b := by
  rw [zip_shifts hs]
  symm
  exact laplace_of_perm (List.reverse_perm _).symm (gridData_nodup hh K f) hbar tau a b

/-- The instrument function which the analysis uses is the one at the energy losses. -/
theorem instrumentAt_eq (hs : Centred s h K) : instrumentAt u s = channels K (lossInstrument u s h) := by
  have hl : (shifts s).length = 2 * K + 1 := by rw [shifts, List.length_map, hs.length]
  apply List.ext_getElem
  · simp [instrumentAt, hl, channels]
  · intro i h1 h2
    have hi : i < 2 * K + 1 := by simpa [channels] using h2
    have hm := hs.get hi
    rw [List.getD_eq_getElem _ _ (by rw [hs.length]; exact hi)] at hm
    simp only [instrumentAt, shifts, channels, List.getElem_map, List.getElem_range, hm, lossInstrument]
    congr 2
    push_cast
    ring

/-- The spectrum which the code calculates is, as a function of the energy loss, the convolution of the structure
factor with the instrument function. -/
theorem convolve_eq (hh : 0 < h) (hK : 0 < K) (hs : Centred s h K) {f : ℤ → ℝ} {N M : ℕ} (hNM : N + M ≤ K)
    (hf : ∀ k : ℤ, (N : ℤ) < |k| → f k = 0) (hg : ∀ l : ℤ, (M : ℤ) ≤ |l| → lossInstrument u s h l = 0) :
    Expt.convolve u (channels K f) s = channels K (convolved h u.hbar N f (lossInstrument u s h)) := by
  have hlen : (channels K f).length = 2 * K + 1 := by simp [channels]
  apply List.ext_getElem
  · simp [Expt.convolve, Expt.convolveSame, channels]
  · intro i h1 h2
    have hi : i < 2 * K + 1 := by simpa [channels] using h2
    have e := Expt.convolve_formula u s (channels K f) h hh hs.equidistant (by rw [hs.length]; omega)
      (by rw [hlen, hs.length]) i (by rw [hlen]; exact hi)
    rw [List.getD_eq_getElem _ _ h1] at e
    have er : (channels K (convolved h u.hbar N f (lossInstrument u s h)))[i] =
        convolved h u.hbar N f (lossInstrument u s h) ((K : ℤ) - i) := by simp [channels]
    simp only [hlen] at e
    rw [e, er, convolved]
    have term : ∀ j ∈ Finset.range (2 * K + 1),
        (if Expt.InWindow (2 * K + 1) i j then
          (channels K f).getD j 0 * s.instrument ((s.measured.getD i 0 - s.measured.getD j 0) / u.hbar) * (h / u.hbar)
        else 0) = h / u.hbar * (fun l : ℤ => f (-l) * lossInstrument u s h ((K : ℤ) - i + l)) ((j : ℤ) - K) := by
      intro j hj
      have hj' : j < 2 * K + 1 := Finset.mem_range.1 hj
      have hjf : (channels K f).getD j 0 = f ((K : ℤ) - j) := by
        rw [List.getD_eq_getElem _ _ (by rw [hlen]; exact hj')]
        simp [channels]
      have hin : s.instrument ((s.measured.getD i 0 - s.measured.getD j 0) / u.hbar) =
          lossInstrument u s h ((K : ℤ) - i + ((j : ℤ) - K)) := by
        rw [hs.get hi, hs.get hj', lossInstrument]
        congr 2
        push_cast
        ring
      beta_reduce
      rw [hjf, hin, neg_sub]
      split
      · ring
      · rename_i hw
        rw [hg, mul_zero, mul_zero]
        unfold Expt.InWindow at hw
        rcases le_total (j : ℤ) i with hle | hle
        · rw [abs_of_nonpos (by omega)]; omega
        · rw [abs_of_nonneg (by omega)]; omega
    rw [Finset.sum_congr rfl term, ← Finset.mul_sum]
    congr 1
    rw [sum_grid K fun l : ℤ => f (-l) * lossInstrument u s h ((K : ℤ) - i + l)]
    have hNK : Finset.Icc (-(N : ℤ)) N ⊆ Finset.Icc (-(K : ℤ)) K := by
      intro k hk
      have := Finset.mem_Icc.1 hk
      exact Finset.mem_Icc.2 ⟨by omega, by omega⟩
    rw [← Finset.sum_subset hNK fun k _ hk => ?_]
    · refine Finset.sum_nbij' (fun k => -k) (fun k => -k) ?_ ?_ ?_ ?_ ?_
      · intro k hk
        have := Finset.mem_Icc.1 hk
        exact Finset.mem_Icc.2 ⟨by omega, by omega⟩
      · intro k hk
        have := Finset.mem_Icc.1 hk
        exact Finset.mem_Icc.2 ⟨by omega, by omega⟩
      · intro k _; omega
      · intro k _; omega
      · intro k _
        rw [sub_neg_eq_add]
    · rw [hf, zero_mul]
      rw [abs_neg]
      by_contra hc
      push Not at hc
      exact hk (Finset.mem_Icc.2 (abs_le.1 hc))

/-- The transform of a function on a grid beyond its support. -/
theorem laplace_extend (hh : 0 < h) {M : ℕ} (hM : M ≤ K) {g : ℤ → ℝ} (hg : ∀ l : ℤ, (M : ℤ) ≤ |l| → g l = 0) {c : ℝ}
    (hc : K * h + small ≤ c) (hbar tau : ℝ) :
    laplace hbar (gridData h K g) tau (-c) c = laplace hbar (gridData h M g) tau (-c) c := by
  have hMK : (M : ℝ) * h ≤ K * h := mul_le_mul_of_nonneg_right (by exact_mod_cast hM) hh.le
  rw [laplace_grid hh ⟨hg _ (by simpa using hM), hg _ (by simpa using hM)⟩ hc,
    laplace_grid hh ⟨hg _ (by simp), hg _ (by simp)⟩ (by linarith)]
  congr 1
  symm
  apply Finset.sum_subset
  · intro k hk
    have := Finset.mem_Icc.1 hk
    exact Finset.mem_Icc.2 ⟨by omega, by omega⟩
  · intro k _ hk
    rw [hg, zero_mul]
    by_contra hc
    push Not at hc
    exact hk (Finset.mem_Icc.2 (abs_le.1 hc.le))

/-- C27: the function of imaginary time which the code gets from the spectrum of a setup, deconvolved, is the transform of the
structure factor itself. -/
theorem fromSetup_F (hh : 0 < h) (hs : Centred s h K) {f : ℤ → ℝ} {N M : ℕ} (hM : 0 < M) (hNM : N + M ≤ K)
    (hf : ∀ k : ℤ, (N : ℤ) ≤ |k| → f k = 0) (hg : ∀ l : ℤ, (M : ℤ) ≤ |l| → lossInstrument u s h l = 0)
    (hgpos : ∀ l, 0 ≤ lossInstrument u s h l) (hg0 : 0 < s.instrument 0) {c : ℝ} (hc : K * h + small ≤ c) (tau : ℝ) :
    (fromSetup u (Expt.convolve u (channels K f) s) s c false).F u.hbar tau =
      h / u.hbar * ∑ k ∈ Finset.Icc (-(N : ℤ)) N, f k * exp (-tau * (k * h)) := by
  have hb := u.hbar_pos
  have hs' := small_pos
  have hNK : (N : ℝ) * h ≤ K * h := mul_le_mul_of_nonneg_right (by exact_mod_cast (by omega : N ≤ K)) hh.le
  have hMK : (M : ℝ) * h ≤ K * h := mul_le_mul_of_nonneg_right (by exact_mod_cast (by omega : M ≤ K)) hh.le
  simp only [ITCF.F, fromSetup, Bool.false_eq_true, if_false]
  rw [convolve_eq hh (by omega) hs hNM (fun k hk => hf k hk.le) hg, instrumentAt_eq hs, laplace_shifts hh hs, laplace_shifts hh hs,
    laplace_extend hh (by omega) hg hc,
    laplace_convolved hh ⟨hf _ (by simp), hf _ (by simp)⟩ hg hNM hc, mul_div_assoc, div_self, mul_one,
    laplace_grid hh ⟨hf _ (by simp), hf _ (by simp)⟩ (by linarith)]
  rw [laplace_grid hh ⟨hg _ (by simp), hg _ (by simp)⟩ (by linarith)]
  refine (mul_pos (div_pos hh hb) ?_).ne'
  refine Finset.sum_pos' (fun k _ => mul_nonneg (hgpos k) (exp_pos _).le) ⟨0, Finset.mem_Icc.2 ⟨by omega, by omega⟩, ?_⟩
  refine mul_pos ?_ (exp_pos _)
  simpa [lossInstrument] using hg0

/-- C27, from end to end: the spectrum which the code calculates for a setup (convolution included) from a structure factor
in detailed balance is analysed with `ITCFT_grid` and the same setup.  The temperature is found exactly, for
instrument functions of any shape, symmetric or not. -/
theorem itcftGrid_exact_partial (hh : 0 < h) (hs : Centred s h K) {f : ℤ → ℝ} {N M : ℕ} (hM : 0 < M) (hNM : N + M ≤ K)
    {beta : ℝ} (hbal : ∀ k : ℤ, f (-k) = exp (-beta * (k * h)) * f k) (hpos : ∀ k, 0 ≤ f k)
    (hf : ∀ k : ℤ, (N : ℤ) ≤ |k| → f k = 0) {k0 : ℤ} (hk0 : k0 ≠ 0) (hk0f : 0 < f k0)
    (hg : ∀ l : ℤ, (M : ℤ) ≤ |l| → lossInstrument u s h l = 0) (hgpos : ∀ l, 0 ≤ lossInstrument u s h l)
    (hg0 : 0 < s.instrument 0) {c : ℝ} (hc : K * h + small ≤ c) {tau : List ℝ} (hn : tau.Nodup) (ht : beta / 2 ∈ tau) :
    itcftGrid u (Expt.convolve u (channels K f) s) tau s c = 1 / (beta * u.kB) := by
  have hk0N : |k0| ≤ (N : ℤ) := by
    by_contra hk
    push Not at hk
    exact hk0f.ne' (hf k0 hk.le)
  have := thermometry_partial (kB := u.kB) hh u.hbar_pos hbal hpos (hf _ (by simp)) hk0 hk0N hk0f hg hgpos
    (by simpa [lossInstrument] using hg0) hNM hc hn ht
  rw [← this, itcftGrid, convolve_eq hh (by omega) hs hNM (fun k hk => hf k hk.le) hg, instrumentAt_eq hs]
  simp only [gridT, laplace_shifts hh hs, laplace_extend hh (show M ≤ K by omega) hg hc]

/-- A case with an instrument function which is not symmetric. -/
example : itcftGrid Expt.unitConsts
    (Expt.convolve Expt.unitConsts (channels 5 fun k => if |k| ≤ 1 then exp (k / 2) else 0)
      ⟨1, 100, (List.range 11).map fun i : ℕ => 100 + ((i : ℝ) - (5 : ℕ)) * 1, fun x => if x = 0 then 2 else if x = 1 then 1 else 0, true, 0⟩)
    [1 / 4, 1 / 2, 3 / 4]
      ⟨1, 100, (List.range 11).map fun i : ℕ => 100 + ((i : ℝ) - (5 : ℕ)) * 1, fun x => if x = 0 then 2 else if x = 1 then 1 else 0, true, 0⟩
    6 = 1 / (1 * Expt.unitConsts.kB) := by
  refine itcftGrid_exact_partial (K := 5) (N := 2) (M := 2) (k0 := 1) (beta := 1) one_pos ?_ (by norm_num) (by norm_num) ?_ ?_ ?_
    one_ne_zero ?_ ?_ ?_ ?_ ?_ ?_ ?_
  · simp [Centred]
  · intro k
    simp only [abs_neg]
    split_ifs
    · rw [← exp_add]; congr 1; push_cast; ring
    · ring
  · intro k
    split_ifs
    · exact (exp_pos _).le
    · exact le_rfl
  · intro k hk
    rw [if_neg]
    have : ((2 : ℕ) : ℤ) = 2 := rfl
    omega
  · norm_num [exp_pos]
  · intro l hl
    have h2 : ((2 : ℕ) : ℤ) = 2 := rfl
    have h0 : l ≠ 0 := by rintro rfl; simp at hl
    have h1 : l ≠ -1 := by rintro rfl; simp at hl
    simp only [lossInstrument, Expt.unitConsts, mul_one, div_one]
    rw [if_neg (by simpa using h0), if_neg]
    intro he
    exact h1 (by exact_mod_cast (by linarith : (l : ℝ) = -1))
  · intro l
    simp only [lossInstrument]
    split_ifs <;> norm_num
  · norm_num
  · unfold small; norm_num
  · norm_num
  · norm_num

/-- C27, `ITCFT`: with the spectrum which the code calculates for a setup, the temperature is the one of the search for the
extremum of the transform of the structure factor itself: the instrument function has no influence, whatever its shape.  With
`raw=True` it is the one of the transform of the spectrum as it is. -/
theorem itcft_deconvolved (hh : 0 < h) (hs : Centred s h K) {f : ℤ → ℝ} {N M : ℕ} (hM : 0 < M) (hNM : N + M ≤ K)
    (hf : ∀ k : ℤ, (N : ℤ) ≤ |k| → f k = 0) (hg : ∀ l : ℤ, (M : ℤ) ≤ |l| → lossInstrument u s h l = 0)
    (hgpos : ∀ l, 0 ≤ lossInstrument u s h l) (hg0 : 0 < s.instrument 0) {c : ℝ} (hc : K * h + small ≤ c) (tauMax T : ℝ) :
    (Itcft u (Expt.convolve u (channels K f) s) tauMax s c false T ↔
      ∃ sol i, Secant (fun t => h / u.hbar * ∑ k ∈ Finset.Icc (-(N : ℤ)) N, f k * exp (-(t / 1000) * (k * h)))
        (1 / 100000000) (1000 * tauMax) (1 / 10000000) 100000 sol i ∧ T = 1 / (2 * (sol / 1000) * u.kB)) ∧
    (Itcft u (channels K f) tauMax s c true T ↔
      ∃ sol i, Secant (fun t => h / u.hbar * ∑ k ∈ Finset.Icc (-(K : ℤ)) K, f k * exp (-(t / 1000) * (k * h)))
        (1 / 100000000) (1000 * tauMax) (1 / 10000000) 100000 sol i ∧ T = 1 / (2 * (sol / 1000) * u.kB)) := by
  constructor
  · unfold Itcft ITCF.GetT
    simp only [fromSetup_F hh hs hM hNM hf hg hgpos hg0 hc]
  · unfold Itcft ITCF.GetT
    have key : ∀ tau, (fromSetup u (channels K f) s c true).F u.hbar tau =
        h / u.hbar * ∑ k ∈ Finset.Icc (-(K : ℤ)) K, f k * exp (-tau * (k * h)) := by
      intro tau
      simp only [ITCF.F, fromSetup, if_true]
      rw [laplace_shifts hh hs, laplace_grid hh ⟨hf _ (by simp; omega), hf _ (by simp; omega)⟩ hc]
    simp only [key]

end Verif.Itcf
