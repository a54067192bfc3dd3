/-
Property C39, the quantities of a state which are derived from temperature and density of the electrons.
-/
import Verif.Props.Fermi

set_option autoImplicit false

namespace Verif.Resp

open Real Filter Topology

variable (u : Verif.Expt.Consts)

/-- C39: the effective temperature of a state is the one of the ion features. -/
theorem teffE_eq (T n : ℝ) : teffE u T n = tCfGreg u T n := by
  unfold teffE tCfGreg tQuantum fermiTemperature
  simp only []
  rw [add_comm, div_right_comm]

/-- C39: the coupling of the electrons of a state is the coupling parameter for two electrons. -/
theorem eeCoupling_eq (T n : ℝ) : eeCoupling u T n = couplingParam u (-1) (-1) n T := by
  unfold eeCoupling couplingParam interparticleSpacing
  simp only []
  simp only [show (-1 : ℝ) * -1 = 1 by norm_num, one_rpow, mul_one, one_mul]
  congr 1
  ring

/-- The density with a given Wigner-Seitz radius. -/
theorem wignerSeitz_of_radius {r : ℝ} (hr : 0 < r) : wignerSeitz (3 / (4 * π * r ^ 3)) = r := by
  have hpi := pi_pos
  unfold wignerSeitz
  have : 3 / (4 * π * (3 / (4 * π * r ^ 3))) = r ^ 3 := by field_simp
  rw [this, one_div]
  exact pow_rpow_inv_natCast hr.le (by norm_num : (3 : ℕ) ≠ 0)

/-- The Fermi temperature grows with the density. -/
theorem fermiTemperature_mono {n n' : ℝ} (hn : 0 ≤ n) (h : n ≤ n') : fermiTemperature u n ≤ fermiTemperature u n' := by
  have h1 := u.hbar_pos
  have h2 := u.me_pos
  have h3 := u.kB_pos
  have hpi := pi_pos
  unfold fermiTemperature fermiEnergy
  gcongr

/-- C39 fails for the effective temperature: it has a pole, at a Wigner-Seitz radius of 55.5 Bohr radii.  At every
temperature of the electrons and for every bound there is a density (not above the one at which the radius is one Bohr radius)
with an effective temperature beyond it. -/
theorem teffE_unbounded (T B : ℝ) :
    ∃ n, 0 < n ∧ n ≤ 3 / (4 * π * bohr u ^ 3) ∧ B < teffE u T n := by
  have hb := bohr_pos u
  have hpi := pi_pos
  -- the Fermi temperature at the pole
  set nP : ℝ := 3 / (4 * π * (56 * bohr u) ^ 3) with hnP
  have hnP0 : 0 < nP := by positivity
  have hF := fermiTemperature_pos u hnP0
  set ε : ℝ := min (1 / 10) (fermiTemperature u nP / (|B| + 1)) with hε
  have hε0 : 0 < ε := lt_min (by norm_num) (by positivity)
  have hε1 : ε ≤ 1 / 10 := min_le_left _ _
  have hε2 : ε ≤ fermiTemperature u nP / (|B| + 1) := min_le_right _ _
  set q : ℝ := (13251 / 10000 - ε) / (1779 / 10000) with hq
  have hq1 : 1 ≤ q := by
    rw [hq, le_div_iff₀ (by norm_num)]
    linarith
  have hq2 : q ^ 2 ≤ 56 := by
    have : q ≤ 13251 / 1779 := by
      rw [hq, div_le_iff₀ (by norm_num)]
      linarith
    calc q ^ 2 ≤ (13251 / 1779) ^ 2 := by gcongr
      _ ≤ 56 := by norm_num
  have hr : 0 < q ^ 2 * bohr u := by positivity
  have hn : 0 < 3 / (4 * π * (q ^ 2 * bohr u) ^ 3) := by positivity
  refine ⟨3 / (4 * π * (q ^ 2 * bohr u) ^ 3), hn, ?_, ?_⟩
  · have : bohr u ≤ q ^ 2 * bohr u := le_mul_of_one_le_left hb.le (by nlinarith)
    gcongr
  · have hle : nP ≤ 3 / (4 * π * (q ^ 2 * bohr u) ^ 3) := by
      rw [hnP]
      gcongr
    have hT := fermiTemperature_mono u hnP0.le hle
    have hQ : tQuantum u (3 / (4 * π * (q ^ 2 * bohr u) ^ 3)) =
        fermiTemperature u (3 / (4 * π * (q ^ 2 * bohr u) ^ 3)) / ε := by
      unfold tQuantum
      rw [wignerSeitz_of_radius hr, mul_div_assoc, div_self hb.ne', mul_one, sqrt_sq (by linarith)]
      congr 1
      rw [hq]
      ring
    have hlt : |B| < tQuantum u (3 / (4 * π * (q ^ 2 * bohr u) ^ 3)) := by
      rw [hQ, lt_div_iff₀ hε0]
      have : ε * (|B| + 1) ≤ fermiTemperature u nP := by
        rwa [le_div_iff₀ (by positivity)] at hε2
      nlinarith
    rw [teffE_eq]
    calc B ≤ |B| := le_abs_self B
      _ < tQuantum u (3 / (4 * π * (q ^ 2 * bohr u) ^ 3)) := hlt
      _ ≤ |tQuantum u (3 / (4 * π * (q ^ 2 * bohr u) ^ 3))| := le_abs_self _
      _ ≤ _ := (tCfGreg_ge_partial u T _).2

/-- C39: away from the pole it is bounded as it should be: below a Wigner-Seitz radius of three Bohr radii it lies between the
temperature of the electrons and the sum of this and the Fermi temperature. -/
theorem teffE_bounds_partial {T n : ℝ} (hT : 0 ≤ T) (hn : 0 < n) (hr : wignerSeitz n < 3 * bohr u) :
    T ≤ teffE u T n ∧ teffE u T n ≤ T + fermiTemperature u n := by
  have hF := fermiTemperature_pos u hn
  refine ⟨?_, ?_⟩
  · rw [teffE_eq]
    exact (le_abs_self T).trans (tCfGreg_ge_partial u T n).1
  · have h0 := tCfGreg_below_fermi u hn hr
    rw [teffE_eq]
    unfold tCfGreg at h0 ⊢
    rw [zero_pow (by norm_num), zero_add, sqrt_sq_eq_abs] at h0
    have : tQuantum u n ^ 2 ≤ fermiTemperature u n ^ 2 := sq_le_sq' (by linarith [neg_abs_le (tQuantum u n)]) (by linarith [le_abs_self (tQuantum u n)])
    rw [sqrt_le_left (by linarith)]
    nlinarith

/-- A case: the density with a Wigner-Seitz radius of one Bohr radius. -/
example : wignerSeitz (3 / (4 * π * bohr Verif.Expt.unitConsts ^ 3)) < 3 * bohr Verif.Expt.unitConsts := by
  have := bohr_pos Verif.Expt.unitConsts
  rw [wignerSeitz_of_radius this]
  linarith

end Verif.Resp
