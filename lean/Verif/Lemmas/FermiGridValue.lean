/-
Helpers for C79: the numbers of the grid in terms of the approximations.
-/
import Verif.Lemmas.FermiGrid
import Verif.Props.FermiAll
import Verif.Props.FermiInverse

set_option autoImplicit false

namespace Verif.FermiInt
open Real Verif.RatPoly

theorem aH_eq (p q : ℕ) (hq : 0 < q) : (aH p q : ℝ) = 10 ^ 13 * (q : ℝ) ^ 7 * ev c12.a (p / q) := by
  have h : (q : ℝ) ≠ 0 := by positivity
  have e : (aH p q : ℝ) =
      q ^ 7 * (57583415299546500000 + (p / q) * (130964880355883000000 + (p / q) * (107608632249013000000 +
      (p / q) * (39353642189301400000 + (p / q) * (6424932337156400000 + (p / q) * (416031909245777000 + (p
      / q) * (7772386785396480 + (p / q) * 10000000000000))))))) := by
    simp only [aH, Nat.mul_eq, Nat.add_eq, Nat.pow_eq]
    push_cast
    field_simp
    ring
  rw [e]
  simp only [c12, ev]
  generalize (p / q : ℝ) = x
  norm_num
  ring

theorem bH_eq (p q : ℕ) (hq : 0 < q) : (bH p q : ℝ) = 10 ^ 13 * (q : ℝ) ^ 7 * ev c12.b (p / q) := by
  have h : (q : ℝ) ≠ 0 := by positivity
  have e : (bH p q : ℝ) =
      q ^ 7 * (64975926194226900000 + (p / q) * (170750501625775000000 + (p / q) * (169288134856160000000 +
      (p / q) * (79519264775608600000 + (p / q) * (18316742455450500000 + (p / q) * (1951559483268320000 +
      (p / q) * (81792210664454700 + (p / q) * 902129136642157))))))) := by
    simp only [bH, Nat.mul_eq, Nat.add_eq, Nat.pow_eq]
    push_cast
    field_simp
    ring
  rw [e]
  simp only [c12, ev]
  generalize (p / q : ℝ) = x
  norm_num
  ring

theorem cH_eq (p q : ℕ) (hq : 0 < q) : (cH p q : ℝ) = 10 ^ 28 * (q : ℝ) ^ 10 * ev c12.c (p / q) := by
  have h : (q : ℝ) ≠ 0 := by positivity
  have e : (cH p q : ℝ) =
      q ^ 10 * (485378381173415 + (p / q) * (164429113030738000 + (p / q) * (37679494227780600000 + (p / q)
      * (4692338839006440000000 + (p / q) * (340679845803144000000000 + (p / q) *
      (13221299593779600000000000 + (p / q) * (260768398973913000000000000 + (p / q) *
      (2486532162662270000000000000 + (p / q) * (10803786192148800000000000000 + (p / q) *
      (19124752877967600000000000000 + (p / q) * 10000000000000000000000000000)))))))))) := by
    simp only [cH, Nat.mul_eq, Nat.add_eq, Nat.pow_eq]
    push_cast
    field_simp
    ring
  rw [e]
  simp only [c12, ev]
  generalize (p / q : ℝ) = x
  norm_num
  ring

theorem dH_eq (p q : ℕ) (hq : 0 < q) (hpq : p ≤ q) : (dH p q : ℝ) = 10 ^ 28 * (q : ℝ) ^ 11 * ev c12.d (p / q) := by
  have h : (q : ℝ) ≠ 0 := by positivity
  have e : (dH p q : ℝ) =
      q ^ 11 * (728067571760518 + (p / q) * (245745452167585000 + (p / q) * (56215289437527700000 + (p / q)
      * (6968886345496490000000 + (p / q) * (502360015186394000000000 + (p / q) *
      (19204013675659200000000000 + (p / q) * (366887808002874000000000000 + (p / q) *
      (3240952264864680000000000000 + (p / q) * (11643487120013100000000000000 + (p / q) *
      (13498124406054900000000000000 + (p / q) * (2013118369759300000000000000 + (p / q) *
      (-214562434782759000000000000)))))))))))) := by
    simp only [dH, Nat.mul_eq, Nat.add_eq, Nat.pow_eq, Nat.sub_eq]
    push_cast [Nat.cast_sub (show 214562434782759000000000000 * p ≤ 2013118369759300000000000000 * q by omega)]
    field_simp
    ring
  rw [e]
  simp only [c12, ev]
  generalize (p / q : ℝ) = x
  norm_num
  ring

theorem eH_eq (p q : ℕ) (hq : 0 < q) : (eH p q : ℝ) = 1307674368000 * (q : ℝ) ^ 14 * ∑ m ∈ Finset.range 15, (p / q : ℝ) ^ m / m.factorial := by
  have h : (q : ℝ) ≠ 0 := by positivity
  have e : (eH p q : ℝ) =
      q ^ 14 * (1307674368000 + (p / q) * (1307674368000 + (p / q) * (653837184000 + (p / q) *
      (217945728000 + (p / q) * (54486432000 + (p / q) * (10897286400 + (p / q) * (1816214400 + (p / q) *
      (259459200 + (p / q) * (32432400 + (p / q) * (3603600 + (p / q) * (360360 + (p / q) * (32760 + (p /
      q) * (2730 + (p / q) * (210 + (p / q) * 15)))))))))))))) := by
    simp only [eH, Nat.mul_eq, Nat.add_eq, Nat.pow_eq]
    push_cast
    field_simp
    ring
  rw [e]
  simp only [Finset.sum_range_succ, Finset.sum_range_zero, Nat.factorial]
  generalize (p / q : ℝ) = x
  norm_num
  ring

end Verif.FermiInt
