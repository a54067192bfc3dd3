/-
Property C78 (continued): the accuracy of the approximations for all arguments.
-/
import Verif.Lemmas.FermiNeg12
import Verif.Props.FermiMono
import Verif.Lemmas.FermiExact

set_option autoImplicit false

namespace Verif.FermiInt

open Real RatPoly

/-- A function with an accurate derivative that is accurate at two is accurate above. -/
theorem accurate_of_deriv (f F G : ℝ → ℝ) (ε : ℝ) (hf : ContinuousOn f (Set.Ici 2))
    (hF : ∀ x, HasDerivAt F (G x) x) (hd : ∀ x, 2 < x → ∃ D, HasDerivAt f D x ∧ |D - G x| ≤ ε * G x)
    (h2 : |f 2 - F 2| ≤ ε * F 2) (x : ℝ) (hx : 2 ≤ x) : |f x - F x| ≤ ε * F x := by
  have hFc : ContinuousOn F (Set.Ici 2) := fun x _ => (hF x).continuousAt.continuousWithinAt
  obtain ⟨b1, b2⟩ := abs_le.1 h2
  have m1 : MonotoneOn (fun x => ε * F x - (f x - F x)) (Set.Ici 2) := by
    apply monotoneOn_of_deriv_nonneg (convex_Ici 2)
    · exact (continuousOn_const.mul hFc).sub (hf.sub hFc)
    · intro y hy
      rw [interior_Ici] at hy
      obtain ⟨D, hD, -⟩ := hd y hy
      exact (((hF y).const_mul ε).sub (hD.sub (hF y))).differentiableAt.differentiableWithinAt
    · intro y hy
      rw [interior_Ici] at hy
      obtain ⟨D, hD, hb⟩ := hd y hy
      rw [(((hF y).const_mul ε).fun_sub (hD.fun_sub (hF y))).deriv]
      have := (abs_le.1 hb).2
      linarith
  have m2 : MonotoneOn (fun x => ε * F x + (f x - F x)) (Set.Ici 2) := by
    apply monotoneOn_of_deriv_nonneg (convex_Ici 2)
    · exact (continuousOn_const.mul hFc).add (hf.sub hFc)
    · intro y hy
      rw [interior_Ici] at hy
      obtain ⟨D, hD, -⟩ := hd y hy
      exact (((hF y).const_mul ε).add (hD.sub (hF y))).differentiableAt.differentiableWithinAt
    · intro y hy
      rw [interior_Ici] at hy
      obtain ⟨D, hD, hb⟩ := hd y hy
      rw [(((hF y).const_mul ε).fun_add (hD.fun_sub (hF y))).deriv]
      have := (abs_le.1 hb).1
      linarith
  have c1 := m1 (Set.mem_Ici.2 le_rfl) (Set.mem_Ici.2 hx) hx
  have c2 := m2 (Set.mem_Ici.2 le_rfl) (Set.mem_Ici.2 hx) hx
  simp only at c1 c2
  rw [abs_le]
  constructor <;> linarith

theorem continuousOn_above (k : Coef) (s : ℚ) (n : ℝ) (hs : n + 1 = s)
    (hd : ∀ x, 2 ≤ x → ev k.d (x ^ (-2 : ℝ)) ≠ 0) : ContinuousOn (fermiF k n) (Set.Ici 2) := by
  have e : Set.EqOn (fermiF k n)
      (fun x => x ^ (s : ℝ) * rational k.c k.d (x ^ (-2 : ℝ)) / Gamma (n + 1)) (Set.Ici 2) := by
    intro x hx
    simp only [fermiF]
    rw [if_neg (not_lt.2 (Set.mem_Ici.1 hx)), hs]
  refine ContinuousOn.congr (fun x hx => ?_) e
  have hx' : (2 : ℝ) ≤ x := hx
  exact (((hasDerivAt_branch2 s k.c k.d x (by linarith) (hd x hx')).div_const
    (Gamma (n + 1))).continuousAt).continuousWithinAt

/-- Errors add. -/
theorem near_trans (D f F a b : ℝ) (hF : 0 < F) (hb1 : b ≤ 1 / 10 ^ 5) (h1 : |D - f| ≤ 1 / 10 ^ 8 * f) (h2 : |f - F| ≤ b * F)
    (ha : b + 101 / 10 ^ 10 ≤ a) : |D - F| ≤ a * F := by
  obtain ⟨p, q⟩ := abs_le.1 h1
  obtain ⟨r, s⟩ := abs_le.1 h2
  have t := mul_le_mul_of_nonneg_right ha hF.le
  have t' := mul_le_mul_of_nonneg_right hb1 hF.le
  norm_num at *
  rw [abs_le]
  constructor <;> linarith

/-- C78.  Above an argument of two, all four approximations agree with the Fermi integral. -/
theorem fermi_accurate_above (x : ℝ) (hx : 2 ≤ x) :
    |fermi12 x - fermiIntegral x (1 / 2)| ≤ 12 / 10 ^ 7 * fermiIntegral x (1 / 2) ∧
    |fermiNeg12 x - fermiIntegral x (-1 / 2)| ≤ 6 / 10 ^ 7 * fermiIntegral x (-1 / 2) ∧
    |fermi52 x - fermiIntegral x (5 / 2)| ≤ 12 / 10 ^ 7 * fermiIntegral x (5 / 2) ∧
    |fermi32 x - fermiIntegral x (3 / 2)| ≤ 12 / 10 ^ 7 * fermiIntegral x (3 / 2) := by
  obtain ⟨a1, a2, a3, a4⟩ := fermi_accurate_at_two
  have k12 : ∀ x, 2 ≤ x → |fermi12 x - fermiIntegral x (1 / 2)| ≤ 110 / 10 ^ 8 * fermiIntegral x (1 / 2) := by
    refine accurate_of_deriv fermi12 (fun x => fermiIntegral x (1 / 2)) (fun x => fermiIntegral x (-1 / 2)) _
      (continuousOn_above c12 (3 / 2) (1 / 2) (by norm_num) fun x hx => (d12_pos x hx).2.ne')
      (fun x => ?_) (fun x hx => ?_) (by norm_num at a1 ⊢; linarith)
    · have := fermiIntegral_deriv (1 / 2) (by norm_num) x
      rwa [show (1 / 2 - 1 : ℝ) = -1 / 2 by norm_num] at this
    · obtain ⟨D, hD, hn⟩ := fermi12_derivative x hx.ne'
      exact ⟨D, hD, near_trans _ _ _ _ _ (fermiIntegral_pos (-1 / 2) (by norm_num) x) (by norm_num) hn
        (neg12_high x hx.le) (by norm_num)⟩
  have k32 : ∀ x, 2 ≤ x → |fermi32 x - fermiIntegral x (3 / 2)| ≤ 112 / 10 ^ 8 * fermiIntegral x (3 / 2) := by
    have hF := fermiIntegral_pos (3 / 2) (by norm_num) 2
    refine accurate_of_deriv fermi32 (fun x => fermiIntegral x (3 / 2)) (fun x => fermiIntegral x (1 / 2)) _
      (continuousOn_above c32 (5 / 2) (3 / 2) (by norm_num) fun x hx => (d32_pos x hx).2.ne')
      (fun x => ?_) (fun x hx => ?_) (by norm_num at a4 ⊢; linarith)
    · have := fermiIntegral_deriv (3 / 2) (by norm_num) x
      rwa [show (3 / 2 - 1 : ℝ) = 1 / 2 by norm_num] at this
    · obtain ⟨D, hD, hn⟩ := (fermi52_derivative x hx).2
      exact ⟨D, hD, near_trans _ _ _ _ _ (fermiIntegral_pos (1 / 2) (by norm_num) x) (by norm_num) hn
        (k12 x hx.le) (by norm_num)⟩
  have k52 : ∀ x, 2 ≤ x → |fermi52 x - fermiIntegral x (5 / 2)| ≤ 114 / 10 ^ 8 * fermiIntegral x (5 / 2) := by
    have hF := fermiIntegral_pos (5 / 2) (by norm_num) 2
    refine accurate_of_deriv fermi52 (fun x => fermiIntegral x (5 / 2)) (fun x => fermiIntegral x (3 / 2)) _
      (continuousOn_above c52 (7 / 2) (5 / 2) (by norm_num) fun x hx => (d52_pos x hx).2.ne')
      (fun x => ?_) (fun x hx => ?_) (by norm_num at a3 ⊢; linarith)
    · have := fermiIntegral_deriv (5 / 2) (by norm_num) x
      rwa [show (5 / 2 - 1 : ℝ) = 3 / 2 by norm_num] at this
    · obtain ⟨D, hD, hn⟩ := (fermi52_derivative x hx).1
      exact ⟨D, hD, near_trans _ _ _ _ _ (fermiIntegral_pos (3 / 2) (by norm_num) x) (by norm_num) hn
        (k32 x hx.le) (by norm_num)⟩
  have f1 := fermiIntegral_pos (1 / 2) (by norm_num) x
  have f2 := fermiIntegral_pos (3 / 2) (by norm_num) x
  have f3 := fermiIntegral_pos (5 / 2) (by norm_num) x
  refine ⟨(k12 x hx).trans ?_, neg12_high x hx, (k52 x hx).trans ?_, (k32 x hx).trans ?_⟩ <;>
    refine mul_le_mul_of_nonneg_right (by norm_num) (le_of_lt ?_) <;> assumption

/-- C78.  The approximations of the orders 1/2, -1/2 and 5/2 agree with the Fermi integral to five digits for
all arguments; for the order 3/2 this is true above an argument of two, and everywhere with the corrected
coefficient (see `fermi32_too_small` for the others). -/
theorem fermi_accurate (x : ℝ) :
    |fermi12 x - fermiIntegral x (1 / 2)| ≤ 12 / 10 ^ 7 * fermiIntegral x (1 / 2) ∧
    |fermiNeg12 x - fermiIntegral x (-1 / 2)| ≤ 1 / 10 ^ 6 * fermiIntegral x (-1 / 2) ∧
    |fermi52 x - fermiIntegral x (5 / 2)| ≤ 12 / 10 ^ 7 * fermiIntegral x (5 / 2) ∧
    (2 ≤ x → |fermi32 x - fermiIntegral x (3 / 2)| ≤ 12 / 10 ^ 7 * fermiIntegral x (3 / 2)) ∧
    |fermi32Repaired x - fermiIntegral x (3 / 2)| ≤ 12 / 10 ^ 7 * fermiIntegral x (3 / 2) := by
  have f1 := fermiIntegral_pos (1 / 2) (by norm_num) x
  have f2 := fermiIntegral_pos (3 / 2) (by norm_num) x
  have f3 := fermiIntegral_pos (5 / 2) (by norm_num) x
  have f4 := fermiIntegral_pos (-1 / 2) (by norm_num) x
  rcases lt_or_ge x 2 with h | h
  · obtain ⟨a, b, c⟩ := fermi_accurate_below x h
    refine ⟨a.trans ?_, b, c.trans ?_, fun h' => absurd h' (not_le.2 h), (fermi32_repaired x h).trans ?_⟩ <;>
      refine mul_le_mul_of_nonneg_right (by norm_num) (le_of_lt ?_) <;> assumption
  · obtain ⟨a, b, c, d⟩ := fermi_accurate_above x h
    refine ⟨a, b.trans (mul_le_mul_of_nonneg_right (by norm_num) f4.le), c, fun _ => d, ?_⟩
    have e : fermi32Repaired x = fermi32 x := by
      unfold fermi32Repaired fermi32 fermiF
      rw [if_neg (not_lt.2 h), if_neg (not_lt.2 h)]
    rw [e]
    exact d

/-- Strongly degenerate electrons. -/
example : |fermi12 20 - fermiIntegral 20 (1 / 2)| ≤ 12 / 10 ^ 7 * fermiIntegral 20 (1 / 2) ∧
    0 < fermiIntegral 20 (1 / 2) :=
  ⟨(fermi_accurate 20).1, fermiIntegral_pos _ (by norm_num) 20⟩

end Verif.FermiInt
