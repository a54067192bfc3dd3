/-
Property C94: the exchange potential of the electrons from the classical map.
-/
import Verif.Model.PauliMap
import Verif.Props.HncSolution
import Verif.Props.Interp
import Verif.Props.PlasmaScales
import Verif.Props.ZeroK

set_option autoImplicit false

namespace Verif.Pauli

open Real Verif.Expt Verif.Resp Verif.Hnc Filter Topology

/-! ### The pair distribution function -/

theorem clip_range {x : ℝ} (hx : x ≤ 1) : 0 < clip x ∧ clip x ≤ 1 := by
  unfold clip
  split_ifs with h
  · constructor <;> norm_num
  · exact ⟨not_le.1 h, hx⟩

theorem interpLR_pos {n : ℕ} {xp fp : ℕ → ℝ} (h : Interp.Increasing n xp) (hn : 0 < n)
    (hf : ∀ i < n, 0 < fp i ∧ fp i ≤ 1) (x : ℝ) :
    0 < Interp.interpLR n xp fp (1 / 2) 1 x ∧ Interp.interpLR n xp fp (1 / 2) 1 x ≤ 1 := by
  by_cases h1 : xp (n - 1) < x
  · unfold Interp.interpLR
    rw [if_pos h1]
    norm_num
  by_cases h0 : x < xp 0
  · unfold Interp.interpLR
    rw [if_neg h1, if_pos h0]
    norm_num
  have e : Interp.interpLR n xp fp (1 / 2) 1 x = Interp.interp n xp fp x := by
    unfold Interp.interp Interp.interpLR
    rw [if_neg h1, if_neg h0, if_neg h1, if_neg h0]
  rw [e]
  obtain ⟨i, hi, hmin⟩ := Finset.exists_min_image (Finset.range n) fp ⟨0, Finset.mem_range.2 hn⟩
  have := Interp.interp_in_range n xp fp h hn (fp i) 1
    (fun j hj => ⟨hmin j (Finset.mem_range.2 hj), (hf j hj).2⟩) x
  exact ⟨lt_of_lt_of_le (hf i (Finset.mem_range.1 hi)).1 this.1, this.2⟩

/-- C94: the pair distribution functions are positive and at most one, whatever the temperature and the
density, so that the logarithm exists. -/
theorem g_range (u : Consts) {N : ℕ} {r1 : ℕ → ℝ} (h : Interp.Increasing N r1) (hN : 0 < N) (ne T r : ℝ) :
    (0 < gAveraged u N r1 ne T r ∧ gAveraged u N r1 ne T r ≤ 1) ∧ 0 < gEqual u N r1 ne T r ∧ gEqual u N r1 ne T r ≤ 1 := by
  refine ⟨interpLR_pos h hN (fun i _ => clip_range ?_) r, interpLR_pos h hN (fun i _ => clip_range ?_) r⟩
  · nlinarith [sq_nonneg (exchange u N r1 ne T i)]
  · nlinarith [sq_nonneg (exchange u N r1 (ne / 2) T i)]

/-! ### The inversion -/

/-- Two ways to split a potential into parts of short and long range give the same solutions: only the sum
matters. -/
theorem splitting_irrelevant {m M : ℕ} (hM : 0 < M) (k r : ℕ → ℝ) (n : Fin m → ℝ) (vs vl g : Fin m → Fin m → ℕ → ℝ) :
    (∃ c, HncEquations (2 * M) (fourierSine (2 * M) k r) n vs vl g c) ↔
      ∃ c, HncEquations (2 * M) (fourierSine (2 * M) k r) n (fun _ _ _ => 0)
        (fun a b i => fourierSine (2 * M) k r (vs a b) i + vl a b i) g c := by
  have key : ∀ (c : Fin m → Fin m → ℕ → ℝ) (a b : Fin m), ∀ i < 2 * M,
      fourierSine (2 * M) k r (fun j => c a b j + vs a b j) i = fourierSine (2 * M) k r (c a b) i + fourierSine (2 * M) k r (vs a b) i := by
    intro c a b i hi
    have := fourierSine_sub hM k r (fun j => c a b j + vs a b j) (vs a b) hi
    simp only [add_sub_cancel_right] at this
    linarith
  constructor
  · rintro ⟨c, h1, h2⟩
    refine ⟨fun a b j => c a b j + vs a b j, fun a b j hj => ?_, fun i hi a b => ?_⟩
    · refine (h1 a b j hj).trans ?_
      congr 1
      ring
    · have := h2 i hi a b
      simp only [key c _ _ i hi]
      simp only [show ∀ x y z : ℝ, x + y - (y + z) = x - z from fun x y z => by ring]
      exact this
  · rintro ⟨c, h1, h2⟩
    refine ⟨fun a b j => c a b j - vs a b j, fun a b j hj => ?_, fun i hi a b => ?_⟩
    · refine (h1 a b j hj).trans ?_
      congr 1
      ring
    · have := h2 i hi a b
      have e : ∀ a b, fourierSine (2 * M) k r (fun j => c a b j - vs a b j) i =
          fourierSine (2 * M) k r (c a b) i - fourierSine (2 * M) k r (vs a b) i :=
        fun a b => fourierSine_sub hM k r (c a b) (vs a b) hi
      simp only [e, show ∀ x y z : ℝ, x - y - z = x - (y + z) from fun x y z => by ring]
      exact this

/-- The matrix of the total correlation functions at one wave number. -/
noncomputable def hMat {m : ℕ} (N : ℕ) (k r : ℕ → ℝ) (g : Fin m → Fin m → ℕ → ℝ) (i : ℕ) : Matrix (Fin m) (Fin m) ℝ :=
  Matrix.of fun a b => fourierSine N k r (fun j => g a b j - 1) i

theorem oz_inverted {m : ℕ} (n : Fin m → ℝ) {C H : Matrix (Fin m) (Fin m) ℝ} (h : (1 + Matrix.diagonal n * H).det ≠ 0) :
    OrnsteinZernike n C H ↔ C = H * (1 + Matrix.diagonal n * H)⁻¹ := by
  have hu : IsUnit (1 + Matrix.diagonal n * H).det := isUnit_iff_ne_zero.2 h
  have e : OrnsteinZernike n C H ↔ C * (1 + Matrix.diagonal n * H) = H := by
    rw [oz_iff, sub_mul, one_mul, mul_add, mul_one, mul_assoc, sub_eq_iff_eq_add]
    exact eq_comm
  rw [e]
  constructor
  · intro h1
    calc C = C * ((1 + Matrix.diagonal n * H) * (1 + Matrix.diagonal n * H)⁻¹) := by rw [Matrix.mul_nonsing_inv _ hu, mul_one]
      _ = H * (1 + Matrix.diagonal n * H)⁻¹ := by rw [← mul_assoc, h1]
  · intro h1
    rw [h1, mul_assoc, Matrix.nonsing_inv_mul _ hu, mul_one]

/-- For every pair distribution function there is exactly one potential for which it solves the equations of the
hypernetted chain approximation. -/
theorem inversion {m M : ℕ} (hM : 0 < M) (k r : ℕ → ℝ) (n : Fin m → ℝ) (g v : Fin m → Fin m → ℕ → ℝ)
    (hg : ∀ a b, ∀ j < 2 * M, 0 < g a b j)
    (hdet : ∀ i < 2 * M, (1 + Matrix.diagonal n * hMat (2 * M) k r g i).det ≠ 0) :
    (∃ c, HncEquations (2 * M) (fourierSine (2 * M) k r) n (fun _ _ _ => 0) v g c) ↔
      ∀ a b, ∀ i < 2 * M, v a b i = hMat (2 * M) k r g i a b - fourierSine (2 * M) k r (fun j => log (g a b j)) i -
        (hMat (2 * M) k r g i * (1 + Matrix.diagonal n * hMat (2 * M) k r g i)⁻¹) a b := by
  have hF : ∀ c : Fin m → Fin m → ℕ → ℝ, (∀ a b, ∀ j < 2 * M, c a b j = g a b j - 1 - log (g a b j)) → ∀ a b, ∀ i < 2 * M,
      fourierSine (2 * M) k r (c a b) i = hMat (2 * M) k r g i a b - fourierSine (2 * M) k r (fun j => log (g a b j)) i := by
    intro c hc a b i hi
    rw [fourierSine_congr hM (hc a b) hi]
    exact fourierSine_sub hM k r _ _ hi
  constructor
  · rintro ⟨c, h1, h2⟩ a b i hi
    have hc : ∀ a b, ∀ j < 2 * M, c a b j = g a b j - 1 - log (g a b j) := by
      intro a b j hj
      have h3 := congrArg log (h1 a b j hj)
      rw [log_exp] at h3
      linarith
    have h4 := congrFun (congrFun ((oz_inverted n (hdet i hi)).1 (h2 i hi)) a) b
    change fourierSine (2 * M) k r (c a b) i - v a b i = (hMat (2 * M) k r g i * (1 + Matrix.diagonal n * hMat (2 * M) k r g i)⁻¹) a b at h4
    rw [hF c hc a b i hi] at h4
    linarith
  · intro h
    refine ⟨fun a b j => g a b j - 1 - log (g a b j), fun a b j hj => ?_, fun i hi => ?_⟩
    · simp only [neg_zero, zero_add, sub_sub_cancel]
      exact (exp_log (hg a b j hj)).symm
    · refine (oz_inverted n (hdet i hi)).2 ?_
      funext a b
      rw [hF _ (fun _ _ _ _ => rfl) a b i hi, h a b i hi]
      show _ - (_ - _ - (hMat (2 * M) k r g i * (1 + Matrix.diagonal n * hMat (2 * M) k r g i)⁻¹) a b) =
        (hMat (2 * M) k r g i * (1 + Matrix.diagonal n * hMat (2 * M) k r g i)⁻¹) a b
      ring

/-- C94: the potential for averaged spins, before its values at small wave numbers are replaced, is the one
potential for which the given pair distribution function solves the equations of the hypernetted chain
approximation.  The potential can be split in any way. -/
theorem averaged_inverts {M : ℕ} (hM : 0 < M) (k r : ℕ → ℝ) {n kT : ℝ} (hT : kT ≠ 0) {g : ℕ → ℝ} (hg : ∀ j < 2 * M, 0 < g j)
    (hdet : ∀ i < 2 * M, 1 + n * fourierSine (2 * M) k r (fun j => g j - 1) i ≠ 0) (Vs Vl : ℕ → ℝ) :
    (∃ c, HncEquations (2 * M) (fourierSine (2 * M) k r) (fun _ : Fin 1 => n) (fun _ _ j => Vs j / kT) (fun _ _ i => Vl i / kT)
        (fun _ _ => g) c) ↔
      ∀ i < 2 * M, fourierSine (2 * M) k r Vs i + Vl i = invertAveraged (2 * M) k r n kT g i := by
  have hdet' : ∀ i, (1 + Matrix.diagonal (fun _ : Fin 1 => n) * hMat (2 * M) k r (fun _ _ => g) i) =
      Matrix.of fun _ _ => 1 + n * fourierSine (2 * M) k r (fun j => g j - 1) i := by
    intro i
    ext a b
    fin_cases a; fin_cases b
    simp [hMat, Matrix.diagonal_mul]
  rw [splitting_irrelevant hM, inversion hM k r (fun _ : Fin 1 => n) (fun _ _ => g) _ (fun _ _ => hg)
    (fun i hi => by rw [hdet', Matrix.det_fin_one]; exact hdet i hi)]
  have hsm : ∀ i < 2 * M, fourierSine (2 * M) k r (fun j => Vs j / kT) i = fourierSine (2 * M) k r Vs i / kT := by
    intro i hi
    rw [fourierSine_eq hM _ _ _ hi, fourierSine_eq hM _ _ _ hi]
    have : sineSum (2 * M) (fun j => r j * (Vs j / kT)) i = sineSum (2 * M) (fun j => 1 / kT * (r j * Vs j)) i :=
      sineSum_congr (fun j _ => by ring) i
    rw [this, sineSum_smul]
    ring
  have hc : ∀ i < 2 * M, (hMat (m := 1) (2 * M) k r (fun _ _ => g) i *
      (1 + Matrix.diagonal (fun _ => n) * hMat (2 * M) k r (fun _ _ => g) i)⁻¹ : Matrix (Fin 1) (Fin 1) ℝ) 0 0 =
      fourierSine (2 * M) k r (fun j => g j - 1) i / (1 + n * fourierSine (2 * M) k r (fun j => g j - 1) i) := by
    intro i hi
    rw [hdet', Matrix.mul_apply, Matrix.inv_def, Matrix.adjugate_fin_one, Matrix.det_fin_one]
    simp [hMat, div_eq_mul_inv]
  constructor
  · intro h i hi
    have := h 0 0 i hi
    rw [hsm i hi, hc i hi] at this
    unfold invertAveraged
    simp only []
    rw [← add_div, div_eq_iff hT] at this
    exact this
  · intro h a b i hi
    fin_cases a; fin_cases b
    show _ = _ - _ - (hMat (m := 1) (2 * M) k r (fun _ _ => g) i *
      (1 + Matrix.diagonal (fun _ => n) * hMat (2 * M) k r (fun _ _ => g) i)⁻¹ : Matrix (Fin 1) (Fin 1) ℝ) 0 0
    rw [hsm i hi, hc i hi, ← add_div, div_eq_iff hT, h i hi]
    rfl

theorem hMat_spin (N : ℕ) (k r g : ℕ → ℝ) (i : ℕ) :
    hMat N k r (spinMatrix g) i = Matrix.diagonal fun _ => fourierSine N k r (fun j => g j - 1) i := by
  ext a b
  rw [Matrix.diagonal_apply]
  show fourierSine N k r (fun j => spinMatrix g a b j - 1) i = _
  unfold spinMatrix
  split_ifs with h
  · rfl
  · simp only [sub_self]
    exact fourierSine_zero N k r i

theorem spin_det (N : ℕ) (k r g : ℕ → ℝ) (n : ℝ) (i : ℕ) :
    1 + Matrix.diagonal (fun _ => n) * hMat N k r (spinMatrix g) i =
      Matrix.diagonal fun _ => 1 + n * fourierSine N k r (fun j => g j - 1) i := by
  rw [hMat_spin, Matrix.diagonal_mul_diagonal, ← Matrix.diagonal_one, Matrix.diagonal_add]

theorem spin_c {N : ℕ} {k r g : ℕ → ℝ} {n : ℝ} {i : ℕ} (h : 1 + n * fourierSine N k r (fun j => g j - 1) i ≠ 0) :
    hMat N k r (spinMatrix g) i * (1 + Matrix.diagonal (fun _ => n) * hMat N k r (spinMatrix g) i)⁻¹ =
      Matrix.diagonal fun _ => fourierSine N k r (fun j => g j - 1) i / (1 + n * fourierSine N k r (fun j => g j - 1) i) := by
  rw [spin_det]
  have e : (Matrix.diagonal fun _ : Fin 2 => 1 + n * fourierSine N k r (fun j => g j - 1) i)⁻¹ =
      Matrix.diagonal fun _ => 1 / (1 + n * fourierSine N k r (fun j => g j - 1) i) := by
    apply Matrix.inv_eq_right_inv
    rw [Matrix.diagonal_mul_diagonal, ← Matrix.diagonal_one]
    congr 1
    funext _
    exact mul_one_div_cancel h
  rw [e, hMat_spin, Matrix.diagonal_mul_diagonal]
  congr 1
  funext _
  exact mul_one_div _ _

/-- C94: before the values at small wave numbers are replaced, electrons of opposite spin do not interact, and
those of equal spin interact like particles of one kind with the density of the spin. -/
theorem separated_eq {N : ℕ} {k r g : ℕ → ℝ} {n kT : ℝ} {i : ℕ} (h : 1 + n * fourierSine N k r (fun j => g j - 1) i ≠ 0)
    (a b : Fin 2) :
    invertSeparated N k r (fun _ => n) kT (spinMatrix g) a b i = if a = b then invertAveraged N k r n kT g i else 0 := by
  have e1 : invertSeparated N k r (fun _ => n) kT (spinMatrix g) a b i =
      (hMat N k r (spinMatrix g) i a b - fourierSine N k r (fun j => log (spinMatrix g a b j)) i -
        (hMat N k r (spinMatrix g) i * (1 + Matrix.diagonal (fun _ => n) * hMat N k r (spinMatrix g) i)⁻¹ :
          Matrix (Fin 2) (Fin 2) ℝ) a b) * kT := rfl
  rw [e1, spin_c h, hMat_spin, Matrix.diagonal_apply, Matrix.diagonal_apply]
  unfold spinMatrix invertAveraged
  split_ifs with h1
  · rfl
  · simp only [log_one]
    rw [fourierSine_zero]
    ring

/-- C94: the same for separated spins. -/
theorem separated_inverts {M : ℕ} (hM : 0 < M) (k r : ℕ → ℝ) {n kT : ℝ} (hT : kT ≠ 0) {g : ℕ → ℝ} (hg : ∀ j < 2 * M, 0 < g j)
    (hdet : ∀ i < 2 * M, 1 + n * fourierSine (2 * M) k r (fun j => g j - 1) i ≠ 0) (V : Fin 2 → Fin 2 → ℕ → ℝ) :
    (∃ c, HncEquations (2 * M) (fourierSine (2 * M) k r) (fun _ => n) (fun _ _ _ => 0) (fun a b i => V a b i / kT)
        (spinMatrix g) c) ↔
      ∀ a b, ∀ i < 2 * M, V a b i = if a = b then invertAveraged (2 * M) k r n kT g i else 0 := by
  rw [inversion hM k r (fun _ => n) (spinMatrix g) _ (fun a b j hj => by
      unfold spinMatrix
      split_ifs
      exacts [hg j hj, one_pos])
    (fun i hi => by
      rw [spin_det, Matrix.det_diagonal]
      exact Finset.prod_ne_zero_iff.2 fun _ _ => hdet i hi)]
  refine forall_congr' fun a => forall_congr' fun b => forall_congr' fun i => forall_congr' fun hi => ?_
  rw [← separated_eq (hdet i hi), div_eq_iff hT]
  rfl

/-! ### Small wave numbers -/

/-- C94: at small wave numbers, electrons of opposite spin get the same potential as those of equal spin. -/
theorem separated_patched (u : Consts) (ang : ℝ) (N1 : ℕ) (r1 : ℕ → ℝ) (N2 : ℕ) (r2 : ℕ → ℝ) (ne T : ℝ) {i : ℕ}
    (hi : kGrid N2 r2 i < kGrid N2 r2 (lastBelow N2 (kGrid N2 r2) (1 / ang))) (a b : Fin 2) :
    potentialSeparated u ang N1 r1 N2 r2 ne T a b i = potentialSeparated u ang N1 r1 N2 r2 ne T 1 1 i := by
  unfold potentialSeparated patch
  simp only [if_pos hi]

/-- The parabola is zero at two wave numbers only if it is zero everywhere. -/
theorem patch_zero {k f : ℕ → ℝ} {i1 i2 i j : ℕ} (hpos : 0 ≤ k i) (hij : k i < k j) (hj : k j < k i1) (h12 : k i1 < k i2)
    {V : ℕ → ℝ} (hi : patch k i1 i2 f V i = 0) (hj0 : patch k i1 i2 f V j = 0) : f i1 = 0 ∧ f i2 = 0 := by
  unfold patch at hi hj0
  simp only [if_pos (hij.trans hj), if_pos hj] at hi hj0
  have hd : k i2 ^ 2 - k i1 ^ 2 ≠ 0 := by nlinarith
  set a := (f i2 - f i1) / (k i2 ^ 2 - k i1 ^ 2) with ha
  have h1 : a * (k j ^ 2 - k i ^ 2) = 0 := by linarith
  have h2 : k j ^ 2 - k i ^ 2 ≠ 0 := by nlinarith
  have h3 : a = 0 := (mul_eq_zero.1 h1).resolve_right h2
  rw [h3] at hi
  have h4 : f i1 = 0 := by linarith
  refine ⟨h4, ?_⟩
  rw [ha, div_eq_zero_iff] at h3
  have := h3.resolve_right hd
  linarith

/-- C94: with the replaced values, the pair distribution function does not solve the equations any more: electrons of
opposite spin interact.  It is enough that two wave numbers lie below the first node of the parabola and that
the potential of equal spins is not zero at both nodes. -/
theorem separated_patch_fails {M : ℕ} (hM : 0 < M) {k r : ℕ → ℝ} {n kT : ℝ} (hT : kT ≠ 0) {g : ℕ → ℝ} (hg : ∀ j < 2 * M, 0 < g j)
    (hdet : ∀ i < 2 * M, 1 + n * fourierSine (2 * M) k r (fun j => g j - 1) i ≠ 0) {i1 i2 i j : ℕ} (hi2 : i2 < 2 * M) (hi1 : i1 < 2 * M)
    (hi : i < 2 * M) (hj : j < 2 * M) (hpos : 0 ≤ k i) (hij : k i < k j) (hj1 : k j < k i1) (h12 : k i1 < k i2)
    (hV : invertAveraged (2 * M) k r n kT g i1 ≠ 0 ∨ invertAveraged (2 * M) k r n kT g i2 ≠ 0) :
    let V := invertSeparated (2 * M) k r (fun _ => n) kT (spinMatrix g)
    ¬∃ c, HncEquations (2 * M) (fourierSine (2 * M) k r) (fun _ => n) (fun _ _ _ => 0)
      (fun a b i => patch k i1 i2 (V 1 1) (V a b) i / kT) (spinMatrix g) c := by
  intro V h
  rw [separated_inverts hM k r hT hg hdet] at h
  have h0 := h 0 1 i hi
  have h1 := h 0 1 j hj
  rw [if_neg (by decide)] at h0 h1
  have h2 := patch_zero hpos hij hj1 h12 h0 h1
  simp only [V, separated_eq (hdet i1 hi1), separated_eq (hdet i2 hi2), if_true] at h2
  rcases hV with h3 | h3
  exacts [h3 h2.1, h3 h2.2]

/-- C94: with the potentials of the function for separated spins. -/
theorem separated_potential_fails (u : Consts) {ang : ℝ} {N1 : ℕ} {r1 : ℕ → ℝ} (hr1 : Interp.Increasing N1 r1) (hN1 : 0 < N1)
    {M : ℕ} (hM : 0 < M) {r2 : ℕ → ℝ} (hr2 : 0 < r2 (2 * M - 1)) (hdr2 : 0 < r2 1 - r2 0) {ne T : ℝ} (hT : u.kB * T ≠ 0)
    (h1 : 2 ≤ lastBelow (2 * M) (kGrid (2 * M) r2) (1 / ang))
    (h2 : lastBelow (2 * M) (kGrid (2 * M) r2) (1 / ang) < lastBelow (2 * M) (kGrid (2 * M) r2) (2 / ang))
    (hdet : ∀ i < 2 * M, 1 + ne / 2 * fourierSine (2 * M) (kGrid (2 * M) r2) r2 (fun j => gEqual u N1 r1 ne T (r2 j) - 1) i ≠ 0)
    (hV : potentialSeparated u ang N1 r1 (2 * M) r2 ne T 1 1 (lastBelow (2 * M) (kGrid (2 * M) r2) (1 / ang)) ≠ 0) :
    ¬∃ c, HncEquations (2 * M) (fourierSine (2 * M) (kGrid (2 * M) r2) r2) (fun _ => ne / 2) (fun _ _ _ => 0)
      (fun a b i => potentialSeparated u ang N1 r1 (2 * M) r2 ne T a b i / (u.kB * T))
      (spinMatrix fun j => gEqual u N1 r1 ne T (r2 j)) c := by
  have hmono : ∀ i j, i < j → kGrid (2 * M) r2 i < kGrid (2 * M) r2 j := by
    intro i j hij
    unfold kGrid
    have hdk : 0 < π / ((2 * M : ℕ) * (r2 1 - r2 0)) := by
      have : (0 : ℝ) < (2 * M : ℕ) := by exact_mod_cast Nat.mul_pos two_pos hM
      positivity
    have : (i : ℝ) < j := by exact_mod_cast hij
    simp only []
    nlinarith
  have hle : ∀ b, lastBelow (2 * M) (kGrid (2 * M) r2) b < 2 * M := by
    intro b
    have := Nat.findGreatest_le (P := fun i => kGrid (2 * M) r2 i < b) (2 * M - 1)
    unfold lastBelow
    omega
  set i1 := lastBelow (2 * M) (kGrid (2 * M) r2) (1 / ang) with hi1
  set i2 := lastBelow (2 * M) (kGrid (2 * M) r2) (2 / ang) with hi2
  have hg : ∀ j < 2 * M, 0 < gEqual u N1 r1 ne T (r2 j) := fun j _ => (g_range u hr1 hN1 ne T _).2.1
  refine separated_patch_fails hM hT hg hdet (hle _) (hle _) (i := 0) (j := 1) (by omega) (by omega)
    (kGrid_pos hr2 hdr2 0).le (hmono 0 1 one_pos) (hmono 1 i1 (by omega)) (hmono i1 i2 h2) (Or.inl ?_)
  intro h0
  apply hV
  unfold potentialSeparated patch
  simp only [← hi1, if_neg (lt_irrefl _)]
  rw [separated_eq (hdet i1 (hle _)), if_pos rfl]
  exact h0

/-! ### The hole around an electron -/

/-- The number of electrons of the density `n` that are missing around an electron, for the pair distribution
function `1 - F²`, by the sum over the grid; it cannot exceed one. -/
noncomputable def holeCharge (N : ℕ) (r : ℕ → ℝ) (n : ℝ) (F : ℕ → ℝ) : ℝ :=
  n * ∑ j ∈ Finset.range N, 4 * π * r j ^ 2 * F j ^ 2 * (r 1 - r 0)

/-- The mean of the squared occupation numbers in the Fermi sphere of `n` electrons with both spins, by the sum over
the grid. -/
noncomputable def meanSquare (N : ℕ) (k nk : ℕ → ℝ) (n : ℝ) : ℝ :=
  3 / fermiWavenumber n ^ 3 * ∑ i ∈ Finset.range N, k i ^ 2 * nk i ^ 2 * (k 1 - k 0)

theorem sineSum_parseval (N : ℕ) (f : ℕ → ℝ) :
    ∑ n ∈ Finset.range N, sineSum N f n ^ 2 = N / 2 * ∑ j ∈ Finset.range N, f j ^ 2 := by
  have h : ∀ n, sineSum N f n ^ 2 = ∑ j ∈ Finset.range N, f j * (sineSum N f n * sin (π / N * (n + 1 / 2) * (j + 1 / 2))) := by
    intro n
    rw [sq]
    conv_lhs => lhs; unfold sineSum
    rw [Finset.sum_mul]
    refine Finset.sum_congr rfl fun j _ => ?_
    rw [show π / N * ((j : ℝ) + 1 / 2) * (n + 1 / 2) = π / N * (n + 1 / 2) * (j + 1 / 2) by ring]
    ring
  simp only [h]
  rw [Finset.sum_comm, Finset.mul_sum]
  refine Finset.sum_congr rfl fun j hj => ?_
  rw [← Finset.mul_sum]
  have := sineSum_sineSum f (Finset.mem_range.1 hj)
  conv at this => lhs; unfold sineSum
  rw [show (∑ n ∈ Finset.range N, sineSum N f n * sin (π / N * (n + 1 / 2) * (j + 1 / 2))) = _ from this]
  ring

theorem fermiWavenumber_cube {n : ℝ} (hn : 0 < n) : fermiWavenumber n ^ 3 = 3 * π ^ 2 * n := by
  unfold fermiWavenumber
  rw [← rpow_natCast, ← rpow_mul (by positivity)]
  norm_num

/-- The number of missing electrons, in terms of the occupation numbers. -/
theorem hole_charge (u : Consts) {M : ℕ} (hM : 0 < M) {r : ℕ → ℝ} (hr : ∀ j < 2 * M, r j ≠ 0) (hdr : r 1 - r 0 ≠ 0) {n : ℝ} (hn : 0 < n)
    (nS T : ℝ) :
    holeCharge (2 * M) r nS (exchange u (2 * M) r n T) = 2 * nS / n *
      meanSquare (2 * M) (kGrid (2 * M) r) (fun i => fermiDirac u (kGrid (2 * M) r i) (chemPotSommerfeld u T n) T) n := by
  have hM' : (M : ℝ) ≠ 0 := by exact_mod_cast hM.ne'
  have hkF := fermiWavenumber_cube hn
  have hkF0 := fermiWavenumber_pos hn
  set k := kGrid (2 * M) r with hk
  set nk := fun i => fermiDirac u (k i) (chemPotSommerfeld u T n) T with hnk
  have hstep : k 1 - k 0 = π / ((2 * M : ℕ) * (r 1 - r 0)) := kGrid_step _ _
  have hF : ∀ j < 2 * M, r j * exchange u (2 * M) r n T j =
      3 * (k 1 - k 0) / fermiWavenumber n ^ 3 * sineSum (2 * M) (fun i => k i * nk i) j := by
    intro j hj
    unfold exchange
    simp only [← hk]
    rw [fourierSine_eq hM _ _ _ hj]
    have := hr j hj
    have := pi_pos.ne'
    change r j * (_ * (_ * sineSum (2 * M) (fun i => k i * nk i) j) / _) = _
    generalize sineSum (2 * M) (fun i => k i * nk i) j = S
    field_simp
    ring
  have h1 : ∑ j ∈ Finset.range (2 * M), 4 * π * r j ^ 2 * exchange u (2 * M) r n T j ^ 2 * (r 1 - r 0) =
      4 * π * (r 1 - r 0) * (3 * (k 1 - k 0) / fermiWavenumber n ^ 3) ^ 2 *
        ∑ j ∈ Finset.range (2 * M), sineSum (2 * M) (fun i => k i * nk i) j ^ 2 := by
    rw [Finset.mul_sum]
    refine Finset.sum_congr rfl fun j hj => ?_
    have := hF j (Finset.mem_range.1 hj)
    calc 4 * π * r j ^ 2 * exchange u (2 * M) r n T j ^ 2 * (r 1 - r 0)
        = 4 * π * (r 1 - r 0) * (r j * exchange u (2 * M) r n T j) ^ 2 := by ring
      _ = _ := by rw [this]; ring
  unfold holeCharge meanSquare
  rw [h1, sineSum_parseval, ← Finset.sum_mul]
  simp only [mul_pow]
  generalize ∑ j ∈ Finset.range (2 * M), k j ^ 2 * nk j ^ 2 = S
  rw [hstep, hkF]
  have := pi_pos.ne'
  push_cast
  field_simp
  ring

/-- C94: for averaged spins the hole has the right size: the electrons of equal spin are half of all electrons.
It is at most the sum of the occupation numbers, which is one if the chemical potential is exact. -/
theorem averaged_hole (u : Consts) {M : ℕ} (hM : 0 < M) {r : ℕ → ℝ} (hr : ∀ j < 2 * M, r j ≠ 0) (hdr : r 1 - r 0 ≠ 0) {n : ℝ} (hn : 0 < n)
    (T : ℝ) : holeCharge (2 * M) r (n / 2) (exchange u (2 * M) r n T) =
      meanSquare (2 * M) (kGrid (2 * M) r) (fun i => fermiDirac u (kGrid (2 * M) r i) (chemPotSommerfeld u T n) T) n := by
  rw [hole_charge u hM hr hdr hn, show 2 * (n / 2) / n = 1 by field_simp, one_mul]

/-- C94: for separated spins it is twice as large as it should be. -/
theorem separated_hole (u : Consts) {M : ℕ} (hM : 0 < M) {r : ℕ → ℝ} (hr : ∀ j < 2 * M, r j ≠ 0) (hdr : r 1 - r 0 ≠ 0) {n : ℝ} (hn : 0 < n)
    (T : ℝ) : holeCharge (2 * M) r (n / 2) (exchange u (2 * M) r (n / 2) T) =
      2 * meanSquare (2 * M) (kGrid (2 * M) r) (fun i => fermiDirac u (kGrid (2 * M) r i) (chemPotSommerfeld u T (n / 2)) T) (n / 2) := by
  rw [hole_charge u hM hr hdr (half_pos hn), mul_div_assoc, div_self (half_pos hn).ne', mul_one]

theorem sum_half_sq (m : ℕ) : ∑ i ∈ Finset.range m, ((i : ℝ) + 1 / 2) ^ 2 = (4 * (m : ℝ) ^ 3 - m) / 12 := by
  induction m with
  | zero => simp
  | succ m ih => rw [Finset.sum_range_succ, ih]; push_cast; ring

/-- At low temperature, the mean of the squared occupation numbers exceeds one half, on a grid with enough points
below the Fermi wave number. -/
theorem meanSquare_cold (u : Consts) {N : ℕ} {k0 dk n : ℝ} (hn : 0 < n) (hdk : 0 < dk) (h0 : dk / 2 ≤ k0) (h1 : k0 ≤ 2 * dk)
    (h7 : k0 + 7 * dk < fermiWavenumber n) (hN : fermiWavenumber n ≤ k0 + N * dk) :
    ∀ᶠ T in 𝓝[>] 0, 1 / 2 < meanSquare N (fun i => k0 + i * dk)
      (fun i => fermiDirac u (k0 + i * dk) (chemPotSommerfeld u T n) T) n := by
  have hkF := fermiWavenumber_pos hn
  have hex : ∃ m : ℕ, fermiWavenumber n ≤ k0 + m * dk := ⟨N, hN⟩
  set m := Nat.find hex with hm
  have hm1 : fermiWavenumber n ≤ k0 + m * dk := Nat.find_spec hex
  have hmN : m ≤ N := Nat.find_min' hex hN
  have hlt : ∀ i < m, k0 + i * dk < fermiWavenumber n := fun i hi => not_le.1 (Nat.find_min hex hi)
  have h8 : 8 ≤ m := by
    by_contra h
    have : (m : ℝ) ≤ 7 := by exact_mod_cast (by omega : m ≤ 7)
    nlinarith
  have hlim : Tendsto (fun T => 3 / fermiWavenumber n ^ 3 * ∑ i ∈ Finset.range m, (k0 + i * dk) ^ 2 *
      fermiDirac u (k0 + i * dk) (chemPotSommerfeld u T n) T ^ 2 * dk) (𝓝[>] 0)
      (𝓝 (3 / fermiWavenumber n ^ 3 * ∑ i ∈ Finset.range m, (k0 + i * dk) ^ 2 * 1 ^ 2 * dk)) := by
    refine Tendsto.const_mul _ (tendsto_finsetSum _ fun i hi => ?_)
    have hi' := hlt i (Finset.mem_range.1 hi)
    have hk0 : 0 < k0 := by linarith
    have hpos : 0 < k0 + i * dk := by positivity
    have hE : kinEnergy u (k0 + i * dk) < fermiEnergy u n := by
      rw [← kinEnergy_fermiWavenumber u hn, kinEnergy_lt, abs_of_pos hpos, abs_of_pos hkF]
      exact hi'
    exact ((fermiDirac_cold_below u (chemPotSommerfeld_degenerate u hn).1 hE).pow 2).const_mul _ |>.mul_const _
  have hval : 1 / 2 < 3 / fermiWavenumber n ^ 3 * ∑ i ∈ Finset.range m, (k0 + i * dk) ^ 2 * 1 ^ 2 * dk := by
    have hs : dk ^ 3 * ((4 * (m : ℝ) ^ 3 - m) / 12) ≤ ∑ i ∈ Finset.range m, (k0 + i * dk) ^ 2 * 1 ^ 2 * dk := by
      rw [← sum_half_sq, Finset.mul_sum]
      refine Finset.sum_le_sum fun i _ => ?_
      have : (i + 1 / 2) * dk ≤ k0 + i * dk := by linarith
      have h2 : ((i + 1 / 2) * dk) ^ 2 ≤ (k0 + i * dk) ^ 2 := pow_le_pow_left₀ (by positivity) this 2
      nlinarith
    have hc : fermiWavenumber n ^ 3 ≤ (m + 2) ^ 3 * dk ^ 3 := by
      rw [← mul_pow]
      refine pow_le_pow_left₀ hkF.le ?_ 3
      linarith
    have hm' : (8 : ℝ) ≤ m := by exact_mod_cast h8
    have hpoly : 2 * ((m : ℝ) + 2) ^ 3 < 4 * m ^ 3 - m := by
      obtain ⟨x, hx⟩ : ∃ x : ℝ, x = m - 8 := ⟨_, rfl⟩
      have : (m : ℝ) = x + 8 := by linarith
      rw [this]
      have : 0 ≤ x := by linarith
      nlinarith [pow_nonneg this 3, pow_nonneg this 2]
    have hd3 : 0 < dk ^ 3 := by positivity
    rw [div_mul_eq_mul_div, lt_div_iff₀ (by positivity)]
    nlinarith
  filter_upwards [hlim.eventually_const_lt hval] with T hT
  refine lt_of_lt_of_le hT ?_
  unfold meanSquare
  refine mul_le_mul_of_nonneg_left ?_ (by positivity)
  simp only [Nat.cast_one, one_mul, Nat.cast_zero, zero_mul, add_zero, add_sub_cancel_left]
  exact Finset.sum_le_sum_of_subset_of_nonneg (Finset.range_mono hmN) fun i _ _ => by positivity

/-- C94: for separated spins, more than one electron is missing around each electron, if the temperature is low. -/
theorem separated_hole_too_large (u : Consts) {M : ℕ} (hM : 0 < M) {r : ℕ → ℝ} (hr : ∀ j < 2 * M, r j ≠ 0) {n : ℝ} (hn : 0 < n)
    (hdr : 0 < r 1 - r 0) (h0 : (kGrid (2 * M) r 1 - kGrid (2 * M) r 0) / 2 ≤ kGrid (2 * M) r 0)
    (h1 : kGrid (2 * M) r 0 ≤ 2 * (kGrid (2 * M) r 1 - kGrid (2 * M) r 0))
    (h7 : kGrid (2 * M) r 7 < fermiWavenumber (n / 2)) (hN : fermiWavenumber (n / 2) ≤ kGrid (2 * M) r (2 * M)) :
    ∀ᶠ T in 𝓝[>] 0, 1 < holeCharge (2 * M) r (n / 2) (exchange u (2 * M) r (n / 2) T) := by
  have hM' : (0 : ℝ) < (2 * M : ℕ) := by exact_mod_cast Nat.mul_pos two_pos hM
  have hk : ∀ i : ℕ, kGrid (2 * M) r i = π / r (2 * M - 1) + i * (π / ((2 * M : ℕ) * (r 1 - r 0))) := fun i => rfl
  have hfun : kGrid (2 * M) r = fun i : ℕ => π / r (2 * M - 1) + i * (π / ((2 * M : ℕ) * (r 1 - r 0))) := rfl
  have hdk : 0 < π / ((2 * M : ℕ) * (r 1 - r 0)) := by positivity
  rw [kGrid_step] at h0 h1
  have hk0 : kGrid (2 * M) r 0 = π / r (2 * M - 1) := by rw [hk]; simp
  rw [hk0] at h0 h1
  rw [hk] at h7 hN
  have := meanSquare_cold u (N := 2 * M) (half_pos hn) hdk h0 h1 (by exact_mod_cast h7) hN
  filter_upwards [this] with T hT
  rw [separated_hole u hM hr hdr.ne' hn, hfun]
  linarith

/-- C94: on the grid that the class uses. -/
theorem class_hole_too_large (u : Consts) {a0 n : ℝ} (ha : 0 < a0) (hn : 0 < n) (hl : 3 / 1000 / a0 ≤ fermiWavenumber (n / 2))
    (hu : fermiWavenumber (n / 2) ≤ 600 / a0) :
    ∀ᶠ T in 𝓝[>] 0, 1 < holeCharge (2 ^ 21) (rCalc a0) (n / 2) (exchange u (2 ^ 21) (rCalc a0) (n / 2) T) := by
  have hr : ∀ j : ℕ, rCalc a0 j = a0 * (1 / 1000 + j * ((10000 - 1 / 1000) / 2097151)) := by
    intro j
    unfold rCalc rGrid
    push_cast
    ring
  have hpos : ∀ j, 0 < rCalc a0 j := fun j => by rw [hr]; positivity
  have hd : rCalc a0 1 - rCalc a0 0 = a0 * ((10000 - 1 / 1000) / 2097151) := by rw [hr, hr]; push_cast; ring
  have hlast : rCalc a0 (2 * 2 ^ 20 - 1) = a0 * 10000 := by rw [hr]; norm_num
  have hk : ∀ i : ℕ, kGrid (2 * 2 ^ 20) (rCalc a0) i = π / a0 * (1 / 10000 + i * (2097151 / (2097152 * (10000 - 1 / 1000)))) := by
    intro i
    unfold kGrid
    simp only []
    rw [hd, hlast]
    push_cast
    field_simp
  have hpa : 0 < π / a0 := by positivity
  have hp1 := pi_gt_three
  have hp2 := pi_lt_d2
  have e : (2 : ℕ) ^ 21 = 2 * 2 ^ 20 := by norm_num
  rw [e]
  refine separated_hole_too_large u (by norm_num) (fun j _ => (hpos j).ne') hn ?_ ?_ ?_ ?_ ?_
  · rw [hd]
    have : (0 : ℝ) < (10000 - 1 / 1000) / 2097151 := by norm_num
    positivity
  · rw [hk, hk, ← mul_sub, mul_div_assoc]
    refine mul_le_mul_of_nonneg_left ?_ hpa.le
    norm_num
  · rw [hk, hk, ← mul_sub, mul_left_comm]
    refine mul_le_mul_of_nonneg_left ?_ hpa.le
    norm_num
  · refine lt_of_lt_of_le ?_ hl
    rw [hk, div_mul_eq_mul_div]
    refine div_lt_div_of_pos_right ?_ ha
    push_cast
    norm_num
    linarith
  · refine hu.trans ?_
    rw [hk, div_mul_eq_mul_div]
    refine div_le_div_of_nonneg_right ?_ ha.le
    push_cast
    norm_num
    linarith

/-! ### The grids of the class -/

/-- C94: the potential is calculated at the wave numbers that were asked for only if the first of them is equal to their
spacing. -/
theorem grid_consistent {N : ℕ} (hN : 2 ≤ N) {k0 dk : ℝ} (h0 : 0 < k0) (hd : 0 < dk) :
    (∀ i, kGrid N (rOfK N fun i => k0 + i * dk) i = k0 + i * dk) ↔ k0 = dk := by
  have hN' : (2 : ℝ) ≤ N := by exact_mod_cast hN
  have hN1 : ((N - 1 : ℕ) : ℝ) = N - 1 := by rw [Nat.cast_sub (by omega)]; norm_num
  have hkm : 0 < k0 + (N - 1) * dk := by nlinarith
  have hpi := pi_pos
  have hr : ∀ j : ℕ, rOfK N (fun i => k0 + i * dk) j = π / (k0 + (N - 1) * dk) + j * (π / (N * dk)) := by
    intro j
    unfold rOfK
    simp only [hN1]
    push_cast
    rw [show k0 + 1 * dk - (k0 + 0 * dk) = dk by ring]
  have hlast : 0 < π / (k0 + (N - 1) * dk) + (N - 1) * (π / (N * dk)) := by
    have : 0 < (N : ℝ) - 1 := by linarith
    positivity
  have hk : ∀ i : ℕ, kGrid N (rOfK N fun i => k0 + i * dk) i =
      π / (π / (k0 + (N - 1) * dk) + (N - 1) * (π / (N * dk))) + i * dk := by
    intro i
    unfold kGrid
    simp only [hr, hN1]
    push_cast
    rw [show π / (k0 + (N - 1) * dk) + 1 * (π / (N * dk)) - (π / (k0 + (N - 1) * dk) + 0 * (π / (N * dk))) = π / (N * dk) by ring,
      show π / (N * (π / (N * dk))) = dk by field_simp]
  have key : (∀ i, kGrid N (rOfK N fun i => k0 + i * dk) i = k0 + i * dk) ↔
      π / (π / (k0 + (N - 1) * dk) + (N - 1) * (π / (N * dk))) = k0 := by
    constructor
    · intro h
      have := h 0
      rw [hk] at this
      simpa using this
    · intro h i
      rw [hk, h]
  rw [key, div_eq_iff hlast.ne']
  have e : k0 * (π / (k0 + (N - 1) * dk) + (N - 1) * (π / (N * dk))) =
      π * (k0 * (N * dk + (N - 1) * (k0 + (N - 1) * dk)) / ((k0 + (N - 1) * dk) * (N * dk))) := by
    field_simp
  rw [e]
  constructor
  · intro h
    have h2 : k0 * (N * dk + (N - 1) * (k0 + (N - 1) * dk)) / ((k0 + (N - 1) * dk) * (N * dk)) = 1 := by
      have := mul_left_cancel₀ hpi.ne' ((mul_one π).trans h)
      exact this.symm
    rw [div_eq_one_iff_eq (by positivity)] at h2
    have h3 : (k0 - dk) * ((N - 1) * (k0 + N * dk)) = 0 := by linear_combination h2
    have h4 : 0 < ((N : ℝ) - 1) * (k0 + N * dk) := by
      have : 0 < (N : ℝ) - 1 := by linarith
      positivity
    have := (mul_eq_zero.1 h3).resolve_right h4.ne'
    linarith
  · intro h
    have hNd : 0 < N * dk := by positivity
    have e2 : dk * (N * dk + (N - 1) * (dk + (N - 1) * dk)) / ((dk + (N - 1) * dk) * (N * dk)) = 1 := by
      rw [show dk + ((N : ℝ) - 1) * dk = N * dk by ring, show dk * (N * dk + (N - 1) * (N * dk)) = N * dk * (N * dk) by ring]
      exact div_self (by positivity)
    rw [h, e2, mul_one]

/-- C94: ions are not affected. -/
theorem fullK_ions (u : Consts) (ang a0 : ℝ) (m N : ℕ) (k : ℕ → ℝ) (ne T : ℝ) (i : ℕ) :
    (∀ a b : Fin (m + 2), (a.1 < m ∨ b.1 < m) → fullKSeparated u ang a0 m N k ne T a b i = 0) ∧
      ∀ a b : Fin (m + 1), (a.1 < m ∨ b.1 < m) → fullKAveraged u ang a0 m N k ne T a b i = 0 := by
  constructor
  · intro a b h
    unfold fullKSeparated
    rw [dif_neg (by omega)]
  · intro a b h
    unfold fullKAveraged
    rw [if_neg (by omega)]

/-! ### The two forms of the potential -/

/-- C32: `full_k` is the transform of `full_r`, on every uniform grid of even length. -/
theorem fullR_pair {m M : ℕ} (hM : 0 < M) (fullK : (ℕ → ℝ) → Fin m → Fin m → ℕ → ℝ) {r : ℕ → ℝ} (hr : ∀ j, 0 < r j)
    (hd : 0 < r 1 - r 0) (a b : Fin m) {i : ℕ} (hi : i < 2 * M) :
    fourierSine (2 * M) (kGrid (2 * M) r) r (fullR fullK (2 * M) r a b) i = fullK (kGrid (2 * M) r) a b i :=
  fourierSine_inverse' hM _ _ _ (fun j _ => (hr j).ne') (fun n _ => (kGrid_pos (hr _) hd n).ne') hd.ne' (kGrid_step _ _) hi

/-- C31: `short_r` and `long_r` (hnc_potentials.py 371-398) add up to `full_r`, and their transforms, which are
`short_k` and `long_k` (401-418) on the wave numbers of the transform, add up to `full_k`. -/
theorem fullR_parts {m M : ℕ} (hM : 0 < M) (fullK : (ℕ → ℝ) → Fin m → Fin m → ℕ → ℝ) {r : ℕ → ℝ} (hr : ∀ j, 0 < r j)
    (hd : 0 < r 1 - r 0) (alpha : ℝ) (a b : Fin m) :
    (∀ j, fullR fullK (2 * M) r a b j * exp (-alpha * r j) + fullR fullK (2 * M) r a b j * (1 - exp (-alpha * r j)) =
      fullR fullK (2 * M) r a b j) ∧
    ∀ i < 2 * M,
      fourierSine (2 * M) (kGrid (2 * M) r) r (fun j => fullR fullK (2 * M) r a b j * exp (-alpha * r j)) i +
        fourierSine (2 * M) (kGrid (2 * M) r) r (fun j => fullR fullK (2 * M) r a b j * (1 - exp (-alpha * r j))) i =
      fullK (kGrid (2 * M) r) a b i := by
  refine ⟨fun j => by ring, fun i hi => ?_⟩
  have h : (fun j => fullR fullK (2 * M) r a b j * (1 - exp (-alpha * r j))) =
      fun j => fullR fullK (2 * M) r a b j - fullR fullK (2 * M) r a b j * exp (-alpha * r j) := by
    funext j
    ring
  rw [h, fourierSine_sub hM _ _ _ _ hi, ← fullR_pair hM fullK hr hd a b hi]
  ring

/-- C94: the potential in both forms is symmetric in the two species, for averaged spins. -/
theorem fullKAveraged_symm (u : Consts) (ang a0 : ℝ) (m N : ℕ) (k : ℕ → ℝ) (ne T : ℝ) (a b : Fin (m + 1)) (i : ℕ) :
    fullKAveraged u ang a0 m N k ne T a b i = fullKAveraged u ang a0 m N k ne T b a i := by
  unfold fullKAveraged
  simp only [and_comm]

/-- A grid as `_transform_r` for the theorems above. -/
example : (∀ j : ℕ, (0 : ℝ) < (fun j : ℕ => ((j : ℝ) + 1) / 1000) j) ∧
    (0 : ℝ) < (fun j : ℕ => ((j : ℝ) + 1) / 1000) 1 - (fun j : ℕ => ((j : ℝ) + 1) / 1000) 0 := by
  constructor
  · intro j
    positivity
  · norm_num

/-! ### The hypotheses can be met -/

/-- A pair distribution function with a logarithm whose transform is minus one, at a low density. -/
theorem example_density {M : ℕ} (hM : 0 < M) (k r : ℕ → ℝ) (hr : ∀ j < 2 * M, r j ≠ 0) (hk : ∀ n < 2 * M, k n ≠ 0)
    (hdr : r 1 - r 0 ≠ 0) (hdk : k 1 - k 0 = π / ((2 * M : ℕ) * (r 1 - r 0))) :
    ∃ (g : ℕ → ℝ) (n : ℝ), 0 < n ∧ (∀ j, 0 < g j) ∧
      (∀ i < 2 * M, 1 + n * fourierSine (2 * M) k r (fun j => g j - 1) i ≠ 0) ∧
      ∀ i < 2 * M, 0 < invertAveraged (2 * M) k r n 1 g i := by
  set L := fun j => fourierSine (2 * M) r k (fun _ => -1) j / (2 * π) ^ 3 with hL
  set g := fun j => exp (L j) with hg
  set h := fun i => fourierSine (2 * M) k r (fun j => g j - 1) i with hh
  obtain ⟨S, hS⟩ : ∃ S : ℝ, S = ∑ i ∈ Finset.range (2 * M), h i ^ 2 := ⟨_, rfl⟩
  have hS0 : 0 ≤ S := by rw [hS]; exact Finset.sum_nonneg fun _ _ => sq_nonneg _
  have hle : ∀ i < 2 * M, h i ^ 2 ≤ S := by
    intro i hi
    rw [hS]
    exact Finset.single_le_sum (f := fun i => h i ^ 2) (fun _ _ => sq_nonneg _) (Finset.mem_range.2 hi)
  have hn : 0 < 1 / (4 * (1 + S)) := by positivity
  have hb : ∀ i < 2 * M, 1 / (4 * (1 + S)) * h i ^ 2 ≤ 1 / 4 ∧ |1 / (4 * (1 + S)) * h i| ≤ 1 / 4 := by
    intro i hi
    have h1 := hle i hi
    have e : 1 / (4 * (1 + S)) * (1 + S) = 1 / 4 := by field_simp
    constructor
    · nlinarith
    · rw [abs_mul, abs_of_pos hn]
      have : |h i| ≤ 1 + S := by nlinarith [sq_nonneg (|h i| - 1), sq_abs (h i), abs_nonneg (h i)]
      nlinarith
  have hpos : ∀ i < 2 * M, 3 / 4 ≤ 1 + 1 / (4 * (1 + S)) * h i := by
    intro i hi
    have := abs_le.1 (hb i hi).2
    linarith
  refine ⟨g, 1 / (4 * (1 + S)), hn, fun j => exp_pos _, fun i hi => (lt_of_lt_of_le (by norm_num) (hpos i hi)).ne', fun i hi => ?_⟩
  have hlog : fourierSine (2 * M) k r (fun j => log (g j)) i = -1 := by
    have : (fun j => log (g j)) = L := by
      funext j
      exact log_exp _
    rw [this]
    exact fourierSine_inverse' hM k r (fun _ => -1) hr hk hdr hdk hi
  unfold invertAveraged
  simp only [hlog]
  change 0 < (h i - -1 - h i / (1 + 1 / (4 * (1 + S)) * h i)) * 1
  have h1 := hpos i hi
  have h2 := (hb i hi).1
  generalize 1 / (4 * (1 + S)) = n at *
  have hne : 1 + n * h i ≠ 0 := by linarith
  have e : h i - -1 - h i / (1 + n * h i) = 1 + n * h i ^ 2 / (1 + n * h i) := by
    rw [show n * h i ^ 2 = (1 + n * h i - 1) * h i by ring, sub_mul, sub_div, one_mul, mul_div_cancel_left₀ _ hne]
    ring
  rw [e, mul_one]
  have : 0 ≤ n * h i ^ 2 / (1 + n * h i) := by positivity
  linarith

/-- The hypotheses of `averaged_inverts`, `separated_inverts` and `separated_patch_fails` can be met. -/
example : ∃ (k r g : ℕ → ℝ) (n : ℝ), 0 < n ∧ (∀ j < 2 * 2, 0 < g j) ∧
    (∀ i < 2 * 2, 1 + n * fourierSine (2 * 2) k r (fun j => g j - 1) i ≠ 0) ∧ 0 ≤ k 0 ∧ k 0 < k 1 ∧ k 1 < k 2 ∧ k 2 < k 3 ∧
      invertAveraged (2 * 2) k r n 1 g 2 ≠ 0 := by
  have hdr : (0 : ℝ) < ((1 : ℕ) + 1 : ℝ) - ((0 : ℕ) + 1) := by norm_num
  set r : ℕ → ℝ := fun j => (j : ℝ) + 1 with hr
  have hk : ∀ i : ℕ, kGrid (2 * 2) r i = π / 4 * (1 + i) := by
    intro i
    unfold kGrid
    simp only [hr]
    norm_num
    ring
  have hp := pi_pos
  obtain ⟨g, n, h1, h2, h3, h4⟩ := example_density (M := 2) (by norm_num) (kGrid (2 * 2) r) r (fun j _ => by positivity)
    (fun i _ => by rw [hk]; positivity) hdr.ne' (kGrid_step _ _)
  refine ⟨_, r, g, n, h1, fun j _ => h2 j, h3, ?_, ?_, ?_, ?_, (h4 2 (by norm_num)).ne'⟩
  · rw [hk]; positivity
  · rw [hk, hk]; push_cast; nlinarith
  · rw [hk, hk]; push_cast; nlinarith
  · rw [hk, hk]; push_cast; nlinarith

/-- The hypotheses of `class_hole_too_large` can be met: a Fermi wave number of one over the Bohr radius. -/
example : ∃ n : ℝ, 0 < n ∧ fermiWavenumber (n / 2) = 1 := by
  refine ⟨2 / (3 * π ^ 2), by positivity, ?_⟩
  unfold fermiWavenumber
  rw [show 3 * π ^ 2 * (2 / (3 * π ^ 2) / 2) = 1 by field_simp, one_rpow]

/-! ### The replacement at small wave numbers, and the density -/

/-- C94: the replaced values lie on the parabola without linear term through the two given values. -/
theorem patch_parabola {k f V : ℕ → ℝ} {i1 i2 i : ℕ} (h : k i2 ^ 2 ≠ k i1 ^ 2) (hi : k i < k i1) :
    (patch k i1 i2 f V i - f i1) * (k i2 ^ 2 - k i1 ^ 2) = (f i2 - f i1) * (k i ^ 2 - k i1 ^ 2) := by
  have hd : k i2 ^ 2 - k i1 ^ 2 ≠ 0 := sub_ne_zero.2 h
  unfold patch
  simp only [if_pos hi]
  field_simp
  ring

/-- C94: the other values stay. -/
theorem patch_keeps {k f V : ℕ → ℝ} {i1 i2 i : ℕ} (hi : k i1 ≤ k i) : patch k i1 i2 f V i = V i := if_neg (not_lt.2 hi)

/-- C94, false for the code: the pair distribution function for averaged spins is the mean of those for equal and for
opposite spins (one).  The code calculates equal spins with half the density, so that its two functions belong to
plasmas with different densities: at the distances of the first grid, and where nothing is clipped, the average at a
density is the mean at twice that density. -/
theorem spins_density (u : Consts) {N : ℕ} {r1 : ℕ → ℝ} (h : Interp.Increasing N r1) (ne T : ℝ) {j : ℕ} (hj : j < N)
    (hpos : exchange u N r1 ne T j ^ 2 < 1) :
    gAveraged u N r1 ne T (r1 j) = (gEqual u N r1 (2 * ne) T (r1 j) + 1) / 2 := by
  have at_node : ∀ f : ℕ → ℝ, Interp.interpLR N r1 f (1 / 2) 1 (r1 j) = f j := by
    intro f
    rw [← Interp.interp_at_node N r1 f h j hj]
    unfold Interp.interp Interp.interpLR
    rw [if_neg (not_lt.2 (h.le (by omega) (by omega))), if_neg (not_lt.2 (h.le (by omega) hj)),
      if_neg (not_lt.2 (h.le (by omega) (by omega))), if_neg (not_lt.2 (h.le (by omega) hj))]
  unfold gAveraged gEqual
  rw [at_node, at_node, mul_div_cancel_left₀ ne two_ne_zero]
  unfold clip
  rw [if_neg (by nlinarith [sq_nonneg (exchange u N r1 ne T j)]), if_neg (by linarith)]
  ring

end Verif.Pauli
