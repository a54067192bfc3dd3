/-
Properties of the Born-Mermin approximation: agreement of the implementations, limits, symmetry and
detailed balance, sign of the collision frequency, and the energy grid of
`dielectric_function_BMA_full`.
-/
import Verif.Model.Mermin
import Verif.Props.Response
import Verif.Props.Interp
import Mathlib.MeasureTheory.Integral.Bochner.Set
import Mathlib.Data.List.GetD

set_option autoImplicit false

namespace Verif.Resp

open Real Verif.Expt Verif.Interp MeasureTheory ComplexConjugate Filter Topology

variable (u : Consts)

/-! ### C29: the implementations agree -/

/-- C29: the formulas in `dielectric_function_BMA_chapman_interp` and `..._interpFit` agree. -/
theorem merminInterp_eq_merminFit (w : ℝ) (nu pnu p0 : ℂ) :
    merminInterp w nu pnu p0 = merminFit w nu pnu p0 := by
  simp only [merminInterp, merminFit]
  congr 2
  ring

/-- C29: so does the formula in `dielectric_function_BMA_full`. -/
theorem merminFull_eq_merminFit {w : ℝ} (hw : w ≠ 0) (nu eps : ℂ) {es : ℂ} (hs : es - 1 ≠ 0) :
    merminFull w nu eps es = merminFit w nu (eps - 1) (es - 1) := by
  have hw' : (w : ℂ) ≠ 0 := Complex.ofReal_ne_zero.2 hw
  simp only [merminFull, merminFit]
  generalize eps - 1 = p
  generalize es - 1 = p0 at hs
  have h : 1 + Complex.I * (nu / w) * p / p0 = (p0 * w + Complex.I * nu * p) / (p0 * w) := by
    field_simp
  rw [h, div_div_eq_mul_div]
  congr 2
  field_simp

/-- Mermin's formula in terms of the susceptibilities. -/
theorem merminFit_susceptibility (w : ℝ) (nu xd xs : ℂ) {k : ℝ} (hk : k ≠ 0) :
    noninteractingFromEps u (merminFit w nu (-(vee u k : ℂ) * xd) (-(vee u k : ℂ) * xs)) k =
      (w + Complex.I * nu) * xs * xd / (xs * w + Complex.I * nu * xd) := by
  have hv := vee_ne u hk
  simp only [noninteractingFromEps, merminFit]
  generalize (vee u k : ℂ) = V at hv
  have h : -V * xs * w + Complex.I * nu * (-V * xd) = -V * (xs * w + Complex.I * nu * xd) := by
    ring
  rw [h]
  generalize xs * w + Complex.I * nu * xd = D
  by_cases hD : D = 0
  · simp [hD]
  · field_simp
    ring

/-- C29: the local field correction may be applied before (`susceptibility_BMA_Fortmann`) or after
the Mermin step, for every value of the correction. -/
theorem fortmann_eq_fit (w lfc : ℝ) {nu xd xs : ℂ} {k : ℝ} (hk : k ≠ 0) (hnu : nu ≠ 0)
    (hd : 1 - (vee u k : ℂ) * (1 - lfc) * xd ≠ 0) (hs : 1 - (vee u k : ℂ) * (1 - lfc) * xs ≠ 0)
    (hD : xs * w + Complex.I * nu * xd ≠ 0) :
    merminFortmann (vee u k) lfc w nu xd xs =
      xiLfc (noninteractingFromEps u
        (merminFit w nu (-(vee u k : ℂ) * xd) (-(vee u k : ℂ) * xs)) k) (vee u k) lfc := by
  rw [merminFit_susceptibility u w nu xd xs hk]
  simp only [merminFortmann, xiLfc]
  generalize (vee u k : ℂ) * (1 - lfc) = a at hd hs
  have hI : Complex.I ≠ 0 := Complex.I_ne_zero
  have hI2 : Complex.I ^ 2 = -1 := Complex.I_sq
  -- left hand side
  have h1 : xd / (1 - a * xd) - Complex.I * w / nu * (xs / (1 - a * xs)) =
      (-Complex.I / nu) * ((xs * w + Complex.I * nu * xd - a * ((w + Complex.I * nu) * xs * xd)) /
        ((1 - a * xd) * (1 - a * xs))) := by
    generalize hA : 1 - a * xd = A at hd
    generalize hB : 1 - a * xs = B at hs
    have e : xs * w + Complex.I * nu * xd - a * ((w + Complex.I * nu) * xs * xd) =
        w * xs * A + Complex.I * nu * xd * B := by
      rw [← hA, ← hB]
      ring
    rw [e]
    field_simp
    linear_combination (B * nu * xd) * hI2
  have h2 : 1 - Complex.I * w / nu = (-Complex.I / nu) * (w + Complex.I * nu) := by
    field_simp
    linear_combination nu * hI2
  have h3 : 1 - a * ((w + Complex.I * nu) * xs * xd / (xs * w + Complex.I * nu * xd)) =
      (xs * w + Complex.I * nu * xd - a * ((w + Complex.I * nu) * xs * xd)) /
        (xs * w + Complex.I * nu * xd) := by
    generalize xs * w + Complex.I * nu * xd = D at hD
    field_simp
  rw [h1, h2, h3, div_div_div_cancel_right₀ hD]
  generalize xs * w + Complex.I * nu * xd - a * ((w + Complex.I * nu) * xs * xd) = M
  generalize 1 - a * xd = A at hd
  generalize 1 - a * xs = B at hs
  by_cases hM : M = 0
  · simp [hM]
  · field_simp

/-- A case in which the hypotheses of `fortmann_eq_fit` hold. -/
example : ∃ nu xd xs : ℂ, nu ≠ 0 ∧ 1 - ((2 : ℝ) : ℂ) * (1 - ((0 : ℝ) : ℂ)) * xd ≠ 0 ∧
    1 - ((2 : ℝ) : ℂ) * (1 - ((0 : ℝ) : ℂ)) * xs ≠ 0 ∧
    xs * ((3 : ℝ) : ℂ) + Complex.I * nu * xd ≠ 0 := by
  refine ⟨1, -1, -2, one_ne_zero, by norm_num, by norm_num, ?_⟩
  intro h
  have := congrArg Complex.re h
  simp at this

/-- C29: `S0_ee_BMA_Fortmann` and `S0_ee_BMA_chapman_interpFit` return the same structure factor,
for every local field correction, where neither of them divides by zero. -/
theorem s0eeBMAFortmann_eq (d : DandreaFits) (b : BornArgs) {k : ℝ} (E lfc : ℝ) (hk : k ≠ 0)
    (hnu : nuInterpFit u d b (-E) ≠ 0)
    (hd : 1 - (vee u k : ℂ) * (1 - lfc) * noninteractingFromEps u
      (epsDamped u b.rewrite k (dampedEnergy u (-E) (nuInterpFit u d b (-E))) b.mu b.T) k ≠ 0)
    (hs : 1 - (vee u k : ℂ) * (1 - lfc) * xiDandrea u d k 0 b.T b.n ≠ 0)
    (hD : xiDandrea u d k 0 b.T b.n * ((-E / u.hbar : ℝ) : ℂ) +
      Complex.I * nuInterpFit u d b (-E) * noninteractingFromEps u
        (epsDamped u b.rewrite k (dampedEnergy u (-E) (nuInterpFit u d b (-E))) b.mu b.T) k ≠ 0) :
    s0eeBMAFortmann u d b k E lfc = s0eeBMAFit u d b k E lfc := by
  have hv := vee_ne u hk
  simp only [s0eeBMAFortmann, s0eeBMAFit, xiBMAFortmann, epsBMAFit]
  rw [fortmann_eq_fit u _ lfc hk hnu hd hs hD, ← vee_eq]
  congr 5
  · simp only [noninteractingFromEps]
    field_simp
    ring
  · simp only [epsDandrea]
    ring

/-! ### C29: limits -/

/-- C29: without collisions, Mermin's formula returns the dielectric function it is given. -/
theorem merminFit_zero {w : ℝ} (hw : w ≠ 0) (p : ℂ) {p0 : ℂ} (h0 : p0 ≠ 0) :
    merminFit w 0 p p0 = 1 + p := by
  have hw' : (w : ℂ) ≠ 0 := Complex.ofReal_ne_zero.2 hw
  simp only [merminFit]
  field_simp
  simp
  ring

/-- C29: for vanishing collision frequency, the Born-Mermin dielectric function tends to the
collisionless one, if the damped dielectric function does.
(Partial: for dielectric functions that are continuous at zero collision frequency; it fails for the default rewritten RPA, see `epsBMAFit_no_collisions`.) -/
theorem merminFit_tendsto_partial {w : ℝ} (hw : w ≠ 0) {p0 : ℂ} (h0 : p0 ≠ 0) {p : ℂ → ℂ} {p1 : ℂ}
    {l : Filter ℂ} (hl : l ≤ 𝓝 0) (hp : Tendsto p l (𝓝 p1)) :
    Tendsto (fun nu => merminFit w nu (p nu) p0) l (𝓝 (1 + p1)) := by
  have hw' : (w : ℂ) ≠ 0 := Complex.ofReal_ne_zero.2 hw
  have hid : Tendsto (fun nu : ℂ => nu) l (𝓝 0) := hl
  have hnum : Tendsto (fun nu => ((w : ℂ) + Complex.I * nu) * p0 * p nu) l
      (𝓝 (((w : ℂ) + Complex.I * 0) * p0 * p1)) :=
    ((tendsto_const_nhds.add (tendsto_const_nhds.mul hid)).mul tendsto_const_nhds).mul hp
  have hden : Tendsto (fun nu => p0 * (w : ℂ) + Complex.I * nu * p nu) l
      (𝓝 (p0 * (w : ℂ) + Complex.I * 0 * p1)) :=
    tendsto_const_nhds.add ((tendsto_const_nhds.mul hid).mul hp)
  have hne : p0 * (w : ℂ) + Complex.I * 0 * p1 ≠ 0 := by
    simp [h0, hw]
  have h := (tendsto_const_nhds (x := (1 : ℂ)) (f := l)).add (hnum.div hden hne)
  have e : 1 + (((w : ℂ) + Complex.I * 0) * p0 * p1) / (p0 * (w : ℂ) + Complex.I * 0 * p1) =
      1 + p1 := by
    field_simp
    simp
    ring
  rw [e] at h
  exact h

/-- C29: collisions do not change the static response. -/
theorem merminFit_static {nu pnu : ℂ} (p0 : ℂ) (hnu : nu ≠ 0) (hp : pnu ≠ 0) :
    merminFit 0 nu pnu p0 = 1 + p0 := by
  simp only [merminFit, Complex.ofReal_zero, zero_add, mul_zero]
  have := Complex.I_ne_zero
  field_simp

/-- C29: Mermin's formula conserves particles locally: it is a weighted mean of the inverse static
and the inverse damped polarisability, with the weights of a relaxation of rate `nu`. -/
theorem merminFit_inverse {w : ℝ} {nu pnu p0 : ℂ} (hp : pnu ≠ 0) (h0 : p0 ≠ 0)
    (hz : (w : ℂ) + Complex.I * nu ≠ 0) (hD : p0 * w + Complex.I * nu * pnu ≠ 0) :
    (merminFit w nu pnu p0 - 1)⁻¹ =
      ((w : ℂ) / (w + Complex.I * nu)) * pnu⁻¹ + (Complex.I * nu / (w + Complex.I * nu)) * p0⁻¹ := by
  simp only [merminFit, add_sub_cancel_left]
  rw [inv_div]
  field_simp

/-! ### Symmetry of the collision frequency -/

theorem bornIntegrand_neg {eps : ℝ → ℝ → ℂ} (h : ∀ q, Hermitian (eps q)) (V S : ℝ → ℝ) (E q : ℝ) :
    bornIntegrand u eps V S (-E) q = conj (bornIntegrand u eps V S E q) := by
  have h0 : conj (eps q 0) = eps q 0 := by
    have := h q 0
    rw [neg_zero] at this
    exact this.symm
  simp only [bornIntegrand]
  rw [h q E]
  simp only [map_mul, map_sub, map_neg, Complex.conj_ofReal, Complex.conj_I, h0]
  have : (1 / (-E / u.hbar) : ℝ) = -(1 / (E / u.hbar)) := by
    rw [neg_div, div_neg]
  rw [this]
  push_cast
  ring

/-- The collision frequency in Born approximation is real in the time domain, like the dielectric
function it is calculated from. -/
theorem bornNu_hermitian {eps : ℝ → ℝ → ℂ} (h : ∀ q, Hermitian (eps q)) (V S : ℝ → ℝ) (Zf : ℝ) :
    Hermitian (bornNu u eps V S Zf) := by
  intro E
  apply Complex.ext
  · simp only [bornNu, bornIntegrand_neg u h, Complex.conj_re]
  · simp only [bornNu, bornIntegrand_neg u h, Complex.conj_im, integral_neg]
    ring

/-- C57: for ions of charge `Z`, whose potential is `Z` times that of protons, the collision frequency
is `Z` times that of as many free electrons with protons of the same structure. -/
theorem bornNu_charge (eps : ℝ → ℝ → ℂ) (V S : ℝ → ℝ) {Z : ℝ} (hZ : Z ≠ 0) (E : ℝ) :
    bornNu u eps (fun q => Z * V q) S Z E = Z * bornNu u eps V S 1 E := by
  have hi : ∀ q, bornIntegrand u eps (fun q => Z * V q) S E q =
      ((Z ^ 2 : ℝ) : ℂ) * bornIntegrand u eps V S E q := by
    intro q
    unfold bornIntegrand
    push_cast
    ring
  have hp : Z ^ 2 * bornPref u Z = Z * bornPref u 1 := by
    have := u.e_pos
    have := u.me_pos
    have := u.eps0_pos
    have := pi_pos
    unfold bornPref
    field_simp
  apply Complex.ext
  · simp only [bornNu, hi, Complex.re_ofReal_mul, integral_const_mul]
    linear_combination (∫ q in Set.Ioi (0 : ℝ), (bornIntegrand u eps V S E q).re) * hp
  · simp only [bornNu, hi, Complex.im_ofReal_mul, integral_const_mul]
    linear_combination (∫ q in Set.Ioi (0 : ℝ), (bornIntegrand u eps V S E q).im) * hp

/-- C57: the collision frequency damps: its real part is not negative, for every static structure
factor that is not negative and every electron-ion potential. -/
theorem bornNu_re_nonneg {eps : ℝ → ℝ → ℂ} {V S : ℝ → ℝ} {Zf E : ℝ} (hZ : 0 < Zf)
    (hS : ∀ q, 0 ≤ S q) (h0 : ∀ q, (eps q 0).im = 0)
    (heps : ∀ q, 0 < q → 0 ≤ (eps q E).im * E) : 0 ≤ (bornNu u eps V S Zf E).re := by
  have hp : 0 < bornPref u Zf := by
    have := u.eps0_pos
    have := u.e_pos
    have := u.me_pos
    unfold bornPref
    positivity
  simp only [bornNu]
  apply mul_nonneg _ hp.le
  apply setIntegral_nonneg measurableSet_Ioi
  intro q hq
  have hq' : 0 < q := hq
  have : (bornIntegrand u eps V S E q).re =
      q ^ 6 * V q ^ 2 * S q * ((eps q E).im * (1 / (E / u.hbar))) := by
    simp only [bornIntegrand]
    rw [mul_assoc, mul_assoc, mul_assoc, Complex.re_ofReal_mul]
    congr 1
    rw [mul_comm ((1 / (E / u.hbar) : ℝ) : ℂ), ← mul_assoc, Complex.re_mul_ofReal]
    simp [h0 q]
  rw [this]
  have hE : 0 ≤ (eps q E).im * (1 / (E / u.hbar)) := by
    have := heps q hq'
    have hh := u.hbar_pos
    rw [one_div_div]
    rcases eq_or_ne E 0 with rfl | hE
    · simp
    · have h2 : 0 < E ^ 2 := sq_pos_of_ne_zero hE
      have e : (eps q E).im * (u.hbar / E) = (eps q E).im * E * (u.hbar / E ^ 2) := by
        field_simp
      rw [e]
      positivity
  have := hS q
  positivity

theorem imagRPANoDamping_zero (k mu T : ℝ) : imagRPANoDamping u k 0 mu T = 0 := by
  have := imagRPANoDamping_neg u k 0 mu T
  rw [neg_zero] at this
  linarith

/-- C57: for the dielectric function in random phase approximation. -/
theorem bornNu_rpa_re_nonneg (mu E : ℝ) {T Zf : ℝ} (hT : 0 < T) (hZ : 0 < Zf) (V : ℝ → ℝ)
    {S : ℝ → ℝ} (hS : ∀ q, 0 ≤ S q) : 0 ≤ (bornNu u (bornEpsRPA u mu T) V S Zf E).re := by
  apply bornNu_re_nonneg u hZ hS
  · intro q
    exact imagRPANoDamping_zero u q mu T
  · intro q hq
    rcases eq_or_ne E 0 with rfl | hE
    · simp
    · exact (imagRPANoDamping_sign u mu hq hT hE).le

/-- C57: for the fits of Dandrea et al. -/
theorem bornNu_dandrea_re_nonneg (d : DandreaFits) (E : ℝ) {T n Zf : ℝ} (hT : 0 < T) (hn : 0 < n)
    (hZ : 0 < Zf) (V : ℝ → ℝ) {S : ℝ → ℝ} (hS : ∀ q, 0 ≤ S q) :
    0 ≤ (bornNu u (fun q E => epsDandrea u d q E T n) V S Zf E).re := by
  apply bornNu_re_nonneg u hZ hS
  · intro q
    have hx := xiDandrea_hermitian u d q T n 0
    simp only [neg_zero] at hx
    have him := congrArg Complex.im hx
    rw [Complex.conj_im] at him
    have h0 : (xiDandrea u d q 0 T n).im = 0 := by linarith
    simp [epsDandrea, h0]
  · intro q hq
    rw [epsDandrea_im u d E hq hT hn]
    rcases eq_or_ne E 0 with rfl | hE
    · simp
    · exact (imagRPANoDamping_sign u _ hq hT hE).le

/-! ### Interpolation on a mirrored grid -/

/-- Mirroring nodes and values mirrors the interpolation. -/
theorem interp_mirror (n : ℕ) (hn : 0 < n) {xp fp : ℕ → ℝ} (h : Increasing n xp)
    (hx : ∀ i, i < n → xp (n - 1 - i) = -xp i) (s : ℝ) (hf : ∀ i, i < n → fp (n - 1 - i) = s * fp i)
    (x : ℝ) : interp n xp fp (-x) = s * interp n xp fp x := by
  have hlast : xp (n - 1) = -xp 0 := by
    have := hx 0 hn
    simpa using this
  have hflast : fp (n - 1) = s * fp 0 := by
    have := hf 0 hn
    simpa using this
  have hffirst : fp 0 = s * fp (n - 1) := by
    have := hf (n - 1) (by omega)
    simpa using this
  rcases le_or_gt x (xp 0) with h0 | h0
  · rw [(interp_outside n xp fp h hn x).1 h0,
      (interp_outside n xp fp h hn (-x)).2 (by rw [hlast]; linarith), hflast]
  rcases le_or_gt (xp (n - 1)) x with h1 | h1
  · rw [(interp_outside n xp fp h hn x).2 h1,
      (interp_outside n xp fp h hn (-x)).1 (by linarith), hffirst]
  have hn2 : 2 ≤ n := by
    by_contra hc
    have : n = 1 := by omega
    subst this
    simp at h1
    linarith
  obtain ⟨i, hi, hx0, hx1⟩ := exists_interval n xp x hn2 h0.le h1.le
  have hd := h i hi
  have e1 : xp (n - 1 - (i + 1)) = -xp (i + 1) := hx (i + 1) hi
  have e2 : xp (n - 1 - (i + 1) + 1) = -xp i := by
    have : n - 1 - (i + 1) + 1 = n - 1 - i := by omega
    rw [this]
    exact hx i (by omega)
  have f1 : fp (n - 1 - (i + 1)) = s * fp (i + 1) := hf (i + 1) hi
  have f2 : fp (n - 1 - (i + 1) + 1) = s * fp i := by
    have : n - 1 - (i + 1) + 1 = n - 1 - i := by omega
    rw [this]
    exact hf i (by omega)
  unfold interp
  rw [interpLR_on_interval n xp fp _ _ x h i hi hx0 hx1,
    interpLR_on_interval n xp fp _ _ (-x) h (n - 1 - (i + 1)) (by omega) (by rw [e1]; linarith)
      (by rw [e2]; linarith), e1, e2, f1, f2]
  have hne : xp (i + 1) - xp i ≠ 0 := by linarith
  have hne' : -xp i - -xp (i + 1) ≠ 0 := by
    intro h
    apply hne
    linarith
  field_simp
  ring

theorem linspace_length (a b : ℝ) (n : ℕ) : (linspace a b n).length = n := by
  simp [linspace]

theorem mirror_length (s : ℝ) (l : List ℝ) : (mirror s l).length = 2 * l.length := by
  simp [mirror]
  ring

theorem mirror_getElem (s : ℝ) (l : List ℝ) (i : ℕ) (hi : i < l.length) :
    arr (mirror s l) (l.length + i) = l[i] ∧ arr (mirror s l) (l.length - 1 - i) = s * l[i] := by
  have hlen : (mirror s l).length = 2 * l.length := mirror_length s l
  constructor
  · unfold arr
    rw [List.getD_eq_getElem _ _ (by omega)]
    simp only [mirror]
    rw [List.getElem_append_right (by simp)]
    simp
  · unfold arr
    rw [List.getD_eq_getElem _ _ (by omega)]
    simp only [mirror]
    rw [List.getElem_append_left (by simp; omega)]
    simp only [List.getElem_map, List.getElem_reverse]
    congr 2
    omega

/-- The array `mirror s l` read backwards is `s` times the array, if `s * s = 1`. -/
theorem mirror_symm {s : ℝ} (hs : s * s = 1) (l : List ℝ) (i : ℕ) (hi : i < 2 * l.length) :
    arr (mirror s l) (2 * l.length - 1 - i) = s * arr (mirror s l) i := by
  rcases Nat.lt_or_ge i l.length with h | h
  · obtain ⟨j, hj, rfl⟩ : ∃ j, j < l.length ∧ i = l.length - 1 - j :=
      ⟨l.length - 1 - i, by omega, by omega⟩
    obtain ⟨a, b⟩ := mirror_getElem s l j hj
    have e : 2 * l.length - 1 - (l.length - 1 - j) = l.length + j := by omega
    rw [e, a, b, ← mul_assoc, hs, one_mul]
  · obtain ⟨j, rfl⟩ : ∃ j, i = l.length + j := ⟨i - l.length, by omega⟩
    obtain ⟨a, b⟩ := mirror_getElem s l j (by omega)
    have e : 2 * l.length - 1 - (l.length + j) = l.length - 1 - j := by omega
    rw [e, a, b]

theorem linspace_getElem (a b : ℝ) (n i : ℕ) (hi : i < (linspace a b n).length) :
    (linspace a b n)[i] = a + (i : ℝ) * ((b - a) / ((n : ℝ) - 1)) := by
  simp [linspace]

theorem linspace_pairwise {a b : ℝ} (h : a < b) (n : ℕ) : (linspace a b n).Pairwise (· < ·) := by
  rw [List.pairwise_iff_getElem]
  intro i j hi hj hij
  rw [linspace_getElem, linspace_getElem]
  have hn : (1 : ℝ) < n := by
    have : j < n := by simpa [linspace_length] using hj
    have : 1 < n := by omega
    exact_mod_cast this
  have : 0 < (b - a) / ((n : ℝ) - 1) := div_pos (by linarith) (by linarith)
  have hij' : (i : ℝ) < j := by exact_mod_cast hij
  nlinarith

theorem mirror_increasing {l : List ℝ} (h : l.Pairwise (· < ·)) (hpos : ∀ x ∈ l, 0 < x) :
    Increasing (mirror (-1) l).length (arr (mirror (-1) l)) := by
  apply increasing_arr
  unfold mirror
  rw [List.pairwise_append]
  refine ⟨?_, h, ?_⟩
  · rw [List.pairwise_map, List.pairwise_reverse]
    exact h.imp (fun h => by linarith)
  · intro x hx y hy
    rw [List.mem_map] at hx
    obtain ⟨z, hz, rfl⟩ := hx
    have := hpos z (List.mem_reverse.1 hz)
    have := hpos y hy
    linarith

theorem linspace_pos {a b : ℝ} (ha : 0 < a) (hab : a < b) (n : ℕ) : ∀ x ∈ linspace a b n, 0 < x := by
  intro x hx
  obtain ⟨i, hi, rfl⟩ := List.getElem_of_mem hx
  rw [linspace_getElem]
  rw [linspace_length] at hi
  rcases Nat.eq_zero_or_pos i with rfl | h
  · simpa using ha
  · have hn : (1 : ℝ) < n := by
      have : 1 < n := by omega
      exact_mod_cast this
    have : 0 < (b - a) / ((n : ℝ) - 1) := div_pos (by linarith) (by linarith)
    positivity

/-- C56: the interpolated collision frequency is real in the time domain, for every number of
points: the real part is even and the imaginary part is odd in the energy. -/
theorem chapmanNu_hermitian (nu : ℝ → ℂ) {Emin Emax : ℝ} (h0 : 0 < Emin) (h1 : Emin < Emax) {N : ℕ}
    (hN : 0 < N) : Hermitian (chapmanNu nu Emin Emax N) := by
  intro E
  have hinc := mirror_increasing (linspace_pairwise h1 N) (linspace_pos h0 h1 N)
  have hlen : (mirror (-1) (linspace Emin Emax N)).length = 2 * N := by
    rw [mirror_length, linspace_length]
  have hx : ∀ i, i < 2 * N → arr (mirror (-1) (linspace Emin Emax N)) (2 * N - 1 - i) =
      -arr (mirror (-1) (linspace Emin Emax N)) i := by
    intro i hi
    have := mirror_symm (s := -1) (by norm_num) (linspace Emin Emax N) i
      (by rw [linspace_length]; exact hi)
    rw [linspace_length] at this
    rw [this]
    ring
  rw [hlen] at hinc
  have key : ∀ (s : ℝ), s * s = 1 → ∀ f : ℝ → ℝ,
      interpL (mirror (-1) (linspace Emin Emax N)) (mirror s ((linspace Emin Emax N).map f)) (-E) =
      s * interpL (mirror (-1) (linspace Emin Emax N)) (mirror s ((linspace Emin Emax N).map f))
        E := by
    intro s hs f
    unfold interpL
    rw [hlen]
    apply interp_mirror _ (by omega) hinc hx
    intro i hi
    have := mirror_symm hs ((linspace Emin Emax N).map f) i
      (by rw [List.length_map, linspace_length]; exact hi)
    rw [List.length_map, linspace_length] at this
    exact this
  apply Complex.ext
  · simp only [chapmanNu, Complex.conj_re]
    rw [key 1 (by norm_num)]
    ring
  · simp only [chapmanNu, Complex.conj_im]
    rw [key (-1) (by norm_num)]
    ring

/-- C57: the interpolated collision frequency damps if the collision frequency does. -/
theorem chapmanNu_re_nonneg {nu : ℝ → ℂ} (hnu : ∀ E, 0 ≤ (nu E).re) {Emin Emax : ℝ} (h0 : 0 < Emin)
    (h1 : Emin < Emax) {N : ℕ} (hN : 0 < N) (E : ℝ) : 0 ≤ (chapmanNu nu Emin Emax N E).re := by
  have hinc := mirror_increasing (linspace_pairwise h1 N) (linspace_pos h0 h1 N)
  have hlen : (mirror (-1) (linspace Emin Emax N)).length = 2 * N := by
    rw [mirror_length, linspace_length]
  have hlen' : ∀ f : ℝ → ℝ, (mirror 1 ((linspace Emin Emax N).map f)).length = 2 * N := by
    intro f
    rw [mirror_length, List.length_map, linspace_length]
  simp only [chapmanNu, interpL]
  have hmem : ∀ i, i < 2 * N →
      0 ≤ arr (mirror 1 ((linspace Emin Emax N).map fun x => (nu x).re)) i := by
    intro i hi
    unfold arr
    rw [List.getD_eq_getElem _ _ (by rw [hlen']; exact hi)]
    have hall : ∀ x ∈ mirror 1 ((linspace Emin Emax N).map fun x => (nu x).re), 0 ≤ x := by
      intro x hx
      simp only [mirror, List.mem_append, List.mem_map, List.mem_reverse, one_mul] at hx
      rcases hx with ⟨a, ⟨b, _, rfl⟩, rfl⟩ | ⟨b, _, rfl⟩
      · exact hnu b
      · exact hnu b
    exact hall _ (List.getElem_mem _)
  -- a common upper bound of the values
  obtain ⟨M, hM⟩ : ∃ M, ∀ i, i < 2 * N →
      arr (mirror 1 ((linspace Emin Emax N).map fun x => (nu x).re)) i ≤ M := by
    refine ⟨((Finset.range (2 * N)).image
      (arr (mirror 1 ((linspace Emin Emax N).map fun x => (nu x).re)))).max' ?_, ?_⟩
    · exact ⟨_, Finset.mem_image_of_mem _ (Finset.mem_range.2 (by omega : 0 < 2 * N))⟩
    · intro i hi
      exact Finset.le_max' _ _ (Finset.mem_image_of_mem _ (Finset.mem_range.2 hi))
  rw [hlen] at hinc ⊢
  exact (interp_in_range (2 * N) _ _ hinc (by omega) 0 M (fun i hi => ⟨hmem i hi, hM i hi⟩) E).1

/-! ### Detailed balance with collisions -/

theorem merminFit_reflect (w : ℝ) (nu pnu : ℂ) {p0 : ℂ} (h0 : conj p0 = p0) :
    merminFit (-w) (conj nu) (conj pnu) p0 = conj (merminFit w nu pnu p0) := by
  simp only [merminFit, map_add, map_one, map_div₀, map_mul, h0, Complex.conj_ofReal,
    Complex.conj_I]
  push_cast
  have e1 : (-(w : ℂ) + Complex.I * conj nu) * p0 * conj pnu =
      -(((w : ℂ) + -Complex.I * conj nu) * p0 * conj pnu) := by ring
  have e2 : p0 * -(w : ℂ) + Complex.I * conj nu * conj pnu =
      -(p0 * (w : ℂ) + -Complex.I * conj nu * conj pnu) := by ring
  rw [e1, e2, neg_div_neg_eq]

theorem merminFortmann_reflect (V lfc w : ℝ) (nu xd : ℂ) {xs : ℂ} (h0 : conj xs = xs) :
    merminFortmann V lfc (-w) (conj nu) (conj xd) xs = conj (merminFortmann V lfc w nu xd xs) := by
  simp only [merminFortmann, map_one, map_div₀, map_mul, map_sub, h0,
    Complex.conj_ofReal, Complex.conj_I]
  push_cast
  ring

theorem dampedEnergy_reflect (E : ℝ) (nu : ℂ) :
    dampedEnergy u (-E) (conj nu) = -conj (dampedEnergy u E nu) := by
  simp only [dampedEnergy, map_add, map_mul, Complex.conj_ofReal, Complex.conj_I]
  push_cast
  ring

theorem epsRPANoDamping_static_real (k mu T : ℝ) (b : Bool) :
    conj (epsRPANoDamping u k 0 mu T b) = epsRPANoDamping u k 0 mu T b := by
  have := epsRPANoDamping_hermitian u k mu T b 0
  simpa using this.symm

theorem xiDandrea_static_real (d : DandreaFits) (k T n : ℝ) :
    conj (xiDandrea u d k 0 T n) = xiDandrea u d k 0 T n := by
  have := xiDandrea_hermitian u d k T n 0
  simpa using this.symm

theorem epsDandrea_hermitian (d : DandreaFits) (k T n : ℝ) :
    Hermitian fun E => epsDandrea u d k E T n := by
  intro E
  simp only [epsDandrea]
  rw [show xiDandrea u d k (-E) T n = conj (xiDandrea u d k E T n) from
    xiDandrea_hermitian u d k T n E]
  simp

/-- Cutoffs and number of points for which the nodes are in order. -/
def BornArgs.Valid (b : BornArgs) : Prop := 0 < b.Emin ∧ b.Emin < b.Emax ∧ 0 < b.N

theorem epsBMAInterp_hermitian (b : BornArgs) (hb : b.Valid) (k : ℝ) :
    Hermitian (epsBMAInterp u b k) := by
  intro E
  have hnu : nuInterp u b (-E) = conj (nuInterp u b E) :=
    chapmanNu_hermitian _ hb.1 hb.2.1 hb.2.2 E
  simp only [epsBMAInterp, merminInterp_eq_merminFit]
  rw [hnu, dampedEnergy_reflect, epsDamped_reflect, neg_div]
  have hp : ∀ z : ℂ, conj z - 1 = conj (z - 1) := by intro z; simp
  rw [hp]
  apply merminFit_reflect
  rw [map_sub, epsRPANoDamping_static_real, map_one]

theorem epsBMAFit_hermitian (d : DandreaFits) (b : BornArgs) (hb : b.Valid) (k : ℝ) :
    Hermitian (epsBMAFit u d b k) := by
  intro E
  have hnu : nuInterpFit u d b (-E) = conj (nuInterpFit u d b E) :=
    chapmanNu_hermitian _ hb.1 hb.2.1 hb.2.2 E
  simp only [epsBMAFit]
  rw [hnu, dampedEnergy_reflect, epsDamped_reflect, neg_div]
  have hp : ∀ z : ℂ, conj z - 1 = conj (z - 1) := by intro z; simp
  rw [hp]
  apply merminFit_reflect
  rw [map_sub, map_one]
  congr 1
  simp only [epsDandrea, map_sub, map_mul, map_one, Complex.conj_ofReal, xiDandrea_static_real]

theorem xiBMAFortmann_hermitian (d : DandreaFits) (b : BornArgs) (hb : b.Valid) (k lfc : ℝ) :
    Hermitian fun E => xiBMAFortmann u d b k E lfc := by
  intro E
  have hnu : nuInterpFit u d b (-E) = conj (nuInterpFit u d b E) :=
    chapmanNu_hermitian _ hb.1 hb.2.1 hb.2.2 E
  simp only [xiBMAFortmann]
  rw [hnu, dampedEnergy_reflect, epsDamped_reflect, neg_div, noninteractingFromEps_conj]
  exact merminFortmann_reflect _ _ _ _ _ (xiDandrea_static_real u d k b.T b.n)

/-- C56: `S0_ee_BMA_chapman_interp` fulfils detailed balance, for every static structure factor,
electron-ion potential, local field correction and both damped dielectric functions.
(Partial: for `S0_ee_BMA`, which takes its grid from the energies of the call, see `s0eeBMA_balance_symmetric`.) -/
theorem s0eeBMAInterp_balance_partial (b : BornArgs) (hb : b.Valid) (hT : 0 < b.T) (k lfc : ℝ) {E : ℝ}
    (hE : E ≠ 0) :
    s0eeBMAInterp u b k E lfc = exp (-E / (u.kB * b.T)) * s0eeBMAInterp u b k (-E) lfc := by
  simp only [s0eeBMAInterp]
  exact chain_balance u k b.T b.n hT hE _ lfc (eps := epsBMAInterp u b k)
    (epsBMAInterp_hermitian u b hb k)

/-- C56: `S0_ee_BMA_chapman_interpFit` fulfils detailed balance. -/
theorem s0eeBMAFit_balance (d : DandreaFits) (b : BornArgs) (hb : b.Valid) (hT : 0 < b.T)
    (k lfc : ℝ) {E : ℝ} (hE : E ≠ 0) :
    s0eeBMAFit u d b k E lfc = exp (-E / (u.kB * b.T)) * s0eeBMAFit u d b k (-E) lfc := by
  simp only [s0eeBMAFit]
  exact chain_balance u k b.T b.n hT hE _ lfc (eps := epsBMAFit u d b k)
    (epsBMAFit_hermitian u d b hb k)

/-- C56: `S0_ee_BMA_Fortmann` fulfils detailed balance. -/
theorem s0eeBMAFortmann_balance (d : DandreaFits) (b : BornArgs) (hb : b.Valid) (hT : 0 < b.T)
    (k lfc : ℝ) {E : ℝ} (hE : E ≠ 0) :
    s0eeBMAFortmann u d b k E lfc =
      exp (-E / (u.kB * b.T)) * s0eeBMAFortmann u d b k (-E) lfc := by
  simp only [s0eeBMAFortmann]
  rw [neg_neg]
  apply fdt_balance u k b.T b.n hT hE
  exact xiBMAFortmann_hermitian u d b hb k lfc E

/-- A set of arguments for the theorems above. -/
example : (⟨1, 1, 1, fun _ => 1, fun _ => -1, 1, 1 / 2, 10, 20, true⟩ : BornArgs).Valid := by
  norm_num [BornArgs.Valid]

/-! ### C58: the energy grid of `dielectric_function_BMA_full` -/

theorem foldl_min_le (l : List ℝ) (a : ℝ) : l.foldl min a ≤ a ∧ ∀ x ∈ l, l.foldl min a ≤ x := by
  induction l generalizing a with
  | nil => simp
  | cons y l ih =>
    obtain ⟨h1, h2⟩ := ih (min a y)
    refine ⟨h1.trans (min_le_left _ _), ?_⟩
    intro x hx
    rcases List.mem_cons.1 hx with rfl | hx
    · exact h1.trans (min_le_right _ _)
    · exact h2 x hx

theorem le_foldl_max (l : List ℝ) (a : ℝ) : a ≤ l.foldl max a ∧ ∀ x ∈ l, x ≤ l.foldl max a := by
  induction l generalizing a with
  | nil => simp
  | cons y l ih =>
    obtain ⟨h1, h2⟩ := ih (max a y)
    refine ⟨(le_max_left _ _).trans h1, ?_⟩
    intro x hx
    rcases List.mem_cons.1 hx with rfl | hx
    · exact (le_max_right _ _).trans h1
    · exact h2 x hx

theorem interpL_map_left {l : List ℝ} (h : l.Pairwise (· < ·)) (hl : 0 < l.length) (f : ℝ → ℝ)
    {x : ℝ} (hx : x ≤ l[0]) : interpL l (l.map f) x = f l[0] := by
  unfold interpL
  rw [(interp_outside l.length _ _ (increasing_arr l h) hl x).1]
  · unfold arr
    rw [List.getD_eq_getElem _ _ (by simpa using hl)]
    simp
  · unfold arr
    rwa [List.getD_eq_getElem _ _ hl]

theorem foldl_min_neg (l : List ℝ) (a : ℝ) : (l.map fun x => -x).foldl min (-a) = -l.foldl max a := by
  induction l generalizing a with
  | nil => rfl
  | cons y l ih =>
    simp only [List.map_cons, List.foldl_cons]
    rw [min_neg_neg, ih]

theorem foldl_max_neg (l : List ℝ) (a : ℝ) : (l.map fun x => -x).foldl max (-a) = -l.foldl min a := by
  induction l generalizing a with
  | nil => rfl
  | cons y l ih =>
    simp only [List.map_cons, List.foldl_cons]
    rw [max_neg_neg, ih]

theorem headD_neg (l : List ℝ) : (l.map fun x => -x).headD 0 = -l.headD 0 := by
  cases l <;> simp

/-- On energies between `-hi` and `hi`, the grid of `dielectric_function_BMA_full` is symmetric, and the
interpolated collision frequency is real in the time domain if the collision frequency is. -/
theorem fullNu_hermitian {nu : ℝ → ℂ} (hnu : Hermitian nu) {Es : List ℝ} {hi : ℝ} (hpos : 0 < hi)
    (hlo : Es.foldl min (Es.headD 0) = -hi) (hhi : Es.foldl max (Es.headD 0) = hi) : Hermitian (fullNu nu Es) := by
  intro E
  unfold fullNu
  simp only [hlo, hhi]
  set g := linspace (10 * -hi) (10 * hi) 1000 with hg
  have hlen : g.length = 1000 := linspace_length _ _ _
  have hinc : Increasing 1000 (arr g) := by
    have := increasing_arr g (linspace_pairwise (by linarith) 1000)
    rwa [hlen] at this
  have hval : ∀ i, i < 1000 → arr g i = 10 * -hi + (i : ℝ) * ((10 * hi - 10 * -hi) / 999) := by
    intro i hi'
    unfold arr
    rw [List.getD_eq_getElem _ _ (by rw [hlen]; exact hi'), linspace_getElem]
    norm_num
  have hx : ∀ i, i < 1000 → arr g (1000 - 1 - i) = -arr g i := by
    intro i hi'
    rw [hval i hi', hval _ (by omega), show 1000 - 1 - i = 999 - i by omega, Nat.cast_sub (by omega)]
    push_cast
    ring
  have hf : ∀ (f : ℝ → ℝ) (i : ℕ), i < 1000 → arr (g.map f) i = f (arr g i) := by
    intro f i hi'
    unfold arr
    rw [List.getD_eq_getElem _ _ (by rw [List.length_map, hlen]; exact hi'),
      List.getD_eq_getElem _ _ (by rw [hlen]; exact hi'), List.getElem_map]
  have key : ∀ (s : ℝ) (f : ℝ → ℝ), (∀ x, f (-x) = s * f x) → interpL g (g.map f) (-E) = s * interpL g (g.map f) E := by
    intro s f hs
    unfold interpL
    rw [hlen]
    apply interp_mirror _ (by omega) hinc hx
    intro i hi'
    rw [hf f i hi', hf f _ (by omega), hx i hi', hs]
  apply Complex.ext
  · simp only [Complex.conj_re]
    rw [key 1 (fun x => (nu x).re) fun x => by rw [hnu x, Complex.conj_re, one_mul], one_mul]
  · simp only [Complex.conj_im]
    rw [key (-1) (fun x => (nu x).im) fun x => by rw [hnu x, Complex.conj_im]; ring]
    ring

theorem merminFull_reflect (w : ℝ) (nu eps : ℂ) {es : ℂ} (h0 : conj es = es) :
    merminFull (-w) (conj nu) (conj eps) es = conj (merminFull w nu eps es) := by
  simp only [merminFull, map_add, map_sub, map_one, map_div₀, map_mul, h0, Complex.conj_ofReal, Complex.conj_I]
  push_cast
  have e1 : Complex.I * conj nu / -(w : ℂ) = -Complex.I * conj nu / w := by
    rw [div_neg, ← neg_div]
    ring
  have e2 : Complex.I * (conj nu / -(w : ℂ)) = -Complex.I * (conj nu / w) := by
    rw [div_neg]
    ring
  rw [e1, e2]

/-- C56: `S0_ee_BMA` fulfils detailed balance if the energies of the call extend equally far to both sides. -/
theorem s0eeBMA_balance_symmetric (b : BornArgs) (hT : 0 < b.T) (k lfc : ℝ) {Es : List ℝ} {hi : ℝ} (hpos : 0 < hi)
    (hlo : Es.foldl min (Es.headD 0) = -hi) (hhi : Es.foldl max (Es.headD 0) = hi) {E : ℝ} (hE : E ≠ 0) :
    s0eeBMA u b k Es E lfc = exp (-E / (u.kB * b.T)) * s0eeBMA u b k Es (-E) lfc := by
  simp only [s0eeBMA]
  refine chain_balance u k b.T b.n hT hE _ lfc (eps := epsBMAFull u b k (Es.map fun x => -x)) ?_
  intro x
  have hnu := fullNu_hermitian (nu := bornNu u (bornEpsRPA u b.mu b.T) b.V b.S b.Zf)
    (bornNu_hermitian u (fun q => epsRPANoDamping_hermitian u q b.mu b.T true) b.V b.S b.Zf)
    (Es := Es.map fun x => -x) hpos (by rw [headD_neg, foldl_min_neg, hhi]) (by rw [headD_neg, foldl_max_neg, hlo, neg_neg])
  simp only [epsBMAFull]
  rw [hnu x, dampedEnergy_reflect, epsDamped_reflect, neg_div]
  exact merminFull_reflect _ _ _ (epsRPANoDamping_static_real u k b.mu b.T true)

/-- Energies for the theorem above: an axis with any number of channels on both sides of zero. -/
example : ([-3, -1, 2, 3] : List ℝ).foldl min (([-3, -1, 2, 3] : List ℝ).headD 0) = -3 ∧
    ([-3, -1, 2, 3] : List ℝ).foldl max (([-3, -1, 2, 3] : List ℝ).headD 0) = 3 := by
  norm_num [List.foldl]

/-- C58: `dielectric_function_BMA_full` on positive energies that span less than a factor of ten uses
one and the same collision frequency for all of them: the one at ten times the lowest energy. -/
theorem fullNu_clipped (nu : ℝ → ℂ) {Es : List ℝ} {lo hi : ℝ} (hlo : Es.foldl min (Es.headD 0) = lo)
    (hhi : Es.foldl max (Es.headD 0) = hi) (hlt : lo < hi) {E : ℝ} (hE : E ≤ 10 * lo) :
    fullNu nu Es E = nu (10 * lo) := by
  have hp := linspace_pairwise (a := 10 * lo) (b := 10 * hi) (by linarith) 1000
  have hl : 0 < (linspace (10 * lo) (10 * hi) 1000).length := by rw [linspace_length]; norm_num
  have h0 : (linspace (10 * lo) (10 * hi) 1000)[0] = 10 * lo := by
    rw [linspace_getElem]
    simp
  apply Complex.ext
  · simp only [fullNu, hlo, hhi]
    rw [interpL_map_left hp hl _ (by rw [h0]; exact hE), h0]
  · simp only [fullNu, hlo, hhi]
    rw [interpL_map_left hp hl _ (by rw [h0]; exact hE), h0]

/-- C58: the collision frequency, and with it the dielectric function, at one energy depends on the
other energies of the call: adding an energy to the array changes it from the value at ten times the
lowest energy to another one.  Here for the energies 1 and 2 resp. 1, 2 and 1/2, and any collision
frequency that differs at 10 and at 5. -/
theorem fullNu_not_pointwise (nu : ℝ → ℂ) (h : nu 10 ≠ nu 5) :
    fullNu nu [1, 2] 1 ≠ fullNu nu [1, 2, 1 / 2] 1 := by
  have e1 : fullNu nu [1, 2] 1 = nu 10 := by
    have := fullNu_clipped nu (Es := [1, 2]) (lo := 1) (hi := 2) (by norm_num) (by norm_num)
      (by norm_num) (E := 1) (by norm_num)
    simpa using this
  have e2 : fullNu nu [1, 2, 1 / 2] 1 = nu 5 := by
    have := fullNu_clipped nu (Es := [1, 2, 1 / 2]) (lo := 1 / 2) (hi := 2)
      (by norm_num) (by norm_num) (by norm_num) (E := 1) (by norm_num)
    norm_num at this
    exact this
  rw [e1, e2]
  exact h

example : ∃ nu : ℝ → ℂ, nu 10 ≠ nu 5 := ⟨fun x => (x : ℂ), by norm_num⟩

/-- C58, the part that holds: on an energy of the grid, the collision frequency is exact. -/
theorem fullNu_node_partial (nu : ℝ → ℂ) {Es : List ℝ} {lo hi : ℝ}
    (hlo : Es.foldl min (Es.headD 0) = lo) (hhi : Es.foldl max (Es.headD 0) = hi) (hlt : lo < hi)
    {E : ℝ} (hE : E ∈ linspace (10 * lo) (10 * hi) 1000) : fullNu nu Es E = nu E := by
  have hp := linspace_pairwise (a := 10 * lo) (b := 10 * hi) (by linarith) 1000
  obtain ⟨i, hi', rfl⟩ := List.getElem_of_mem hE
  have key : ∀ f : ℝ → ℝ, interpL (linspace (10 * lo) (10 * hi) 1000)
      ((linspace (10 * lo) (10 * hi) 1000).map f) (linspace (10 * lo) (10 * hi) 1000)[i] =
      f (linspace (10 * lo) (10 * hi) 1000)[i] := by
    intro f
    have := interp_at_node _ _ (arr ((linspace (10 * lo) (10 * hi) 1000).map f))
      (increasing_arr _ hp) i hi'
    unfold interpL
    have e : arr (linspace (10 * lo) (10 * hi) 1000) i = (linspace (10 * lo) (10 * hi) 1000)[i] := by
      unfold arr
      rw [List.getD_eq_getElem _ _ hi']
    rw [e] at this
    rw [this]
    unfold arr
    rw [List.getD_eq_getElem _ _ (by simpa using hi')]
    simp
  apply Complex.ext
  · simp only [fullNu, hlo, hhi]
    rw [key]
  · simp only [fullNu, hlo, hhi]
    rw [key]

/-! ### C29 at vanishing collision frequency, with the default damped dielectric function -/

/-- C29 fails for the default `rpa_rewrite=True` when the collision frequency is exactly zero (e.g.
for a vanishing static structure factor): the dielectric function has no imaginary part, unlike the
one in random phase approximation. -/
theorem epsBMAFit_no_collisions (d : DandreaFits) (b : BornArgs) (hr : b.rewrite = true) {k E : ℝ}
    (hE : E ≠ 0) (hnu : nuInterpFit u d b E = 0) (h0 : epsDandrea u d k 0 b.T b.n - 1 ≠ 0) :
    (epsBMAFit u d b k E).im = 0 := by
  have hw : E / u.hbar ≠ 0 := div_ne_zero hE u.hbar_pos.ne'
  simp only [epsBMAFit, hnu]
  rw [merminFit_zero hw _ h0]
  have : dampedEnergy u E 0 = (E : ℂ) := by simp [dampedEnergy]
  rw [this, hr]
  simp [epsDamped, epsRPARewrite, imagRPARewrite_real]

/-- For a vanishing static structure factor there are no collisions. -/
theorem nuInterpFit_zero (d : DandreaFits) (b : BornArgs) (hb : b.Valid) (hS : b.S = fun _ => 0)
    (E : ℝ) : nuInterpFit u d b E = 0 := by
  have h0 : bornNu u (fun q E => epsDandrea u d q E b.T b.n) b.V b.S b.Zf = fun _ => 0 := by
    funext E
    simp [bornNu, bornIntegrand, hS]
    rfl
  have hinc := mirror_increasing (linspace_pairwise hb.2.1 b.N) (linspace_pos hb.1 hb.2.1 b.N)
  have hlen : (mirror (-1) (linspace b.Emin b.Emax b.N)).length = 2 * b.N := by
    rw [mirror_length, linspace_length]
  have hpos := hb.2.2
  have key : ∀ s : ℝ, interpL (mirror (-1) (linspace b.Emin b.Emax b.N))
      (mirror s ((linspace b.Emin b.Emax b.N).map fun _ => (0 : ℝ))) E = 0 := by
    intro s
    have harr : ∀ i, arr (mirror s ((linspace b.Emin b.Emax b.N).map fun _ => (0 : ℝ))) i = 0 := by
      intro i
      unfold arr
      rcases Nat.lt_or_ge i (mirror s ((linspace b.Emin b.Emax b.N).map fun _ => (0 : ℝ))).length
        with h | h
      · rw [List.getD_eq_getElem _ _ h]
        have hall : ∀ x ∈ mirror s ((linspace b.Emin b.Emax b.N).map fun _ => (0 : ℝ)), x = 0 := by
          intro x hx
          simp only [mirror, List.mem_append, List.mem_map, List.mem_reverse] at hx
          rcases hx with ⟨a, ⟨_, _, rfl⟩, rfl⟩ | ⟨_, _, rfl⟩
          · exact mul_zero s
          · rfl
        exact hall _ (List.getElem_mem _)
      · exact List.getD_eq_default _ _ h
    have := interp_in_range _ _ (arr (mirror s ((linspace b.Emin b.Emax b.N).map fun _ => (0 : ℝ))))
      hinc (by rw [hlen]; omega) 0 0 (fun i _ => by rw [harr]; exact ⟨le_rfl, le_rfl⟩) E
    exact le_antisymm this.2 this.1
  simp only [nuInterpFit, chapmanNu, h0]
  apply Complex.ext
  · exact key 1
  · exact key (-1)

end Verif.Resp
