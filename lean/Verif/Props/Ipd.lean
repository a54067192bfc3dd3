/-
C20: ionization potential depression between its limits; C21: the model of Ecker and Kröll.

Charge neutrality is `ne = ∑ i, Zbar i * ni i`.
-/
import Verif.Model.Ipd
import Verif.Lemmas.Laplace
import Verif.Props.Setup
import Verif.Props.Response
import Mathlib.Analysis.Convex.SpecificFunctions.Basic
import Mathlib.Analysis.Convex.SpecificFunctions.Deriv
import Mathlib.Analysis.SpecialFunctions.Pow.Deriv
import Mathlib.MeasureTheory.Integral.IntegralEqImproper

set_option autoImplicit false

namespace Verif.Ipd

open Real MeasureTheory Set Filter Topology Verif.Expt Verif.Resp Verif.Laplace

variable (u : Consts) {n : ℕ}

/-! ### The interpolation of Stewart and Pyatt -/

/-- The interpolating function. -/
noncomputable def spG (s : ℝ) : ℝ := (1 + s ^ 3) ^ (2 / 3 : ℝ) - s ^ 2

theorem cube_rpow {s : ℝ} (hs : 0 ≤ s) : (s ^ 3) ^ (2 / 3 : ℝ) = s ^ 2 := by
  rw [← rpow_natCast s 3, ← rpow_mul hs, ← rpow_natCast s 2]
  norm_num

theorem spG_pos {s : ℝ} (hs : 0 ≤ s) : 0 < spG s := by
  unfold spG
  rw [← cube_rpow hs, sub_pos]
  exact rpow_lt_rpow (by positivity) (by linarith) (by norm_num)

theorem spG_le_one {s : ℝ} (hs : 0 ≤ s) : spG s ≤ 1 := by
  unfold spG
  have h := rpow_add_le_add_rpow (zero_le_one' ℝ) (by positivity : 0 ≤ s ^ 3)
    (by norm_num : (0 : ℝ) ≤ 2 / 3) (by norm_num)
  rw [cube_rpow hs, one_rpow] at h
  linarith

theorem spG_factor {s : ℝ} (hs : 0 < s) : spG s = s ^ 2 * ((1 + (s ^ 3)⁻¹) ^ (2 / 3 : ℝ) - 1) := by
  unfold spG
  have e : 1 + s ^ 3 = s ^ 3 * (1 + (s ^ 3)⁻¹) := by field_simp; ring
  rw [e, mul_rpow (by positivity) (by positivity), cube_rpow hs.le]
  ring

theorem spG_le_debye {s : ℝ} (hs : 0 < s) : spG s ≤ 2 / (3 * s) := by
  rw [spG_factor hs]
  have h := rpow_one_add_le_one_add_mul_self (s := (s ^ 3)⁻¹) (by
      have : 0 < (s ^ 3)⁻¹ := by positivity
      linarith) (p := 2 / 3) (by norm_num) (by norm_num)
  calc s ^ 2 * ((1 + (s ^ 3)⁻¹) ^ (2 / 3 : ℝ) - 1) ≤ s ^ 2 * (2 / 3 * (s ^ 3)⁻¹) := by
        apply mul_le_mul_of_nonneg_left _ (by positivity)
        linarith
    _ = 2 / (3 * s) := by field_simp

theorem spG_tendsto_zero : Tendsto spG (𝓝 0) (𝓝 1) := by
  have hc : ContinuousAt spG 0 := by
    unfold spG
    refine ContinuousAt.sub (ContinuousAt.rpow_const (by fun_prop) (Or.inl (by norm_num))) (by fun_prop)
  have e : spG 0 = 1 := by simp [spG]
  rw [← e]
  exact hc

theorem spG_tendsto_top : Tendsto (fun s => 3 / 2 * s * spG s) atTop (𝓝 1) := by
  have hd : HasDerivAt (fun t : ℝ => (1 + t) ^ (2 / 3 : ℝ)) (2 / 3) 0 := by
    have h := ((hasDerivAt_id (0 : ℝ)).const_add 1).rpow_const (p := 2 / 3) (Or.inl (by norm_num))
    simpa using h
  have hs := hd.tendsto_slope_zero
  have hinv : Tendsto (fun s : ℝ => (s ^ 3)⁻¹) atTop (𝓝[≠] 0) := by
    refine tendsto_nhdsWithin_iff.mpr ⟨?_, ?_⟩
    · exact tendsto_inv_atTop_zero.comp (tendsto_pow_atTop (by norm_num))
    · filter_upwards [eventually_gt_atTop 0] with s hs
      have : 0 < (s ^ 3)⁻¹ := by positivity
      exact this.ne'
  have h := (hs.comp hinv).const_mul (3 / 2)
  norm_num at h
  refine h.congr' ?_
  filter_upwards [eventually_gt_atTop 0] with s hs
  rw [spG_factor hs]
  ring

/-! ### Screening -/

theorem clipZ_of_ge {x : ℝ} (h : 1 / 1000000 ≤ x) : clipZ x = x := max_eq_left h

theorem clipZ_pos (x : ℝ) : 0 < clipZ x := lt_of_lt_of_le (by norm_num) (le_max_right _ _)

theorem le_clipZ (x : ℝ) : x ≤ clipZ x := le_max_left _ _

theorem kappaESq_pos {ne Te : ℝ} (hn : 0 < ne) (hT : 0 < Te) : 0 < kappaESq u none ne Te := by
  have := u.e_pos
  have := u.eps0_pos
  have := u.kB_pos
  unfold kappaESq
  positivity

theorem kappaISq_nonneg (Zbar : Fin n → ℝ) {ni : Fin n → ℝ} (hni : ∀ i, 0 ≤ ni i) {T : ℝ} (hT : 0 < T) :
    0 ≤ kappaISq u Zbar ni T := by
  have := u.eps0_pos
  have := u.kB_pos
  unfold kappaISq
  exact div_nonneg (Finset.sum_nonneg fun i _ => mul_nonneg (by positivity) (hni i)) (by positivity)

theorem kappaD_pos {arb : Option (ℝ → ℝ → ℝ)} (Zbar : Fin n → ℝ) {ni : Fin n → ℝ} (hni : ∀ i, 0 ≤ ni i)
    {ne Te T : ℝ} (hT : 0 < T) (he : 0 < kappaESq u arb ne Te) : 0 < kappaD u arb Zbar ni ne Te T := by
  unfold kappaD
  have := kappaISq_nonneg u Zbar hni hT
  exact sqrt_pos.mpr (by linarith)

/-- The radius of the sphere with one ion. -/
noncomputable def sphere (ni : Fin n → ℝ) : ℝ := (3 / (4 * π * ∑ i, ni i)) ^ (1 / 3 : ℝ)

theorem sphere_pos {ni : Fin n → ℝ} (h : 0 < ∑ i, ni i) : 0 < sphere ni := by
  have := pi_pos
  unfold sphere
  positivity

theorem stewartPyatt_eq (arb : Option (ℝ → ℝ → ℝ)) (Zi : ℝ) (Zbar ni Ti : Fin n → ℝ) (ne Te : ℝ)
    (j : Fin n) : stewartPyatt u arb Zi Zbar ni Ti ne Te j =
      -(3 * (clipZ Zi + 1) * u.e ^ 2) / (8 * π * u.eps0 * sphere ni) *
        spG (1 / kappaD u arb (fun i => clipZ (Zbar i)) ni ne Te (Ti j) / sphere ni) := rfl

/-! ### C20 -/

theorem debyeHueckel_neg {arb : Option (ℝ → ℝ → ℝ)} {Zi : ℝ} (hZ : 0 ≤ Zi) (Zbar : Fin n → ℝ)
    {ni Ti : Fin n → ℝ} {ne Te : ℝ} (j : Fin n) (hni : ∀ i, 0 ≤ ni i) (hT : 0 < Ti j)
    (he : 0 < kappaESq u arb ne Te) : debyeHueckel u arb Zi Zbar ni Ti ne Te j < 0 := by
  have := u.e_pos
  have := u.eps0_pos
  have := pi_pos
  unfold debyeHueckel
  apply mul_neg_of_pos_of_neg (kappaD_pos u Zbar hni hT he)
  apply div_neg_of_neg_of_pos _ (by positivity)
  have : 0 < (Zi + 1) * u.e ^ 2 := by positivity
  linarith

theorem ionSphere_neg (Zi : ℝ) (Zbar : Fin n → ℝ) {ne : ℝ} (hn : 0 < ne) (j : Fin n) :
    ionSphere u none Zi Zbar ne j < 0 := by
  have := u.e_pos
  have := u.eps0_pos
  have := pi_pos
  have := clipZ_pos Zi
  have := clipZ_pos (Zbar j)
  unfold ionSphere
  simp only [Option.getD_none]
  apply div_neg_of_neg_of_pos _ (by positivity)
  have : 0 < 3 / 2 * (clipZ Zi + 1) * 1 * u.e ^ 2 := by positivity
  linarith

theorem stewartPyatt_neg {arb : Option (ℝ → ℝ → ℝ)} (Zi : ℝ) (Zbar : Fin n → ℝ) {ni Ti : Fin n → ℝ}
    {ne Te : ℝ} (j : Fin n) (hni : ∀ i, 0 ≤ ni i) (hN : 0 < ∑ i, ni i) (hT : 0 < Ti j)
    (he : 0 < kappaESq u arb ne Te) : stewartPyatt u arb Zi Zbar ni Ti ne Te j < 0 := by
  have := u.e_pos
  have := u.eps0_pos
  have := pi_pos
  have := clipZ_pos Zi
  have hR := sphere_pos hN
  have hk := kappaD_pos u (fun i => clipZ (Zbar i)) hni hT he
  rw [stewartPyatt_eq]
  apply mul_neg_of_neg_of_pos _ (spG_pos (by positivity))
  apply div_neg_of_neg_of_pos _ (by positivity)
  have : 0 < 3 * (clipZ Zi + 1) * u.e ^ 2 := by positivity
  linarith

/-- C20: the Stewart-Pyatt lowering is not larger than that of Debye and Hückel. -/
theorem stewartPyatt_ge_debyeHueckel {arb : Option (ℝ → ℝ → ℝ)} {Zi : ℝ} (hZ : 1 / 1000000 ≤ Zi)
    {Zbar ni Ti : Fin n → ℝ} (hZb : ∀ i, 1 / 1000000 ≤ Zbar i) {ne Te : ℝ} (j : Fin n)
    (hni : ∀ i, 0 ≤ ni i) (hN : 0 < ∑ i, ni i) (hT : 0 < Ti j) (he : 0 < kappaESq u arb ne Te) :
    debyeHueckel u arb Zi Zbar ni Ti ne Te j ≤ stewartPyatt u arb Zi Zbar ni Ti ne Te j := by
  have := u.e_pos
  have := u.eps0_pos
  have := pi_pos
  have hZ0 : 0 < Zi := by linarith
  have hR := sphere_pos hN
  have e : (fun i => clipZ (Zbar i)) = Zbar := funext fun i => clipZ_of_ge (hZb i)
  rw [stewartPyatt_eq, e, clipZ_of_ge hZ]
  unfold debyeHueckel
  have hk := kappaD_pos u Zbar hni hT he
  generalize kappaD u arb Zbar ni ne Te (Ti j) = k at hk
  generalize sphere ni = R at hR
  have hg := spG_le_debye (s := 1 / k / R) (by positivity)
  have e2 : 2 / (3 * (1 / k / R)) = 2 / 3 * (k * R) := by field_simp
  rw [e2] at hg
  have e3 : k * (-(Zi + 1) * u.e ^ 2 / (4 * π * u.eps0)) =
      -(3 * (Zi + 1) * u.e ^ 2) / (8 * π * u.eps0 * R) * (2 / 3 * (k * R)) := by
    field_simp
    norm_num
  rw [e3]
  apply mul_le_mul_of_nonpos_left hg
  apply div_nonpos_of_nonpos_of_nonneg _ (by positivity)
  have : 0 < 3 * (Zi + 1) * u.e ^ 2 := by positivity
  linarith

/-- The radius used by the ion-sphere model is not larger than the one of Stewart and Pyatt exactly
when the charge of the species is not above the mean. -/
theorem ionRadius_le {Zbar ni : Fin n → ℝ} (hN : 0 < ∑ i, ni i) {ne : ℝ} (hn : 0 < ne) (j : Fin n) :
    (3 * clipZ (Zbar j) / (4 * π * ne)) ^ (1 / 3 : ℝ) ≤ sphere ni ↔ clipZ (Zbar j) * ∑ i, ni i ≤ ne := by
  have hpi := pi_pos
  have hc := clipZ_pos (Zbar j)
  unfold sphere
  rw [rpow_le_rpow_iff (by positivity) (by positivity) (by norm_num),
    div_le_div_iff₀ (by positivity) (by positivity)]
  generalize (∑ i, ni i) = N at *
  constructor
  · intro h
    by_contra hh
    push Not at hh
    have : 0 < (clipZ (Zbar j) * N - ne) * (12 * π) := mul_pos (by linarith) (by positivity)
    linarith
  · intro h
    have : 0 ≤ (ne - clipZ (Zbar j) * N) * (12 * π) := mul_nonneg (by linarith) (by positivity)
    linarith

theorem ionSphere_eq (Zi : ℝ) (Zbar : Fin n → ℝ) {ne : ℝ} (hn : 0 < ne) (j : Fin n) :
    ionSphere u none Zi Zbar ne j = -(3 * (clipZ Zi + 1) * u.e ^ 2) /
      (8 * π * u.eps0 * (3 * clipZ (Zbar j) / (4 * π * ne)) ^ (1 / 3 : ℝ)) := by
  have := u.eps0_pos
  have hpi := pi_pos
  have hc := clipZ_pos (Zbar j)
  have hR : 0 < (3 * clipZ (Zbar j) / (4 * π * ne)) ^ (1 / 3 : ℝ) := by positivity
  unfold ionSphere
  simp only [Option.getD_none]
  generalize (3 * clipZ (Zbar j) / (4 * π * ne)) ^ (1 / 3 : ℝ) = R at hR
  field_simp
  ring

/-- C20: nor larger than that of the ion-sphere model, for a species whose charge is not above the mean
charge of the plasma. -/
theorem stewartPyatt_ge_ionSphere {arb : Option (ℝ → ℝ → ℝ)} (Zi : ℝ) {Zbar ni Ti : Fin n → ℝ}
    {ne Te : ℝ} (j : Fin n) (hni : ∀ i, 0 ≤ ni i) (hN : 0 < ∑ i, ni i) (hT : 0 < Ti j) (hn : 0 < ne)
    (he : 0 < kappaESq u arb ne Te) (hq : clipZ (Zbar j) * ∑ i, ni i ≤ ne) :
    ionSphere u none Zi Zbar ne j ≤ stewartPyatt u arb Zi Zbar ni Ti ne Te j := by
  have := u.e_pos
  have := u.eps0_pos
  have hpi := pi_pos
  have hcz := clipZ_pos Zi
  have hc := clipZ_pos (Zbar j)
  have hR := sphere_pos hN
  have hk := kappaD_pos u (fun i => clipZ (Zbar i)) hni hT he
  have hle := (ionRadius_le hN hn j).mpr hq
  have hR' : 0 < (3 * clipZ (Zbar j) / (4 * π * ne)) ^ (1 / 3 : ℝ) := by positivity
  rw [ionSphere_eq u Zi Zbar hn, stewartPyatt_eq]
  have hg := spG_le_one (s := 1 / kappaD u arb (fun i => clipZ (Zbar i)) ni ne Te (Ti j) / sphere ni)
    (by positivity)
  have hg0 := spG_pos (s := 1 / kappaD u arb (fun i => clipZ (Zbar i)) ni ne Te (Ti j) / sphere ni)
    (by positivity)
  generalize spG _ = g at hg hg0
  generalize (3 * clipZ (Zbar j) / (4 * π * ne)) ^ (1 / 3 : ℝ) = R' at hle hR'
  generalize sphere ni = R at hle hR
  rw [neg_div, neg_div, neg_mul, neg_le_neg_iff]
  calc 3 * (clipZ Zi + 1) * u.e ^ 2 / (8 * π * u.eps0 * R) * g ≤
      3 * (clipZ Zi + 1) * u.e ^ 2 / (8 * π * u.eps0 * R) := mul_le_of_le_one_right (by positivity) hg
    _ ≤ 3 * (clipZ Zi + 1) * u.e ^ 2 / (8 * π * u.eps0 * R') := by gcongr

/-- C20 for one species in a neutral plasma.
(Partial: one species with a charge of at least 1e-6; it fails for charges above the mean of a mixture and for neutral atoms, see `stewartPyatt_exceeds_ionSphere` and `stewartPyatt_exceeds_debyeHueckel`.) -/
theorem stewartPyatt_single_partial {arb : Option (ℝ → ℝ → ℝ)} {Zi Z N T Te : ℝ} (hZ : 1 / 1000000 ≤ Zi)
    (hZb : 1 / 1000000 ≤ Z) (hN : 0 < N) (hT : 0 < T) (he : 0 < kappaESq u arb (Z * N) Te) :
    debyeHueckel u arb Zi (fun _ : Fin 1 => Z) (fun _ => N) (fun _ => T) (Z * N) Te 0 ≤
      stewartPyatt u arb Zi (fun _ : Fin 1 => Z) (fun _ => N) (fun _ => T) (Z * N) Te 0 ∧
    ionSphere u none Zi (fun _ : Fin 1 => Z) (Z * N) 0 ≤
      stewartPyatt u arb Zi (fun _ : Fin 1 => Z) (fun _ => N) (fun _ => T) (Z * N) Te 0 ∧
    stewartPyatt u arb Zi (fun _ : Fin 1 => Z) (fun _ => N) (fun _ => T) (Z * N) Te 0 < 0 := by
  have hZ0 : 0 < Z := by linarith
  have hs : ∑ _i : Fin 1, N = N := by simp
  refine ⟨stewartPyatt_ge_debyeHueckel u hZ (fun _ => hZb) 0 (fun _ => hN.le) (by simpa using hN) hT he,
    stewartPyatt_ge_ionSphere u Zi 0 (fun _ => hN.le) (by simpa using hN) hT (by positivity) he ?_,
    stewartPyatt_neg u Zi _ 0 (fun _ => hN.le) (by simpa using hN) hT he⟩
  rw [clipZ_of_ge hZb, hs]

/-! ### Limits -/

/-- The temperature-independent part of the screening. -/
noncomputable def screenA (Zbar ni : Fin n → ℝ) (ne : ℝ) : ℝ :=
  ((∑ i, Zbar i ^ 2 * u.e ^ 2 * ni i) + u.e ^ 2 * ne) / (u.eps0 * u.kB)

theorem screenA_pos (Zbar : Fin n → ℝ) {ni : Fin n → ℝ} (hni : ∀ i, 0 ≤ ni i) {ne : ℝ} (hn : 0 < ne) :
    0 < screenA u Zbar ni ne := by
  have := u.e_pos
  have := u.eps0_pos
  have := u.kB_pos
  have h : 0 ≤ ∑ i, Zbar i ^ 2 * u.e ^ 2 * ni i :=
    Finset.sum_nonneg fun i _ => mul_nonneg (by positivity) (hni i)
  unfold screenA
  positivity

theorem kappaD_inv (Zbar ni : Fin n → ℝ) (ne : ℝ) {T : ℝ} (hT : 0 < T) :
    1 / kappaD u none Zbar ni ne T T = sqrt T / sqrt (screenA u Zbar ni ne) := by
  unfold kappaD kappaISq kappaESq
  have e : (∑ i, Zbar i ^ 2 * u.e ^ 2 * ni i) / (1 * u.eps0 * u.kB * T) +
      u.e ^ 2 * ne / (1 * u.eps0 * u.kB * T) = screenA u Zbar ni ne / T := by
    unfold screenA
    rw [← add_div, div_div, one_mul]
  simp only
  rw [e, sqrt_div' _ hT.le, one_div_div]

/-- The Stewart-Pyatt lowering as a function of the common temperature of electrons and ions. -/
theorem stewartPyatt_T (Zi : ℝ) (Zbar ni : Fin n → ℝ) (ne : ℝ) (j : Fin n) {T : ℝ} (hT : 0 < T) :
    stewartPyatt u none Zi Zbar ni (fun _ => T) ne T j =
      -(3 * (clipZ Zi + 1) * u.e ^ 2) / (8 * π * u.eps0 * sphere ni) *
        spG (sqrt T / sqrt (screenA u (fun i => clipZ (Zbar i)) ni ne) / sphere ni) := by
  rw [stewartPyatt_eq, kappaD_inv u _ ni ne hT]

/-- C20: at low temperature the lowering tends to that of a sphere with the volume of one ion. -/
theorem stewartPyatt_cold (Zi : ℝ) (Zbar ni : Fin n → ℝ) (ne : ℝ) (j : Fin n) :
    Tendsto (fun T => stewartPyatt u none Zi Zbar ni (fun _ => T) ne T j) (𝓝[>] 0)
      (𝓝 (-(3 * (clipZ Zi + 1) * u.e ^ 2) / (8 * π * u.eps0 * sphere ni))) := by
  have h1 : Tendsto (fun T : ℝ => sqrt T / sqrt (screenA u (fun i => clipZ (Zbar i)) ni ne) / sphere ni)
      (𝓝[>] 0) (𝓝 0) := by
    have h : Tendsto (fun T : ℝ => sqrt T) (𝓝[>] 0) (𝓝 0) := by
      have := (continuous_sqrt.tendsto 0)
      rw [sqrt_zero] at this
      exact this.mono_left nhdsWithin_le_nhds
    have h2 := (h.div_const (sqrt (screenA u (fun i => clipZ (Zbar i)) ni ne))).div_const (sphere ni)
    simpa using h2
  have h2 := (spG_tendsto_zero.comp h1).const_mul
    (-(3 * (clipZ Zi + 1) * u.e ^ 2) / (8 * π * u.eps0 * sphere ni))
  rw [mul_one] at h2
  refine h2.congr' ?_
  filter_upwards [self_mem_nhdsWithin] with T hT
  rw [stewartPyatt_T u Zi Zbar ni ne j hT]
  rfl

/-- C20: for one species in a neutral plasma this is the ion-sphere value. -/
theorem stewartPyatt_cold_ionSphere (Zi : ℝ) {Z N : ℝ} (hZ : 1 / 1000000 ≤ Z) (hN : 0 < N) :
    Tendsto (fun T => stewartPyatt u none Zi (fun _ : Fin 1 => Z) (fun _ => N) (fun _ => T) (Z * N) T 0)
      (𝓝[>] 0) (𝓝 (ionSphere u none Zi (fun _ : Fin 1 => Z) (Z * N) 0)) := by
  have hZ0 : 0 < Z := by linarith
  have h := stewartPyatt_cold u Zi (fun _ : Fin 1 => Z) (fun _ => N) (Z * N) 0
  have e : ionSphere u none Zi (fun _ : Fin 1 => Z) (Z * N) 0 =
      -(3 * (clipZ Zi + 1) * u.e ^ 2) / (8 * π * u.eps0 * sphere (fun _ : Fin 1 => N)) := by
    rw [ionSphere_eq u Zi _ (by positivity), clipZ_of_ge hZ]
    unfold sphere
    have e2 : 3 * Z / (4 * π * (Z * N)) = 3 / (4 * π * ∑ _i : Fin 1, N) := by
      have := pi_pos
      simp only [Finset.univ_unique, Finset.sum_const, Finset.card_singleton, one_smul]
      field_simp
    rw [e2]
  rw [e]
  exact h

/-- C20: at high temperature the Stewart-Pyatt lowering tends to that of Debye and Hückel, up to the
clipping of the charge. -/
theorem stewartPyatt_hot {Zi : ℝ} (hZ : 0 ≤ Zi) {Zbar ni : Fin n → ℝ} (hZb : ∀ i, 1 / 1000000 ≤ Zbar i)
    (hni : ∀ i, 0 ≤ ni i) (hN : 0 < ∑ i, ni i) {ne : ℝ} (hn : 0 < ne) (j : Fin n) :
    Tendsto (fun T => stewartPyatt u none Zi Zbar ni (fun _ => T) ne T j /
      debyeHueckel u none Zi Zbar ni (fun _ => T) ne T j) atTop (𝓝 ((clipZ Zi + 1) / (Zi + 1))) := by
  have h0 := u.e_pos
  have h1 := u.eps0_pos
  have hpi := pi_pos
  have hR := sphere_pos hN
  have hA := sqrt_pos.mpr (screenA_pos u Zbar hni hn)
  have e : (fun i => clipZ (Zbar i)) = Zbar := funext fun i => clipZ_of_ge (hZb i)
  have hs : Tendsto (fun T : ℝ => sqrt T / sqrt (screenA u Zbar ni ne) / sphere ni) atTop atTop :=
    (tendsto_sqrt_atTop.atTop_div_const hA).atTop_div_const hR
  have h := (spG_tendsto_top.comp hs).const_mul ((clipZ Zi + 1) / (Zi + 1))
  rw [mul_one] at h
  refine h.congr' ?_
  filter_upwards [eventually_gt_atTop 0] with T hT
  rw [stewartPyatt_T u Zi Zbar ni ne j hT, e]
  unfold debyeHueckel
  have hk := kappaD_inv u Zbar ni ne hT
  have hsT := sqrt_pos.mpr hT
  have hk' : kappaD u none Zbar ni ne T T = sqrt (screenA u Zbar ni ne) / sqrt T := by
    rw [← one_div_one_div (kappaD u none Zbar ni ne T T), hk, one_div_div]
  rw [hk']
  simp only [Function.comp]
  generalize spG _ = g
  generalize sqrt (screenA u Zbar ni ne) = A at hA
  generalize sqrt T = t at hsT
  generalize sphere ni = R at hR
  have hz : 0 < Zi + 1 := by linarith
  field_simp
  ring

/-- C20 is false for species with a charge above the mean: at low temperature the lowering exceeds the
ion-sphere value. -/
theorem stewartPyatt_exceeds_ionSphere (Zi : ℝ) {Zbar ni : Fin n → ℝ} (hN : 0 < ∑ i, ni i) {ne : ℝ}
    (hn : 0 < ne) (j : Fin n) (hq : ne < clipZ (Zbar j) * ∑ i, ni i) :
    ∀ᶠ T in 𝓝[>] 0, stewartPyatt u none Zi Zbar ni (fun _ => T) ne T j < ionSphere u none Zi Zbar ne j := by
  have := u.e_pos
  have := u.eps0_pos
  have hpi := pi_pos
  have hcz := clipZ_pos Zi
  have hR := sphere_pos hN
  have hlt : sphere ni < (3 * clipZ (Zbar j) / (4 * π * ne)) ^ (1 / 3 : ℝ) := by
    by_contra hh
    exact absurd ((ionRadius_le hN hn j).mp (not_lt.mp hh)) (not_le.mpr hq)
  refine (stewartPyatt_cold u Zi Zbar ni ne j).eventually_lt_const ?_
  rw [ionSphere_eq u Zi Zbar hn, neg_div, neg_div, neg_lt_neg_iff]
  gcongr

/-- C20 is false for neutral atoms, whose charge is replaced by `1e-6`: at high temperature the
Stewart-Pyatt lowering exceeds that of Debye and Hückel. -/
theorem stewartPyatt_exceeds_debyeHueckel {Zbar ni : Fin n → ℝ} (hZb : ∀ i, 1 / 1000000 ≤ Zbar i)
    (hni : ∀ i, 0 ≤ ni i) (hN : 0 < ∑ i, ni i) {ne : ℝ} (hn : 0 < ne) (j : Fin n) :
    ∀ᶠ T in atTop, stewartPyatt u none 0 Zbar ni (fun _ => T) ne T j <
      debyeHueckel u none 0 Zbar ni (fun _ => T) ne T j := by
  have h := stewartPyatt_hot u le_rfl hZb hni hN hn j
  have hc : (1 : ℝ) < (clipZ 0 + 1) / (0 + 1) := by
    rw [clipZ, max_eq_right (by norm_num)]
    norm_num
  filter_upwards [h.eventually_const_lt hc, eventually_gt_atTop 0] with T hT hT0
  have hneg := debyeHueckel_neg u (arb := none) le_rfl Zbar (Ti := fun _ => T) j hni hT0
    (kappaESq_pos u hn hT0)
  rw [lt_div_iff_of_neg hneg, one_mul] at hT
  exact hT

/-- The two theorems above speak about a neutral plasma of protons and C6+. -/
example : ∀ᶠ T in 𝓝[>] 0, stewartPyatt unitConsts none 6 ![1, 6] ![1, 1] (fun _ => T) 7 T 1 <
    ionSphere unitConsts none 6 ![1, 6] 7 1 :=
  stewartPyatt_exceeds_ionSphere unitConsts 6 (by simp [Fin.sum_univ_two]) (by norm_num) 1 (by
    rw [Fin.sum_univ_two]
    norm_num [clipZ])

example : debyeHueckel unitConsts none 2 ![1, 6] ![1, 1] (fun _ => 3) 7 3 0 ≤
    stewartPyatt unitConsts none 2 ![1, 6] ![1, 1] (fun _ => 3) 7 3 0 :=
  stewartPyatt_ge_debyeHueckel unitConsts (by norm_num) (fun i => by fin_cases i <;> norm_num) 0
    (fun i => by fin_cases i <;> norm_num) (by simp [Fin.sum_univ_two]) (by norm_num)
    (kappaESq_pos _ (by norm_num) (by norm_num))

/-! ### The formulation of Preston et al. -/

theorem preston_ge {arb : Option (ℝ → ℝ → ℝ)} (crowley : Bool) {Zi Z N T Te : ℝ} (hZ : 0 ≤ Zi)
    (hZb : 0 < Z) (hN : 0 < N) (hT : 0 < T) (he : 0 < kappaESq u arb (Z * N) Te) :
    debyeHueckel u arb Zi (fun _ : Fin 1 => Z) (fun _ => N) (fun _ => T) (Z * N) Te 0 ≤
      preston u arb none crowley Zi (fun _ : Fin 1 => N) (fun _ => T) (Z * N) Te 0 ∧
    preston u arb none crowley Zi (fun _ : Fin 1 => N) (fun _ => T) (Z * N) Te 0 < 0 := by
  have h0 := u.e_pos
  have h1 := u.eps0_pos
  have h2 := u.kB_pos
  have hpi := pi_pos
  have hk := kappaD_pos u (fun _ : Fin 1 => Z) (ni := fun _ => N) (fun _ => hN.le) hT he
  have eZ : (fun _ : Fin 1 => Z * N / N) = fun _ => Z := by
    funext
    field_simp
  have eS : Z * N / ∑ _i : Fin 1, N = Z := by
    simp only [Finset.univ_unique, Finset.sum_const, Finset.card_singleton, one_smul]
    field_simp
  unfold debyeHueckel preston
  simp only [prestonZ, eZ, eS]
  generalize kappaD u arb (fun _ : Fin 1 => Z) (fun _ => N) (Z * N) Te T = k at hk
  set cc : ℝ := if crowley then 0 else 1 with hcc
  have hcc0 : 0 ≤ cc := by rw [hcc]; split_ifs <;> norm_num
  have hz : 0 < Z + cc := by linarith
  generalize Z + cc = z at hz
  have eL : 3 * z * (Zi + 1) * u.e ^ 2 / (4 * u.eps0 * π * (1 / k) * u.kB * T) =
      3 * z * (Zi + 1) * u.e ^ 2 * k / (4 * u.eps0 * π * u.kB * T) := by field_simp
  rw [eL]
  have hL : 0 < 3 * z * (Zi + 1) * u.e ^ 2 * k / (4 * u.eps0 * π * u.kB * T) := by positivity
  constructor
  · have hb := rpow_one_add_le_one_add_mul_self
      (s := 3 * z * (Zi + 1) * u.e ^ 2 * k / (4 * u.eps0 * π * u.kB * T)) (by linarith) (p := 2 / 3)
      (by norm_num) (by norm_num)
    have e3 : k * (-(Zi + 1) * u.e ^ 2 / (4 * π * u.eps0)) = -(1 * u.kB * T) / (2 * z) *
        (2 / 3 * (3 * z * (Zi + 1) * u.e ^ 2 * k / (4 * u.eps0 * π * u.kB * T))) := by
      field_simp
    rw [e3]
    apply mul_le_mul_of_nonpos_left (by linarith)
    apply div_nonpos_of_nonpos_of_nonneg _ (by positivity)
    nlinarith
  · apply mul_neg_of_neg_of_pos
    · apply div_neg_of_neg_of_pos _ (by positivity)
      nlinarith
    · rw [sub_pos]
      exact one_lt_rpow (by linarith) (by norm_num)

/-- The mean charge of a population given by the user is divided once more by the number of charge
states. -/
theorem prestonZ_population (p : List ℝ) (hp : p ≠ []) (ni : Fin n → ℝ) (ne : ℝ) (i : Fin n) :
    (prestonZ (some p) ni ne).1 i * p.length =
      ((List.range p.length).map fun k : ℕ => (k : ℝ) * p.getD k 0).sum := by
  have : (p.length : ℝ) ≠ 0 := by
    have := List.length_pos_iff.mpr hp
    positivity
  simp only [prestonZ]
  rw [div_mul_cancel₀ _ this]

/-- Ions which all have charge one count as ions of charge one half. -/
example : (prestonZ (some [0, 1]) (fun _ : Fin 1 => 1) 1).1 0 = 1 / 2 := by
  simp [prestonZ, List.range_succ]

/-- C20: the second charge of Preston's formula is the mean square charge over the mean charge,
whatever the norm of the population. -/
theorem prestonZ_square (p : List ℝ) (ni : Fin n → ℝ) (ne : ℝ)
    (h0 : ((List.range p.length).map fun k : ℕ => (k : ℝ) * p.getD k 0).sum ≠ 0) :
    (prestonZ (some p) ni ne).2 * ((List.range p.length).map fun k : ℕ => (k : ℝ) * p.getD k 0).sum =
      ((List.range p.length).map fun k : ℕ => (k : ℝ) ^ 2 * p.getD k 0).sum := by
  have hp : p ≠ [] := by
    rintro rfl
    simp at h0
  have hl : (p.length : ℝ) ≠ 0 := by
    have := List.length_pos_iff.mpr hp
    positivity
  simp only [prestonZ]
  generalize ((List.range p.length).map fun k : ℕ => (k : ℝ) * p.getD k 0).sum = s at h0 ⊢
  field_simp

/-- Half of the ions with charge one, half with charge three: 10 / 4. -/
example : (prestonZ (some [0, 1 / 2, 0, 1 / 2]) (fun _ : Fin 1 => 1) 1).2 = 5 / 2 := by
  simp [prestonZ, List.range_succ]
  norm_num

/-! ### C21: Ecker and Kröll -/

/-- C21: at the critical density the Coulomb energy of two ions of the highest charge at the distance
of a Wigner-Seitz radius is the thermal energy. -/
theorem criticalDensity_energy {Te Zmax : ℝ} (hT : 0 < Te) (hZ : 0 < Zmax) :
    Zmax ^ 2 * u.e ^ 2 / (4 * π * u.eps0 * (3 / (4 * π * criticalDensity u Te Zmax)) ^ (1 / 3 : ℝ)) =
      u.kB * Te := by
  have he := u.e_pos
  have h0 := u.eps0_pos
  have hB := u.kB_pos
  have hp := pi_pos
  have hx : 0 < 4 * π * 1 * u.eps0 * u.kB * Te / (Zmax ^ 2 * u.e ^ 2) := by positivity
  have e1 : (3 / (4 * π * criticalDensity u Te Zmax)) ^ (1 / 3 : ℝ) =
      (4 * π * 1 * u.eps0 * u.kB * Te / (Zmax ^ 2 * u.e ^ 2))⁻¹ := by
    unfold criticalDensity
    generalize 4 * π * 1 * u.eps0 * u.kB * Te / (Zmax ^ 2 * u.e ^ 2) = x at hx ⊢
    have : 3 / (4 * π * (3 / (4 * π) * x ^ 3)) = (x⁻¹) ^ (3 : ℕ) := by field_simp
    rw [this, ← rpow_natCast, ← rpow_mul (by positivity)]
    norm_num
  rw [e1]
  field_simp

theorem criticalDensity_pos {Te Zmax : ℝ} (hT : 0 < Te) (hZ : 0 < Zmax) : 0 < criticalDensity u Te Zmax := by
  have := u.e_pos
  have := u.eps0_pos
  have := u.kB_pos
  have := pi_pos
  unfold criticalDensity
  positivity

/-- C21: below the critical density the lowering is that of Debye and Hückel, for equal ion
temperatures. -/
theorem eckerKroell_low (arb : Option (ℝ → ℝ → ℝ)) (C : Option ℝ) (Zi : ℝ) (Zbar ni Zmax : Fin n → ℝ)
    (T ne Te : ℝ) (j : Fin n) (h : ni j + ne ≤ criticalDensity u Te (Zmax j)) :
    eckerKroell u arb C Zi Zbar ni (fun _ => T) Zmax ne Te j =
      debyeHueckel u arb Zi Zbar ni (fun _ => T) ne Te j := by
  unfold eckerKroell debyeHueckel kappaD
  simp only
  rw [if_pos h]
  have e : kappaISqEK u Zbar ni (fun _ => T) = kappaISq u Zbar ni T := by
    unfold kappaISqEK kappaISq
    rw [Finset.sum_div]
  rw [e]
  generalize sqrt _ = k
  rcases eq_or_ne k 0 with hk | hk
  · rw [hk]
    simp
  · field_simp

/-- C21 is false for different ion temperatures: the coldest ions see less screening. -/
theorem eckerKroell_low_wrong {arb : Option (ℝ → ℝ → ℝ)} (C : Option ℝ) {Zi : ℝ} (hZ : 0 ≤ Zi)
    {Zbar ni Ti Zmax : Fin n → ℝ} {ne Te : ℝ} (j i : Fin n) (hni : ∀ i, 0 ≤ ni i) (hTj : 0 < Ti j)
    (hT : ∀ i, Ti j ≤ Ti i) (hi : Ti j < Ti i) (hZi : Zbar i ≠ 0) (hni' : 0 < ni i)
    (he : 0 < kappaESq u arb ne Te) (h : ni j + ne ≤ criticalDensity u Te (Zmax j)) :
    debyeHueckel u arb Zi Zbar ni Ti ne Te j < eckerKroell u arb C Zi Zbar ni Ti Zmax ne Te j := by
  have h0 := u.e_pos
  have h1 := u.eps0_pos
  have h2 := u.kB_pos
  have hpi := pi_pos
  have hlt : kappaISqEK u Zbar ni Ti < kappaISq u Zbar ni (Ti j) := by
    unfold kappaISqEK kappaISq
    rw [Finset.sum_div]
    refine Finset.sum_lt_sum (fun k _ => ?_) ⟨i, Finset.mem_univ _, ?_⟩
    · have hk := hT k
      have := hni k
      gcongr
    · have : 0 < Zbar i ^ 2 := by positivity
      gcongr
  have hek : 0 ≤ kappaISqEK u Zbar ni Ti :=
    Finset.sum_nonneg fun k _ => by
      have := lt_of_lt_of_le hTj (hT k)
      have := hni k
      positivity
  unfold eckerKroell debyeHueckel kappaD
  simp only
  rw [if_pos h]
  have hs : sqrt (kappaISqEK u Zbar ni Ti + kappaESq u arb ne Te) <
      sqrt (kappaISq u Zbar ni (Ti j) + kappaESq u arb ne Te) :=
    sqrt_lt_sqrt (by linarith) (by linarith)
  have hs0 : 0 < sqrt (kappaISqEK u Zbar ni Ti + kappaESq u arb ne Te) := sqrt_pos.mpr (by linarith)
  generalize sqrt (kappaISqEK u Zbar ni Ti + kappaESq u arb ne Te) = a at hs hs0
  generalize sqrt (kappaISq u Zbar ni (Ti j) + kappaESq u arb ne Te) = b at hs
  have e : -1 * u.e ^ 2 / (4 * π * u.eps0 * (1 / a)) * (Zi + 1) =
      a * (-(Zi + 1) * u.e ^ 2 / (4 * π * u.eps0)) := by field_simp
  rw [e]
  apply mul_lt_mul_of_neg_right hs
  apply div_neg_of_neg_of_pos _ (by positivity)
  have : 0 < (Zi + 1) * u.e ^ 2 := by positivity
  linarith

/-- The inverse screening length of the Ecker-Kröll model when all densities are multiplied by `x`. -/
noncomputable def kEK (arb : Option (ℝ → ℝ → ℝ)) (Zbar ni Ti : Fin n → ℝ) (ne Te x : ℝ) : ℝ :=
  sqrt (kappaISqEK u Zbar (fun i => x * ni i) Ti + kappaESq u arb (x * ne) Te)

/-- The Ecker-Kröll lowering when all densities are multiplied by `x`. -/
theorem eckerKroell_scale (arb : Option (ℝ → ℝ → ℝ)) {Zi : ℝ} {Zbar ni Ti Zmax : Fin n → ℝ} {ne Te : ℝ}
    (j : Fin n) (hnj : 0 ≤ ni j) (hN : 0 < ∑ i, ni i) (hn : 0 < ne) (hT : 0 < Te) (hZ : 0 < Zmax j) {x : ℝ}
    (hx : 0 < x) :
    eckerKroell u arb none Zi Zbar (fun i => x * ni i) Ti Zmax (x * ne) Te j =
      -((Zi + 1) * u.e ^ 2 / (4 * π * u.eps0)) *
        (if x ≤ criticalDensity u Te (Zmax j) / (ne + ni j) then kEK u arb Zbar ni Ti ne Te x
          else kEK u arb Zbar ni Ti ne Te (criticalDensity u Te (Zmax j) / (ne + ∑ i, ni i)) *
            (x / (criticalDensity u Te (Zmax j) / (ne + ni j))) ^ (1 / 3 : ℝ)) := by
  have hnc := criticalDensity_pos u hT hZ
  have h1 := u.eps0_pos
  have hpi := pi_pos
  unfold eckerKroell
  simp only [Option.getD_none, ← Finset.mul_sum]
  generalize criticalDensity u Te (Zmax j) = nc at hnc
  generalize (∑ i, ni i) = N at hN
  have e1 : nc / (x * ne + x * N) = nc / (ne + N) / x := by field_simp
  have e2 : nc / (ne + N) / x * (x * ne) = nc / (ne + N) * ne := by field_simp
  have e3 : ∀ i, nc / (ne + N) / x * (x * ni i) = nc / (ne + N) * ni i := fun i => by field_simp
  simp only [e1, e2, e3]
  have hm : 0 < ne + ni j := by linarith
  by_cases hc : x ≤ nc / (ne + ni j)
  · rw [if_pos hc, if_pos (by rw [le_div_iff₀ hm] at hc; linarith)]
    unfold kEK
    generalize sqrt _ = k
    rcases eq_or_ne k 0 with hk | hk
    · rw [hk]
      simp
    · field_simp
  · rw [if_neg hc, if_neg (by rw [le_div_iff₀ hm] at hc; intro h; exact hc (by linarith))]
    unfold kEK
    generalize sqrt (kappaISqEK u Zbar (fun i => nc / (ne + N) * ni i) Ti + _) = k
    have e4 : (x / (nc / (ne + ni j))) ^ (1 / 3 : ℝ) =
        (3 / (4 * π * nc)) ^ (1 / 3 : ℝ) / (3 / (4 * π * (x * ne + x * ni j))) ^ (1 / 3 : ℝ) := by
      rw [← div_rpow (by positivity) (by
        have : 0 ≤ x * ni j := by positivity
        positivity)]
      congr 1
      field_simp
    rw [e4]
    have hR : 0 < (3 / (4 * π * (x * ne + x * ni j))) ^ (1 / 3 : ℝ) := by
      have : 0 ≤ x * ni j := by positivity
      positivity
    generalize (3 / (4 * π * (x * ne + x * ni j))) ^ (1 / 3 : ℝ) = R at hR
    generalize (3 / (4 * π * nc)) ^ (1 / 3 : ℝ) = R'
    field_simp

/-- C21: with one species the lowering is continuous in the density, for every continuous model of
the electron screening.
(Partial: one species; it fails for mixtures, see `eckerKroell_continuousAt_iff`.) -/
theorem eckerKroell_continuous_partial {arb : Option (ℝ → ℝ → ℝ)} {Zi Z N T Zmax ne Te : ℝ} (hN : 0 < N)
    (hn : 0 < ne) (hT : 0 < Te) (hZ : 0 < Zmax)
    (hc : ContinuousOn (fun n => kappaESq u arb n Te) (Ioi 0)) :
    ContinuousOn (fun x => eckerKroell u arb none Zi (fun _ : Fin 1 => Z) (fun _ => x * N) (fun _ => T)
      (fun _ => Zmax) (x * ne) Te 0) (Ioi 0) := by
  have hnc := criticalDensity_pos u hT hZ
  set xc := criticalDensity u Te Zmax / (ne + N) with hxc
  have hxc0 : 0 < xc := by positivity
  have hK : ContinuousOn (kEK u arb (fun _ : Fin 1 => Z) (fun _ => N) (fun _ => T) ne Te) (Ioi 0) := by
    unfold kEK
    refine ContinuousOn.sqrt (ContinuousOn.add ?_ ?_)
    · unfold kappaISqEK
      fun_prop
    · exact hc.comp (by fun_prop) (fun x hx => mul_pos hx hn)
  have key : ContinuousOn (fun x => -((Zi + 1) * u.e ^ 2 / (4 * π * u.eps0)) *
      (kEK u arb (fun _ : Fin 1 => Z) (fun _ => N) (fun _ => T) ne Te (min x xc) *
        (max x xc / xc) ^ (1 / 3 : ℝ))) (Ioi 0) := by
    refine ContinuousOn.mul continuousOn_const (ContinuousOn.mul ?_ ?_)
    · exact hK.comp (by fun_prop) (fun x hx => lt_min hx hxc0)
    · refine ContinuousOn.rpow_const (by fun_prop) (fun x hx => Or.inl ?_)
      have : 0 < max x xc := lt_max_of_lt_right hxc0
      positivity
  refine key.congr fun x hx => ?_
  have h := eckerKroell_scale u arb (Zi := Zi) (Zbar := fun _ : Fin 1 => Z) (ni := fun _ => N)
    (Ti := fun _ => T) (Zmax := fun _ => Zmax) (ne := ne) (Te := Te) 0 hN.le (by simpa using hN) hn hT hZ
    (mem_Ioi.mp hx)
  have hs : ∑ _i : Fin 1, N = N := by simp
  rw [hs, ← hxc] at h
  simp only [h]
  congr 1
  by_cases hle : x ≤ xc
  · rw [if_pos hle, min_eq_left hle, max_eq_right hle, div_self hxc0.ne', one_rpow, mul_one]
  · rw [if_neg hle, min_eq_right (not_le.mp hle).le, max_eq_left (not_le.mp hle).le]

theorem kappaESq_none_continuous (Te : ℝ) : ContinuousOn (fun n => kappaESq u none n Te) (Ioi 0) := by
  unfold kappaESq
  fun_prop

example : ContinuousOn (fun x => eckerKroell unitConsts none none 2 (fun _ : Fin 1 => 2) (fun _ => x * 1)
    (fun _ => 5) (fun _ => 6) (x * 2) 5 0) (Ioi 0) :=
  eckerKroell_continuous_partial unitConsts (by norm_num) (by norm_num) (by norm_num) (by norm_num)
    (kappaESq_none_continuous unitConsts 5)

theorem kEK_none {Zbar ni Ti : Fin n → ℝ} {ne Te x : ℝ} (hx : 0 ≤ x) :
    kEK u none Zbar ni Ti ne Te x = sqrt x * kEK u none Zbar ni Ti ne Te 1 := by
  unfold kEK
  rw [← sqrt_mul hx]
  congr 1
  unfold kappaISqEK kappaESq
  simp only [one_mul]
  rw [mul_add, Finset.mul_sum]
  congr 1
  · exact Finset.sum_congr rfl fun i _ => by ring
  · ring

/-- C21 is false for several species: the lowering is continuous at the critical density exactly when
there are no other ions. -/
theorem eckerKroell_continuousAt_iff {Zi : ℝ} (hZi : 0 ≤ Zi) {Zbar ni Ti Zmax : Fin n → ℝ} {ne Te : ℝ}
    (j : Fin n) (hni : ∀ i, 0 ≤ ni i) (hTi : ∀ i, 0 < Ti i) (hN : 0 < ∑ i, ni i) (hn : 0 < ne)
    (hT : 0 < Te) (hZ : 0 < Zmax j) :
    ContinuousAt (fun x => eckerKroell u none none Zi Zbar (fun i => x * ni i) Ti Zmax (x * ne) Te j)
      (criticalDensity u Te (Zmax j) / (ne + ni j)) ↔ ∑ i, ni i = ni j := by
  have hnc := criticalDensity_pos u hT hZ
  have h0 := u.e_pos
  have h1 := u.eps0_pos
  have h2 := u.kB_pos
  have hpi := pi_pos
  have hnj := hni j
  set nc := criticalDensity u Te (Zmax j) with hncdef
  set xc := nc / (ne + ni j) with hxc
  set B := (Zi + 1) * u.e ^ 2 / (4 * π * u.eps0) with hB
  set xN := nc / (ne + ∑ i, ni i) with hxN
  set K := kEK u none Zbar ni Ti ne Te 1 with hKdef
  have hm : 0 < ne + ni j := by linarith
  have hxc0 : 0 < xc := by positivity
  have hxN0 : 0 < xN := by positivity
  have hB0 : 0 < B := by positivity
  have hK : 0 < K := by
    rw [hKdef]
    unfold kEK kappaISqEK kappaESq
    apply sqrt_pos.mpr
    have : 0 ≤ ∑ i, Zbar i ^ 2 * u.e ^ 2 * (1 * ni i) / (1 * u.eps0 * u.kB * Ti i) :=
      Finset.sum_nonneg fun i _ => by
        have := hni i
        have := hTi i
        positivity
    positivity
  have hf : ∀ x, 0 < x → eckerKroell u none none Zi Zbar (fun i => x * ni i) Ti Zmax (x * ne) Te j =
      -B * (if x ≤ xc then sqrt x * K else sqrt xN * K * (x / xc) ^ (1 / 3 : ℝ)) := by
    intro x hx
    rw [eckerKroell_scale u none j hnj hN hn hT hZ hx]
    rw [kEK_none u hx.le, kEK_none u (x := xN) hxN0.le]
  have hright : Tendsto (fun x => eckerKroell u none none Zi Zbar (fun i => x * ni i) Ti Zmax (x * ne) Te j)
      (𝓝[>] xc) (𝓝 (-B * (sqrt xN * K))) := by
    have hc : Tendsto (fun x : ℝ => -B * (sqrt xN * K * (x / xc) ^ (1 / 3 : ℝ))) (𝓝[>] xc)
        (𝓝 (-B * (sqrt xN * K * (xc / xc) ^ (1 / 3 : ℝ)))) := by
      refine Tendsto.mono_left ?_ nhdsWithin_le_nhds
      have hca : ContinuousAt (fun x : ℝ => -B * (sqrt xN * K * (x / xc) ^ (1 / 3 : ℝ))) xc := by
        refine ContinuousAt.mul continuousAt_const (ContinuousAt.mul continuousAt_const ?_)
        exact ContinuousAt.rpow_const (by fun_prop) (Or.inr (by norm_num))
      exact hca
    rw [div_self hxc0.ne', one_rpow, mul_one] at hc
    refine hc.congr' ?_
    filter_upwards [self_mem_nhdsWithin] with x hx
    have hx' : xc < x := hx
    rw [hf x (hxc0.trans hx'), if_neg (not_le.mpr hx')]
  have hval : eckerKroell u none none Zi Zbar (fun i => xc * ni i) Ti Zmax (xc * ne) Te j =
      -B * (sqrt xc * K) := by
    rw [hf xc hxc0, if_pos le_rfl]
  have heq : sqrt xN = sqrt xc ↔ ∑ i, ni i = ni j := by
    rw [sqrt_inj hxN0.le hxc0.le, hxN, hxc, div_eq_div_iff (by positivity) (by positivity)]
    constructor
    · intro h
      have := mul_left_cancel₀ hnc.ne' h
      linarith
    · intro h
      rw [h]
  constructor
  · intro hcont
    have h := hcont.tendsto.mono_left (nhdsWithin_le_nhds (s := Ioi xc))
    rw [hval] at h
    have hu := tendsto_nhds_unique h hright
    have h3 := mul_left_cancel₀ (neg_ne_zero.mpr hB0.ne') hu
    have h4 := mul_right_cancel₀ hK.ne' h3
    exact heq.mp h4.symm
  · intro hs
    have h4 := heq.mpr hs
    rw [continuousAt_iff_continuous_left'_right']
    constructor
    · have hc : ContinuousWithinAt (fun x : ℝ => -B * (sqrt x * K)) (Iio xc) xc := by
        apply ContinuousAt.continuousWithinAt
        fun_prop
      refine hc.congr_of_eventuallyEq ?_ hval
      filter_upwards [self_mem_nhdsWithin, nhdsWithin_le_nhds (Ioi_mem_nhds hxc0)] with x hx hx0
      rw [hf x hx0, if_pos (le_of_lt hx)]
    · unfold ContinuousWithinAt
      simp only
      rw [hval, ← h4]
      exact hright

/-- Hydrogen and carbon: the lowering of hydrogen jumps. -/
example : ¬ ContinuousAt (fun x => eckerKroell unitConsts none none 0 ![1, 4] (fun i => x * ![1, 1] i)
    (fun _ => 5) ![1, 6] (x * 5) 5 0) (criticalDensity unitConsts 5 (![1, 6] (0 : Fin 2)) / (5 + ![1, 1] (0 : Fin 2))) := by
  rw [eckerKroell_continuousAt_iff unitConsts le_rfl 0 (fun i => by fin_cases i <;> norm_num)
    (fun _ => by norm_num) (by simp [Fin.sum_univ_two]) (by norm_num) (by norm_num) (by norm_num)]
  simp [Fin.sum_univ_two]

/-! ### Pauli blocking -/

theorem pauli_weight_integral {a : ℝ} (ha : 0 < a) :
    IntegrableOn (fun p : ℝ => p ^ 2 / (1 + a ^ 2 * p ^ 2) ^ 3) (Ioi 0) ∧
    ∫ p in Ioi (0 : ℝ), p ^ 2 / (1 + a ^ 2 * p ^ 2) ^ 3 = π / (16 * a ^ 3) := by
  have hf : ∀ x : ℝ, x ^ 2 / (1 + x ^ 2) ^ 3 = ((1 + x ^ 2) ^ 2)⁻¹ - ((1 + x ^ 2) ^ 3)⁻¹ := by
    intro x
    have : (0 : ℝ) < 1 + x ^ 2 := by positivity
    field_simp
    ring
  have hint : Integrable fun x : ℝ => x ^ 2 / (1 + x ^ 2) ^ 3 := by
    simp_rw [hf]
    exact (lorentz_integrable (by norm_num)).sub (lorentz_integrable (by norm_num))
  have hval : ∫ x : ℝ, x ^ 2 / (1 + x ^ 2) ^ 3 = π / 8 := by
    simp_rw [hf]
    rw [integral_sub (lorentz_integrable (by norm_num)) (lorentz_integrable (by norm_num)),
      lorentz_values.1, lorentz_succ (le_refl 1), lorentz_one]
    push_cast
    ring
  have hhalf : ∫ x in Ioi (0 : ℝ), x ^ 2 / (1 + x ^ 2) ^ 3 = π / 16 := by
    have h := integral_comp_abs (f := fun x : ℝ => x ^ 2 / (1 + x ^ 2) ^ 3)
    simp only [sq_abs] at h
    rw [hval] at h
    linarith
  have e : ∀ p : ℝ, p ^ 2 / (1 + a ^ 2 * p ^ 2) ^ 3 =
      (a ^ 2)⁻¹ * ((a * p) ^ 2 / (1 + (a * p) ^ 2) ^ 3) := by
    intro p
    rw [mul_pow]
    have : (0 : ℝ) < 1 + a ^ 2 * p ^ 2 := by positivity
    field_simp
  constructor
  · simp_rw [e]
    refine Integrable.integrableOn ?_
    exact (hint.comp_mul_left' ha.ne').const_mul _
  · simp_rw [e]
    rw [integral_const_mul, integral_comp_mul_left_Ioi (fun x => x ^ 2 / (1 + x ^ 2) ^ 3) 0 ha, mul_zero,
      hhalf, smul_eq_mul]
    field_simp

theorem pauli_integrable {a : ℝ} (ha : 0 < a) (g : ℝ → ℝ) (hg : Continuous g) :
    IntegrableOn (fun p : ℝ => p ^ 2 / (1 + a ^ 2 * p ^ 2) ^ 3 * (1 / (exp (g p) + 1))) (Ioi 0) := by
  refine Integrable.mono' (pauli_weight_integral ha).1 ?_ (Eventually.of_forall fun p => ?_)
  · refine Continuous.aestronglyMeasurable (Continuous.mul ?_ ?_)
    · exact Continuous.div (by fun_prop) (by fun_prop) (fun p => by positivity)
    · exact Continuous.div (by fun_prop) (by fun_prop) (fun p => by positivity)
  · rw [norm_of_nonneg (by positivity)]
    apply mul_le_of_le_one_right (by positivity)
    rw [div_le_one (by positivity)]
    linarith [exp_pos (g p)]

/-- C20: Pauli blocking lowers the ionization potential, by at most the energy
`(Zi + 1) e² / (4 π ε0 a)` with the radius `a` of the orbital. -/
theorem pauliBlocking_mem {Zi mu Te : ℝ} (hZ : 1 / 1000000 ≤ Zi) :
    pauliBlocking u Zi mu Te < 0 ∧
    -((Zi + 1) * u.e ^ 2 / (4 * π * u.eps0 * (bohr u / Zi))) ≤ pauliBlocking u Zi mu Te := by
  have h0 := u.e_pos
  have h1 := u.eps0_pos
  have h2 := u.me_pos
  have hpi := pi_pos
  have hb := bohr_pos u
  have hZ0 : 0 < Zi := by linarith
  have ha : 0 < bohr u / Zi := by positivity
  unfold pauliBlocking
  simp only [clipZ_of_ge hZ]
  generalize bohr u / Zi = a at ha
  set g : ℝ → ℝ := fun p => ((1 * u.hbar * p) ^ 2 / (2 * u.me) - mu) / (1 * u.kB * Te) with hg
  have hgc : Continuous g := by
    rw [hg]
    fun_prop
  have hI := pauli_integrable ha g hgc
  have hw := pauli_weight_integral ha
  have hpos : 0 < ∫ p in Ioi (0 : ℝ), p ^ 2 / (1 + a ^ 2 * p ^ 2) ^ 3 * (1 / (exp (g p) + 1)) := by
    rw [setIntegral_pos_iff_support_of_nonneg_ae (Eventually.of_forall fun p => by positivity) hI]
    have : Ioi (0 : ℝ) ⊆ (Function.support fun p : ℝ =>
        p ^ 2 / (1 + a ^ 2 * p ^ 2) ^ 3 * (1 / (exp (g p) + 1))) ∩ Ioi 0 := by
      intro p hp
      refine ⟨?_, hp⟩
      have hp' : 0 < p := hp
      have : 0 < p ^ 2 / (1 + a ^ 2 * p ^ 2) ^ 3 * (1 / (exp (g p) + 1)) := by positivity
      exact this.ne'
    refine lt_of_lt_of_le ?_ (measure_mono this)
    simp
  have hle : ∫ p in Ioi (0 : ℝ), p ^ 2 / (1 + a ^ 2 * p ^ 2) ^ 3 * (1 / (exp (g p) + 1)) ≤
      π / (16 * a ^ 3) := by
    rw [← hw.2]
    refine setIntegral_mono_on hI hw.1 measurableSet_Ioi fun p _ => ?_
    apply mul_le_of_le_one_right (by positivity)
    rw [div_le_one (by positivity)]
    linarith [exp_pos (g p)]
  generalize (∫ p in Ioi (0 : ℝ), p ^ 2 / (1 + a ^ 2 * p ^ 2) ^ 3 * (1 / (exp (g p) + 1))) = I at hpos hle
  constructor
  · rw [neg_lt_zero]
    positivity
  · rw [neg_le_neg_iff]
    calc (Zi + 1) * u.e ^ 2 / (4 * π * u.eps0) * (16 * a ^ 2) / π * I ≤
        (Zi + 1) * u.e ^ 2 / (4 * π * u.eps0) * (16 * a ^ 2) / π * (π / (16 * a ^ 3)) :=
          mul_le_mul_of_nonneg_left hle (by positivity)
      _ = (Zi + 1) * u.e ^ 2 / (4 * π * u.eps0 * a) := by field_simp

/-- The more electrons there are, the larger the shift. -/
theorem pauliBlocking_anti {Zi Te mu mu' : ℝ} (hT : 0 < Te) (h : mu ≤ mu') :
    pauliBlocking u Zi mu' Te ≤ pauliBlocking u Zi mu Te := by
  have h0 := u.e_pos
  have h1 := u.eps0_pos
  have h2 := u.me_pos
  have h3 := u.kB_pos
  have hpi := pi_pos
  have hb := bohr_pos u
  have hc := clipZ_pos Zi
  have ha : 0 < bohr u / clipZ Zi := by positivity
  unfold pauliBlocking
  simp only
  generalize bohr u / clipZ Zi = a at ha
  rw [neg_le_neg_iff]
  refine mul_le_mul_of_nonneg_left ?_ (by positivity)
  refine setIntegral_mono_on (pauli_integrable ha _ (by fun_prop)) (pauli_integrable ha _ (by fun_prop))
    measurableSet_Ioi fun p _ => ?_
  gcongr

/-- Lowerings add up. -/
theorem ipdSum_eq (l : List ℝ) : ipdSum l = l.sum := by
  unfold ipdSum
  have h : ∀ (l : List ℝ) (a : ℝ), l.foldl (fun out x => out + x) a = a + l.sum := by
    intro l
    induction l with
    | nil => intro a; simp
    | cons x t ih =>
      intro a
      rw [List.foldl_cons, ih, List.sum_cons]
      ring
  rw [h, zero_add]

end Verif.Ipd
