/-
Sum rules of the scattering by bound electrons and of the ion feature; form factors and peaks.
-/
import Verif.Props.Compton
import Verif.Props.FormFactors
import Verif.Props.Rayleigh

set_option autoImplicit false

namespace Verif.Bound

open Real MeasureTheory Verif.Expt Verif.Resp

variable (u : Consts)

/-! ### Form factors of screened ions -/

theorem pauling_first (Z : ℝ) : Interp.arr (Interp.paulingScreening Z) 0 = 19 / 100 * (min Z 2 - min Z 1) := by
  have h : Interp.arr (Interp.paulingScreening Z) 0 = Interp.interpL [1, 2] [0, 0.19] Z := by
    simp [Interp.arr, Interp.paulingScreening, Interp.paulingTable]
  rw [h]
  have hinc : Interp.Increasing 2 (Interp.arr [1, 2]) := Interp.increasing_arr [1, 2] (by simp)
  unfold Interp.interpL
  change Interp.interp 2 _ _ _ = _
  rcases le_total Z 1 with h | h
  · rw [(Interp.interp_outside 2 _ _ hinc (by norm_num) Z).1 (by simpa [Interp.arr] using h)]
    rw [min_eq_left (by linarith), min_eq_left h]; simp [Interp.arr]
  rcases le_total 2 Z with h' | h'
  · rw [(Interp.interp_outside 2 _ _ hinc (by norm_num) Z).2 (by simpa [Interp.arr] using h')]
    rw [min_eq_right h', min_eq_right h]; simp [Interp.arr]; norm_num
  · unfold Interp.interp
    rw [Interp.interpLR_on_interval 2 _ _ _ _ Z hinc 0 (by norm_num) (by simpa [Interp.arr] using h)
      (by simpa [Interp.arr] using h')]
    rw [min_eq_left h', min_eq_right h]
    simp only [Interp.arr, List.getD_cons_zero, List.getD_cons_succ, Nat.zero_add]
    ring

/-- C22: the 1s form factor of the model of Pauling and Sherman is that of the bare nucleus when at most one
electron is bound; more electrons screen the nucleus, so that the form factor is smaller, but not below
that of a nucleus with 0.19 charges less. -/
theorem paulingFF_first {n : ℕ} (k : ℝ) (ZA Zcore : Fin n → ℝ) (i : Fin n) (hZ : 19 / 100 < ZA i) :
    (Zcore i ≤ 1 → atomicFF u 1 0 k (ZA i) = some (paulingFF u k ZA Zcore 0 i)) ∧
      f10 u k (ZA i - 19 / 100) ≤ paulingFF u k ZA Zcore 0 i ∧ paulingFF u k ZA Zcore 0 i ≤ f10 u k (ZA i) ∧
      (2 ≤ Zcore i → paulingFF u k ZA Zcore 0 i = f10 u k (ZA i - 19 / 100)) := by
  have h0 : paulingFF u k ZA Zcore 0 i = f10 u k (ZA i - 19 / 100 * (min (Zcore i) 2 - min (Zcore i) 1)) := by
    have := pauling_first (Zcore i)
    unfold paulingFF allFF
    simp only [Matrix.cons_val_zero, Fin.val_zero]
    rw [this]
  have h1 : 0 ≤ min (Zcore i) 2 - min (Zcore i) 1 := sub_nonneg.2 (min_le_min_left _ (by norm_num))
  have h2 : min (Zcore i) 2 - min (Zcore i) 1 ≤ 1 := by
    rcases le_total (Zcore i) 1 with h | h
    · rw [min_eq_left (by linarith : Zcore i ≤ 2), min_eq_left h]; linarith
    · rw [min_eq_right h]; linarith [min_le_right (Zcore i) 2]
  rw [h0]
  refine ⟨fun h => ?_, ?_, ?_, fun h => ?_⟩
  · rw [min_eq_left (by linarith : Zcore i ≤ 2), min_eq_left h]
    simp [atomicFF]
  · exact f10_mono u k (by linarith) (by linarith)
  · exact f10_mono u k (by linarith) (by linarith)
  · rw [min_eq_right h, min_eq_right (by linarith : (1 : ℝ) ≤ Zcore i)]; norm_num

/-! ### Sum rule of the bound electrons -/

theorem impulse_integrable (o : Fin 10) (pop : ℝ) {k Z : ℝ} (hk : 0 < k) (hZ : 0 < Z) :
    Integrable fun omega : ℝ => impulseApprox u o omega k pop Z := by
  have hc := u.c_pos
  have ha := alphaFS_pos u
  have hn : 1 ≤ orbN o := (orb_covered o).1
  have hn' : (0 : ℝ) < orbN o := by exact_mod_cast hn
  simp_rw [impulse_eq u o _ pop]
  apply Integrable.const_mul
  have hg : Integrable (fun x : ℝ => invPoly (codeCoef o) (1 + x ^ 2) +
      Z * alphaFS u / (k * bohr u) * (invPoly (codeCoef o) (1 + x ^ 2) * hrShape o x)) :=
    (invPoly_integrable _).add ((invPoly_hr_integrable o _).const_mul _)
  have e : ∀ omega : ℝ, xi u (orbN o) Z omega k =
      orbN o / (u.c * k * Z * alphaFS u) * (omega - u.hbar * k ^ 2 / (2 * u.me)) := by
    intro omega
    unfold xi
    field_simp
  simp_rw [e]
  exact (hg.comp_mul_left' (by positivity : (orbN o : ℝ) / (u.c * k * Z * alphaFS u) ≠ 0)).comp_sub_right
    (u.hbar * k ^ 2 / (2 * u.me))

/-- C25: without edges, the inelastic intensity of an ion with the factor `r_k` chosen by the user is
`r_k` times the number of its electrons, as far as the profiles of the orbitals are normalised. -/
theorem bfState_norm {k rk Zcore : ℝ} (pop Zeff ff : Fin 10 → ℝ) (hk : 0 < k) (hr : 0 ≤ rk)
    (hZ : ∀ o, pop o ≠ 0 → 0 < Zeff o) (hc : Zcore ≠ 0) :
    Integrable (fun omega => bfState u omega k rk pop Zeff ff (fun _ => 1) Zcore) ∧
      ∫ omega : ℝ, bfState u omega k rk pop Zeff ff (fun _ => 1) Zcore = rk * ∑ o, pop o * norms o := by
  have e : ∀ omega, bfState u omega k rk pop Zeff ff (fun _ => 1) Zcore =
      ∑ o, rk * impulseApprox u o omega k (pop o) (Zeff o) := by
    intro omega
    unfold bfState rkOf
    rw [if_neg hc, if_neg (not_lt.2 hr), Finset.sum_mul]
    refine Finset.sum_congr rfl fun o _ => ?_
    field_simp
  simp_rw [e]
  have hzero : ∀ o, pop o = 0 → ∀ omega, impulseApprox u o omega k (pop o) (Zeff o) = 0 := fun o h omega => by
    simp [impulseApprox, h]
  have hint : ∀ o, Integrable fun omega => rk * impulseApprox u o omega k (pop o) (Zeff o) := fun o => by
    by_cases h : pop o = 0
    · simp [hzero o h]
    · exact (impulse_integrable u o (pop o) hk (hZ o h)).const_mul rk
  refine ⟨integrable_finsetSum _ fun o _ => hint o, ?_⟩
  rw [integral_finsetSum _ fun o _ => hint o, Finset.mul_sum]
  refine Finset.sum_congr rfl fun o _ => ?_
  rw [integral_const_mul]
  by_cases h : pop o = 0
  · simp_rw [hzero o h]
    simp [h]
  · rw [impulse_norm u o (pop o) hk (hZ o h)]

/-- With at most twelve electrons only normalised profiles occur. -/
theorem pop_norm_partial {x : ℝ} (h0 : 0 ≤ x) (h1 : x ≤ 12) :
    ∑ o : Fin 10, (Interp.electronDistribution x).getD o 0 * norms o = x := by
  rw [Interp.distribution_eq]
  simp only [norms, Fin.sum_univ_succ, Fin.sum_univ_zero, Fin.val_zero, Fin.val_succ, List.getD_cons_zero,
    List.getD_cons_succ, Matrix.cons_val_zero, Matrix.cons_val_succ]
  rw [min_eq_right h0, min_eq_left h1, min_eq_left (by linarith : x ≤ 18), min_eq_left (by linarith : x ≤ 20),
    min_eq_left (by linarith : x ≤ 30), min_eq_left (by linarith : x ≤ 36)]
  ring

/-- C25: the sum over the ions.  When every charge state of an ion contributes `r` times the number of its
bound electrons, the mixture contributes `r` times the fraction of all electrons which is bound, also
for fractional charges. -/
theorem bfTotal_norm {ι : Type} (l : List ι) (x charge : ι → ℝ) (ZA : ι → ℕ) (st : ι → ℝ → ℝ → ℝ) (meanZA r : ℝ)
    (h0 : ∀ i ∈ l, 0 ≤ charge i) (hch : ∀ i ∈ l, charge i ≤ ZA i) (hbare : ∀ i omega, st i (ZA i) omega = 0)
    (hint : ∀ i ∈ l, ∀ q : ℤ, 0 ≤ q → q ≤ ZA i → Integrable (st i q))
    (hnorm : ∀ i ∈ l, ∀ q : ℤ, 0 ≤ q → q ≤ ZA i → ∫ omega, st i q omega = r * (ZA i - q)) :
    ∫ omega, bfTotal (l.map fun i => (x i, (ZA i : ℝ), charge i, fun q => st i q omega)) meanZA =
      r * ((l.map fun i => x i * (ZA i - charge i)).sum / meanZA) := by
  -- one ion
  have h1 : ∀ i ∈ l, Integrable (fun omega => bfMix (fun q => st i q omega) (ZA i) (charge i)) ∧
      ∫ omega, bfMix (fun q => st i q omega) (ZA i) (charge i) = r * (ZA i - charge i) := by
    intro i hi
    have hf : IsMixture (1 - Int.fract (charge i)) (Int.fract (charge i)) ⌊charge i⌋ (⌊charge i⌋ + 1) (charge i) :=
      ⟨by linarith [Int.fract_lt_one (charge i)], Int.fract_nonneg (charge i), by ring,
        by linear_combination Int.floor_add_fract (charge i), ⟨_, rfl⟩, rfl⟩
    have e : ∀ omega, bfMix (fun q => st i q omega) (ZA i) (charge i) =
        (1 - Int.fract (charge i)) * st i ⌊charge i⌋ omega + Int.fract (charge i) * st i (⌊charge i⌋ + 1) omega :=
      fun omega => bfMix_mixture _ (ZA i) (hch i hi) (hbare i omega) hf
    have hfl : ⌊charge i⌋ ≤ (ZA i : ℤ) := by
      have := Int.floor_le_floor (hch i hi); simpa using this
    simp_rw [e]
    have hf0 : 0 ≤ ⌊charge i⌋ := Int.floor_nonneg.2 (h0 i hi)
    have i1 := hint i hi ⌊charge i⌋ hf0 hfl
    have n1 := hnorm i hi ⌊charge i⌋ hf0 hfl
    by_cases hz : Int.fract (charge i) = 0
    · have e0 : (⌊charge i⌋ : ℝ) = charge i := by
        have := Int.floor_add_fract (charge i); rw [hz] at this; linarith
      rw [hz]
      simp only [sub_zero, one_mul, zero_mul, add_zero]
      exact ⟨i1, by rw [n1, e0]⟩
    · have hlt : ⌊charge i⌋ + 1 ≤ (ZA i : ℤ) := by
        have h2 : (⌊charge i⌋ : ℝ) < charge i := by
          have := Int.floor_add_fract (charge i)
          have := lt_of_le_of_ne (Int.fract_nonneg (charge i)) (Ne.symm hz)
          linarith
        have h3 : ((⌊charge i⌋ : ℤ) : ℝ) < ((ZA i : ℤ) : ℝ) := by
          have := hch i hi; push_cast; linarith
        have : ⌊charge i⌋ < (ZA i : ℤ) := by exact_mod_cast h3
        omega
      have i2 := hint i hi (⌊charge i⌋ + 1) (by omega) hlt
      have n2 := hnorm i hi (⌊charge i⌋ + 1) (by omega) hlt
      push_cast at i2 n2
      refine ⟨(i1.const_mul _).add (i2.const_mul _), ?_⟩
      rw [integral_add (i1.const_mul _) (i2.const_mul _), integral_const_mul, integral_const_mul, n1, n2]
      have := Int.floor_add_fract (charge i)
      linear_combination (-r) * this
  -- the list
  have h2 : ∀ l' : List ι, (∀ i ∈ l', i ∈ l) →
      Integrable (fun omega => (l'.map fun i => bfMix (fun q => st i q omega) (ZA i) (charge i) * x i).sum) ∧
      ∫ omega, (l'.map fun i => bfMix (fun q => st i q omega) (ZA i) (charge i) * x i).sum =
        r * (l'.map fun i => x i * (ZA i - charge i)).sum := by
    intro l'
    induction l' with
    | nil => intro _; simp
    | cons i l' ih =>
      intro h
      obtain ⟨a1, a2⟩ := ih fun j hj => h j (List.mem_cons_of_mem _ hj)
      obtain ⟨b1, b2⟩ := h1 i (h i List.mem_cons_self)
      simp only [List.map_cons, List.sum_cons]
      refine ⟨(b1.mul_const _).add a1, ?_⟩
      rw [integral_add (b1.mul_const _) a1, integral_mul_const, b2, a2]
      ring
  unfold bfTotal
  simp only [List.map_map, Function.comp_def]
  rw [integral_div, (h2 l fun _ h => h).2]
  ring

/-- C25: for elements with at most twelve electrons, the scattering by bound electrons without edges and
with the factor `r_k` chosen by the user is `r_k` times the number of bound electrons divided by the
number of electrons. -/
theorem bound_sum_rule_partial {ι : Type} (l : List ι) (x charge : ι → ℝ) (ZA : ι → ℕ) (Zeff ff : ι → ℝ → Fin 10 → ℝ)
    {k rk : ℝ} (hk : 0 < k) (hr : 0 ≤ rk)
    (hZ : ∀ i ∈ l, ∀ q : ℤ, 0 ≤ q → q ≤ ZA i → ∀ o : Fin 10,
      (Interp.electronDistribution (ZA i - q)).getD o 0 ≠ 0 → 0 < Zeff i q o)
    (h12 : ∀ i ∈ l, ZA i ≤ 12) (h0 : ∀ i ∈ l, 0 ≤ charge i) (hch : ∀ i ∈ l, charge i ≤ ZA i) :
    ∫ omega, bfTotal (l.map fun i => (x i, (ZA i : ℝ), charge i, fun q => bfState u omega k rk
        (fun o => (Interp.electronDistribution (ZA i - q)).getD o 0) (Zeff i q) (ff i q) (fun _ => 1) (ZA i - q)))
        (l.map fun i => x i * ZA i).sum =
      rk * ((l.map fun i => x i * (ZA i - charge i)).sum / (l.map fun i => x i * ZA i).sum) := by
  have key : ∀ i ∈ l, ∀ q : ℤ, 0 ≤ q → q ≤ ZA i → Integrable (fun omega => bfState u omega k rk
      (fun o => (Interp.electronDistribution (ZA i - (q : ℝ))).getD o 0) (Zeff i q) (ff i q) (fun _ => 1) (ZA i - q)) ∧
      ∫ omega, bfState u omega k rk (fun o => (Interp.electronDistribution (ZA i - (q : ℝ))).getD o 0)
        (Zeff i q) (ff i q) (fun _ => 1) (ZA i - q) = rk * (ZA i - q) := by
    intro i hi q hq0 hq
    have hq' : (q : ℝ) ≤ ZA i := by exact_mod_cast hq
    have hq0' : (0 : ℝ) ≤ q := by exact_mod_cast hq0
    have h12' : (ZA i : ℝ) ≤ 12 := by exact_mod_cast h12 i hi
    by_cases hz : (ZA i : ℝ) - q = 0
    · simp [hz, bfState_bare]
    · obtain ⟨a, b⟩ := bfState_norm u (fun o => (Interp.electronDistribution (ZA i - (q : ℝ))).getD o 0) (Zeff i q)
        (ff i q) hk hr (hZ i hi q hq0 hq) hz
      refine ⟨a, b.trans ?_⟩
      rw [pop_norm_partial (by linarith) (by linarith)]
  exact bfTotal_norm l x charge ZA (fun i q omega => bfState u omega k rk
    (fun o => (Interp.electronDistribution (ZA i - q)).getD o 0) (Zeff i q) (ff i q) (fun _ => 1) (ZA i - q)) _ rk h0 hch
    (fun i omega => by simp [bfState_bare]) (fun i hi q hq0 hq => (key i hi q hq0 hq).1)
    (fun i hi q hq0 hq => (key i hi q hq0 hq).2)

/-- Carbon with a charge of 7/2 and as many protons: 5/2 of 7 electrons are bound. -/
example : ∫ omega, bfTotal ([(6, 7 / 2), (1, 1)].map fun i : ℕ × ℝ => ((1 / 2 : ℝ), (i.1 : ℝ), i.2, fun q =>
      bfState unitConsts omega 1 (3 / 4) (fun o => (Interp.electronDistribution (i.1 - q)).getD o 0) (fun _ => 1)
        (fun _ => 0) (fun _ => 1) (i.1 - q))) ([(6, 7 / 2), (1, 1)].map fun i : ℕ × ℝ => (1 / 2 : ℝ) * i.1).sum =
    3 / 4 * (5 / 14) := by
  rw [bound_sum_rule_partial unitConsts [(6, 7 / 2), (1, 1)] (fun _ => 1 / 2) (fun i => i.2) (fun i => i.1)
    (fun _ _ _ => 1) (fun _ _ _ => 0) one_pos (by norm_num) (by simp) (by simp) (by simp; norm_num) (by simp; norm_num)]
  norm_num

end Verif.Bound

namespace Verif.Ssf

open Real MeasureTheory

/-! ### Peaks -/

/-- C35: shifting all peaks shifts the structure factor. -/
theorem peakCollection_shift (peaks : List (ℝ × ℝ)) (shape : ℝ → ℝ) (k d : ℝ) :
    peakCollection (peaks.map fun p => (p.1 + d, p.2)) shape (k + d) = peakCollection peaks shape k := by
  unfold peakCollection
  rw [List.map_map]
  congr 1
  refine List.map_congr_left fun p _ => ?_
  simp

/-- C35: each peak sits at its position: a single peak with a shape that is largest at zero. -/
theorem peakCollection_top (c A : ℝ) (hA : 0 ≤ A) (shape : ℝ → ℝ) (hs : ∀ x, shape x ≤ shape 0) (k : ℝ) :
    peakCollection [(c, A)] shape k ≤ peakCollection [(c, A)] shape c := by
  simp only [peakCollection, List.map_cons, List.map_nil, List.sum_cons, List.sum_nil, add_zero, sub_self]
  exact mul_le_mul_of_nonneg_right (hs _) hA

/-- C35: the integral over all wavenumbers is the sum of the intensities, when the shape is normalised. -/
theorem peakCollection_integral (peaks : List (ℝ × ℝ)) (shape : ℝ → ℝ) (hi : Integrable shape)
    (h1 : ∫ x, shape x = 1) :
    Integrable (peakCollection peaks shape) ∧ ∫ k, peakCollection peaks shape k = (peaks.map Prod.snd).sum := by
  induction peaks with
  | nil =>
    have e : peakCollection [] shape = fun _ => 0 := by funext k; simp [peakCollection]
    rw [e]; simp
  | cons p ps ih =>
    have e : ∀ k, peakCollection (p :: ps) shape k = shape (k - p.1) * p.2 + peakCollection ps shape k := fun k => by
      simp [peakCollection]
    have hp : Integrable fun k => shape (k - p.1) * p.2 := (hi.comp_sub_right p.1).mul_const _
    refine ⟨(hp.add ih.1).congr (Filter.Eventually.of_forall fun k => (e k).symm), ?_⟩
    simp_rw [e]
    rw [integral_add hp ih.1, integral_mul_const, integral_sub_right_eq_self, h1, ih.2]
    simp

/-! ### The ion feature -/

/-- C35: the ion feature integrated over the energy shift `w`, with a normalised symmetric instrument
function.  Without frequency redistribution (exponent zero) and when photons are counted (exponent one)
it is the Rayleigh weight over the mean number of electrons; when energies are measured (exponent two) it
is larger by the second moment of the instrument function. -/
theorem ionFeature_integral (W E0 meanZ : ℝ) (inst : ℝ → ℝ) (hE : E0 ≠ 0) (hs : ∀ w, inst (-w) = inst w)
    (h0 : Integrable inst) (hi1 : Integrable fun w => w * inst w) (hi2 : Integrable fun w => w ^ 2 * inst w)
    (h1 : ∫ w, inst w = 1) :
    ∫ w, ionFeature W (inst w) (((E0 + w) / E0) ^ 0) meanZ = W / meanZ ∧
    ∫ w, ionFeature W (inst w) (((E0 + w) / E0) ^ 1) meanZ = W / meanZ ∧
    ∫ w, ionFeature W (inst w) (((E0 + w) / E0) ^ 2) meanZ = W / meanZ * (1 + (∫ w, w ^ 2 * inst w) / E0 ^ 2) := by
  have hm : ∫ w, w * inst w = 0 := by
    have h := integral_neg_eq_self (fun w => w * inst w) volume
    simp only [hs, neg_mul, integral_neg] at h
    linarith
  refine ⟨?_, ?_, ?_⟩
  · have e : ∀ w, ionFeature W (inst w) (((E0 + w) / E0) ^ 0) meanZ = W / meanZ * inst w := fun w => by
      unfold ionFeature; ring
    simp_rw [e]
    rw [integral_const_mul, h1, mul_one]
  · have e : ∀ w, ionFeature W (inst w) (((E0 + w) / E0) ^ 1) meanZ =
        W / meanZ * (inst w + 1 / E0 * (w * inst w)) := fun w => by
      unfold ionFeature; field_simp
    simp_rw [e]
    rw [integral_const_mul, integral_add h0 (hi1.const_mul _), integral_const_mul, h1, hm]
    ring
  · have e : ∀ w, ionFeature W (inst w) (((E0 + w) / E0) ^ 2) meanZ =
        W / meanZ * (inst w + 2 / E0 * (w * inst w) + 1 / E0 ^ 2 * (w ^ 2 * inst w)) := fun w => by
      unfold ionFeature; field_simp; ring
    simp_rw [e]
    have i1 : Integrable fun w => inst w + 2 / E0 * (w * inst w) := h0.add (hi1.const_mul _)
    rw [integral_const_mul, integral_add i1 (hi2.const_mul _),
      integral_add h0 (hi1.const_mul _), integral_const_mul, integral_const_mul, h1, hm]
    ring

/-- A rectangular instrument function. -/
example : ∫ w, ionFeature 3 ((Set.Icc (-1 : ℝ) 1).indicator (fun _ => 1 / 2) w) (((10 + w) / 10) ^ 2) 6 =
    3 / 6 * (1 + (∫ w, w ^ 2 * (Set.Icc (-1 : ℝ) 1).indicator (fun _ => 1 / 2) w) / 10 ^ 2) := by
  have e : ∀ n : ℕ, (fun w : ℝ => w ^ n * (Set.Icc (-1 : ℝ) 1).indicator (fun _ => (1 / 2 : ℝ)) w) =
      (Set.Icc (-1 : ℝ) 1).indicator (fun w => w ^ n * (1 / 2)) := fun n => by
    funext w
    by_cases hw : w ∈ Set.Icc (-1 : ℝ) 1
    · rw [Set.indicator_of_mem hw, Set.indicator_of_mem hw]
    · rw [Set.indicator_of_notMem hw, Set.indicator_of_notMem hw, mul_zero]
  have hi : ∀ n : ℕ, Integrable fun w : ℝ => w ^ n * (Set.Icc (-1 : ℝ) 1).indicator (fun _ => (1 / 2 : ℝ)) w := fun n => by
    rw [e n, integrable_indicator_iff measurableSet_Icc]
    exact (by fun_prop : Continuous fun w : ℝ => w ^ n * (1 / 2)).integrableOn_Icc
  refine (ionFeature_integral 3 10 6 _ (by norm_num) (fun w => ?_) (by simpa using hi 0) (by simpa using hi 1) (hi 2) ?_).2.2
  · by_cases hw : w ∈ Set.Icc (-1 : ℝ) 1
    · have hm : -w ∈ Set.Icc (-1 : ℝ) 1 := ⟨by linarith [hw.2], by linarith [hw.1]⟩
      rw [Set.indicator_of_mem hw, Set.indicator_of_mem hm]
    · rw [Set.indicator_of_notMem hw, Set.indicator_of_notMem]
      intro h
      exact hw ⟨by linarith [h.2], by linarith [h.1]⟩
  · rw [integral_indicator measurableSet_Icc]
    simp
    norm_num

end Verif.Ssf
