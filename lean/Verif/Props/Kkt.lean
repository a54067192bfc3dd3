/-
The Kramers-Kronig transform: symmetry, and convergence to the principal value.
-/
import Verif.Model.Kkt
import Verif.Props.Mermin
import Mathlib.Analysis.Calculus.DSlope
import Mathlib.Analysis.SpecialFunctions.Integrals.Basic
import Mathlib.NumberTheory.Harmonic.EulerMascheroni
import Mathlib.Topology.UniformSpace.HeineCantor

set_option autoImplicit false

namespace Verif.Kkt

open Real Verif.Interp Verif.Instrument Verif.Resp MeasureTheory Set Filter Topology

/-! ### Symmetry -/

theorem trapezoid_mirror {N : ℕ} {x y z : ℕ → ℝ} (hx : ∀ i, i < N → x (N - 1 - i) = -x i) {c : ℝ}
    (hy : ∀ i, i < N → z (N - 1 - i) = c * y i) : trapezoid N z x = c * trapezoid N y x := by
  unfold trapezoid
  rw [← Finset.sum_range_reflect, Finset.mul_sum]
  refine Finset.sum_congr rfl fun i hi => ?_
  have hi' : i < N - 1 := Finset.mem_range.1 hi
  have e1 : N - 1 - 1 - i + 1 = N - 1 - i := by omega
  have e2 : N - 1 - 1 - i = N - 1 - (i + 1) := by omega
  rw [e1, e2, hx i (by omega), hx (i + 1) (by omega), hy i (by omega), hy (i + 1) (by omega)]
  ring

theorem kktPoint_mirror {N : ℕ} {E I : ℕ → ℝ} (hE : ∀ i, i < N → E (N - 1 - i) = -E i) {s : ℝ}
    (hI : ∀ i, i < N → I (N - 1 - i) = s * I i) (eps E' : ℝ) :
    kktPoint N E I eps (-E') = -s * kktPoint N E I eps E' := by
  have key : ∀ i, i < N → I (N - 1 - i) / (E (N - 1 - i) - -E') = -s * (I i / (E i - E')) := by
    intro i hi
    rw [hE i hi, hI i hi, show -E i - -E' = -(E i - E') by ring, div_neg]
    ring
  simp only [kktPoint]
  rw [mul_add, add_comm, ← trapezoid_mirror hE (c := -s)
      (z := fun i => if E i > -E' + eps then I i / (E i - -E') else 0)
      (y := fun i => if E i < E' - eps then I i / (E i - E') else 0),
    ← trapezoid_mirror hE (c := -s)
      (z := fun i => if E i < -E' - eps then I i / (E i - -E') else 0)
      (y := fun i => if E i > E' + eps then I i / (E i - E') else 0)]
  · intro i hi
    simp only [hE i hi, gt_iff_lt]
    by_cases h : E' + eps < E i
    · rw [if_pos h, if_pos (by linarith), ← key i hi, hE i hi]
    · rw [if_neg h, if_neg (by linarith), mul_zero]
  · intro i hi
    simp only [hE i hi, gt_iff_lt]
    by_cases h : E i < E' - eps
    · rw [if_pos h, if_pos (by linarith), ← key i hi, hE i hi]
    · rw [if_neg h, if_neg (by linarith), mul_zero]

theorem kktGrid_mirror (Emax : ℝ) {N : ℕ} (hN : 2 ≤ N) (i : ℕ) (hi : i < N) :
    kktGrid Emax N (N - 1 - i) = -kktGrid Emax N i := by
  have h : (N : ℝ) - 1 ≠ 0 := by
    have : (2 : ℝ) ≤ N := by exact_mod_cast hN
    linarith
  unfold kktGrid
  rw [Nat.cast_sub (by omega), Nat.cast_sub (by omega)]
  push_cast
  field_simp
  ring

theorem kktGrid_increasing {Emax : ℝ} (h : 0 < Emax) {N : ℕ} (hN : 2 ≤ N) :
    Increasing N (kktGrid Emax N) := by
  intro i _
  have h1 : 0 < (N : ℝ) - 1 := by
    have : (2 : ℝ) ≤ N := by exact_mod_cast hN
    linarith
  have h2 : 0 < (Emax - -Emax) / ((N : ℝ) - 1) := div_pos (by linarith) h1
  unfold kktGrid
  push_cast
  linarith

theorem foldl_max_ge (l : List ℝ) (a : ℝ) : a ≤ l.foldl max a ∧ ∀ x ∈ l, x ≤ l.foldl max a := by
  induction l generalizing a with
  | nil => simp
  | cons b l ih =>
    obtain ⟨h1, h2⟩ := ih (max a b)
    refine ⟨(le_max_left a b).trans h1, ?_⟩
    intro x hx
    rcases List.mem_cons.1 hx with rfl | hx
    · exact (le_max_right a x).trans h1
    · exact h2 x hx

/-- The grid covers all energies. -/
theorem kktMax_ge {n : ℕ} (E : ℕ → ℝ) {i : ℕ} (hi : i < n) : |E i| ≤ kktMax n E :=
  (foldl_max_ge _ _).2 _ (List.mem_map.2 ⟨i, List.mem_range.2 hi, rfl⟩)

/-- C90: on energies that are symmetric about zero, the transform of an even function is odd
(`s = 1`) and that of an odd function is even (`s = -1`): a collision frequency with an even real part
obeys the symmetry of a response function. -/
theorem kkt_symmetry {n : ℕ} {E I : ℕ → ℝ} (hn : 2 ≤ n) (hinc : Increasing n E)
    (hE : ∀ i, i < n → E (n - 1 - i) = -E i) {s : ℝ} (hI : ∀ i, i < n → I (n - 1 - i) = s * I i)
    (eps : ℝ) {N : ℕ} (hN : 2 ≤ N) (x : ℝ) :
    kkt n E I eps N (-x) = -s * kkt n E I eps N x := by
  have hpos : 0 < kktMax n E := by
    have h1 := kktMax_ge E (show 0 < n by omega)
    have h2 := hE 0 (by omega)
    have h3 := hinc.lt (show 0 < n - 1 by omega) (by omega)
    rw [Nat.sub_zero] at h2
    have h4 : E 0 < 0 := by linarith
    rw [abs_of_neg h4] at h1
    linarith
  simp only [kkt]
  refine interp_mirror N (by omega) (kktGrid_increasing hpos hN)
    (fun i hi => kktGrid_mirror _ hN i hi) (-s) ?_ x
  intro i hi
  rw [kktGrid_mirror _ hN i hi, kktPoint_mirror (s := s) (fun i hi => kktGrid_mirror _ hN i hi)]
  · ring
  · intro i hi
    rw [kktGrid_mirror _ hN i hi]
    exact interp_mirror n (by omega) hinc hE s hI _

/-- C90: with the Kramers-Kronig transform, the interpolated collision frequency has the symmetry of a
response function, for every number of points. -/
theorem chapmanNuKkt_hermitian (nu : ℝ → ℂ) {Emin Emax : ℝ} (h0 : 0 < Emin) (h1 : Emin < Emax) {N : ℕ}
    (hN : 0 < N) : Hermitian (chapmanNuKkt nu Emin Emax N) := by
  intro E
  have hinc := mirror_increasing (linspace_pairwise h1 N) (linspace_pos h0 h1 N)
  have hlen : (mirror (-1) (linspace Emin Emax N)).length = 2 * N := by
    rw [mirror_length, linspace_length]
  have hx : ∀ i, i < 2 * N → arr (mirror (-1) (linspace Emin Emax N)) (2 * N - 1 - i) =
      -arr (mirror (-1) (linspace Emin Emax N)) i := by
    intro i hi
    have := mirror_symm (s := -1) (by norm_num) (linspace Emin Emax N) i
      (by rw [linspace_length]; exact hi)
    rw [linspace_length] at this
    rw [this]
    ring
  have hre : ∀ i, i < 2 * N →
      arr (mirror 1 ((linspace Emin Emax N).map fun x => (nu x).re)) (2 * N - 1 - i) =
      1 * arr (mirror 1 ((linspace Emin Emax N).map fun x => (nu x).re)) i := by
    intro i hi
    have := mirror_symm (s := 1) (by norm_num) ((linspace Emin Emax N).map fun x => (nu x).re) i
      (by rw [List.length_map, linspace_length]; exact hi)
    rw [List.length_map, linspace_length] at this
    exact this
  rw [hlen] at hinc
  apply Complex.ext
  · simp only [chapmanNuKkt, Complex.conj_re]
    unfold interpL
    rw [hlen, interp_mirror _ (by omega) hinc hx 1 hre, one_mul]
  · simp only [chapmanNuKkt, Complex.conj_im]
    unfold interpL
    rw [hlen]
    refine (interp_mirror _ (by omega) hinc hx (-1) ?_ _).trans (neg_one_mul _)
    intro i hi
    have harr : ∀ (f : ℝ → ℝ) (j : ℕ), j < 2 * N → arr ((mirror (-1) (linspace Emin Emax N)).map f) j =
        f (arr (mirror (-1) (linspace Emin Emax N)) j) := by
      intro f j hj
      unfold arr
      rw [List.getD_eq_getElem _ _ (by rw [List.length_map, hlen]; exact hj),
        List.getD_eq_getElem _ _ (by rw [hlen]; exact hj), List.getElem_map]
    rw [harr _ _ (by omega), harr _ _ hi, hx i hi, kkt_symmetry (by omega) hinc hx hre _ (by norm_num)]

/-- The hypotheses are met: three energies and a symmetric peak. -/
example (eps x : ℝ) :
    kkt 3 (fun i => (i : ℝ) - 1) (fun i => if i = 1 then 5 else 2) eps 1000 (-x) =
      -kkt 3 (fun i => (i : ℝ) - 1) (fun i => if i = 1 then 5 else 2) eps 1000 x := by
  have h := kkt_symmetry (n := 3) (E := fun i => (i : ℝ) - 1)
    (I := fun i => if i = 1 then 5 else 2) (by norm_num) (fun i _ => by push_cast; linarith)
    (fun i hi => by
      have : i = 0 ∨ i = 1 ∨ i = 2 := by omega
      rcases this with rfl | rfl | rfl <;> norm_num) (s := 1)
    (fun i hi => by
      have : i = 0 ∨ i = 1 ∨ i = 2 := by omega
      rcases this with rfl | rfl | rfl <;> norm_num) eps (N := 1000) (by norm_num) x
  rw [h]
  ring

/-! ### The sum -/

theorem trapezoid_uniform (M : ℕ) (y : ℕ → ℝ) (a h : ℝ) :
    trapezoid (M + 2) y (fun i => a + (i : ℝ) * h) =
      h * (∑ i ∈ Finset.range (M + 2), y i - y 0 / 2 - y (M + 1) / 2) := by
  unfold trapezoid
  have e : ∀ i ∈ Finset.range (M + 2 - 1), ((a + ((i + 1 : ℕ) : ℝ) * h) - (a + (i : ℝ) * h)) *
      (y (i + 1) + y i) / 2 = h / 2 * y (i + 1) + h / 2 * y i := by
    intro i _
    push_cast
    ring
  rw [Finset.sum_congr rfl e, Finset.sum_add_distrib, ← Finset.mul_sum, ← Finset.mul_sum,
    show M + 2 - 1 = M + 1 by omega]
  have h1 : ∑ i ∈ Finset.range (M + 2), y i = ∑ i ∈ Finset.range (M + 1), y (i + 1) + y 0 :=
    Finset.sum_range_succ' y (M + 1)
  have h2 : ∑ i ∈ Finset.range (M + 2), y i = ∑ i ∈ Finset.range (M + 1), y i + y (M + 1) :=
    Finset.sum_range_succ y (M + 1)
  linear_combination (-h / 2) * h1 - (h / 2) * h2

/-- C90: at its own grid points, and with an exclusion smaller than the distance of two points, the
sum is the discrete principal value: the point itself is left out, and neither the size of the
exclusion nor the distance of the points matters. -/
theorem kktPoint_sum {M j : ℕ} (hj : 0 < j) (hjM : j < M + 1) (I : ℕ → ℝ) {a h eps : ℝ} (hh : 0 < h)
    (h0 : 0 ≤ eps) (h1 : eps < h) :
    kktPoint (M + 2) (fun i => a + (i : ℝ) * h) I eps (a + (j : ℝ) * h) =
      ∑ i ∈ (Finset.range (M + 2)).erase j, I i / ((i : ℝ) - j) - I 0 / (0 - (j : ℝ)) / 2 -
        I (M + 1) / (((M + 1 : ℕ) : ℝ) - j) / 2 := by
  simp only [kktPoint]
  rw [trapezoid_uniform, trapezoid_uniform]
  have key : ∀ i : ℕ, h * ((if a + (i : ℝ) * h < a + (j : ℝ) * h - eps then
      I i / (a + (i : ℝ) * h - (a + (j : ℝ) * h)) else 0) +
      (if a + (i : ℝ) * h > a + (j : ℝ) * h + eps then
      I i / (a + (i : ℝ) * h - (a + (j : ℝ) * h)) else 0)) =
      if i = j then 0 else I i / ((i : ℝ) - j) := by
    intro i
    have e : a + (i : ℝ) * h - (a + (j : ℝ) * h) = h * ((i : ℝ) - j) := by ring
    rw [e]
    rcases lt_trichotomy i j with hij | hij | hij
    · have hc : (i : ℝ) + 1 ≤ j := by exact_mod_cast hij
      have hne : (i : ℝ) - j ≠ 0 := by linarith
      rw [if_pos (by nlinarith), if_neg (by nlinarith), if_neg (by omega), add_zero]
      field_simp
    · subst hij
      rw [if_neg (by linarith), if_neg (by linarith), if_pos rfl]
      ring
    · have hc : (j : ℝ) + 1 ≤ i := by exact_mod_cast hij
      have hne : (i : ℝ) - j ≠ 0 := by linarith
      rw [if_neg (by nlinarith), if_pos (by nlinarith), if_neg (by omega), zero_add]
      field_simp
  have hsum : ∑ i ∈ (Finset.range (M + 2)).erase j, I i / ((i : ℝ) - j) =
      ∑ i ∈ Finset.range (M + 2), if i = j then 0 else I i / ((i : ℝ) - j) := by
    rw [← Finset.sum_erase (Finset.range (M + 2)) (a := j)
      (f := fun i => if i = j then 0 else I i / ((i : ℝ) - j)) (by simp)]
    refine Finset.sum_congr rfl fun i hi => ?_
    rw [if_neg (Finset.ne_of_mem_erase hi)]
  have k0 := key 0
  have kM := key (M + 1)
  rw [if_neg (show (0 : ℕ) ≠ j by omega)] at k0
  rw [if_neg (show M + 1 ≠ j by omega)] at kM
  rw [hsum, Finset.sum_congr rfl fun i _ => (key i).symm, ← Finset.mul_sum, Finset.sum_add_distrib]
  simp only [Nat.cast_zero] at k0 ⊢
  linear_combination (-1 / 2) * k0 - (1 / 2) * kM

/-! ### Convergence -/

/-- The trapezoid rule converges for continuous functions. -/
theorem trapezoid_tendsto {f : ℝ → ℝ} {a b : ℝ} (hab : a < b) (hf : ContinuousOn f (Icc a b)) :
    Tendsto (fun M : ℕ => trapezoid (M + 1) (fun i => f (a + (i : ℝ) * ((b - a) / M)))
      (fun i => a + (i : ℝ) * ((b - a) / M))) atTop (𝓝 (∫ x in a..b, f x)) := by
  rw [Metric.tendsto_atTop]
  intro ε hε
  have hu := isCompact_Icc.uniformContinuousOn_of_continuous hf
  rw [Metric.uniformContinuousOn_iff] at hu
  have hba : 0 < b - a := sub_pos.2 hab
  obtain ⟨d, hd, hud⟩ := hu (ε / (2 * (b - a))) (by positivity)
  obtain ⟨M0, hM0⟩ := exists_nat_gt ((b - a) / d)
  refine ⟨M0 + 1, fun M hM => ?_⟩
  have hMr : (M0 : ℝ) + 1 ≤ M := by exact_mod_cast hM
  have hM0' : (0 : ℝ) ≤ M0 := Nat.cast_nonneg _
  have hMpos : (0 : ℝ) < M := by linarith
  set h := (b - a) / M with hh
  have hhpos : 0 < h := by positivity
  have hMh : (M : ℝ) * h = b - a := by rw [hh]; field_simp
  have hhd : h < d := by
    rw [hh, div_lt_iff₀ hMpos]
    rw [div_lt_iff₀ hd] at hM0
    nlinarith
  have hx : ∀ i : ℕ, i ≤ M → a + (i : ℝ) * h ∈ Icc a b := by
    intro i hi
    have : (i : ℝ) ≤ M := by exact_mod_cast hi
    constructor
    · have : (0 : ℝ) ≤ i := Nat.cast_nonneg _
      nlinarith
    · nlinarith
  have hint : ∀ i : ℕ, i < M →
      IntervalIntegrable f volume (a + (i : ℝ) * h) (a + ((i + 1 : ℕ) : ℝ) * h) := by
    intro i hi
    apply ContinuousOn.intervalIntegrable
    apply hf.mono
    rw [uIcc_of_le (by push_cast; nlinarith)]
    exact Icc_subset_Icc (hx i hi.le).1 (hx (i + 1) hi).2
  have hsplit : ∫ x in a..b, f x = ∑ i ∈ Finset.range M,
      ∫ x in (a + (i : ℝ) * h)..(a + ((i + 1 : ℕ) : ℝ) * h), f x := by
    rw [intervalIntegral.sum_integral_adjacent_intervals (a := fun i : ℕ => a + (i : ℝ) * h) hint]
    simp only [Nat.cast_zero, zero_mul, add_zero, hMh]
    congr 1
    ring
  have hterm : ∀ i ∈ Finset.range M,
      |(a + ((i + 1 : ℕ) : ℝ) * h - (a + (i : ℝ) * h)) *
        (f (a + ((i + 1 : ℕ) : ℝ) * h) + f (a + (i : ℝ) * h)) / 2 -
        ∫ x in (a + (i : ℝ) * h)..(a + ((i + 1 : ℕ) : ℝ) * h), f x| ≤ ε / (2 * (b - a)) * h := by
    intro i hi
    have hi' : i < M := Finset.mem_range.1 hi
    have hp := hx i hi'.le
    have hq := hx (i + 1) hi'
    set p := a + (i : ℝ) * h with hpdef
    set q := a + ((i + 1 : ℕ) : ℝ) * h with hqdef
    have hqp : q - p = h := by
      rw [hpdef, hqdef]
      push_cast
      ring
    have e : (q - p) * (f q + f p) / 2 - ∫ x in p..q, f x =
        ∫ x in p..q, ((f q + f p) / 2 - f x) := by
      rw [intervalIntegral.integral_sub intervalIntegrable_const (hint i hi'),
        intervalIntegral.integral_const, smul_eq_mul]
      ring
    rw [e, ← Real.norm_eq_abs]
    have := intervalIntegral.norm_integral_le_of_norm_le_const (a := p) (b := q)
      (f := fun x => (f q + f p) / 2 - f x) (C := ε / (2 * (b - a))) (by
        intro x hx'
        rw [uIoc_of_le (by linarith)] at hx'
        have hxm : x ∈ Icc a b := ⟨hp.1.trans hx'.1.le, hx'.2.trans hq.2⟩
        have d1 := hud q hq x hxm (by rw [Real.dist_eq, abs_lt]; constructor <;> linarith [hx'.1, hx'.2])
        have d2 := hud p hp x hxm (by rw [Real.dist_eq, abs_lt]; constructor <;> linarith [hx'.1, hx'.2])
        rw [Real.dist_eq, abs_lt] at d1 d2
        rw [Real.norm_eq_abs, abs_le]
        constructor <;> linarith [d1.1, d1.2, d2.1, d2.2])
    rwa [hqp, abs_of_pos hhpos] at this
  rw [Real.dist_eq, hsplit]
  unfold trapezoid
  rw [Nat.add_sub_cancel, ← Finset.sum_sub_distrib]
  calc _ ≤ ∑ i ∈ Finset.range M, ε / (2 * (b - a)) * h :=
        (Finset.abs_sum_le_sum_abs _ _).trans (Finset.sum_le_sum hterm)
    _ = ε / 2 := by
        rw [Finset.sum_const, Finset.card_range, nsmul_eq_mul,
          show (M : ℝ) * (ε / (2 * (b - a)) * h) = ε / (2 * (b - a)) * (M * h) by ring, hMh]
        field_simp
    _ < ε := by linarith

/-- The principal value of `∫ f(x) / (x - x0) dx` from `a` to `b`. -/
def PrincipalValue (f : ℝ → ℝ) (a b x0 L : ℝ) : Prop :=
  Tendsto (fun d => (∫ x in a..(x0 - d), f x / (x - x0)) + ∫ x in (x0 + d)..b, f x / (x - x0))
    (𝓝[>] 0) (𝓝 L)

theorem dslope_eq (f : ℝ → ℝ) {x0 x : ℝ} (h : x ≠ x0) :
    f x / (x - x0) = dslope f x0 x + f x0 * (x - x0)⁻¹ := by
  have : x - x0 ≠ 0 := sub_ne_zero.2 h
  rw [dslope_of_ne f h, slope_def_field]
  field_simp
  ring

theorem principalValue_eq {f : ℝ → ℝ} {a b x0 : ℝ} (ha : a < x0) (hb : x0 < b)
    (hf : ContinuousOn f (Icc a b)) (hd : DifferentiableAt ℝ f x0) :
    PrincipalValue f a b x0 ((∫ x in a..b, dslope f x0 x) + f x0 * log ((b - x0) / (x0 - a))) := by
  have hg : ContinuousOn (dslope f x0) (Icc a b) :=
    (continuousOn_dslope (Icc_mem_nhds ha hb)).2 ⟨hf, hd⟩
  have hgi : IntegrableOn (dslope f x0) (uIcc a b) := by
    rw [uIcc_of_le (by linarith)]
    exact hg.integrableOn_Icc
  have hsub : ∀ {c d : ℝ}, a ≤ c → c ≤ d → d ≤ b → IntervalIntegrable (dslope f x0) volume c d := by
    intro c d h1 h2 h3
    apply ContinuousOn.intervalIntegrable
    rw [uIcc_of_le h2]
    exact hg.mono (Icc_subset_Icc h1 h3)
  have hleft : Tendsto (fun d => ∫ x in a..(x0 - d), dslope f x0 x) (𝓝[>] 0)
      (𝓝 (∫ x in a..x0, dslope f x0 x)) := by
    have hc := intervalIntegral.continuousOn_primitive_interval hgi
    have hat : ContinuousAt (fun y => ∫ x in a..y, dslope f x0 x) x0 := by
      apply hc.continuousAt
      rw [uIcc_of_le (by linarith)]
      exact Icc_mem_nhds ha hb
    have ht : Tendsto (fun d : ℝ => x0 - d) (𝓝[>] 0) (𝓝 x0) := by
      have : Tendsto (fun d : ℝ => x0 - d) (𝓝 0) (𝓝 (x0 - 0)) :=
        (continuous_const.sub continuous_id).tendsto 0
      rw [sub_zero] at this
      exact this.mono_left nhdsWithin_le_nhds
    exact hat.tendsto.comp ht
  have hright : Tendsto (fun d => ∫ x in (x0 + d)..b, dslope f x0 x) (𝓝[>] 0)
      (𝓝 (∫ x in x0..b, dslope f x0 x)) := by
    have hc := intervalIntegral.continuousOn_primitive_interval_left hgi
    have hat : ContinuousAt (fun y => ∫ x in y..b, dslope f x0 x) x0 := by
      apply hc.continuousAt
      rw [uIcc_of_le (by linarith)]
      exact Icc_mem_nhds ha hb
    have ht : Tendsto (fun d : ℝ => x0 + d) (𝓝[>] 0) (𝓝 x0) := by
      have : Tendsto (fun d : ℝ => x0 + d) (𝓝 0) (𝓝 (x0 + 0)) :=
        (continuous_const.add continuous_id).tendsto 0
      rw [add_zero] at this
      exact this.mono_left nhdsWithin_le_nhds
    exact hat.tendsto.comp ht
  have h := (hleft.add hright).add_const (f x0 * log ((b - x0) / (x0 - a)))
  rw [intervalIntegral.integral_add_adjacent_intervals (hsub le_rfl ha.le hb.le)
    (hsub ha.le hb.le le_rfl)] at h
  unfold PrincipalValue
  refine h.congr' ?_
  have e1 : ∀ᶠ d : ℝ in 𝓝[>] 0, d < x0 - a := mem_nhdsWithin_of_mem_nhds (Iio_mem_nhds (by linarith))
  have e2 : ∀ᶠ d : ℝ in 𝓝[>] 0, d < b - x0 := mem_nhdsWithin_of_mem_nhds (Iio_mem_nhds (by linarith))
  filter_upwards [self_mem_nhdsWithin, e1, e2] with d hd0 hd1 hd2
  have hd0' : 0 < d := hd0
  have i1 : ∫ x in a..(x0 - d), f x / (x - x0) =
      (∫ x in a..(x0 - d), dslope f x0 x) + f x0 * log (d / (x0 - a)) := by
    have hinv : ∫ x in a..(x0 - d), (x - x0)⁻¹ = log (d / (x0 - a)) := by
      rw [intervalIntegral.integral_comp_sub_right (fun x => x⁻¹) x0,
        integral_inv_of_neg (by linarith) (by linarith)]
      congr 1
      rw [← neg_div_neg_eq]
      congr 1 <;> ring
    have hii : IntervalIntegrable (fun x => (x - x0)⁻¹) volume a (x0 - d) := by
      apply ContinuousOn.intervalIntegrable
      rw [uIcc_of_le (by linarith)]
      apply ContinuousOn.inv₀ (by fun_prop)
      intro x hx
      have := hx.2
      exact ne_of_lt (by linarith)
    rw [← hinv, ← intervalIntegral.integral_const_mul, ← intervalIntegral.integral_add
      (hsub le_rfl (by linarith) (by linarith)) (hii.const_mul _)]
    apply intervalIntegral.integral_congr
    intro x hx
    rw [uIcc_of_le (by linarith)] at hx
    exact dslope_eq f (ne_of_lt (by linarith [hx.2]))
  have i2 : ∫ x in (x0 + d)..b, f x / (x - x0) =
      (∫ x in (x0 + d)..b, dslope f x0 x) + f x0 * log ((b - x0) / d) := by
    have hinv : ∫ x in (x0 + d)..b, (x - x0)⁻¹ = log ((b - x0) / d) := by
      rw [intervalIntegral.integral_comp_sub_right (fun x => x⁻¹) x0,
        integral_inv_of_pos (by linarith) (by linarith)]
      congr 2
      ring
    have hii : IntervalIntegrable (fun x => (x - x0)⁻¹) volume (x0 + d) b := by
      apply ContinuousOn.intervalIntegrable
      rw [uIcc_of_le (by linarith)]
      apply ContinuousOn.inv₀ (by fun_prop)
      intro x hx
      have := hx.1
      exact ne_of_gt (by linarith)
    rw [← hinv, ← intervalIntegral.integral_const_mul, ← intervalIntegral.integral_add
      (hsub (by linarith) (by linarith) le_rfl) (hii.const_mul _)]
    apply intervalIntegral.integral_congr
    intro x hx
    rw [uIcc_of_le (by linarith)] at hx
    exact dslope_eq f (ne_of_gt (by linarith [hx.1]))
  rw [i1, i2]
  have p1 : x0 - a ≠ 0 := by linarith
  have p2 : b - x0 ≠ 0 := by linarith
  rw [log_div p2 p1, log_div hd0'.ne' p1, log_div p2 hd0'.ne']
  ring

/-- The sum for a constant. -/
theorem sum_inv_erase {M j : ℕ} (hjM : j < M) :
    ∑ i ∈ (Finset.range (M + 1)).erase j, 1 / ((i : ℝ) - j) =
      (harmonic (M - j) : ℝ) - (harmonic j : ℝ) := by
  have hsum : ∑ i ∈ (Finset.range (M + 1)).erase j, 1 / ((i : ℝ) - j) =
      ∑ i ∈ Finset.range (M + 1), 1 / ((i : ℝ) - j) := by
    apply Finset.sum_erase
    simp
  have hM : M + 1 = j + (M - j + 1) := by omega
  rw [hsum, hM, Finset.sum_range_add, Finset.sum_range_succ' (fun x => 1 / (((j + x : ℕ) : ℝ) - j))]
  have e1 : ∑ i ∈ Finset.range j, 1 / ((i : ℝ) - j) = -(harmonic j : ℝ) := by
    rw [← Finset.sum_range_reflect, harmonic, Rat.cast_sum, ← Finset.sum_neg_distrib]
    refine Finset.sum_congr rfl fun i hi => ?_
    have hi' := Finset.mem_range.1 hi
    have : ((j - 1 - i : ℕ) : ℝ) - j = -((i : ℝ) + 1) := by
      rw [Nat.cast_sub (by omega), Nat.cast_sub (by omega)]
      push_cast
      ring
    rw [this]
    push_cast
    rw [one_div, inv_neg]
  have e2 : ∑ x ∈ Finset.range (M - j), 1 / (((j + (x + 1) : ℕ) : ℝ) - j) = (harmonic (M - j) : ℝ) := by
    rw [harmonic, Rat.cast_sum]
    refine Finset.sum_congr rfl fun i _ => ?_
    push_cast
    rw [one_div]
    congr 1
    ring
  rw [e1, e2]
  simp
  ring

/-- C90: on finer and finer grids through the energy `x0` the sum converges to the principal value,
for every function that is continuous and has a derivative at `x0`; `p / q` is the place of `x0` in the
interval, and the exclusion `eps` stays below the distance of the grid points. -/
theorem kktPoint_principal {f : ℝ → ℝ} {Emax : ℝ} (hE : 0 < Emax) {p q : ℕ} (hp : 0 < p) (hpq : p < q)
    (hf : ContinuousOn f (Icc (-Emax) Emax))
    (hd : DifferentiableAt ℝ f (-Emax + 2 * Emax * (p / q))) {eps : ℕ → ℝ}
    (h0 : ∀ m, 0 ≤ eps m) (h1 : ∀ m : ℕ, 0 < m → eps m < 2 * Emax / (q * m)) :
    ∃ L, PrincipalValue f (-Emax) Emax (-Emax + 2 * Emax * (p / q)) L ∧
      Tendsto (fun m : ℕ => kktPoint (q * m + 1) (kktGrid Emax (q * m + 1))
        (fun i => f (kktGrid Emax (q * m + 1) i)) (eps m) (-Emax + 2 * Emax * (p / q)))
        atTop (𝓝 L) := by
  have hq : 0 < q := by omega
  have hqr : (0 : ℝ) < q := by exact_mod_cast hq
  have hpr : (0 : ℝ) < p := by exact_mod_cast hp
  have hpqr : (p : ℝ) < q := by exact_mod_cast hpq
  set x0 := -Emax + 2 * Emax * ((p : ℝ) / q) with hx0
  have hfrac : (p : ℝ) / q < 1 := by rwa [div_lt_one hqr]
  have ha : -Emax < x0 := by
    rw [hx0]
    have : 0 < 2 * Emax * ((p : ℝ) / q) := by positivity
    linarith
  have hb : x0 < Emax := by
    rw [hx0]
    nlinarith
  refine ⟨_, principalValue_eq ha hb hf hd, ?_⟩
  have hg : ContinuousOn (dslope f x0) (Icc (-Emax) Emax) :=
    (continuousOn_dslope (Icc_mem_nhds ha hb)).2 ⟨hf, hd⟩
  have hM : Tendsto (fun m : ℕ => q * m) atTop atTop := tendsto_id.const_mul_atTop' hq
  have hpm : Tendsto (fun m : ℕ => p * m) atTop atTop := tendsto_id.const_mul_atTop' hp
  have hqpm : Tendsto (fun m : ℕ => (q - p) * m) atTop atTop :=
    tendsto_id.const_mul_atTop' (by omega)
  have t1 := (trapezoid_tendsto (by linarith : -Emax < Emax) hg).comp hM
  have t2 : Tendsto (fun m : ℕ => 2 * Emax / ((q : ℝ) * m) * dslope f x0 x0) atTop (𝓝 0) := by
    have : Tendsto (fun m : ℕ => (q : ℝ) * m) atTop atTop :=
      tendsto_natCast_atTop_atTop.const_mul_atTop hqr
    have := (this.inv_tendsto_atTop.const_mul (2 * Emax)).mul_const (dslope f x0 x0)
    simpa [div_eq_mul_inv] using this
  have t3 : Tendsto (fun m : ℕ => (harmonic ((q - p) * m) : ℝ) - (harmonic (p * m) : ℝ)) atTop
      (𝓝 (log ((Emax - x0) / (x0 - -Emax)))) := by
    have h := ((Real.tendsto_harmonic_sub_log.comp hqpm).sub
      (Real.tendsto_harmonic_sub_log.comp hpm)).add_const (log (((q : ℝ) - p) / p))
    rw [sub_self, zero_add] at h
    have e : (Emax - x0) / (x0 - -Emax) = ((q : ℝ) - p) / p := by
      rw [hx0]
      field_simp
      ring
    rw [e]
    refine h.congr' ?_
    filter_upwards [eventually_gt_atTop 0] with m hm
    have hmr : (m : ℝ) ≠ 0 := by
      have : (0 : ℝ) < m := by exact_mod_cast hm
      exact this.ne'
    simp only [Function.comp]
    push_cast [Nat.cast_sub hpq.le]
    rw [log_div (by linarith) hpr.ne', log_mul (by linarith) hmr, log_mul hpr.ne' hmr]
    ring
  have t4 : Tendsto (fun m : ℕ => 1 / (2 * ((p : ℝ) * m)) - 1 / (2 * (((q : ℝ) - p) * m))) atTop
      (𝓝 0) := by
    have a1 : ∀ c : ℝ, 0 < c → Tendsto (fun m : ℕ => 1 / (2 * (c * m))) atTop (𝓝 0) := by
      intro c hc
      have : Tendsto (fun m : ℕ => 2 * (c * (m : ℝ))) atTop atTop :=
        (tendsto_natCast_atTop_atTop.const_mul_atTop hc).const_mul_atTop two_pos
      exact this.inv_tendsto_atTop.congr fun m => by simp only [Pi.inv_apply, one_div]
    simpa using (a1 p hpr).sub (a1 (q - p) (by linarith))
  have h := (t1.sub t2).add ((t3.add t4).const_mul (f x0))
  rw [sub_zero, add_zero] at h
  refine h.congr' ?_
  filter_upwards [eventually_gt_atTop 1] with m hm
  have hm0 : 0 < m := by omega
  have hmr : (0 : ℝ) < m := by exact_mod_cast hm0
  obtain ⟨M, hMeq⟩ : ∃ M, q * m = M + 1 := ⟨q * m - 1, by
    have : 0 < q * m := Nat.mul_pos hq hm0
    omega⟩
  have hMr : (q : ℝ) * m = (M : ℝ) + 1 := by exact_mod_cast hMeq
  have hj : p * m < M + 1 := by
    rw [← hMeq]
    exact Nat.mul_lt_mul_of_pos_right hpq hm0
  have hj0 : 0 < p * m := Nat.mul_pos hp hm0
  have hM1 : (0 : ℝ) < (M : ℝ) + 1 := by positivity
  set hstep := 2 * Emax / ((M : ℝ) + 1) with hh
  have hhpos : 0 < hstep := by positivity
  have hgrid : kktGrid Emax (q * m + 1) = fun i : ℕ => -Emax + (i : ℝ) * hstep := by
    funext i
    unfold kktGrid
    rw [hMeq, hh]
    push_cast
    rw [show ((M : ℝ) + 1 + 1 - 1) = M + 1 by ring, show Emax - -Emax = 2 * Emax by ring]
  have hx0j : x0 = -Emax + ((p * m : ℕ) : ℝ) * hstep := by
    rw [hx0, hh, ← hMr]
    push_cast
    field_simp
  have hsum := kktPoint_sum hj0 hj (fun i => f (-Emax + (i : ℝ) * hstep)) (a := -Emax) hhpos (h0 m)
    (by
      have := h1 m hm0
      rwa [hMr] at this)
  rw [hgrid, hMeq]
  simp only [Function.comp]
  rw [hx0j, hsum, ← hx0j]
  have hgr : ∀ i : ℕ, -Emax + (i : ℝ) * ((Emax - -Emax) / ((q * m : ℕ) : ℝ)) = -Emax + (i : ℝ) * hstep := by
    intro i
    rw [hMeq, hh]
    push_cast
    ring
  simp only [hgr]
  rw [hMeq, trapezoid_uniform]
  have hterm : ∀ i : ℕ, i ≠ p * m → f (-Emax + (i : ℝ) * hstep) / ((i : ℝ) - ((p * m : ℕ) : ℝ)) =
      hstep * dslope f x0 (-Emax + (i : ℝ) * hstep) + f x0 * (1 / ((i : ℝ) - ((p * m : ℕ) : ℝ))) := by
    intro i hi
    have hne : (i : ℝ) - ((p * m : ℕ) : ℝ) ≠ 0 := by
      rw [sub_ne_zero]
      exact_mod_cast hi
    have hne2 : -Emax + (i : ℝ) * hstep ≠ x0 := by
      rw [hx0j]
      intro hc
      apply hne
      have : ((i : ℝ) - ((p * m : ℕ) : ℝ)) * hstep = 0 := by linarith
      rcases mul_eq_zero.1 this with h | h
      · exact h
      · exact absurd h hhpos.ne'
    have hdiff : -Emax + (i : ℝ) * hstep - x0 = ((i : ℝ) - ((p * m : ℕ) : ℝ)) * hstep := by
      rw [hx0j]
      ring
    have := dslope_eq f hne2
    rw [hdiff] at this
    have hs := hhpos.ne'
    generalize (i : ℝ) - ((p * m : ℕ) : ℝ) = c at *
    field_simp at this ⊢
    linear_combination this
  rw [Finset.sum_congr rfl fun i hi => hterm i (Finset.ne_of_mem_erase hi), Finset.sum_add_distrib,
    ← Finset.mul_sum, ← Finset.mul_sum, sum_inv_erase hj]
  have e0 := hterm 0 (by omega)
  have eM := hterm (M + 1) (by omega)
  simp only [Nat.cast_zero] at e0
  simp only [Nat.cast_zero]
  rw [e0, eM]
  have herase := Finset.sum_erase_add (Finset.range (M + 2))
    (fun i : ℕ => dslope f x0 (-Emax + (i : ℝ) * hstep)) (Finset.mem_range.2 (show p * m < M + 2 by omega))
  rw [← hx0j] at herase
  rw [← herase]
  have hsub : M + 1 - p * m = (q - p) * m := by
    rw [← hMeq, Nat.sub_mul]
  rw [hsub, hMr, ← hh]
  have c1 : (((p * m : ℕ) : ℝ)) = p * m := by push_cast; ring
  have c2 : ((M + 1 : ℕ) : ℝ) - ((p * m : ℕ) : ℝ) = ((q : ℝ) - p) * m := by
    push_cast
    rw [← hMr]
    ring
  rw [c2, c1, zero_sub]
  generalize ∑ x ∈ (Finset.range (M + 2)).erase (p * m), dslope f x0 (-Emax + (x : ℝ) * hstep) = D
  have n1 : ((q : ℝ) - p) ≠ 0 := by linarith
  field_simp
  ring

/-- The hypotheses are met: a Lorentzian, the middle of the grid, no exclusion. -/
example : ∃ L, PrincipalValue (fun x => 1 / (1 + x ^ 2)) (-1) 1 (-1 + 2 * 1 * ((1 : ℕ) / (2 : ℕ))) L ∧
    Tendsto (fun m : ℕ => kktPoint (2 * m + 1) (kktGrid 1 (2 * m + 1))
      (fun i => 1 / (1 + kktGrid 1 (2 * m + 1) i ^ 2)) 0 (-1 + 2 * 1 * ((1 : ℕ) / (2 : ℕ))))
      atTop (𝓝 L) := by
  have hc : Continuous fun x : ℝ => 1 / (1 + x ^ 2) :=
    continuous_const.div (by fun_prop) fun x => by positivity
  refine kktPoint_principal (f := fun x => 1 / (1 + x ^ 2)) one_pos one_pos (by norm_num)
    hc.continuousOn ?_ (eps := fun _ => 0) (fun _ => le_rfl) ?_
  · exact (differentiableAt_const _).div (by fun_prop) (by positivity)
  · intro m hm
    have : (0 : ℝ) < m := by exact_mod_cast hm
    positivity

/-! ### Linearity -/

theorem trapezoid_linear (n : ℕ) (x y z : ℕ → ℝ) (c : ℝ) :
    trapezoid n (fun i => y i + c * z i) x = trapezoid n y x + c * trapezoid n z x := by
  unfold trapezoid
  rw [Finset.mul_sum, ← Finset.sum_add_distrib]
  refine Finset.sum_congr rfl fun i _ => ?_
  ring

theorem interp_linear (n : ℕ) (xp f g : ℕ → ℝ) (c x : ℝ) :
    interp n xp (fun i => f i + c * g i) x = interp n xp f x + c * interp n xp g x := by
  unfold interp interpLR
  split_ifs
  · rfl
  · rfl
  · unfold Interp.segment
    split_ifs
    · rfl
    · ring

/-- C90: the transform is linear. -/
theorem kkt_linear (n : ℕ) (E I J : ℕ → ℝ) (c eps : ℝ) (N : ℕ) (x : ℝ) :
    kkt n E (fun i => I i + c * J i) eps N x = kkt n E I eps N x + c * kkt n E J eps N x := by
  have hp : ∀ (E I J : ℕ → ℝ) (E' : ℝ), kktPoint N E (fun i => I i + c * J i) eps E' =
      kktPoint N E I eps E' + c * kktPoint N E J eps E' := by
    intro E I J E'
    simp only [kktPoint]
    have e1 : (fun i => if E i < E' - eps then (I i + c * J i) / (E i - E') else 0) =
        fun i => (if E i < E' - eps then I i / (E i - E') else 0) +
          c * (if E i < E' - eps then J i / (E i - E') else 0) := by
      funext i
      split_ifs
      · ring
      · ring
    have e2 : (fun i => if E i > E' + eps then (I i + c * J i) / (E i - E') else 0) =
        fun i => (if E i > E' + eps then I i / (E i - E') else 0) +
          c * (if E i > E' + eps then J i / (E i - E') else 0) := by
      funext i
      split_ifs
      · ring
      · ring
    rw [e1, e2, trapezoid_linear, trapezoid_linear]
    ring
  simp only [kkt, interp_linear, hp]
  rw [← interp_linear]
  congr 1
  funext j
  ring

/-! ### The sign -/

/-- C90: a real part that decreases with the size of the energy, as that of a damping rate, leads to an
imaginary part which is not negative at positive energies, as causality demands (`1 / (1 - i w t)` has these signs). -/
theorem kkt_sign {n : ℕ} {E I : ℕ → ℝ} (hpos : 0 < kktMax n E) (h0 : ∀ x, 0 ≤ interp n E I x)
    (hdec : ∀ x y, |x| ≤ |y| → interp n E I y ≤ interp n E I x) {M : ℕ} {eps : ℝ} (he : 0 ≤ eps)
    (he1 : eps < 2 * kktMax n E / (M + 1)) {j : ℕ} (hj : M + 1 < 2 * j) (hjM : j < M + 1) :
    0 ≤ kkt n E I eps (M + 2) (kktGrid (kktMax n E) (M + 2) j) := by
  have hM : (0 : ℝ) < (M : ℝ) + 1 := by positivity
  have hgrid : kktGrid (kktMax n E) (M + 2) = fun i : ℕ => -kktMax n E + (i : ℝ) * (2 * kktMax n E / (M + 1)) := by
    funext i
    unfold kktGrid
    push_cast
    rw [show kktMax n E - -kktMax n E = 2 * kktMax n E by ring, show (M : ℝ) + 2 - 1 = M + 1 by ring]
  set h := 2 * kktMax n E / ((M : ℝ) + 1) with hh
  have hhpos : 0 < h := by positivity
  have hEm : kktMax n E = h * (M + 1) / 2 := by rw [hh]; field_simp
  unfold kkt
  simp only
  rw [interp_at_node _ _ _ (kktGrid_increasing hpos (by omega)) j (by omega)]
  suffices hs : kktPoint (M + 2) (kktGrid (kktMax n E) (M + 2)) (fun i => interp n E I (kktGrid (kktMax n E) (M + 2) i)) eps
      (kktGrid (kktMax n E) (M + 2) j) ≤ 0 by
    have : -1 / π ≤ 0 := by rw [neg_div]; linarith [div_pos one_pos pi_pos]
    exact mul_nonneg_of_nonpos_of_nonpos hs this
  rw [hgrid]
  set J : ℕ → ℝ := fun i => interp n E I (-kktMax n E + (i : ℝ) * h) with hJ
  have hJ0 : ∀ i, 0 ≤ J i := fun i => h0 _
  have hJd : ∀ d, d ≤ M + 1 - j → J (j + d) ≤ J (j - d) := by
    intro d hd
    refine hdec _ _ ?_
    have hd' : d ≤ j := by omega
    have c1 : ((M : ℝ) + 1) < 2 * j := by exact_mod_cast hj
    have c2 : (d : ℝ) ≤ j := by exact_mod_cast hd'
    have c0 : (0 : ℝ) ≤ d := Nat.cast_nonneg _
    rw [hEm, Nat.cast_sub hd', Nat.cast_add]
    rw [show -(h * ((M : ℝ) + 1) / 2) + ((j : ℝ) - d) * h = h * ((j : ℝ) - (M + 1) / 2 - d) by ring,
      show -(h * ((M : ℝ) + 1) / 2) + ((j : ℝ) + d) * h = h * ((j : ℝ) - (M + 1) / 2 + d) by ring, abs_mul, abs_mul]
    refine mul_le_mul_of_nonneg_left ?_ (abs_nonneg h)
    rw [abs_of_nonneg (show (0 : ℝ) ≤ (j : ℝ) - (M + 1) / 2 + d by linarith), abs_le]
    constructor <;> linarith
  rw [kktPoint_sum (by omega) hjM J hhpos he he1]
  -- the two sides of the sum
  have hsum : ∑ i ∈ (Finset.range (M + 2)).erase j, J i / ((i : ℝ) - j) =
      -∑ d ∈ Finset.range j, J (j - (d + 1)) / ((d : ℝ) + 1) + ∑ d ∈ Finset.range (M + 1 - j), J (j + (d + 1)) / ((d : ℝ) + 1) := by
    have e0 : ∑ i ∈ (Finset.range (M + 2)).erase j, J i / ((i : ℝ) - j) = ∑ i ∈ Finset.range (M + 2), J i / ((i : ℝ) - j) := by
      apply Finset.sum_erase
      simp
    rw [e0, show M + 2 = j + (M + 1 - j + 1) by omega, Finset.sum_range_add,
      Finset.sum_range_succ' (fun x => J (j + x) / (((j + x : ℕ) : ℝ) - j)), ← Finset.sum_range_reflect,
      ← Finset.sum_neg_distrib]
    congr 1
    · refine Finset.sum_congr rfl fun d hd => ?_
      have hd' := Finset.mem_range.1 hd
      rw [show j - 1 - d = j - (d + 1) by omega, Nat.cast_sub (by omega)]
      push_cast
      rw [show (j : ℝ) - ((d : ℝ) + 1) - j = -((d : ℝ) + 1) by ring, div_neg]
    · simp only [add_zero, sub_self, div_zero]
      refine Finset.sum_congr rfl fun d _ => ?_
      push_cast
      rw [show (j : ℝ) + ((d : ℝ) + 1) - j = (d : ℝ) + 1 by ring]
  rw [hsum]
  have hsplit : ∑ d ∈ Finset.range j, J (j - (d + 1)) / ((d : ℝ) + 1) =
      ∑ d ∈ Finset.range (M + 1 - j), J (j - (d + 1)) / ((d : ℝ) + 1) +
        ∑ d ∈ Finset.range (2 * j - (M + 1)), J (j - (M + 1 - j + d + 1)) / (((M + 1 - j + d : ℕ) : ℝ) + 1) := by
    conv_lhs => rw [show j = (M + 1 - j) + (2 * j - (M + 1)) by omega, Finset.sum_range_add]
    rw [← show j = (M + 1 - j) + (2 * j - (M + 1)) by omega]
  have hle : ∑ d ∈ Finset.range (M + 1 - j), J (j + (d + 1)) / ((d : ℝ) + 1) ≤
      ∑ d ∈ Finset.range (M + 1 - j), J (j - (d + 1)) / ((d : ℝ) + 1) :=
    Finset.sum_le_sum fun d hd => div_le_div_of_nonneg_right (hJd _ (by have := Finset.mem_range.1 hd; omega)) (by positivity)
  have hrest : J 0 / (j : ℝ) ≤ ∑ d ∈ Finset.range (2 * j - (M + 1)), J (j - (M + 1 - j + d + 1)) / (((M + 1 - j + d : ℕ) : ℝ) + 1) := by
    have hmem : 2 * j - (M + 1) - 1 ∈ Finset.range (2 * j - (M + 1)) := Finset.mem_range.2 (by omega)
    refine le_trans (le_of_eq ?_) (Finset.single_le_sum
      (f := fun d => J (j - (M + 1 - j + d + 1)) / (((M + 1 - j + d : ℕ) : ℝ) + 1))
      (fun d _ => div_nonneg (hJ0 _) (by positivity)) hmem)
    show J 0 / (j : ℝ) = J (j - (M + 1 - j + (2 * j - (M + 1) - 1) + 1)) / (((M + 1 - j + (2 * j - (M + 1) - 1) : ℕ) : ℝ) + 1)
    rw [show j - (M + 1 - j + (2 * j - (M + 1) - 1) + 1) = 0 by omega]
    congr 1
    rw [show M + 1 - j + (2 * j - (M + 1) - 1) = j - 1 by omega, Nat.cast_sub (by omega)]
    push_cast
    ring
  have hjr : (0 : ℝ) < j := by exact_mod_cast (by omega : 0 < j)
  have hlast : 0 ≤ J (M + 1) / (((M + 1 : ℕ) : ℝ) - j) / 2 := by
    have : (j : ℝ) < ((M + 1 : ℕ) : ℝ) := by exact_mod_cast hjM
    exact div_nonneg (div_nonneg (hJ0 _) (by linarith)) (by norm_num)
  have hfirst : J 0 / (0 - (j : ℝ)) / 2 = -(J 0 / j) / 2 := by rw [zero_sub, div_neg]
  have h00 : 0 ≤ J 0 / (j : ℝ) := div_nonneg (hJ0 0) hjr.le
  rw [hsplit, hfirst]
  linarith

/-- A constant on two nodes: the transform is a logarithm which is positive at positive energies. -/
example : 0 ≤ kkt 2 (fun i => (i : ℝ) * 2 - 1) (fun _ => 1) 0 12 (kktGrid (kktMax 2 fun i => (i : ℝ) * 2 - 1) 12 8) := by
  have hm : kktMax 2 (fun i => (i : ℝ) * 2 - 1) = 1 := by
    norm_num [kktMax, List.range, List.range.loop]
  have hi : ∀ x, interp 2 (fun i => (i : ℝ) * 2 - 1) (fun _ => (1 : ℝ)) x = 1 := fun x => by
    unfold interp interpLR Interp.segment
    split_ifs <;> simp
  refine kkt_sign (M := 10) (by rw [hm]; norm_num) (fun x => by rw [hi]; norm_num) (fun x y _ => by rw [hi, hi]) le_rfl
    (by rw [hm]; norm_num) (by norm_num) (by norm_num)

end Verif.Kkt
