/-
Properties C63, C64, C65: existence and monotony of the ionization equilibrium, the cut at 500, the
coefficients, the Planck-Larkin sum and the Thomas-Fermi charge.
-/
import Verif.Props.Saha
import Verif.Props.Fermi
import Verif.Props.Setup
import Mathlib.Analysis.SpecialFunctions.Pow.Real
import Mathlib.Analysis.SpecialFunctions.Pow.Asymptotics
import Mathlib.Analysis.Complex.ExponentialBounds

set_option autoImplicit false

namespace Verif.Saha

open Real Verif.Expt Verif.Resp Finset Filter Topology

variable (u : Consts)

/-! ### Existence -/

/-- The mean charge as a function of the density, also for density zero. -/
noncomputable def meanAt (Z : ℕ) (c : ℕ → ℝ) (x : ℝ) : ℝ :=
  (∑ i ∈ range (Z + 1), (i : ℝ) * (pr c i * x ^ (Z - i))) / ∑ i ∈ range (Z + 1), pr c i * x ^ (Z - i)

theorem meanAt_den_pos {Z : ℕ} {c : ℕ → ℝ} (hc : ∀ k < Z, 0 < c k) {x : ℝ} (hx : 0 ≤ x) :
    0 < ∑ i ∈ range (Z + 1), pr c i * x ^ (Z - i) := by
  refine sum_pos' (fun i hi => ?_) ⟨Z, by simp, ?_⟩
  · have := pr_pos hc (Nat.lt_succ_iff.1 (mem_range.1 hi))
    positivity
  · have := pr_pos hc le_rfl
    simpa using this

theorem meanAt_eq {Z : ℕ} {c : ℕ → ℝ} {x : ℝ} (hx : 0 < x) :
    meanAt Z c x = part1 Z c (1 / x) / part Z c (1 / x) := by
  have h : ∀ i ∈ range (Z + 1), pr c i * x ^ (Z - i) = x ^ Z * (pr c i * (1 / x) ^ i) := by
    intro i hi
    have hi' := Nat.lt_succ_iff.1 (mem_range.1 hi)
    have : x ^ Z = x ^ (Z - i) * x ^ i := by rw [← pow_add]; congr 1; omega
    rw [this, one_div, inv_pow]
    field_simp
  have h1 : ∑ i ∈ range (Z + 1), pr c i * x ^ (Z - i) = x ^ Z * part Z c (1 / x) := by
    rw [part, mul_sum]
    exact sum_congr rfl h
  have h2 : ∑ i ∈ range (Z + 1), (i : ℝ) * (pr c i * x ^ (Z - i)) = x ^ Z * part1 Z c (1 / x) := by
    rw [part1, mul_sum]
    refine sum_congr rfl fun i hi => ?_
    rw [h i hi]
    ring
  rw [meanAt, h1, h2, mul_div_mul_left _ _ (pow_pos hx Z).ne']

theorem meanAt_zero {Z : ℕ} {c : ℕ → ℝ} (hc : ∀ k < Z, 0 < c k) : meanAt Z c 0 = Z := by
  have hp := pr_pos hc le_rfl
  have h : ∀ f : ℕ → ℝ, ∑ i ∈ range (Z + 1), f i * (0 : ℝ) ^ (Z - i) = f Z := by
    intro f
    rw [sum_range_succ, sum_eq_zero]
    · simp
    · intro i hi
      have := mem_range.1 hi
      rw [zero_pow (by omega), mul_zero]
  unfold meanAt
  rw [h]
  have := h fun i => (i : ℝ) * pr c i
  simp only [mul_assoc] at this
  rw [this]
  field_simp

theorem meanAt_continuousOn {Z : ℕ} {c : ℕ → ℝ} (hc : ∀ k < Z, 0 < c k) :
    ContinuousOn (meanAt Z c) (Set.Ici 0) := by
  unfold meanAt
  refine ContinuousOn.div (by fun_prop) (by fun_prop) fun x hx => (meanAt_den_pos hc hx).ne'

/-- C63.  An equilibrium exists for every plasma that contains electrons, so that by
`equilibrium_unique` there is exactly one. -/
theorem equilibrium_exists {l : List Species} (hl : Regular l) (hm : 0 < maxNe l) :
    ∃ pop ne, Equilibrium l pop ne ∧ ne ≤ maxNe l := by
  set f : ℝ → ℝ := fun x => x - (l.map fun s => s.N * meanAt s.Z s.coeff x).sum with hf
  have hcont : ContinuousOn f (Set.Icc 0 (maxNe l)) := by
    refine ContinuousOn.sub continuousOn_id ?_
    clear hm hf f
    have : ∀ L : List Species, (∀ s ∈ L, s ∈ l) →
        ContinuousOn (fun x => (L.map fun s => s.N * meanAt s.Z s.coeff x).sum) (Set.Icc 0 (maxNe l)) := by
      intro L
      induction L with
      | nil => intro _; simpa using continuousOn_const
      | cons s L ih =>
        intro h
        simp only [List.map_cons, List.sum_cons]
        refine ContinuousOn.add (continuousOn_const.mul ((meanAt_continuousOn (hl s (h s (by simp))).2).mono
          fun x hx => hx.1)) (ih fun t ht => h t (by simp [ht]))
    exact this l fun _ h => h
  have h0 : f 0 = -maxNe l := by
    simp only [hf, zero_sub, maxNe, neg_inj]
    congr 1
    refine List.map_congr_left fun s hs => ?_
    rw [meanAt_zero (hl s hs).2, mul_comm]
  have h1 : 0 ≤ f (maxNe l) := by
    simp only [hf, sub_nonneg]
    conv_rhs => rw [maxNe]
    refine List.sum_le_sum fun s hs => ?_
    rw [mul_comm (s.Z : ℝ), meanAt_eq hm]
    exact mul_le_mul_of_nonneg_left (part1_le (hl s hs).2 (one_div_pos.2 hm)) (hl s hs).1
  obtain ⟨x, hx, hfx⟩ := intermediate_value_Icc hm.le hcont (show (0 : ℝ) ∈ Set.Icc _ _ from ⟨by rw [h0]; linarith, h1⟩)
  have hx0 : 0 < x := by
    rcases hx.1.eq_or_lt with h | h
    · rw [← h, h0] at hfx
      linarith
    · exact h
  refine ⟨fun s i => s.N * (pr s.coeff i * (1 / x) ^ i / part s.Z s.coeff (1 / x)), x,
    ⟨hx0, fun s hs => isSaha_of_formula (hl s hs).1 (hl s hs).2 hx0, ?_⟩, hx.2⟩
  have e : (l.map fun s => ∑ i ∈ range (s.Z + 1), (i : ℝ) * (s.N * (pr s.coeff i * (1 / x) ^ i / part s.Z s.coeff (1 / x)))) =
      l.map fun s => s.N * meanAt s.Z s.coeff x := by
    refine List.map_congr_left fun s hs => ?_
    rw [meanAt_eq hx0]
    exact (isSaha_of_formula (hl s hs).1 (hl s hs).2 hx0).mean (hl s hs).2 hx0
  rw [e]
  simp only [hf] at hfx
  linarith

/-! ### Monotony -/

/-- A mean grows with the likelihood ratio. -/
theorem mean_mlr {Z : ℕ} {a b : ℕ → ℝ} (ha : 0 < ∑ i ∈ range (Z + 1), a i) (hb : 0 < ∑ i ∈ range (Z + 1), b i)
    (h : ∀ i j, j ≤ i → i ≤ Z → a i * b j ≤ b i * a j) :
    (∑ i ∈ range (Z + 1), (i : ℝ) * a i) / ∑ i ∈ range (Z + 1), a i ≤
      (∑ i ∈ range (Z + 1), (i : ℝ) * b i) / ∑ i ∈ range (Z + 1), b i := by
  rw [div_le_div_iff₀ ha hb, sum_mul_sum, sum_mul_sum]
  have key : 0 ≤ ∑ i ∈ range (Z + 1), ∑ j ∈ range (Z + 1), ((i : ℝ) - j) * (b i * a j - a i * b j) := by
    refine sum_nonneg fun i hi => sum_nonneg fun j hj => ?_
    have hi' := Nat.lt_succ_iff.1 (mem_range.1 hi)
    have hj' := Nat.lt_succ_iff.1 (mem_range.1 hj)
    rcases le_total j i with hh | hh
    · exact mul_nonneg (sub_nonneg.2 (by exact_mod_cast hh)) (by linarith [h i j hh hi'])
    · exact mul_nonneg_of_nonpos_of_nonpos (sub_nonpos.2 (by exact_mod_cast hh)) (by linarith [h j i hh hj'])
  have e1 : ∑ i ∈ range (Z + 1), ∑ j ∈ range (Z + 1), ((i : ℝ) - j) * (b i * a j - a i * b j) =
      (∑ i ∈ range (Z + 1), ∑ j ∈ range (Z + 1), (i : ℝ) * (b i * a j - a i * b j)) +
      ∑ i ∈ range (Z + 1), ∑ j ∈ range (Z + 1), (j : ℝ) * (b j * a i - a j * b i) := by
    rw [← sum_add_distrib]
    refine sum_congr rfl fun i _ => ?_
    rw [← sum_add_distrib]
    exact sum_congr rfl fun j _ => by ring
  have e2 : ∑ i ∈ range (Z + 1), ∑ j ∈ range (Z + 1), (j : ℝ) * (b j * a i - a j * b i) =
      ∑ i ∈ range (Z + 1), ∑ j ∈ range (Z + 1), (i : ℝ) * (b i * a j - a i * b j) := sum_comm
  have e3 : ∑ i ∈ range (Z + 1), ∑ j ∈ range (Z + 1), (i : ℝ) * (b i * a j - a i * b j) =
      ∑ i ∈ range (Z + 1), ∑ j ∈ range (Z + 1), (i : ℝ) * b i * a j -
      ∑ i ∈ range (Z + 1), ∑ j ∈ range (Z + 1), (i : ℝ) * a i * b j := by
    rw [← sum_sub_distrib]
    refine sum_congr rfl fun i _ => ?_
    rw [← sum_sub_distrib]
    exact sum_congr rfl fun j _ => by ring
  rw [e1, e2, e3] at key
  linarith

theorem pr_mono {Z : ℕ} {c d : ℕ → ℝ} (hc : ∀ k < Z, 0 < c k) (hcd : ∀ k < Z, c k ≤ d k) {i j : ℕ}
    (hji : j ≤ i) (hi : i ≤ Z) : pr c i * pr d j ≤ pr d i * pr c j := by
  induction i with
  | zero =>
    have : j = 0 := by omega
    subst this
    simp [pr]
  | succ i ih =>
    rcases hji.eq_or_lt with rfl | hlt
    · exact (mul_comm _ _).le
    · have h1 := ih (by omega) (by omega)
      have e1 : pr c (i + 1) = pr c i * c i := prod_range_succ _ _
      have e2 : pr d (i + 1) = pr d i * d i := prod_range_succ _ _
      have hd : ∀ k < Z, 0 < d k := fun k hk => (hc k hk).trans_le (hcd k hk)
      have p1 := pr_pos hd (show i ≤ Z by omega)
      have p2 := pr_pos hc (show j ≤ Z by omega)
      rw [e1, e2]
      calc pr c i * c i * pr d j = pr c i * pr d j * c i := by ring
        _ ≤ pr d i * pr c j * c i := mul_le_mul_of_nonneg_right h1 (hc i (by omega)).le
        _ ≤ pr d i * pr c j * d i := mul_le_mul_of_nonneg_left (hcd i (by omega)) (by positivity)
        _ = _ := by ring

theorem mean_coeff_mono {Z : ℕ} {c d : ℕ → ℝ} (hc : ∀ k < Z, 0 < c k) (hcd : ∀ k < Z, c k ≤ d k) {t : ℝ}
    (ht : 0 < t) : part1 Z c t / part Z c t ≤ part1 Z d t / part Z d t := by
  have hd : ∀ k < Z, 0 < d k := fun k hk => (hc k hk).trans_le (hcd k hk)
  refine mean_mlr (part_pos hc ht) (part_pos hd ht) fun i j hji hi => ?_
  have := pr_mono hc hcd hji hi
  have h2 : 0 < t ^ i * t ^ j := by positivity
  nlinarith

/-- C63.  Larger coefficients (a hotter plasma, or lowered binding energies) never give fewer free
electrons: `l` lists pairs of the same element at two conditions. -/
theorem equilibrium_mono {l : List (Species × Species)}
    (hl : ∀ p ∈ l, p.1.Z = p.2.Z ∧ p.1.N = p.2.N ∧ 0 ≤ p.1.N ∧
      ∀ k < p.1.Z, 0 < p.1.coeff k ∧ p.1.coeff k ≤ p.2.coeff k)
    {pop pop' : Species → ℕ → ℝ} {ne ne' : ℝ} (h : Equilibrium (l.map Prod.fst) pop ne)
    (h' : Equilibrium (l.map Prod.snd) pop' ne') : ne ≤ ne' := by
  have r1 : Regular (l.map Prod.fst) := by
    intro s hs
    obtain ⟨p, hp, rfl⟩ := List.mem_map.1 hs
    exact ⟨(hl p hp).2.2.1, fun k hk => ((hl p hp).2.2.2 k hk).1⟩
  have r2 : Regular (l.map Prod.snd) := by
    intro s hs
    obtain ⟨p, hp, rfl⟩ := List.mem_map.1 hs
    obtain ⟨e1, e2, e3, e4⟩ := hl p hp
    refine ⟨e2 ▸ e3, fun k hk => ?_⟩
    rw [← e1] at hk
    exact (e4 k hk).1.trans_le (e4 k hk).2
  have z1 := h.excess_zero r1
  have z2 := h'.excess_zero r2
  by_contra hlt
  push Not at hlt
  have h3 := excess_mono r1 h'.pos hlt.le
  have h4 : excess (l.map Prod.snd) ne' ≤ excess (l.map Prod.fst) ne' := by
    unfold excess
    refine sub_le_sub_left ?_ _
    rw [List.map_map, List.map_map]
    refine List.sum_le_sum fun p hp => ?_
    obtain ⟨e1, e2, e3, e4⟩ := hl p hp
    simp only [Function.comp_apply]
    rw [← e1, ← e2]
    exact mul_le_mul_of_nonneg_left (mean_coeff_mono (fun k hk => (e4 k hk).1) (fun k hk => (e4 k hk).2)
      (one_div_pos.2 h'.pos)) e3
  linarith

/-- C63.  Diluting a plasma never lowers the charge per ion: if all densities are multiplied by a factor
`a` below one, the free charge of each element falls at most by this factor. -/
theorem equilibrium_dilute {l : List (Species × Species)} {a : ℝ} (ha : a ≤ 1)
    (hl : ∀ p ∈ l, p.1.Z = p.2.Z ∧ p.2.N = a * p.1.N ∧ p.1.coeff = p.2.coeff ∧ 0 ≤ p.1.N ∧ 0 ≤ p.2.N ∧
      ∀ k < p.1.Z, 0 < p.1.coeff k)
    {pop pop' : Species → ℕ → ℝ} {ne ne' : ℝ} (h : Equilibrium (l.map Prod.fst) pop ne)
    (h' : Equilibrium (l.map Prod.snd) pop' ne') :
    ne' ≤ ne ∧ ∀ p ∈ l, a * ∑ i ∈ range (p.1.Z + 1), (i : ℝ) * pop p.1 i ≤
      ∑ i ∈ range (p.2.Z + 1), (i : ℝ) * pop' p.2 i := by
  have r1 : Regular (l.map Prod.fst) := by
    intro s hs
    obtain ⟨p, hp, rfl⟩ := List.mem_map.1 hs
    exact ⟨(hl p hp).2.2.2.1, (hl p hp).2.2.2.2.2⟩
  have r2 : Regular (l.map Prod.snd) := by
    intro s hs
    obtain ⟨p, hp, rfl⟩ := List.mem_map.1 hs
    obtain ⟨e1, e2, e3, e4, e5, e6⟩ := hl p hp
    refine ⟨e5, fun k hk => ?_⟩
    rw [← e1] at hk
    rw [← e3]
    exact e6 k hk
  have z1 := h.excess_zero r1
  have z2 := h'.excess_zero r2
  have hmean : ∀ p ∈ l, ∀ x : ℝ, 0 < x → 0 ≤ part1 p.1.Z p.1.coeff (1 / x) / part p.1.Z p.1.coeff (1 / x) := by
    intro p hp x hx
    obtain ⟨e1, e2, e3, e4, e5, e6⟩ := hl p hp
    refine div_nonneg (sum_nonneg fun i hi => ?_) (part_pos e6 (one_div_pos.2 hx)).le
    have := pr_pos e6 (Nat.lt_succ_iff.1 (mem_range.1 hi))
    positivity
  have hle : ne' ≤ ne := by
    by_contra hlt
    push Not at hlt
    have h3 := excess_mono r2 h.pos hlt.le
    have h4 : excess (l.map Prod.fst) ne ≤ excess (l.map Prod.snd) ne := by
      unfold excess
      refine sub_le_sub_left ?_ _
      rw [List.map_map, List.map_map]
      refine List.sum_le_sum fun p hp => ?_
      obtain ⟨e1, e2, e3, e4, e5, e6⟩ := hl p hp
      simp only [Function.comp_apply]
      rw [← e1, ← e3, e2]
      exact mul_le_mul_of_nonneg_right (by nlinarith) (hmean p hp ne h.pos)
    linarith
  refine ⟨hle, fun p hp => ?_⟩
  obtain ⟨e1, e2, e3, e4, e5, e6⟩ := hl p hp
  have m1 := (h.saha p.1 (List.mem_map.2 ⟨p, hp, rfl⟩)).mean e6 h.pos
  have m2 := (h'.saha p.2 (List.mem_map.2 ⟨p, hp, rfl⟩)).mean (by rw [← e1, ← e3]; exact e6) h'.pos
  rw [m1, m2, ← e1, ← e3, e2, ← mul_assoc]
  refine mul_le_mul_of_nonneg_left (mean_mono e6 (one_div_pos.2 h.pos) (one_div_le_one_div_of_le h'.pos hle)) ?_
  rw [← e2]
  exact e5

/-! ### The cut at 500 -/

/-- C63.  The cut spoils the charge states of dilute hot plasmas of heavy elements: if all coefficients
are larger than `exp(500 / K)` times the density of all electrons, the solver returns a mean charge of
at most `(K + Z) / 2`, while in equilibrium the ions are almost completely ionized. -/
theorem saha_clip_wrong {s : Species} (hb : AllBound s) (hN : 0 < s.N) {K : ℕ} (hK : 0 < K) (hKZ : K ≤ s.Z)
    (hc : ∀ k < s.Z, s.Z * s.N * exp (500 / K) ≤ s.coeff k) :
    (∀ y, y ≤ log (maxNe [s]) → zbar s y ≤ ((K : ℝ) + s.Z) / 2) ∧
      ∀ pop ne, Equilibrium [s] pop ne → s.N * (s.Z - s.Z ^ 2 * exp (-(500 / K))) ≤ ne := by
  have hZ : (0 : ℝ) < s.Z := by exact_mod_cast hK.trans_le hKZ
  have hK' : (0 : ℝ) < K := by exact_mod_cast hK
  have hmax : maxNe [s] = s.Z * s.N := by simp [maxNe]
  constructor
  · intro y hy
    rw [hmax] at hy
    have hlog : ∀ k < s.Z, 500 / (K : ℝ) ≤ log (s.coeff k) - y := by
      intro k hk
      have h1 := log_le_log (by positivity) (hc k hk)
      rw [log_mul (by positivity) (exp_pos _).ne', log_exp] at h1
      linarith
    have hclip : ∀ i, K ≤ i → i ≤ s.Z → clip500 (logP s y i) = 500 := by
      intro i h1 h2
      rw [logP_allBound hb y h2, clip500]
      have h3 : ∑ k ∈ range i, (500 / (K : ℝ)) ≤ ∑ k ∈ range i, (log (s.coeff k) - y) :=
        sum_le_sum fun k hk => hlog k (lt_of_lt_of_le (mem_range.1 hk) h2)
      rw [sum_const, card_range, nsmul_eq_mul] at h3
      have h4 : (500 : ℝ) ≤ i * (500 / K) := by
        have : (K : ℝ) ≤ i := by exact_mod_cast h1
        rw [mul_div_assoc', le_div_iff₀ hK']
        linarith
      exact min_eq_right ((h4.trans h3).trans (le_max_left _ _))
    have hw : ∀ i, K ≤ i → i ≤ s.Z → weight s y i = weight s y s.Z := by
      intro i h1 h2
      unfold weight
      rw [hclip i h1 h2, hclip s.Z hKZ le_rfl]
    have hsum : ∑ i ∈ range (s.Z + 1), (2 * (i : ℝ) - (K + s.Z)) * weight s y i ≤ 0 := by
      obtain ⟨d, hd⟩ := Nat.exists_eq_add_of_le hKZ
      have e : s.Z + 1 = K + (d + 1) := by omega
      rw [e, sum_range_add]
      have h1 : ∑ i ∈ range K, (2 * (i : ℝ) - (K + s.Z)) * weight s y i ≤ 0 := by
        refine sum_nonpos fun i hi => mul_nonpos_of_nonpos_of_nonneg ?_ (weight_pos s y i).le
        have h2 : (i : ℝ) ≤ K := by exact_mod_cast (mem_range.1 hi).le
        have h3 : (K : ℝ) ≤ s.Z := by exact_mod_cast hKZ
        linarith
      have h2 : ∑ j ∈ range (d + 1), (2 * ((K + j : ℕ) : ℝ) - (K + s.Z)) * weight s y (K + j) = 0 := by
        have h3 : ∀ j ∈ range (d + 1), (2 * ((K + j : ℕ) : ℝ) - (K + s.Z)) * weight s y (K + j) =
            (2 * (j : ℝ) - d) * weight s y s.Z := by
          intro j hj
          have hj' := mem_range.1 hj
          rw [hw (K + j) (by omega) (by omega)]
          have : (s.Z : ℝ) = K + d := by exact_mod_cast hd
          rw [this]
          push_cast
          ring
        rw [sum_congr rfl h3, ← sum_mul]
        have h4 : ∀ n : ℕ, ∀ a : ℝ, ∑ j ∈ range (n + 1), (2 * (j : ℝ) - a) = (n + 1) * (n - a) := by
          intro n a
          induction n with
          | zero => simp
          | succ n ih => rw [sum_range_succ, ih]; push_cast; ring
        rw [h4]
        ring
      linarith
    have h5 : ∑ i ∈ range (s.Z + 1), (2 * (i : ℝ) - (K + s.Z)) * weight s y i = 2 * zbar s y - (K + s.Z) := by
      have h6 : ∀ i ∈ range (s.Z + 1), (2 * (i : ℝ) - (K + s.Z)) * weight s y i =
          2 * (i * weight s y i) - (K + s.Z) * weight s y i := fun i _ => by ring
      rw [sum_congr rfl h6, sum_sub_distrib, ← mul_sum, ← mul_sum, weight_sum, mul_one]
      rfl
    linarith
  · intro pop ne he
    have hs := he.saha s (by simp)
    have hne : ne = ∑ i ∈ range (s.Z + 1), (i : ℝ) * pop s i := by simpa using he.neutral
    have hZN : ∑ i ∈ range (s.Z + 1), (s.Z : ℝ) * pop s i = s.Z * s.N := by rw [← mul_sum, hs.total]
    have hle : ne ≤ s.Z * s.N := by
      rw [hne, ← hZN]
      refine sum_le_sum fun i hi => ?_
      have hi' := Nat.lt_succ_iff.1 (mem_range.1 hi)
      exact mul_le_mul_of_nonneg_right (by exact_mod_cast hi') (hs.nonneg i hi')
    have hpopN : ∀ i ≤ s.Z, pop s i ≤ s.N := by
      intro i hi
      rw [← hs.total]
      exact single_le_sum (f := fun i => pop s i) (fun j hj => hs.nonneg j (Nat.lt_succ_iff.1 (mem_range.1 hj)))
        (mem_range.2 (Nat.lt_succ_of_le hi))
    have hpop : ∀ i < s.Z, pop s i ≤ s.N * exp (-(500 / K)) := by
      intro i hi
      have h1 := hs.balance i hi
      have h2 := hc i hi
      have h3 : ne * exp (500 / K) ≤ s.coeff i := (mul_le_mul_of_nonneg_right hle (exp_pos _).le).trans h2
      have h4 : pop s i * (ne * exp (500 / K)) ≤ pop s (i + 1) * ne := by
        rw [h1]
        exact mul_le_mul_of_nonneg_left h3 (hs.nonneg i hi.le)
      have h5 : pop s i * exp (500 / K) ≤ pop s (i + 1) := by
        have := he.pos
        nlinarith
      have h6 := h5.trans (hpopN (i + 1) hi)
      rw [exp_neg, ← div_eq_mul_inv, le_div_iff₀ (exp_pos _)]
      exact h6
    have hdiff : s.Z * s.N - ne ≤ ∑ i ∈ range s.Z, (s.Z : ℝ) * (s.N * exp (-(500 / K))) := by
      rw [← hZN, hne, ← sum_sub_distrib, sum_range_succ, sub_self, add_zero]
      refine sum_le_sum fun i hi => ?_
      have hi' := mem_range.1 hi
      have h7 := hs.nonneg i hi'.le
      have h8 : (0 : ℝ) ≤ i := i.cast_nonneg
      have h9 := mul_le_mul_of_nonneg_left (hpop i hi') hZ.le
      nlinarith
    rw [sum_const, card_range, nsmul_eq_mul] at hdiff
    have : s.N * (s.Z - s.Z ^ 2 * exp (-(500 / K))) = s.Z * s.N - s.Z * (s.Z * (s.N * exp (-(500 / (K : ℝ))))) := by ring
    rw [this]
    linarith

/-- Iron with coefficients of `exp(42)` times the density of electrons: the solver says 19, the truth is
above 25. -/
example : ∃ s : Species, s.Z = 26 ∧ AllBound s ∧ 0 < s.N ∧
    (∀ k < s.Z, s.Z * s.N * exp (500 / (12 : ℕ)) ≤ s.coeff k) ∧ (((12 : ℕ) : ℝ) + s.Z) / 2 = 19 ∧
    25 < s.N * (s.Z - s.Z ^ 2 * exp (-(500 / (12 : ℕ)))) := by
  refine ⟨⟨26, fun _ => 26 * exp 42, fun _ => 1, 1⟩, rfl, fun k _ => one_pos, one_pos, ?_, ?_, ?_⟩
  · intro k _
    have : exp (500 / 12 : ℝ) ≤ exp 42 := exp_le_exp.2 (by norm_num)
    simp only [Nat.cast_ofNat]
    linarith
  · norm_num
  · simp only [Nat.cast_ofNat]
    have h1 : exp (-(500 / 12) : ℝ) ≤ exp (-10) := exp_le_exp.2 (by norm_num)
    have h2 : exp (-10 : ℝ) ≤ 1 / 1000 := by
      have : exp (10 : ℝ) = exp 1 ^ 10 := by rw [← exp_nat_mul]; norm_num
      rw [exp_neg, one_div]
      refine inv_anti₀ (by norm_num) ?_
      rw [this]
      have h3 : (2 : ℝ) ≤ exp 1 := by linarith [exp_one_gt_d9]
      calc (1000 : ℝ) ≤ 2 ^ 10 := by norm_num
        _ ≤ exp 1 ^ 10 := pow_le_pow_left₀ (by norm_num) h3 _
    linarith

/-! ### The coefficients -/

theorem thermDeBroglie_pos {T : ℝ} (hT : 0 < T) : 0 < thermDeBroglie u T := by
  have := u.hbar_pos
  have := u.me_pos
  have := u.kB_pos
  unfold thermDeBroglie
  have h : 0 < 2 * π / (u.me * u.kB * T) := by positivity
  have := sqrt_pos.2 h
  positivity

/-- C63.  The coefficient is the one of the Saha equation, `2 g_j / g_i (2 π m k T)^(3/2) / h^3
exp(-E / k T)`. -/
theorem sahaEquation_textbook {gi gj T dE : ℝ} (hT : 0 < T) :
    sahaEquation u gi gj T dE = 2 * (gj / gi) * ((2 * π * u.me * u.kB * T) ^ (3 / 2 : ℝ) / (2 * π * u.hbar) ^ 3) *
      exp (-dE / (u.kB * T)) := by
  have h1 := u.hbar_pos
  have h2 := u.me_pos
  have h3 := u.kB_pos
  have hpi := pi_pos
  unfold sahaEquation thermDeBroglie
  set m := u.me * u.kB * T with hm
  have hm0 : 0 < m := by positivity
  have e1 : (2 * π * u.me * u.kB * T) ^ (3 / 2 : ℝ) = sqrt (2 * π * m) ^ 3 := by
    rw [sqrt_eq_rpow, ← rpow_natCast ((2 * π * m) ^ (1 / 2 : ℝ)) 3, ← rpow_mul (by positivity)]
    congr 1
    · rw [hm]; ring
    · norm_num
  have e2 : sqrt (2 * π / m) * sqrt (2 * π * m) = 2 * π := by
    rw [← sqrt_mul (by positivity)]
    have : 2 * π / m * (2 * π * m) = (2 * π) ^ 2 := by field_simp
    rw [this, sqrt_sq (by positivity)]
  rw [e1]
  have p1 : 0 < sqrt (2 * π / m) := sqrt_pos.2 (by positivity)
  have p2 : 0 < sqrt (2 * π * m) := sqrt_pos.2 (by positivity)
  have e3 : 1 / (u.hbar * sqrt (2 * π / m)) ^ 3 = sqrt (2 * π * m) ^ 3 / (2 * π * u.hbar) ^ 3 := by
    generalize sqrt (2 * π / m) = a at *
    generalize sqrt (2 * π * m) = b at *
    rw [← e2]
    field_simp
  calc _ = 2 * (gj / gi) * (1 / (u.hbar * sqrt (2 * π / m)) ^ 3) * exp (-dE / (u.kB * T)) := by ring
    _ = _ := by rw [e3]

/-- C63.  The coefficient grows with the temperature and falls with the ionization energy. -/
theorem sahaEquation_mono {gi gj T T' dE dE' : ℝ} (hi : 0 < gi) (hj : 0 < gj) (hT : 0 < T) (hTT : T ≤ T')
    (hE : dE' ≤ dE) (hE0 : 0 ≤ dE) : 0 < sahaEquation u gi gj T dE ∧
      sahaEquation u gi gj T dE ≤ sahaEquation u gi gj T' dE' := by
  have hT' := hT.trans_le hTT
  have h3 := u.kB_pos
  have p := thermDeBroglie_pos u hT
  have p' := thermDeBroglie_pos u hT'
  have hle : thermDeBroglie u T' ≤ thermDeBroglie u T := by
    have := u.hbar_pos
    have := u.me_pos
    unfold thermDeBroglie
    gcongr
  constructor
  · unfold sahaEquation
    positivity
  · unfold sahaEquation
    have h1 : gj / gi * 2 / thermDeBroglie u T ^ 3 ≤ gj / gi * 2 / thermDeBroglie u T' ^ 3 := by gcongr
    have h2 : -dE / (u.kB * T) ≤ -dE' / (u.kB * T') := by
      rw [neg_div, neg_div, neg_le_neg_iff]
      calc dE' / (u.kB * T') ≤ dE / (u.kB * T') := by gcongr
        _ ≤ dE / (u.kB * T) := by gcongr
    exact mul_le_mul h1 (exp_le_exp.2 h2) (exp_pos _).le (by positivity)

/-- C63.  A hotter plasma never has fewer free electrons. -/
theorem saha_hotter (l : List (ℕ × (ℕ → ℝ) × (ℕ → ℝ) × (ℕ → ℝ) × ℝ)) {T T' : ℝ} (hT : 0 < T) (hTT : T ≤ T')
    (hl : ∀ e ∈ l, (∀ k ≤ e.1, 0 < e.2.1 k) ∧ (∀ k < e.1, 0 ≤ e.2.2.1 k + e.2.2.2.1 k) ∧ 0 ≤ e.2.2.2.2)
    (b : Bool) {pop pop' : Species → ℕ → ℝ} {ne ne' : ℝ}
    (h : Equilibrium (l.map fun e => sahaSpecies u e.1 e.2.1 e.2.2.1 e.2.2.2.1 T e.2.2.2.2 b) pop ne)
    (h' : Equilibrium (l.map fun e => sahaSpecies u e.1 e.2.1 e.2.2.1 e.2.2.2.1 T' e.2.2.2.2 b) pop' ne') :
    ne ≤ ne' := by
  refine equilibrium_mono (l := l.map fun e => (sahaSpecies u e.1 e.2.1 e.2.2.1 e.2.2.2.1 T e.2.2.2.2 b,
    sahaSpecies u e.1 e.2.1 e.2.2.1 e.2.2.2.1 T' e.2.2.2.2 b)) ?_ (pop := pop) (pop' := pop')
    (by rwa [List.map_map]) (by rwa [List.map_map])
  intro p hp
  obtain ⟨e, he, rfl⟩ := List.mem_map.1 hp
  obtain ⟨h1, h2, h3⟩ := hl e he
  refine ⟨rfl, rfl, h3, fun k hk => ?_⟩
  exact sahaEquation_mono u (h1 k (Nat.le_of_lt hk)) (h1 (k + 1) hk) hT hTT le_rfl (h2 k hk)

/-- C63.  The generalised equation agrees with the classical one exactly for the chemical potential of
the classical ideal gas, `k T ln(n λ^3 / 2)`. -/
theorem genSaha_eq_iff {gi gj T ne dE mu : ℝ} (hi : gi ≠ 0) (hj : gj ≠ 0) (hT : 0 < T) (hn : 0 < ne) :
    genSahaEquation u gi gj T ne dE mu = sahaEquation u gi gj T dE ↔
      mu = u.kB * T * log (degeneracyParam u ne T / 2) := by
  have p := thermDeBroglie_pos u hT
  have hB := u.kB_pos
  have hd : 0 < degeneracyParam u ne T / 2 := by
    unfold degeneracyParam
    positivity
  have e1 : genSahaEquation u gi gj T ne dE mu =
      gj / gi * exp (-dE / (u.kB * T)) * (ne * exp (-(mu / (u.kB * T)))) := by
    unfold genSahaEquation
    rw [one_mul, neg_div _ mu]
    ring
  have e2 : sahaEquation u gi gj T dE = gj / gi * exp (-dE / (u.kB * T)) * (ne / (degeneracyParam u ne T / 2)) := by
    unfold sahaEquation degeneracyParam
    field_simp
  have hne : gj / gi * exp (-dE / (u.kB * T)) ≠ 0 := mul_ne_zero (div_ne_zero hj hi) (exp_pos _).ne'
  rw [e1, e2, mul_right_inj' hne, div_eq_mul_inv ne, mul_right_inj' hn.ne', exp_neg, inv_inj]
  constructor
  · intro h
    rw [← h, log_exp]
    field_simp
  · rintro rfl
    rw [mul_div_cancel_left₀ _ (by positivity), exp_log hd]

/-- C63.  With the chemical potential of the plasma state, the generalised equation turns into the
classical one at high temperatures. -/
theorem genSaha_hot {gi gj ne dE : ℝ} (hi : gi ≠ 0) (hj : gj ≠ 0) (hn : 0 < ne) :
    Tendsto (fun T => genSahaEquation u gi gj T ne dE (chemPotIchimaru u T ne) / sahaEquation u gi gj T dE)
      atTop (𝓝 1) := by
  have h := chemPotIchimaru_classical u hn
  have h2 := h.inv₀ one_ne_zero
  rw [inv_one] at h2
  refine h2.congr' ?_
  filter_upwards [eventually_gt_atTop 0] with T hT
  have p := thermDeBroglie_pos u hT
  have := exp_pos (chemPotIchimaru u T ne / (u.kB * T))
  have := exp_pos (-dE / (u.kB * T))
  unfold genSahaEquation sahaEquation degeneracyParam
  rw [one_mul, neg_div (u.kB * T) (chemPotIchimaru u T ne), exp_neg]
  field_simp

/-! ### The Planck-Larkin sum -/

/-- Specification: the Planck-Larkin sum over levels with binding energies `x` (in units of the thermal
energy), Kremp et al., eq. 6.182, where the energies of bound states are negative. -/
noncomputable def plExact (levels : List (ℝ × ℝ)) (T : ℝ) : ℝ :=
  (levels.map fun l => if 0 < l.2 then l.1 * (exp (l.2 / (T * u.kB)) - 1 - l.2 / (T * u.kB)) else 0).sum

theorem exp_neg_le_quad {x : ℝ} (hx : 0 ≤ x) : exp (-x) - 1 + x ≤ x ^ 2 / 2 := by
  have h := quadratic_le_exp_of_nonneg hx
  have h1 : exp (-x) * exp x = 1 := by rw [← exp_add]; simp
  have hp := exp_pos (-x)
  have h2 : exp (-x) * (1 + x + x ^ 2 / 2) ≤ 1 := by
    have := mul_le_mul_of_nonneg_left h hp.le
    linarith
  have h3 : 1 ≤ (1 - x + x ^ 2 / 2) * (1 + x + x ^ 2 / 2) := by nlinarith [sq_nonneg (x ^ 2)]
  by_contra hh
  push Not at hh
  have h4 : 0 < 1 + x + x ^ 2 / 2 := by positivity
  nlinarith

theorem exp_quad_lt {x : ℝ} (hx : 0 < x) : x ^ 2 / 2 < exp x - 1 - x := by
  have h := sum_le_exp_of_nonneg hx.le 4
  simp only [sum_range_succ, sum_range_zero, Nat.factorial] at h
  norm_num at h
  have : 0 < x ^ 3 := by positivity
  linarith

theorem planckLarkin_term (T : ℝ) (l : ℝ × ℝ) :
    l.1 * (exp (-(l.2 / (T * u.kB))) - 1 + l.2 / (T * u.kB)) * heav0 l.2 =
      if 0 < l.2 then l.1 * (exp (-(l.2 / (T * u.kB))) - 1 + l.2 / (T * u.kB)) else 0 := by
  unfold heav0
  split_ifs <;> simp

/-- C64.  The sum is finite and not negative, and levels at or above the threshold do not contribute.
(Partial: the value itself is wrong, see `planckLarkin_lt`.) -/
theorem planckLarkin_nonneg_partial {levels : List (ℝ × ℝ)} {T : ℝ} (hg : ∀ l ∈ levels, 0 ≤ l.1) :
    0 ≤ planckLarkin u levels T ∧
      planckLarkin u levels T = planckLarkin u (levels.filter fun l => decide (0 < l.2)) T := by
  have hB := u.kB_pos
  constructor
  · refine List.sum_nonneg ?_
    intro x hx
    obtain ⟨l, hl, rfl⟩ := List.mem_map.1 hx
    simp only []
    rw [planckLarkin_term]
    split_ifs with h
    · refine mul_nonneg (hg l hl) ?_
      linarith [add_one_le_exp (-(l.2 / (T * u.kB)))]
    · exact le_rfl
  · unfold planckLarkin
    clear hg
    induction levels with
    | nil => rfl
    | cons l L ih =>
      rw [List.filter_cons]
      by_cases h : 0 < l.2
      · simp only [h, decide_true, if_true, List.map_cons, List.sum_cons]
        rw [ih]
      · simp only [h, decide_false, List.map_cons, List.sum_cons, Bool.false_eq_true, if_false]
        rw [ih, heav0, if_neg h, mul_zero, zero_add]

/-- C64.  Each bound level with positive degeneracy is counted with too small a weight: the sum is
strictly below the Planck-Larkin sum, in fact on the other side of the common leading term
`Σ g x² / 2`.  It grows at most linearly with the binding energies, and never like the Boltzmann factor. -/
theorem planckLarkin_lt {levels : List (ℝ × ℝ)} {T : ℝ} (hT : 0 < T) (hg : ∀ l ∈ levels, 0 < l.1)
    (hb : ∃ l ∈ levels, 0 < l.2) :
    planckLarkin u levels T ≤ (levels.map fun l => if 0 < l.2 then l.1 * ((l.2 / (T * u.kB)) ^ 2 / 2) else 0).sum ∧
    (levels.map fun l => if 0 < l.2 then l.1 * ((l.2 / (T * u.kB)) ^ 2 / 2) else 0).sum < plExact u levels T ∧
    planckLarkin u levels T ≤ (levels.map fun l => if 0 < l.2 then l.1 * (l.2 / (T * u.kB)) else 0).sum := by
  have hB := u.kB_pos
  refine ⟨?_, ?_, ?_⟩
  · refine List.sum_le_sum fun l hl => ?_
    simp only []
    rw [planckLarkin_term]
    split_ifs with h
    · exact mul_le_mul_of_nonneg_left (exp_neg_le_quad (by positivity)) (hg l hl).le
    · exact le_rfl
  · obtain ⟨l, hl, h⟩ := hb
    refine List.sum_lt_sum _ _ (fun l hl => ?_) ⟨l, hl, ?_⟩
    · split_ifs with h
      · exact mul_le_mul_of_nonneg_left (exp_quad_lt (by positivity)).le (hg l hl).le
      · exact le_rfl
    · rw [if_pos h, if_pos h]
      exact mul_lt_mul_of_pos_left (exp_quad_lt (by positivity)) (hg l hl)
  · refine List.sum_le_sum fun l hl => ?_
    simp only []
    rw [planckLarkin_term]
    split_ifs with h
    · refine mul_le_mul_of_nonneg_left ?_ (hg l hl).le
      have h1 : exp (-(l.2 / (T * u.kB))) ≤ 1 := exp_le_one_iff.2 (by
        have : 0 < l.2 / (T * u.kB) := by positivity
        linarith)
      linarith
    · exact le_rfl

/-- C64.  For cold plasmas the sum loses all of the weight of a bound level. -/
theorem planckLarkin_cold {g E : ℝ} (hg : 0 < g) (hE : 0 < E) :
    Tendsto (fun T => planckLarkin u [(g, E)] T / plExact u [(g, E)] T) (𝓝[>] 0) (𝓝 0) := by
  have hB := u.kB_pos
  have hx : Tendsto (fun T => E / (T * u.kB)) (𝓝[>] 0) atTop := by
    have h1 : Tendsto (fun T : ℝ => T⁻¹) (𝓝[>] 0) atTop := tendsto_inv_nhdsGT_zero
    have h2 := h1.const_mul_atTop (div_pos hE hB)
    refine h2.congr fun T => ?_
    rw [div_mul_eq_div_div_swap, div_eq_mul_inv (E / u.kB)]
  have hlim : Tendsto (fun x : ℝ => 3 / (x)) atTop (𝓝 0) := tendsto_const_nhds.div_atTop tendsto_id
  have h0 := hlim.comp hx
  refine squeeze_zero' ?_ ?_ h0
  · filter_upwards [self_mem_nhdsWithin] with T hT
    have hT' : 0 < T := hT
    refine div_nonneg (planckLarkin_nonneg_partial u (by simpa using hg.le)).1 ?_
    simp only [plExact, List.map_cons, List.map_nil, List.sum_cons, List.sum_nil, add_zero, if_pos hE]
    have : 0 < E / (T * u.kB) := by positivity
    have := exp_quad_lt this
    have h5 : 0 < (E / (T * u.kB)) ^ 2 / 2 := by positivity
    refine mul_nonneg hg.le ?_
    linarith
  · filter_upwards [self_mem_nhdsWithin] with T hT
    have hT' : 0 < T := hT
    set x := E / (T * u.kB) with hxd
    have hx0 : 0 < x := by positivity
    have h1 : planckLarkin u [(g, E)] T ≤ g * x := by
      have := (planckLarkin_lt u hT' (levels := [(g, E)]) (by simpa using hg) ⟨(g, E), by simp, hE⟩).2.2
      simpa [hE, ← hxd] using this
    have h2 : plExact u [(g, E)] T = g * (exp x - 1 - x) := by
      simp [plExact, hE, ← hxd]
    have h3 := exp_quad_lt hx0
    have h4 : 0 < x ^ 2 / 2 := by positivity
    rw [h2]
    change _ ≤ 3 / x
    calc planckLarkin u [(g, E)] T / (g * (exp x - 1 - x)) ≤ g * x / (g * (x ^ 2 / 2)) := by
          refine div_le_div₀ (by positivity) h1 (by positivity) (mul_le_mul_of_nonneg_left h3.le hg.le)
      _ = 2 / x := by field_simp
      _ ≤ 3 / x := by gcongr; norm_num

/-- C64.  Hydrogen, or any atom with a single bound electron: the solver returns at least as many free
electrons as the correct sum would. -/
theorem bu_overionizes {levels : List (ℝ × ℝ)} {E ipd T ne0 mu N : ℝ} (hT : 0 < T) (hn : 0 < ne0) (hN : 0 ≤ N)
    (hg : ∀ l ∈ levels, 0 < l.1) (hb : ∃ l ∈ levels, l.2 < E + ipd)
    {pop pop' : Species → ℕ → ℝ} {ne ne' : ℝ}
    (h' : Equilibrium [buSpecies u 1 (fun _ => levels) (fun _ => E) (fun _ => ipd) T ne0 mu N] pop' ne')
    (h : Equilibrium [⟨1, fun _ => genBalance u (plExact u (levels.map fun l => (l.1, E + ipd - l.2)) T) 1 T ne0 mu,
      fun _ => 1, N⟩] pop ne) : ne ≤ ne' := by
  set s := buSpecies u 1 (fun _ => levels) (fun _ => E) (fun _ => ipd) T ne0 mu N with hs
  set L := levels.map fun l => (l.1, E + ipd - l.2) with hL
  have hg' : ∀ l ∈ L, 0 < l.1 := by
    intro l hl
    obtain ⟨m, hm, rfl⟩ := List.mem_map.1 hl
    exact hg m hm
  have hb' : ∃ l ∈ L, 0 < l.2 := by
    obtain ⟨m, hm, hh⟩ := hb
    exact ⟨_, List.mem_map.2 ⟨m, hm, rfl⟩, by simpa using hh⟩
  have hlt := planckLarkin_lt u hT hg' hb'
  have hB := u.kB_pos
  have hpos : 0 < planckLarkin u L T := by
    obtain ⟨l, hl, hh⟩ := hb'
    have hz : (L.map fun _ => (0 : ℝ)).sum = 0 := by simp
    rw [← hz]
    refine List.sum_lt_sum _ _ (fun l hl => ?_) ⟨l, hl, ?_⟩
    · simp only []
      rw [planckLarkin_term]
      split_ifs with h1
      · exact mul_nonneg (hg' l hl).le (by linarith [add_one_le_exp (-(l.2 / (T * u.kB)))])
      · exact le_rfl
    · simp only []
      rw [planckLarkin_term, if_pos hh]
      have h2 : -(l.2 / (T * u.kB)) ≠ 0 := by
        have : 0 < l.2 / (T * u.kB) := by positivity
        linarith
      exact mul_pos (hg' l hl) (by linarith [add_one_lt_exp h2])
  have hpl : plExact u L T > planckLarkin u L T := hlt.1.trans_lt hlt.2.1
  refine equilibrium_mono (l := [(_, s)]) ?_ (pop := pop) (pop' := pop') h h'
  intro p hp
  rw [List.mem_singleton] at hp
  subst hp
  refine ⟨rfl, rfl, hN, fun k hk => ?_⟩
  have hk0 : k = 0 := by
    have : k < 1 := hk
    omega
  subst hk0
  have e : s.coeff 0 = genBalance u (planckLarkin u L T) 1 T ne0 mu := by
    simp [hs, buSpecies, hL]
  rw [e]
  have hex := exp_pos (-mu / (1 * u.kB * T))
  have hp2 : 0 < plExact u L T := hpos.trans hpl
  constructor
  · change 0 < genBalance u (plExact u L T) 1 T ne0 mu
    unfold genBalance
    positivity
  · change genBalance u (plExact u L T) 1 T ne0 mu ≤ _
    unfold genBalance
    gcongr

/-- Hydrogen in its two lowest levels meets the hypotheses: both equilibria exist. -/
example : ∃ (pop pop' : Species → ℕ → ℝ) (ne ne' : ℝ),
    Equilibrium [buSpecies unitConsts 1 (fun _ => [(2, 0), (8, 3 / 4)]) (fun _ => 1) (fun _ => 0) 1 1 0 1] pop' ne' ∧
    Equilibrium [⟨1, fun _ => genBalance unitConsts (plExact unitConsts
      ([((2 : ℝ), (0 : ℝ)), (8, 3 / 4)].map fun l => (l.1, 1 + 0 - l.2)) 1) 1 1 1 0, fun _ => 1, 1⟩] pop ne := by
  have hx : ∀ x : ℝ, 0 < x → 0 < exp x - 1 - x ∧ 0 < exp (-x) - 1 + x := fun x h =>
    ⟨by linarith [add_one_lt_exp h.ne'], by linarith [add_one_lt_exp (show -x ≠ 0 by linarith)]⟩
  obtain ⟨p, n, h1, -⟩ := equilibrium_exists
    (l := [buSpecies unitConsts 1 (fun _ => [(2, 0), (8, 3 / 4)]) (fun _ => 1) (fun _ => 0) 1 1 0 1]) (by
      intro s hs
      rw [List.mem_singleton] at hs
      subst hs
      refine ⟨by norm_num [buSpecies], fun k hk => ?_⟩
      have hk0 : k = 0 := by
        have : k < 1 := hk
        omega
      subst hk0
      have a := (hx 1 (by norm_num)).2
      have b := (hx (1 / 4) (by norm_num)).2
      norm_num [buSpecies, genBalance, planckLarkin, unitConsts, heav0]
      norm_num at b
      linarith) (by norm_num [maxNe, buSpecies])
  obtain ⟨p', n', h2, -⟩ := equilibrium_exists
    (l := [⟨1, fun _ => genBalance unitConsts (plExact unitConsts
      ([((2 : ℝ), (0 : ℝ)), (8, 3 / 4)].map fun l => (l.1, 1 + 0 - l.2)) 1) 1 1 1 0, fun _ => 1, 1⟩]) (by
      intro s hs
      rw [List.mem_singleton] at hs
      subst hs
      refine ⟨by norm_num, fun k hk => ?_⟩
      have a := (hx 1 (by norm_num)).1
      have b := (hx (1 / 4) (by norm_num)).1
      norm_num [genBalance, plExact, unitConsts]
      norm_num at b
      linarith) (by norm_num [maxNe])
  exact ⟨p', p, n', n, h1, h2⟩

/-! ### Thomas-Fermi charge -/

theorem moreC_pos {Z T : ℝ} (hZ : 0 < Z) (hT : 0 < T) :
    0 < T / Z ^ (4 / 3 : ℝ) / (1 + T / Z ^ (4 / 3 : ℝ)) ∧ T / Z ^ (4 / 3 : ℝ) / (1 + T / Z ^ (4 / 3 : ℝ)) < 1 := by
  have h : 0 < T / Z ^ (4 / 3 : ℝ) := div_pos hT (rpow_pos_of_pos hZ _)
  constructor
  · positivity
  · rw [div_lt_one (by positivity)]
    linarith

/-- The combination of the two regimes is above both of them. -/
theorem more_lower {rho T m Z : ℝ} (hr : 0 < rho) (hT : 0 < T) (hm : 0 < m) (hZ : 0 < Z) :
    143139 / 10000 * (rho / m / Z) ^ (6624 / 10000 : ℝ) ≤ moreX rho T m Z ∧
    143139 / 10000 * (3323 / 1000000 * (T / Z ^ (4 / 3 : ℝ)) ^ (9718 / 10000 : ℝ) * min 1 (1 / (rho / m / Z))) ^ (6624 / 10000 : ℝ) ≤
      moreX rho T m Z := by
  obtain ⟨t1, t2⟩ := moreC_pos hZ hT
  have hT0 : 0 < T / Z ^ (4 / 3 : ℝ) := div_pos hT (rpow_pos_of_pos hZ _)
  unfold moreX
  simp only []
  set T0 := T / Z ^ (4 / 3 : ℝ) with hT0d
  set R := rho / m / Z with hR
  have hR0 : 0 < R := by positivity
  set Tf := T0 / (1 + T0) with hTf
  set C : ℝ := -366667 / 1000000 * Tf + 983333 / 1000000 with hC
  have hC0 : 0 < C := by rw [hC]; nlinarith
  set A : ℝ := 3323 / 1000000 * T0 ^ (9718 / 10000 : ℝ) + 926148 / 10000000000 * T0 ^ (310165 / 100000 : ℝ) with hA
  have pA1 : 0 < T0 ^ (9718 / 10000 : ℝ) := rpow_pos_of_pos hT0 _
  have pA2 : 0 < T0 ^ (310165 / 100000 : ℝ) := rpow_pos_of_pos hT0 _
  have hA0 : 0 < A := by positivity
  set B : ℝ := -exp (-17630 / 10000 + 143175 / 100000 * Tf + 31546 / 100000 * Tf ^ 7) with hB
  have hB1 : -1 ≤ B := by
    rw [hB, neg_le_neg_iff, exp_le_one_iff]
    have : Tf ^ 7 ≤ 1 := pow_le_one₀ t1.le t2.le
    nlinarith
  have hB0 : B ≤ 0 := by
    rw [hB]
    linarith [exp_pos (-17630 / 10000 + 143175 / 100000 * Tf + 31546 / 100000 * Tf ^ 7)]
  have hRB : min 1 (1 / R) ≤ R ^ B := by
    rcases le_total R 1 with h | h
    · exact (min_le_left _ _).trans (one_le_rpow_of_pos_of_le_one_of_nonpos hR0 h hB0)
    · refine (min_le_right _ _).trans ?_
      have := rpow_le_rpow_of_exponent_le h hB1
      rwa [rpow_neg_one, ← one_div] at this
  have hQ1 : 0 < A * R ^ B := mul_pos hA0 (rpow_pos_of_pos hR0 _)
  set Q1 := A * R ^ B with hQ1d
  have root : ∀ q : ℝ, 0 < q → q ^ C ≤ R ^ C + Q1 ^ C → q ≤ (R ^ C + Q1 ^ C) ^ (1 / C) := by
    intro q hq h
    have h1 := rpow_le_rpow (rpow_pos_of_pos hq C).le h (by positivity : 0 ≤ 1 / C)
    rwa [← rpow_mul hq.le, mul_one_div_cancel hC0.ne', rpow_one] at h1
  have p1 : 0 < R ^ C := rpow_pos_of_pos hR0 _
  have p2 : 0 < Q1 ^ C := rpow_pos_of_pos hQ1 _
  constructor
  · refine mul_le_mul_of_nonneg_left (rpow_le_rpow hR0.le (root R hR0 (by linarith)) (by norm_num)) (by norm_num)
  · have hmin : 0 < min 1 (1 / R) := lt_min one_pos (by positivity)
    refine mul_le_mul_of_nonneg_left (rpow_le_rpow (by positivity) (le_trans ?_ (root Q1 hQ1 (by linarith))) (by norm_num)) (by norm_num)
    rw [hQ1d]
    refine mul_le_mul ?_ hRB hmin.le hA0.le
    rw [hA]
    have : 0 ≤ 926148 / 10000000000 * T0 ^ (310165 / 100000 : ℝ) := by positivity
    linarith

theorem moreX_pos {rho T m Z : ℝ} (hr : 0 < rho) (hT : 0 < T) (hm : 0 < m) (hZ : 0 < Z) : 0 < moreX rho T m Z := by
  refine lt_of_lt_of_le ?_ (more_lower hr hT hm hZ).1
  have : 0 < rho / m / Z := by positivity
  have := rpow_pos_of_pos this (6624 / 10000 : ℝ)
  positivity

/-- C65.  The Thomas-Fermi charge is strictly between zero and the atomic number. -/
theorem moreZ_mem {rho T m Z : ℝ} (hr : 0 < rho) (hT : 0 < T) (hm : 0 < m) (hZ : 0 < Z) :
    0 < moreZ rho T m Z ∧ moreZ rho T m Z < Z := by
  have hx := moreX_pos hr hT hm hZ
  have hs := sqrt_nonneg (1 + 2 * moreX rho T m Z)
  unfold moreZ
  refine ⟨by positivity, ?_⟩
  rw [div_lt_iff₀ (by positivity)]
  nlinarith

/-- The ionized fraction `x / (1 + x + sqrt(1 + 2 x))` tends to one. -/
theorem more_fraction_tendsto : Tendsto (fun x : ℝ => x / (1 + x + sqrt (1 + 2 * x))) atTop (𝓝 1) := by
  have h1 : Tendsto (fun x : ℝ => x⁻¹) atTop (𝓝 0) := tendsto_inv_atTop_zero
  have h2 : Tendsto (fun x : ℝ => sqrt (x⁻¹ ^ 2 + 2 * x⁻¹)) atTop (𝓝 0) := by
    have : Tendsto (fun x : ℝ => x⁻¹ ^ 2 + 2 * x⁻¹) atTop (𝓝 (0 ^ 2 + 2 * 0)) := (h1.pow 2).add (h1.const_mul 2)
    have h3 := this.sqrt
    simpa using h3
  have h4 : Tendsto (fun x : ℝ => 1 / (x⁻¹ + 1 + sqrt (x⁻¹ ^ 2 + 2 * x⁻¹))) atTop (𝓝 (1 / (0 + 1 + 0))) :=
    tendsto_const_nhds.div ((h1.add_const 1).add h2) (by norm_num)
  rw [show (1 : ℝ) / (0 + 1 + 0) = 1 by norm_num] at h4
  refine h4.congr' ?_
  filter_upwards [eventually_gt_atTop 0] with x hx
  have e : sqrt (x⁻¹ ^ 2 + 2 * x⁻¹) = sqrt (1 + 2 * x) / x := by
    rw [show x⁻¹ ^ 2 + 2 * x⁻¹ = (1 + 2 * x) / x ^ 2 by field_simp, sqrt_div' _ (by positivity), sqrt_sq hx.le]
  rw [e]
  have := sqrt_nonneg (1 + 2 * x)
  field_simp

theorem moreZ_tendsto {ι : Type} {F : Filter ι} {r t : ι → ℝ} {m Z : ℝ}
    (h : Tendsto (fun i => moreX (r i) (t i) m Z) F atTop) : Tendsto (fun i => moreZ (r i) (t i) m Z) F (𝓝 Z) := by
  have := (more_fraction_tendsto.comp h).const_mul Z
  rw [mul_one] at this
  refine this.congr fun i => ?_
  unfold moreZ
  simp only [Function.comp_apply]
  ring

/-- C65.  The ions are fully ionized in the limit of high density (pressure ionization). -/
theorem moreZ_dense {T m Z : ℝ} (hT : 0 < T) (hm : 0 < m) (hZ : 0 < Z) :
    Tendsto (fun rho => moreZ rho T m Z) atTop (𝓝 Z) := by
  refine moreZ_tendsto (r := fun x => x) (t := fun _ => T) ?_
  have h1 : Tendsto (fun rho : ℝ => rho / m / Z) atTop atTop :=
    (tendsto_id.atTop_div_const hm).atTop_div_const hZ
  have h2 := ((tendsto_rpow_atTop (show (0 : ℝ) < 6624 / 10000 by norm_num)).comp h1).const_mul_atTop
    (show (0 : ℝ) < 143139 / 10000 by norm_num)
  refine tendsto_atTop_mono' _ ?_ h2
  filter_upwards [eventually_gt_atTop 0] with rho hr
  exact (more_lower hr hT hm hZ).1

/-- C65.  The ions are fully ionized in the limit of high temperature. -/
theorem moreZ_hot {rho m Z : ℝ} (hr : 0 < rho) (hm : 0 < m) (hZ : 0 < Z) :
    Tendsto (fun T => moreZ rho T m Z) atTop (𝓝 Z) := by
  refine moreZ_tendsto (r := fun _ => rho) (t := fun T => T) ?_
  have hmin : 0 < min 1 (1 / (rho / m / Z)) := lt_min one_pos (by positivity)
  have h1 : Tendsto (fun T : ℝ => T / Z ^ (4 / 3 : ℝ)) atTop atTop :=
    tendsto_id.atTop_div_const (rpow_pos_of_pos hZ _)
  have h2 := (tendsto_rpow_atTop (show (0 : ℝ) < 9718 / 10000 by norm_num)).comp h1
  have h3 := (h2.const_mul_atTop (show (0 : ℝ) < 3323 / 1000000 by norm_num)).atTop_mul_const hmin
  have h4 := ((tendsto_rpow_atTop (show (0 : ℝ) < 6624 / 10000 by norm_num)).comp h3).const_mul_atTop
    (show (0 : ℝ) < 143139 / 10000 by norm_num)
  refine tendsto_atTop_mono' _ ?_ h4
  filter_upwards [eventually_gt_atTop 0] with T hT
  exact (more_lower hr hT hm hZ).2

/-- C65.  The charge scales: charge per electron of the atom depends on `rho / (m Z)` and `T / Z^(4/3)`
only. -/
theorem moreZ_scale {rho T m Z a : ℝ} (hZ : 0 < Z) (ha : 0 < a) :
    moreZ (a * rho) (a ^ (4 / 3 : ℝ) * T) m (a * Z) = a * moreZ rho T m Z := by
  have e1 : a * rho / m / (a * Z) = rho / m / Z := by
    rw [mul_div_assoc, mul_div_mul_left _ _ ha.ne']
  have e2 : a ^ (4 / 3 : ℝ) * T / (a * Z) ^ (4 / 3 : ℝ) = T / Z ^ (4 / 3 : ℝ) := by
    rw [mul_rpow ha.le hZ.le, mul_div_mul_left _ _ (rpow_pos_of_pos ha _).ne']
  have e3 : moreX (a * rho) (a ^ (4 / 3 : ℝ) * T) m (a * Z) = moreX rho T m Z := by
    unfold moreX
    simp only [e1, e2]
  unfold moreZ
  rw [e3]
  ring

/-! ### The self-consistent charges of a mixture -/

section
variable {n : ℕ} {amu T : ℝ} {ni m Z : Fin n → ℝ}

theorem more_cond_count {s : (Fin n → ℝ) × (Fin n → ℝ) × ℕ} (h : moreCond s = true) : s.2.2 < 100 := by
  simp only [moreCond, decide_eq_true_eq] at h
  exact h.2

theorem moreWhile_total (s : (Fin n → ℝ) × (Fin n → ℝ) × ℕ) : ∃ s', MoreWhile amu ni m Z T s s' := by
  generalize hk : 100 - s.2.2 = k
  induction k generalizing s with
  | zero =>
    refine ⟨s, .stop ?_⟩
    by_contra h
    have := more_cond_count (Bool.eq_true_of_not_eq_false h)
    omega
  | succ k ih =>
    by_cases h : moreCond s = true
    · obtain ⟨s', hs⟩ := ih (moreLoop amu ni m Z T s) (by simp only [moreLoop]; omega)
      exact ⟨s', .step h hs⟩
    · exact ⟨s, .stop (Bool.eq_false_iff.2 h)⟩

theorem moreWhile_det {s s' : (Fin n → ℝ) × (Fin n → ℝ) × ℕ} (h : MoreWhile amu ni m Z T s s') :
    ∀ {t}, MoreWhile amu ni m Z T s t → s' = t := by
  induction h with
  | stop h0 =>
    intro t ht
    cases ht with
    | stop _ => rfl
    | step h1 _ => rw [h0] at h1; cases h1
  | step h0 _ ih =>
    intro t ht
    cases ht with
    | stop h1 => rw [h0] at h1; cases h1
    | step _ h2 => exact ih h2

theorem moreWhile_final {s s' : (Fin n → ℝ) × (Fin n → ℝ) × ℕ} (h : MoreWhile amu ni m Z T s s') :
    moreCond s' = false := by
  induction h with
  | stop h => exact h
  | step _ _ ih => exact ih

/-- The loop invariant: the second entry belongs to the first, and both are charges. -/
theorem moreWhile_inv {s s' : (Fin n → ℝ) × (Fin n → ℝ) × ℕ} (h : MoreWhile amu ni m Z T s s')
    (P : (Fin n → ℝ) → Prop) (hP : ∀ z, P z → P (moreBody amu ni m Z T z))
    (h0 : P s.1) (h1 : s.2.1 = moreBody amu ni m Z T s.1) :
    P s'.1 ∧ s'.2.1 = moreBody amu ni m Z T s'.1 := by
  induction h with
  | stop _ => exact ⟨h0, h1⟩
  | step _ _ ih =>
    refine ih ?_ rfl
    simp only [moreLoop]
    rw [h1]
    exact hP _ h0

/-- C65.  The loop returns one result.  All charges are between zero and the atomic number.  They are
the Thomas-Fermi charges at the effective densities of some earlier charges, and these differ from the
result by at most `1e-5` unless the loop was given up after 100 iterations. -/
theorem more_returns (hT : 0 < T) (ha : 0 < amu) (hn : ∀ i, 0 < ni i) (hm : ∀ i, 0 < m i) (hZ : ∀ i, 0 < Z i) :
    (∃ z, MoreReturns amu ni m Z T z) ∧ (∀ z z', MoreReturns amu ni m Z T z → MoreReturns amu ni m Z T z' → z = z') ∧
    ∀ z, MoreReturns amu ni m Z T z → (∀ i, 0 < z i ∧ z i < Z i) ∧
      ∃ (z0 : Fin n → ℝ) (k : ℕ), (∀ i, 0 < z0 i ∧ z0 i < Z i) ∧
        (∀ i, z i = moreZ ((∑ j, ni j * z0 j) / z0 i * (m i * amu)) T (m i) (Z i)) ∧
        ((∀ i, |z i - z0 i| ≤ 1 / 100000) ∨ 100 ≤ k) := by
  refine ⟨?_, ?_, ?_⟩
  · obtain ⟨s, hs⟩ := moreWhile_total (amu := amu) (ni := ni) (m := m) (Z := Z) (T := T)
      (fun i => 1 / 2 * Z i, moreBody amu ni m Z T (fun i => 1 / 2 * Z i), 0)
    exact ⟨s.2.1, s, hs, rfl⟩
  · rintro z z' ⟨s, hs, rfl⟩ ⟨s', hs', rfl⟩
    rw [moreWhile_det hs hs']
  · rintro z ⟨s, hs, rfl⟩
    have hbody : ∀ z0 : Fin n → ℝ, (∀ i, 0 < z0 i ∧ z0 i < Z i) →
        ∀ i, 0 < moreBody amu ni m Z T z0 i ∧ moreBody amu ni m Z T z0 i < Z i := by
      intro z0 h i
      have hne : 0 < ∑ j, ni j * z0 j := sum_pos (fun j _ => mul_pos (hn j) (h j).1) ⟨i, mem_univ i⟩
      exact moreZ_mem (mul_pos (div_pos hne (h i).1) (mul_pos (hm i) ha)) hT (hm i) (hZ i)
    have hinv := moreWhile_inv hs (fun z => ∀ i, 0 < z i ∧ z i < Z i) hbody
      (fun i => ⟨by simpa using hZ i, by linarith [hZ i]⟩) rfl
    have hf := moreWhile_final hs
    simp only [moreCond, decide_eq_false_iff_not, not_and_or, not_exists, not_lt, gt_iff_lt] at hf
    refine ⟨?_, s.1, s.2.2, hinv.1, ?_, hf⟩
    · rw [hinv.2]
      exact hbody _ hinv.1
    · intro i
      rw [hinv.2]
      rfl

/-- C65.  For a single element the result is the one of the formula for one element, at the mass
density of the plasma. -/
theorem more_single {ni m Z : Fin 1 → ℝ} (hT : 0 < T) (ha : 0 < amu) (hn : 0 < ni 0) (hm : 0 < m 0) (hZ : 0 < Z 0)
    {z : Fin 1 → ℝ} (h : MoreReturns amu ni m Z T z) : z 0 = moreZ (ni 0 * (m 0 * amu)) T (m 0) (Z 0) := by
  have one : ∀ {p : Fin 1 → Prop}, p 0 → ∀ i, p i := fun h i => by rwa [Subsingleton.elim i 0]
  obtain ⟨z0, k, h1, h2, -⟩ := ((more_returns hT ha (one hn) (one hm) (one hZ)).2.2 z h).2
  rw [h2 0, Fin.sum_univ_one, mul_div_assoc, div_self (h1 0).1.ne', mul_one]

/-- Water at 10 eV meets the hypotheses. -/
example : (0 : ℝ) < 10 ∧ (0 : ℝ) < 1.66e-24 ∧ (∀ i, 0 < (![6.7e22, 3.3e22] : Fin 2 → ℝ) i) ∧
    (∀ i, 0 < (![1, 16] : Fin 2 → ℝ) i) ∧ ∀ i, 0 < (![1, 8] : Fin 2 → ℝ) i := by
  refine ⟨by norm_num, by norm_num, ?_, ?_, ?_⟩ <;> intro i <;> fin_cases i <;> norm_num

end

/-! ### Which states exist -/

/-- C63.  Charge states whose ionization energy, after the depression of the continuum, is not positive hold at most
`exp(-500)` of the ions; the states above them are in the balance with the shifted energies (unless a logarithm is cut).
The same holds for the generalised equation.  Without the exclusion all states are in balance. -/
theorem saha_excluded {u : Consts} {Z m : ℕ} {g E ipd : ℕ → ℝ} {T ne mu N : ℝ} (hT : 0 < T) (hn : 0 < ne) (hg : ∀ k ≤ Z, 0 < g k)
    (hm : m ≤ Z) (hlow : ∀ k < m, E k + ipd k ≤ 0) (hhigh : ∀ k < Z, m ≤ k → 0 < E k + ipd k) (y : ℝ) :
    (∀ i < m, weight (sahaSpecies u Z g E ipd T N true) y i ≤ exp (-500) ∧
      weight (genSahaSpecies u Z g E ipd T ne mu N true) y i ≤ exp (-500)) ∧
    (∀ i < Z, m ≤ i → ∀ a b, logP (sahaSpecies u Z g E ipd T N true) y i = some a →
      logP (sahaSpecies u Z g E ipd T N true) y (i + 1) = some b → |a| ≤ 500 → |b| ≤ 500 →
      weight (sahaSpecies u Z g E ipd T N true) y (i + 1) * exp y =
        weight (sahaSpecies u Z g E ipd T N true) y i * sahaEquation u (g i) (g (i + 1)) T (E i + ipd i)) ∧
    (∀ i < Z, m ≤ i → ∀ a b, logP (genSahaSpecies u Z g E ipd T ne mu N true) y i = some a →
      logP (genSahaSpecies u Z g E ipd T ne mu N true) y (i + 1) = some b → |a| ≤ 500 → |b| ≤ 500 →
      weight (genSahaSpecies u Z g E ipd T ne mu N true) y (i + 1) * exp y =
        weight (genSahaSpecies u Z g E ipd T ne mu N true) y i * genSahaEquation u (g i) (g (i + 1)) T ne (E i + ipd i) mu) ∧
    AllBound (sahaSpecies u Z g E ipd T N false) ∧ AllBound (genSahaSpecies u Z g E ipd T ne mu N false) := by
  have hl : ∀ k < m, ¬ 0 < heav0 (E k + ipd k) := fun k hk => by
    rw [heav0, if_neg (not_lt.2 (hlow k hk))]
    exact lt_irrefl _
  have hh : ∀ k < Z, m ≤ k → 0 < heav0 (E k + ipd k) := fun k hk hmk => by
    rw [heav0, if_pos (hhigh k hk hmk)]
    exact one_pos
  refine ⟨fun i hi => ⟨?_, ?_⟩, ?_, ?_, fun k _ => one_pos, fun k _ => one_pos⟩
  · exact masked_weight (s := sahaSpecies u Z g E ipd T N true) hm hl (fun h => hh m h le_rfl) y hi
  · exact masked_weight (s := genSahaSpecies u Z g E ipd T ne mu N true) hm hl (fun h => hh m h le_rfl) y hi
  · intro i hi hmi a b ha hb hA hB
    refine bound_balance (s := sahaSpecies u Z g E ipd T N true) (hh i hi hmi) (fun h => hh (i + 1) h (by omega)) ?_ ha hb hA hB
    have h1 := hg i hi.le
    have h2 := hg (i + 1) hi
    have h3 := thermDeBroglie_pos (u := u) hT
    show 0 < sahaEquation u (g i) (g (i + 1)) T (E i + ipd i)
    unfold sahaEquation
    positivity
  · intro i hi hmi a b ha hb hA hB
    refine bound_balance (s := genSahaSpecies u Z g E ipd T ne mu N true) (hh i hi hmi) (fun h => hh (i + 1) h (by omega)) ?_ ha hb hA hB
    have h1 := hg i hi.le
    have h2 := hg (i + 1) hi
    show 0 < genSahaEquation u (g i) (g (i + 1)) T ne (E i + ipd i) mu
    unfold genSahaEquation
    positivity

/-- Energies of 1, 2 and 3, of which the first is lost with a depression by 3/2. -/
example : (∀ k < 1, (fun k : ℕ => (k : ℝ) + 1) k + (fun _ => -(3 / 2)) k ≤ 0) ∧
    ∀ k < 3, 1 ≤ k → 0 < (fun k : ℕ => (k : ℝ) + 1) k + (fun _ => -(3 / 2)) k := by
  refine ⟨fun k hk => ?_, fun k _ hk => ?_⟩
  · have : k = 0 := by omega
    subst this
    norm_num
  · have : (1 : ℝ) ≤ k := by exact_mod_cast hk
    simp only
    linarith

end Verif.Saha
