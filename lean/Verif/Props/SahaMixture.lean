/-
C63, C88: the charges of the elements of a mixture, and the convergence of the iteration for them.
-/
import Verif.Props.SahaConverge

set_option autoImplicit false

open Real Finset Verif.Expt Verif.Resp

namespace Verif.Saha

/-! ### The charges of the elements in the equilibrium -/

/-- The mean charge changes by at most the factor `exp (2 Z δ)` if coefficients and density change by `exp δ`. -/
theorem mean_both_le {Z : ℕ} (hZ : 0 < Z) {c d : ℕ → ℝ} {δ : ℝ} (hδ : 0 ≤ δ)
    (h : ∀ k < Z, 0 < c k ∧ 0 < d k ∧ log (d k) - log (c k) ≤ δ) {m n : ℝ} (hm : 0 < m) (hn : 0 < n)
    (hmn : log m - log n ≤ δ) :
    log (part1 Z d (1 / n) / part Z d (1 / n)) ≤ log (part1 Z c (1 / m) / part Z c (1 / m)) + 2 * Z * δ := by
  have hc : ∀ k < Z, 0 < c k := fun k hk => (h k hk).1
  have hd : ∀ k < Z, 0 < d k := fun k hk => (h k hk).2.1
  have hn1 : 1 / n ≤ exp δ * (1 / m) := by
    rw [mul_one_div, div_le_div_iff₀ hn hm, one_mul, ← exp_log hm, ← exp_log hn, ← exp_add]
    exact exp_le_exp.2 (by linarith)
  have hcd : ∀ k < Z, d k ≤ exp δ * c k := by
    intro k hk
    obtain ⟨h1, h2, h3⟩ := h k hk
    rw [← exp_log h1, ← exp_log h2, ← exp_add]
    exact exp_le_exp.2 (by linarith)
  have hp := exp_pos δ
  have hm1 : 0 < 1 / m := by positivity
  have e1 : part1 Z d (1 / n) / part Z d (1 / n) ≤ part1 Z d (exp δ * (1 / m)) / part Z d (exp δ * (1 / m)) :=
    mean_mono hd (by positivity) hn1
  have e2 := mean_coeff_mono hd hcd (t := exp δ * (1 / m)) (by positivity)
  have e3 : exp δ * (1 / m) = exp (2 * δ) * (1 / m) / exp δ := by
    rw [two_mul, exp_add]
    field_simp
  rw [e3, part1_scale _ _ hp.ne', part_scale _ _ hp.ne', ← e3] at e2
  have h1 : (1 : ℝ) ≤ exp (2 * δ) := one_le_exp (by linarith)
  have e4 := mean_near_le hZ hc (s := 1 / m) (t := exp (2 * δ) * (1 / m)) (ε := 2 * δ) hm1 (by nlinarith) le_rfl
  have e5 := log_le_log (div_pos (part1_pos hZ hd (by positivity)) (part_pos hd (by positivity))) (e1.trans e2)
  have e6 := (abs_le.1 e4).2
  linarith

/-- C63.  In the equilibrium of a mixture the logarithm of the charge of every element changes by at most twice its
atomic number times the change of the logarithms of the coefficients: `l` lists pairs of the same element at two
conditions, `z` and `z'` are its mean charges. -/
theorem equilibrium_charges_lipschitz {l : List (Species × Species)} {δ : ℝ} (hδ : 0 ≤ δ)
    (hl : ∀ p ∈ l, p.1.Z = p.2.Z ∧ p.1.N = p.2.N ∧ 0 < p.1.N ∧
      ∀ k < p.1.Z, 0 < p.1.coeff k ∧ 0 < p.2.coeff k ∧ |log (p.2.coeff k) - log (p.1.coeff k)| ≤ δ)
    {pop pop' : Species → ℕ → ℝ} {ne ne' : ℝ} (h : Equilibrium (l.map Prod.fst) pop ne)
    (h' : Equilibrium (l.map Prod.snd) pop' ne') {p : Species × Species} (hp : p ∈ l) (hZ : 0 < p.1.Z) {z z' : ℝ}
    (hz : ∑ i ∈ range (p.1.Z + 1), (i : ℝ) * pop p.1 i = p.1.N * z)
    (hz' : ∑ i ∈ range (p.2.Z + 1), (i : ℝ) * pop' p.2 i = p.2.N * z') :
    0 < z ∧ 0 < z' ∧ |log z' - log z| ≤ 2 * p.1.Z * δ := by
  have hne := equilibrium_lipschitz hδ (fun p hp => ⟨(hl p hp).1, (hl p hp).2.1, (hl p hp).2.2.1.le, (hl p hp).2.2.2⟩)
    h h'
  obtain ⟨e1, e2, e3, e4⟩ := hl p hp
  have hc : ∀ k < p.1.Z, 0 < p.1.coeff k := fun k hk => (e4 k hk).1
  have hd : ∀ k < p.2.Z, 0 < p.2.coeff k := fun k hk => (e4 k (e1 ▸ hk)).2.1
  have m1 := (h.saha p.1 (List.mem_map.2 ⟨p, hp, rfl⟩)).mean hc h.pos
  have m2 := (h'.saha p.2 (List.mem_map.2 ⟨p, hp, rfl⟩)).mean hd h'.pos
  rw [hz] at m1
  rw [hz'] at m2
  have hN2 : p.2.N ≠ 0 := by rw [← e2]; exact e3.ne'
  rw [mul_right_inj' e3.ne'] at m1
  rw [mul_right_inj' hN2, ← e1] at m2
  rw [← e1] at hd
  have hp1 := one_div_pos.2 h.pos
  have hp2 := one_div_pos.2 h'.pos
  refine ⟨m1 ▸ div_pos (part1_pos hZ hc hp1) (part_pos hc hp1), m2 ▸ div_pos (part1_pos hZ hd hp2) (part_pos hd hp2), ?_⟩
  rw [m1, m2]
  have hab := abs_le.1 hne
  have k1 := mean_both_le hZ hδ (fun k hk => ⟨hc k hk, hd k hk, (abs_le.1 (e4 k hk).2.2).2⟩) h.pos h'.pos
    (by linarith)
  have k2 := mean_both_le hZ hδ (fun k hk => ⟨hd k hk, hc k hk, by linarith [(abs_le.1 (e4 k hk).2.2).1]⟩) h'.pos h.pos
    (by linarith)
  rw [abs_le]
  constructor <;> linarith

/-! ### The solver for a mixture -/

theorem half_le_mean {s : Species} (hZ : 0 < s.Z) (hc : ∀ k < s.Z, 0 < s.coeff k) (h0 : 1 ≤ s.coeff 0) :
    1 / 2 ≤ part1 s.Z s.coeff 1 / part s.Z s.coeff 1 := by
  have hp := part_pos hc (t := 1) one_pos
  have h2 : 2 ≤ part s.Z s.coeff 1 := by
    obtain ⟨m, hm'⟩ := Nat.exists_eq_succ_of_ne_zero hZ.ne'
    unfold part
    rw [hm', sum_range_succ', sum_range_succ']
    have : 0 ≤ ∑ k ∈ range m, pr s.coeff (k + 1 + 1) * 1 ^ (k + 1 + 1) := by
      refine sum_nonneg fun k hk => ?_
      have := pr_pos hc (i := k + 1 + 1) (by have := mem_range.1 hk; omega)
      positivity
    have e1 : pr s.coeff (0 + 1) = s.coeff 0 := by simp [pr]
    have e2 : pr s.coeff 0 = 1 := by simp [pr]
    rw [e1, e2]
    simp only [one_pow, mul_one] at this ⊢
    linarith
  have h3 : part s.Z s.coeff 1 - 1 ≤ part1 s.Z s.coeff 1 := by
    unfold part part1
    rw [sum_range_succ', sum_range_succ']
    have e2 : pr s.coeff 0 = 1 := by simp [pr]
    rw [e2]
    simp only [one_pow, mul_one, Nat.cast_zero, add_zero, add_sub_cancel_right]
    refine sum_le_sum fun k hk => ?_
    have := pr_pos hc (i := k + 1) (by have := mem_range.1 hk; omega)
    push_cast
    nlinarith [(k.cast_nonneg : (0 : ℝ) ≤ k)]
  rw [le_div_iff₀ hp]
  linarith

/-- An element with a first coefficient of at least one and two ions per cubic metre gives at least one electron. -/
theorem one_le_mixture {l : List Species} (hl : Regular l) {s : Species} (hs : s ∈ l) (hZ : 0 < s.Z)
    (h0 : 1 ≤ s.coeff 0) (hN : 2 ≤ s.N) {pop : Species → ℕ → ℝ} {ne : ℝ} (h : Equilibrium l pop ne) : 1 ≤ ne := by
  by_contra hlt
  push Not at hlt
  have hm := excess_mono hl h.pos hlt.le
  rw [h.excess_zero hl] at hm
  have h4 := half_le_mean hZ (hl s hs).2 h0
  have h5 : excess l 1 ≤ 0 := by
    unfold excess
    have := List.single_le_sum (l := l.map fun s => s.N * (part1 s.Z s.coeff (1 / 1) / part s.Z s.coeff (1 / 1))) (by
      intro x hx
      obtain ⟨t, ht, rfl⟩ := List.mem_map.1 hx
      refine mul_nonneg (hl t ht).1 (div_nonneg (sum_nonneg fun i hi => ?_) (part_pos (hl t ht).2 (by norm_num)).le)
      have := pr_pos (hl t ht).2 (Nat.lt_succ_iff.1 (mem_range.1 hi))
      positivity) _ (List.mem_map.2 ⟨s, hs, rfl⟩)
    rw [div_one] at this ⊢
    nlinarith
  linarith

/-- C63.  The charges which the solver returns for a mixture are those of the equilibrium, each with a relative error of
`2e-8` times the atomic number. -/
theorem solve_charges {l : List Species} (hl : Regular l) (hb : ∀ s ∈ l, AllBound s) {s0 : Species} (h0 : s0 ∈ l)
    (hZ0 : 0 < s0.Z) (hc0 : 1 ≤ s0.coeff 0) (hN0 : 2 ≤ s0.N) (hr : maxNe l ≤ exp 1000)
    (hu : ∀ y ∈ Set.Icc (log (1 / 100000000) - 1) (log (maxNe l) + 1), ∀ s ∈ l, Unclipped s y)
    {pop : Species → ℕ → ℝ} {ne : ℝ} (he : Equilibrium l pop ne) {y : ℝ} (hy : Solves l y) {s : Species} (hs : s ∈ l)
    (hZ : 0 < s.Z) (hN : 0 < s.N) {z : ℝ} (hz : ∑ i ∈ range (s.Z + 1), (i : ℝ) * pop s i = s.N * z) :
    |log (zbar s y) - log z| ≤ 2 * s.Z / 100000000 := by
  have hNs : ∀ t ∈ l, 0 ≤ t.N := fun t ht => (hl t ht).1
  have hm2 : 2 ≤ maxNe l := by
    unfold maxNe
    have := List.single_le_sum (l := l.map fun s : Species => (s.Z : ℝ) * s.N) (by
      intro x hx
      obtain ⟨t, ht, rfl⟩ := List.mem_map.1 hx
      exact mul_nonneg (Nat.cast_nonneg _) (hNs t ht)) _ (List.mem_map.2 ⟨s0, h0, rfl⟩)
    have h1 : (1 : ℝ) ≤ s0.Z := by exact_mod_cast hZ0
    nlinarith
  have hne := one_le_mixture hl h0 hZ0 hc0 hN0 he
  have hlog : log (1 / 100000000) ≤ log (maxNe l) := log_le_log (by norm_num) (by linarith)
  have hlo : residual l (log (1 / 100000000)) ≤ 0 := by
    rw [residual_eq_excess hl hb (hu _ ⟨by linarith, by linarith⟩), exp_log (by norm_num)]
    have := excess_mono hl (a := 1 / 100000000) (b := ne) (by norm_num) (by linarith)
    rw [he.excess_zero hl] at this
    linarith
  obtain ⟨y1, y2, h⟩ := (solve_accuracy hNs (by linarith) hr hlo).2 y hy
  have huy := hu y ⟨by linarith, by linarith⟩
  have hd : |y - log ne| ≤ 2 / 100000000 := by
    rcases h with h | ⟨r, h1, h2⟩
    · have h3 : |exp y - ne| ≤ 1 / 100000000 := by
        rw [residual_eq_excess hl hb huy] at h
        have hz0 := he.excess_zero hl
        rcases le_total ne (exp y) with hh | hh
        · have := excess_mono hl he.pos hh
          rw [abs_of_nonneg (by linarith)]
          linarith [(abs_le.1 h).2]
        · have := excess_mono hl (exp_pos y) hh
          rw [abs_of_nonpos (by linarith)]
          linarith [(abs_le.1 h).1]
      have hbb := abs_le.1 h3
      have hey := exp_pos y
      rw [← log_exp y]
      generalize exp y = w at *
      rw [abs_le]
      constructor
      · have h5 := one_sub_inv_le_log_of_pos (x := w / ne) (by positivity)
        rw [log_div hey.ne' (by linarith)] at h5
        have h6 : (w / ne)⁻¹ ≤ 1 + 2 / 100000000 := by
          rw [inv_div, div_le_iff₀ hey]
          nlinarith
        linarith
      · have h5 := log_le_sub_one_of_pos (x := w / ne) (by positivity)
        rw [log_div hey.ne' (by linarith)] at h5
        have h6 : w / ne ≤ 1 + 2 / 100000000 := by
          rw [div_le_iff₀ (by linarith)]
          nlinarith
        linarith
    · have hab := abs_le.1 h2
      have heq := (equilibrium_unique hl he (equilibrium_of_root hl hb (hu r ⟨by linarith [hab.2], by linarith [hab.1]⟩)
        h1)).1
      rw [heq, log_exp]
      linarith
  have m1 := (he.saha s hs).mean (hl s hs).2 he.pos
  rw [hz, mul_right_inj' hN.ne'] at m1
  have hn := mean_near hZ (hl s hs).2 hd
  rw [exp_log he.pos, ← m1, ← zbar_eq (hb s hs) (hl s hs).2 (huy s hs)] at hn
  refine hn.trans (le_of_eq ?_)
  ring

/-! ### The iteration for a mixture -/

section mixture

variable (u : Consts) {n : ℕ}

/-- The balance terms of a mixture of the elements `E` with the lowering `c`. -/
noncomputable def mix (E : Fin n → Elem) (T : ℝ) (b : Bool) (c : Fin n → ℕ → ℝ) (i : Fin n) : Species :=
  sahaSpecies u (E i).Z (E i).g (E i).E (c i) T (E i).N b

/-- Specification: in the equilibrium for the lowering `c` the elements have the charges `z`. -/
def Charged (E : Fin n → Elem) (T : ℝ) (b : Bool) (c : Fin n → ℕ → ℝ) (z : Fin n → ℝ) : Prop :=
  ∃ pop ne, Equilibrium ((List.finRange n).map (mix u E T b c)) pop ne ∧
    ∀ i, ∑ k ∈ range ((E i).Z + 1), (k : ℝ) * pop (mix u E T b c i) k = (E i).N * z i

/-- Charges which may appear: positive, and at most the largest atomic number. -/
def InBox (Zm : ℕ) (z : Fin n → ℝ) : Prop := ∀ i, 0 < z i ∧ z i ≤ Zm

/-- Conditions on a mixture with lowering `cl` which depends on the charges of all elements: all states stay bound, there
are electrons, no logarithm is cut, and the lowering, in units of the temperature, changes by at most `q / (2 Zm)` times
the largest relative change of a charge. -/
structure WeakMixture (E : Fin n → Elem) (T : ℝ) (b : Bool) (cl : (Fin n → ℝ) → Fin n → ℕ → ℝ) (Zm : ℕ) (q : ℝ) :
    Prop where
  Z_pos : ∀ i, 0 < (E i).Z
  Z_le : ∀ i, (E i).Z ≤ Zm
  g_pos : ∀ i, ∀ k ≤ (E i).Z, 0 < (E i).g k
  T_pos : 0 < T
  N_pos : ∀ i, 0 < (E i).N
  few : ∑ i, (E i).Z * (E i).N ≤ exp 1000
  bound : ∀ z, InBox Zm z → ∀ i, ∀ k < (E i).Z, 0 < (E i).E k + cl z i k
  first : ∀ z, InBox Zm z → ∃ i, 2 ≤ (E i).N ∧ 1 ≤ sahaEquation u ((E i).g 0) ((E i).g 1) T ((E i).E 0 + cl z i 0)
  clear : ∀ z, InBox Zm z → ∀ y ∈ Set.Icc (log (1 / 100000000) - 1) (log (∑ i, (E i).Z * (E i).N) + 1), ∀ i,
    Unclipped (mix u E T b (cl z) i) y
  q_nonneg : 0 ≤ q
  q_lt : q < 1
  lip : ∀ z z', InBox Zm z → InBox Zm z' → ∀ D : ℝ, (∀ i, |log (z i) - log (z' i)| ≤ D) → ∀ i, ∀ k < (E i).Z,
    |cl z i k - cl z' i k| ≤ q / (2 * Zm) * (u.kB * T) * D

variable {u}

theorem maxNe_mix (E : Fin n → Elem) (T : ℝ) (b : Bool) (c : Fin n → ℕ → ℝ) :
    maxNe ((List.finRange n).map (mix u E T b c)) = ∑ i, (E i).Z * (E i).N := by
  unfold maxNe
  rw [List.map_map, ← List.sum_ofFn, List.ofFn_eq_map]
  rfl

namespace WeakMixture

variable {E : Fin n → Elem} {T : ℝ} {b : Bool} {cl : (Fin n → ℝ) → Fin n → ℕ → ℝ} {Zm : ℕ} {q : ℝ}
  (w : WeakMixture u E T b cl Zm q)
include w

theorem coeff_pos (c : Fin n → ℕ → ℝ) (i : Fin n) : ∀ k < (E i).Z, 0 < (mix u E T b c i).coeff k :=
  fun k hk => sahaEquation_pos (w.g_pos i k hk.le) (w.g_pos i (k + 1) hk) w.T_pos

theorem regular (c : Fin n → ℕ → ℝ) : Regular ((List.finRange n).map (mix u E T b c)) := by
  intro s hs
  obtain ⟨i, -, rfl⟩ := List.mem_map.1 hs
  exact ⟨(w.N_pos i).le, w.coeff_pos c i⟩

theorem allBound {z : Fin n → ℝ} (hz : InBox Zm z) : ∀ s ∈ (List.finRange n).map (mix u E T b (cl z)), AllBound s := by
  intro s hs k hk
  obtain ⟨i, -, rfl⟩ := List.mem_map.1 hs
  have hk' : k < (E i).Z := hk
  simp only [mix, sahaSpecies]
  split_ifs
  · rw [heav0, if_pos (w.bound z hz i k hk')]
    norm_num
  · norm_num

/-- The exact map: the charges of the equilibrium for the lowering which belongs to the charges `z`. -/
theorem exists_charges {z : Fin n → ℝ} (hz : InBox Zm z) : ∃ z', Charged u E T b (cl z) z' ∧ InBox Zm z' := by
  obtain ⟨i0, hN0, -⟩ := w.first z hz
  have hpos : 0 < ∑ i, ((E i).Z : ℝ) * (E i).N := by
    refine sum_pos (fun i _ => mul_pos (by exact_mod_cast w.Z_pos i) (w.N_pos i)) ⟨i0, mem_univ _⟩
  obtain ⟨pop, ne, h, -⟩ := equilibrium_exists (w.regular (cl z)) (by rw [maxNe_mix]; exact hpos)
  have hp := one_div_pos.2 h.pos
  refine ⟨fun i => part1 (E i).Z (mix u E T b (cl z) i).coeff (1 / ne) / part (E i).Z (mix u E T b (cl z) i).coeff (1 / ne),
    ⟨pop, ne, h, fun i => ?_⟩, fun i => ⟨?_, ?_⟩⟩
  · exact (h.saha (mix u E T b (cl z) i) (List.mem_map.2 ⟨i, List.mem_finRange i, rfl⟩)).mean (w.coeff_pos _ i) h.pos
  · exact div_pos (part1_pos (w.Z_pos i) (w.coeff_pos _ i) hp) (part_pos (w.coeff_pos _ i) hp)
  · exact (part1_le (w.coeff_pos _ i) hp).trans (by exact_mod_cast w.Z_le i)

/-- The charges of the equilibria for two lowerings are closer than the charges the lowerings belong to. -/
theorem contracts {z1 z2 y1 y2 : Fin n → ℝ} (h1 : InBox Zm z1) (h2 : InBox Zm z2)
    (he1 : Charged u E T b (cl z1) y1) (he2 : Charged u E T b (cl z2) y2) {D : ℝ}
    (hD : ∀ i, |log (z1 i) - log (z2 i)| ≤ D) (i : Fin n) :
    0 < y1 i ∧ 0 < y2 i ∧ |log (y1 i) - log (y2 i)| ≤ q * D := by
  have hkT : 0 < u.kB * T := mul_pos u.kB_pos w.T_pos
  have hD0 : 0 ≤ D := (abs_nonneg _).trans (hD i)
  have hZi : 0 < (E i).Z := w.Z_pos i
  have hZm : (0 : ℝ) < Zm := by exact_mod_cast hZi.trans_le (w.Z_le i)
  obtain ⟨pop1, ne1, he1, hy1⟩ := he1
  obtain ⟨pop2, ne2, he2, hy2⟩ := he2
  have hδ : 0 ≤ q / (2 * Zm) * D := mul_nonneg (div_nonneg w.q_nonneg (by positivity)) hD0
  obtain ⟨k1, k2, k3⟩ := equilibrium_charges_lipschitz
    (l := (List.finRange n).map fun j => (mix u E T b (cl z2) j, mix u E T b (cl z1) j)) (δ := q / (2 * Zm) * D)
    (pop := pop2) (pop' := pop1) (ne := ne2) (ne' := ne1) hδ (by
      intro p hp
      obtain ⟨j, -, rfl⟩ := List.mem_map.1 hp
      refine ⟨rfl, rfl, w.N_pos j, fun k hk => ⟨w.coeff_pos _ j k hk, w.coeff_pos _ j k hk, ?_⟩⟩
      have hk' : k < (E j).Z := hk
      change |log (sahaEquation u ((E j).g k) ((E j).g (k + 1)) T ((E j).E k + cl z1 j k)) -
        log (sahaEquation u ((E j).g k) ((E j).g (k + 1)) T ((E j).E k + cl z2 j k))| ≤ _
      rw [log_sahaEquation (w.g_pos j k hk'.le) (w.g_pos j (k + 1) hk') w.T_pos, abs_div, abs_of_pos hkT,
        div_le_iff₀ hkT]
      have e1 : (E j).E k + cl z2 j k - ((E j).E k + cl z1 j k) = -(cl z1 j k - cl z2 j k) := by ring
      rw [e1, abs_neg]
      refine (w.lip z1 z2 h1 h2 D hD j k hk').trans (le_of_eq ?_)
      ring) (by rw [List.map_map]; exact he2) (by rw [List.map_map]; exact he1)
    (p := (mix u E T b (cl z2) i, mix u E T b (cl z1) i)) (List.mem_map.2 ⟨i, List.mem_finRange i, rfl⟩) hZi (hy2 i) (hy1 i)
  refine ⟨k2, k1, k3.trans ?_⟩
  change 2 * ((E i).Z : ℝ) * (q / (2 * Zm) * D) ≤ q * D
  have e : 2 * (Zm : ℝ) * (q / (2 * Zm) * D) = q * D := by field_simp
  rw [← e]
  refine mul_le_mul_of_nonneg_right ?_ hδ
  have : ((E i).Z : ℝ) ≤ Zm := by exact_mod_cast w.Z_le i
  linarith

/-- One iteration of the code is closer to every exact solution, up to the accuracy of the solver. -/
theorem step_near {z zs : Fin n → ℝ} (hz : InBox Zm z) (hs : InBox Zm zs) (hex : Charged u E T b (cl zs) zs) {y : ℝ}
    (hy : Solves ((List.finRange n).map (mix u E T b (cl z))) y) {D : ℝ} (hD : ∀ i, |log (z i) - log (zs i)| ≤ D)
    (i : Fin n) : |log (zbar (mix u E T b (cl z) i) y) - log (zs i)| ≤ q * D + 2 * Zm / 100000000 := by
  obtain ⟨z', hc, -⟩ := w.exists_charges hz
  have h1 := (w.contracts hz hs hc hex hD i).2.2
  obtain ⟨pop, ne, he, hq⟩ := hc
  obtain ⟨i0, hN0, hc0⟩ := w.first z hz
  have h2 := solve_charges (w.regular (cl z)) (w.allBound hz)
    (s0 := mix u E T b (cl z) i0) (List.mem_map.2 ⟨i0, List.mem_finRange i0, rfl⟩) (w.Z_pos i0) hc0 hN0
    (by rw [maxNe_mix]; exact w.few) (by
      intro y hy s hs
      rw [maxNe_mix] at hy
      obtain ⟨j, -, rfl⟩ := List.mem_map.1 hs
      exact w.clear z hz y hy j) he hy (s := mix u E T b (cl z) i) (List.mem_map.2 ⟨i, List.mem_finRange i, rfl⟩)
    (w.Z_pos i) (w.N_pos i) (hq i)
  have h3 : (((mix u E T b (cl z) i).Z : ℕ) : ℝ) ≤ Zm := by exact_mod_cast w.Z_le i
  calc _ ≤ |log (zbar (mix u E T b (cl z) i) y) - log (z' i)| + |log (z' i) - log (zs i)| := abs_sub_le _ _ _
    _ ≤ 2 * (mix u E T b (cl z) i).Z / 100000000 + q * D := add_le_add h2 h1
    _ ≤ _ := by
      have : 2 * (((mix u E T b (cl z) i).Z : ℕ) : ℝ) / 100000000 ≤ 2 * Zm / 100000000 := by gcongr
      linarith

end WeakMixture

theorem reset_finRange {p : Plasma} {E : Fin n → Elem} (hp : p.elems = (List.finRange n).map E) (zfree : List ℝ) :
    p.reset zfree = (List.finRange n).map fun _ =>
      (((p.elems.map fun e => e.Z).foldr max 0 : ℕ) : ℝ) := by
  unfold Plasma.reset
  rw [hp, List.map_map]
  rfl

/-- C88: the iteration converges geometrically for mixtures.  Without the chemical potential, a lowering which, in units
of the temperature, changes by at most `q / (2 Zm)` times the largest relative change of a charge, `q < 1`, leads to
charges whose logarithms differ from those of every exact solution by at most `q ^ 6` times the largest difference at the
start (all charges are the largest atomic number `Zm`), plus the errors of the solver. -/
theorem sahaReturns_mixture {p : Plasma} {o : Options} {E : Fin n → Elem} (hp : p.elems = (List.finRange n).map E)
    (hi : o.useIpd = true) (hc : o.useChemPot = false) (hd : o.useDistribution = false)
    {cl : (Fin n → ℝ) → Fin n → ℕ → ℝ} (hcl : ∀ z, p.ipd ((List.finRange n).map z) none = (List.finRange n).map (cl z))
    {Zm : ℕ} (hZm : Zm = (p.elems.map fun e => e.Z).foldr max 0) {q : ℝ} (w : WeakMixture u E p.T o.exclude cl Zm q)
    {zs : Fin n → ℝ} (hs : InBox Zm zs) (hex : Charged u E p.T o.exclude (cl zs) zs) {D : ℝ}
    (hD : ∀ i, log Zm - log (zs i) ≤ D) {zfree : List ℝ} {out : Loop} (h : p.SahaReturns u o zfree out) :
    ∃ z : Fin n → ℝ, out.zmean = (List.finRange n).map z ∧ InBox Zm z ∧
      ∀ i, |log (z i) - log (zs i)| ≤ q ^ 6 * D + 2 * Zm / 100000000 / (1 - q) := by
  obtain ⟨η, hη⟩ : ∃ η : ℝ, η = 2 * Zm / 100000000 := ⟨_, rfl⟩
  have hη0 : 0 ≤ η := by rw [hη]; positivity
  have hq := w.q_lt
  have hq0 := w.q_nonneg
  have hstep : ∀ {s s' : Loop} {z : Fin n → ℝ} {D : ℝ}, s.zfree = (List.finRange n).map z → InBox Zm z →
      (∀ i, |log (z i) - log (zs i)| ≤ D) → p.sahaStep u o s s' →
      ∃ z', s'.zmean = (List.finRange n).map z' ∧ s'.zfree = (List.finRange n).map z' ∧ InBox Zm z' ∧
        ∀ i, |log (z' i) - log (zs i)| ≤ q * D + η := by
    rintro s s' z D hz hb hzD ⟨⟨y, hy, -, hm⟩, hf⟩
    have hl : p.stepList u o s = (List.finRange n).map (mix u E p.T o.exclude (cl z)) := by
      simp only [Plasma.stepList, Plasma.lowering, Plasma.sahaList, hi, hc, hd, hz, if_true, Bool.false_eq_true, if_false,
        hcl, hp, List.zip_map', List.map_map]
      rfl
    rw [hl] at hy hm
    rw [List.map_map] at hm
    refine ⟨fun i => zbar (mix u E p.T o.exclude (cl z) i) y, hm, hf.trans hm, fun i => ?_, fun i => ?_⟩
    · have hzb := zbar_mem (mix u E p.T o.exclude (cl z) i) y
      exact ⟨(hzb.2.2 (w.Z_pos i)).1, hzb.2.1.trans (by exact_mod_cast w.Z_le i)⟩
    · rw [hη]
      exact w.step_near hb hs hex hy hzD i
  have hfix : q * (η / (1 - q)) + η = η / (1 - q) := by
    have : (1 - q) ≠ 0 := by linarith
    field_simp
    ring
  have hiter : ∀ (m : ℕ) {s s' : Loop} {z : Fin n → ℝ} {D : ℝ}, s.zfree = (List.finRange n).map z → InBox Zm z →
      (∀ i, |log (z i) - log (zs i)| ≤ D + η / (1 - q)) → Iter (p.sahaStep u o) (m + 1) s s' →
      ∃ z', s'.zmean = (List.finRange n).map z' ∧ InBox Zm z' ∧
        ∀ i, |log (z' i) - log (zs i)| ≤ q ^ (m + 1) * D + η / (1 - q) := by
    intro m
    induction m with
    | zero =>
      intro s s' z D hz hb hzD hit
      cases hit with
      | succ hst hit =>
        cases hit
        obtain ⟨z', m1, -, m2, m3⟩ := hstep hz hb hzD hst
        refine ⟨z', m1, m2, fun i => (m3 i).trans ?_⟩
        rw [zero_add, pow_one, mul_add]
        linarith
    | succ m ih =>
      intro s s' z D hz hb hzD hit
      cases hit with
      | succ hst hit =>
        obtain ⟨z', m1, mf, m2, m3⟩ := hstep hz hb hzD hst
        obtain ⟨z'', k1, k2, k3⟩ := ih (D := q * D) mf m2 (fun i => (m3 i).trans (by rw [mul_add]; linarith)) hit
        refine ⟨z'', k1, k2, fun i => (k3 i).trans (le_of_eq ?_)⟩
        ring
  obtain ⟨s, hs0, -, hit⟩ := h
  have hZ : ∀ _i : Fin n, (0 : ℝ) < Zm := fun i => by exact_mod_cast (w.Z_pos i).trans_le (w.Z_le i)
  obtain ⟨z, k1, k2, k3⟩ := hiter 5 (z := fun _ => (Zm : ℝ)) (D := D) (by rw [hs0, reset_finRange hp, ← hZm])
    (fun i => ⟨hZ i, le_rfl⟩) (fun i => by
      rw [abs_of_nonneg (sub_nonneg.2 (log_le_log (hs i).1 (hs i).2))]
      have : 0 ≤ η / (1 - q) := div_nonneg hη0 (by linarith)
      linarith [hD i]) hit
  refine ⟨z, k1, k2, fun i => ?_⟩
  rw [← hη]
  exact k3 i

/-- C88: for mixtures there is exactly one exact solution. -/
theorem exact_unique_mixture {E : Fin n → Elem} {T : ℝ} {b : Bool} {cl : (Fin n → ℝ) → Fin n → ℕ → ℝ} {Zm : ℕ} {q : ℝ}
    (w : WeakMixture u E T b cl Zm q) :
    ∃ z, (InBox Zm z ∧ Charged u E T b (cl z) z) ∧ ∀ z', InBox Zm z' → Charged u E T b (cl z') z' → z' = z := by
  have hn : Nonempty (Fin n) := by
    by_contra hn
    obtain ⟨i, -⟩ := w.first (fun _ => 0) fun i => absurd ⟨i⟩ hn
    exact hn ⟨i⟩
  have hZ : (0 : ℝ) < Zm := by
    obtain ⟨i⟩ := hn
    exact_mod_cast (w.Z_pos i).trans_le (w.Z_le i)
  have hbox : ∀ x : Fin n → Set.Iic (log (Zm : ℝ)), InBox Zm fun i => exp (x i : ℝ) := by
    intro x i
    exact ⟨exp_pos _, (exp_le_exp.2 (x i).2).trans (exp_log hZ).le⟩
  choose F hF hF0 using fun x : Fin n → Set.Iic (log (Zm : ℝ)) => w.exists_charges (hbox x)
  let G : (Fin n → Set.Iic (log (Zm : ℝ))) → (Fin n → Set.Iic (log (Zm : ℝ))) :=
    fun x i => ⟨log (F x i), log_le_log (hF0 x i).1 (hF0 x i).2⟩
  have hG : ContractingWith ⟨q, w.q_nonneg⟩ G := by
    refine ⟨by exact_mod_cast w.q_lt, LipschitzWith.of_dist_le_mul fun x y => ?_⟩
    refine (dist_pi_le_iff (mul_nonneg w.q_nonneg dist_nonneg)).2 fun i => ?_
    rw [Subtype.dist_eq, Real.dist_eq]
    refine (w.contracts (hbox x) (hbox y) (hF x) (hF y) (D := dist x y) (fun j => ?_) i).2.2
    rw [log_exp, log_exp, ← Real.dist_eq, ← Subtype.dist_eq]
    exact dist_le_pi_dist x y j
  have : Nonempty (Fin n → Set.Iic (log (Zm : ℝ))) := ⟨fun _ => ⟨_, le_refl (log (Zm : ℝ))⟩⟩
  have : CompleteSpace (Set.Iic (log (Zm : ℝ))) := isClosed_Iic.completeSpace_coe
  obtain ⟨x, hfix⟩ : ∃ x, G x = x := ⟨_, hG.fixedPoint_isFixedPt⟩
  have hfx : F x = fun i => exp (x i : ℝ) := by
    funext i
    have := congrArg Subtype.val (congrFun hfix i)
    change log (F x i) = x i at this
    exact (exp_log (hF0 x i).1).symm.trans (congrArg exp this)
  have hex := hF x
  rw [hfx] at hex
  refine ⟨fun i => exp (x i : ℝ), ⟨hbox x, hex⟩, fun z' h1 h2 => ?_⟩
  obtain ⟨D, hD⟩ : ∃ D : ℝ, D = ∑ i, |log (z' i) - log (exp (x i : ℝ))| := ⟨_, rfl⟩
  have hD1 : ∀ i, |log (z' i) - log (exp (x i : ℝ))| ≤ D := by
    intro i
    rw [hD]
    exact single_le_sum (f := fun i => |log (z' i) - log (exp (x i : ℝ))|) (fun j _ => abs_nonneg _) (mem_univ i)
  have hpow : ∀ m : ℕ, ∀ i, |log (z' i) - log (exp (x i : ℝ))| ≤ q ^ m * D := by
    intro m
    induction m with
    | zero => simpa using hD1
    | succ m ih =>
      intro i
      have := (w.contracts h1 (hbox x) h2 hex ih i).2.2
      rwa [← mul_assoc, ← pow_succ'] at this
  funext i
  have hlim : Filter.Tendsto (fun m : ℕ => q ^ m * D) Filter.atTop (nhds 0) := by
    simpa using (tendsto_pow_atTop_nhds_zero_of_lt_one w.q_nonneg w.q_lt).mul_const D
  have h0 := ge_of_tendsto' hlim fun m => hpow m i
  have h4 := abs_nonpos_iff.1 h0
  rw [sub_eq_zero] at h4
  exact log_injOn_pos (Set.mem_Ioi.2 (h1 i).1) (Set.mem_Ioi.2 (exp_pos _)) h4

end mixture

/-! ### The lowering of Debye and Hückel in a mixture -/

section debye

variable {n : ℕ} (u : Consts)

/-- The inverse screening length for the temperature `Ti` of the ions when the elements `E` have the charges `z`. -/
noncomputable def mixKappa (E : Fin n → Elem) (Ti Te : ℝ) (z : Fin n → ℝ) : ℝ :=
  Ipd.kappaD u none z (fun j => (E j).N) (∑ j, z j * (E j).N) Te Ti

/-- The lowering for the charge states of element `i`, as `all_element_states` of the model of Debye and Hückel returns it
for the mean charges `z` (models.py 3579-3600). -/
noncomputable def mixLowering (E : Fin n → Elem) (Ti : Fin n → ℝ) (Te : ℝ) (z : Fin n → ℝ) (i : Fin n) (k : ℕ) : ℝ :=
  Ipd.debyeHueckel u none (k : ℝ) z (fun j => (E j).N) Ti (∑ j, z j * (E j).N) Te i

/-- This is what the model returns for a state whose elements have the charges `z`. -/
theorem mixLowering_all (mu : ℝ → ℝ → ℝ) (s : Ipd.IpdState n) (pop : Option (List ℝ)) {E : Fin n → Elem}
    (hN : s.ni = fun j => (E j).N) (hne : s.ne = ∑ j, s.Zfree j * (E j).N) :
    Ipd.IpdModel.all u mu s pop (.debyeHueckel none) =
      some fun j => (List.range (s.Z j)).map (mixLowering u E s.Ti s.Te s.Zfree j) := by
  simp only [Ipd.IpdModel.all, Ipd.stages, hN, hne, Option.isSome_some, implies_true, if_true, Option.getD_some]
  congr 1

variable {u}

theorem mixLowering_eq (E : Fin n → Elem) (Ti : Fin n → ℝ) (Te : ℝ) (z : Fin n → ℝ) (i : Fin n) (k : ℕ) :
    mixLowering u E Ti Te z i k = -(((k : ℝ) + 1) * u.e ^ 2 / (4 * π * u.eps0) * mixKappa u E (Ti i) Te z) := by
  simp only [mixLowering, Ipd.debyeHueckel, mixKappa]
  ring

theorem mixKappa_eq (E : Fin n → Elem) (Ti Te : ℝ) (z : Fin n → ℝ) :
    mixKappa u E Ti Te z = sqrt (u.e ^ 2 / (u.eps0 * u.kB * Ti) * ∑ j, z j ^ 2 * (E j).N +
      u.e ^ 2 / (u.eps0 * u.kB * Te) * ∑ j, z j * (E j).N) := by
  have e : ∑ j, z j ^ 2 * u.e ^ 2 * (E j).N = u.e ^ 2 * ∑ j, z j ^ 2 * (E j).N := by
    rw [mul_sum]
    exact sum_congr rfl fun j _ => by ring
  simp only [mixKappa, Ipd.kappaD, Ipd.kappaISq, Ipd.kappaESq, e, one_mul]
  congr 1
  ring

/-- Charges which are at most `a ≥ 1` times larger give an inverse screening length at most `a` times larger. -/
theorem mixKappa_factor {E : Fin n → Elem} (hN : ∀ j, 0 ≤ (E j).N) {Ti Te : ℝ} (hTi : 0 < Ti) (hTe : 0 < Te)
    {z z' : Fin n → ℝ} (hz : ∀ j, 0 < z j) (hz' : ∀ j, 0 < z' j) {a : ℝ} (ha : 1 ≤ a) (h : ∀ j, z' j ≤ a * z j) :
    mixKappa u E Ti Te z' ≤ a * mixKappa u E Ti Te z := by
  have h1 := u.eps0_pos
  have h2 := u.kB_pos
  have h4 := u.e_pos
  have ha0 : 0 < a := by linarith
  rw [mixKappa_eq, mixKappa_eq]
  have hA : 0 ≤ u.e ^ 2 / (u.eps0 * u.kB * Ti) := by positivity
  have hB : 0 ≤ u.e ^ 2 / (u.eps0 * u.kB * Te) := by positivity
  have s1 : ∑ j, z' j ^ 2 * (E j).N ≤ a ^ 2 * ∑ j, z j ^ 2 * (E j).N := by
    rw [mul_sum]
    refine sum_le_sum fun j _ => ?_
    have : z' j ^ 2 ≤ (a * z j) ^ 2 := pow_le_pow_left₀ (hz' j).le (h j) 2
    rw [← mul_assoc, ← mul_pow]
    exact mul_le_mul_of_nonneg_right this (hN j)
  have s2 : ∑ j, z' j * (E j).N ≤ a ^ 2 * ∑ j, z j * (E j).N := by
    rw [mul_sum]
    refine sum_le_sum fun j _ => ?_
    rw [← mul_assoc]
    refine mul_le_mul_of_nonneg_right ((h j).trans ?_) (hN j)
    have := (hz j).le
    exact mul_le_mul_of_nonneg_right (by nlinarith) this
  nth_rw 1 [← sqrt_sq ha0.le]
  rw [← sqrt_mul (by positivity)]
  refine sqrt_le_sqrt ?_
  have := mul_le_mul_of_nonneg_left s1 hA
  have := mul_le_mul_of_nonneg_left s2 hB
  linarith

/-- C88: in a mixture the lowering of Debye and Hückel fulfils the condition for convergence if `2 Zm ^ 2` times the
energy of two elementary charges at the distance of the screening length is at most `q < 1` times the temperature, `Zm`
the largest atomic number; the screening length is that for the charges `Zm`. -/
theorem debyeHueckel_mixture {E : Fin n → Elem} {T : ℝ} {Ti : Fin n → ℝ} {b : Bool} {Zm : ℕ} {q : ℝ}
    (hZ : ∀ i, 0 < (E i).Z) (hZm : ∀ i, (E i).Z ≤ Zm) (hg : ∀ i, ∀ k ≤ (E i).Z, 0 < (E i).g k) (hT : 0 < T)
    (hTi : ∀ i, 0 < Ti i) (hN : ∀ i, 0 < (E i).N) (hfew : ∑ i, (E i).Z * (E i).N ≤ exp 1000)
    (hE : ∀ i, ∀ k < (E i).Z, 0 < (E i).E k + mixLowering u E Ti T (fun _ => Zm) i k)
    (h0 : ∃ i, 2 ≤ (E i).N ∧ 1 ≤ sahaEquation u ((E i).g 0) ((E i).g 1) T ((E i).E 0))
    (hcl : ∀ z, InBox Zm z → ∀ y ∈ Set.Icc (log (1 / 100000000) - 1) (log (∑ i, (E i).Z * (E i).N) + 1), ∀ i,
      Unclipped (mix u E T b (mixLowering u E Ti T z) i) y)
    (hq0 : 0 ≤ q) (hq1 : q < 1)
    (hq : ∀ i, 2 * Zm ^ 2 * (u.e ^ 2 / (4 * π * u.eps0)) * mixKappa u E (Ti i) T (fun _ => Zm) ≤ q * (u.kB * T)) :
    WeakMixture u E T b (mixLowering u E Ti T) Zm q := by
  have h1 := u.eps0_pos
  have h2 := u.kB_pos
  have h3 := pi_pos
  have h4 := u.e_pos
  have hkT : 0 < u.kB * T := by positivity
  have hκ0 : ∀ i z, 0 ≤ mixKappa u E (Ti i) T z := fun i z => by rw [mixKappa_eq]; exact sqrt_nonneg _
  have hκm : ∀ i z, InBox Zm z → mixKappa u E (Ti i) T z ≤ mixKappa u E (Ti i) T (fun _ => Zm) := by
    intro i z hz
    have := mixKappa_factor (u := u) (fun j => (hN j).le) (hTi i) hT (z := fun _ => (Zm : ℝ)) (z' := z)
      (fun j => (hz j).1.trans_le (hz j).2) (fun j => (hz j).1) le_rfl (fun j => by rw [one_mul]; exact (hz j).2)
    rwa [one_mul] at this
  have hlow : ∀ i z, InBox Zm z → ∀ k, mixLowering u E Ti T (fun _ => Zm) i k ≤ mixLowering u E Ti T z i k := by
    intro i z hz k
    rw [mixLowering_eq, mixLowering_eq]
    exact neg_le_neg (mul_le_mul_of_nonneg_left (hκm i z hz) (by positivity))
  refine ⟨hZ, hZm, hg, hT, hN, hfew, fun z hz i k hk => ?_, fun z hz => ?_, hcl, hq0, hq1, ?_⟩
  · linarith [hlow i z hz k, hE i k hk]
  · obtain ⟨i, hi, hc⟩ := h0
    refine ⟨i, hi, hc.trans ?_⟩
    have hz0 : mixLowering u E Ti T z i 0 ≤ 0 := by
      rw [mixLowering_eq]
      have := hκ0 i z
      simp only [Left.neg_nonpos_iff]
      positivity
    unfold sahaEquation
    have hp : 0 ≤ (E i).g 1 / (E i).g 0 * 2 / thermDeBroglie u T ^ 3 := by
      have := thermDeBroglie_pos u hT
      have := hg i 0 (Nat.zero_le _)
      have := hg i 1 (hZ i)
      positivity
    refine mul_le_mul_of_nonneg_left (exp_le_exp.2 ?_) hp
    exact div_le_div_of_nonneg_right (by linarith) hkT.le
  · intro z z' hz hz' D hD i k hk
    have hD0 : 0 ≤ D := (abs_nonneg _).trans (hD i)
    have hZm0 : (0 : ℝ) < Zm := by exact_mod_cast (hZ i).trans_le (hZm i)
    -- the change of the inverse screening length
    have key : ∀ {x x' : Fin n → ℝ}, InBox Zm x → InBox Zm x' → (∀ j, log (x' j) - log (x j) ≤ D) →
        mixKappa u E (Ti i) T x' - mixKappa u E (Ti i) T x ≤ mixKappa u E (Ti i) T (fun _ => Zm) * D := by
      intro x x' hx hx' hxD
      have hf := mixKappa_factor (u := u) (fun j => (hN j).le) (hTi i) hT (z := x) (z' := x')
        (fun j => (hx j).1) (fun j => (hx' j).1) (one_le_exp hD0) (fun j => by
          rw [← exp_log (hx' j).1]
          nth_rw 1 [← exp_log (hx j).1]
          rw [← exp_add]
          exact exp_le_exp.2 (by linarith [hxD j]))
      have hx0 := hκ0 i x'
      have hm := hκm i x' hx'
      have h5 : exp (-D) * mixKappa u E (Ti i) T x' ≤ mixKappa u E (Ti i) T x := by
        have := mul_le_mul_of_nonneg_left hf (exp_pos (-D)).le
        rwa [← mul_assoc, ← exp_add, neg_add_cancel, exp_zero, one_mul] at this
      have h6 := add_one_le_exp (-D)
      nlinarith
    have hκ : |mixKappa u E (Ti i) T z - mixKappa u E (Ti i) T z'| ≤ mixKappa u E (Ti i) T (fun _ => Zm) * D := by
      rw [abs_le]
      constructor
      · linarith [key hz hz' fun j => by linarith [(abs_le.1 (hD j)).1]]
      · linarith [key hz' hz fun j => by linarith [(abs_le.1 (hD j)).2]]
    have hk' : ((k : ℝ) + 1) ≤ Zm := by exact_mod_cast (Nat.succ_le_of_lt hk).trans (hZm i)
    have hm0 := hκ0 i (fun _ => (Zm : ℝ))
    rw [mixLowering_eq, mixLowering_eq]
    have e1 : -(((k : ℝ) + 1) * u.e ^ 2 / (4 * π * u.eps0) * mixKappa u E (Ti i) T z) -
        -(((k : ℝ) + 1) * u.e ^ 2 / (4 * π * u.eps0) * mixKappa u E (Ti i) T z') =
        -((((k : ℝ) + 1) * u.e ^ 2 / (4 * π * u.eps0)) * (mixKappa u E (Ti i) T z - mixKappa u E (Ti i) T z')) := by ring
    rw [e1, abs_neg, abs_mul, abs_of_nonneg (by positivity : (0 : ℝ) ≤ ((k : ℝ) + 1) * u.e ^ 2 / (4 * π * u.eps0))]
    calc ((k : ℝ) + 1) * u.e ^ 2 / (4 * π * u.eps0) * |mixKappa u E (Ti i) T z - mixKappa u E (Ti i) T z'|
        ≤ Zm * u.e ^ 2 / (4 * π * u.eps0) * (mixKappa u E (Ti i) T (fun _ => Zm) * D) := by gcongr
      _ = 2 * Zm ^ 2 * (u.e ^ 2 / (4 * π * u.eps0)) * mixKappa u E (Ti i) T (fun _ => Zm) * (D / (2 * Zm)) := by
          field_simp
      _ ≤ q * (u.kB * T) * (D / (2 * Zm)) := mul_le_mul_of_nonneg_right (hq i) (by positivity)
      _ = _ := by ring

end debye

/-! ### The hypotheses can be met -/

/-- Two elements with the weights and energies of the hydrogen above; the lowering of each depends on the mean of both
charges. -/
theorem hydrogen_mixture : WeakMixture unitConsts (fun _ : Fin 2 => hydrogen (2 * π)) (2 * π * 2 ^ 2) true
    (fun z _ _ => -(π * ((z 0 + z 1) / 2))) 1 (1 / 2) := by
  have hpi := pi_pos
  have w := hydrogen_weak
  have cast1 : (((hydrogen (2 * π)).Z : ℕ) : ℝ) = 1 := by simp [hydrogen]
  have hmean : ∀ z : Fin 2 → ℝ, InBox 1 z → 0 < (z 0 + z 1) / 2 ∧ (z 0 + z 1) / 2 ≤ ((hydrogen (2 * π)).Z : ℕ) := by
    intro z hz
    have h0 := hz 0
    have h1 := hz 1
    rw [cast1]
    push_cast at h0 h1
    constructor <;> linarith [h0.1, h0.2, h1.1, h1.2]
  have hsum : ∑ i : Fin 2, (((hydrogen (2 * π)).Z : ℕ) : ℝ) * (hydrogen (2 * π)).N = 4 := by
    simp [hydrogen]
    norm_num
  have hlip : ∀ z z' : ℝ, 0 < z → z ≤ 1 → 0 < z' → z' ≤ 1 → |z - z'| ≤ |log z - log z'| := by
    have key : ∀ z z' : ℝ, 0 < z → z ≤ z' → z' ≤ 1 → z' - z ≤ log z' - log z := by
      intro z z' h0 h1 h2
      have hz' := h0.trans_le h1
      have h3 := one_sub_inv_le_log_of_pos (x := z' / z) (by positivity)
      rw [log_div hz'.ne' h0.ne', inv_div] at h3
      have h4 : z' - z ≤ 1 - z / z' := by
        have h5 : z / z' * z' = z := by field_simp
        have h6 : z / z' ≤ 1 := by rw [div_le_one hz']; exact h1
        nlinarith
      linarith
    intro z z' h0 h1 h0' h1'
    rcases le_total z z' with h | h
    · rw [abs_sub_comm, abs_sub_comm (log z), abs_of_nonneg (sub_nonneg.2 h)]
      exact (key z z' h0 h h1').trans (le_abs_self _)
    · rw [abs_of_nonneg (sub_nonneg.2 h)]
      exact (key z' z h0' h h1).trans (le_abs_self _)
  refine ⟨fun _ => one_pos, fun _ => le_refl 1, fun _ _ _ => one_pos, by positivity, fun _ => two_pos, ?_, ?_, ?_, ?_,
    by norm_num, by norm_num, ?_⟩
  · rw [hsum]
    have := add_one_le_exp (1000 : ℝ)
    linarith
  · intro z hz i k hk
    obtain ⟨h0, h1⟩ := hmean z hz
    exact w.bound _ h0 h1 k hk
  · intro z hz
    obtain ⟨h0, h1⟩ := hmean z hz
    exact ⟨0, le_refl (2 : ℝ), w.first _ h0 h1⟩
  · intro z hz y hy i k hk
    obtain ⟨h0, h1⟩ := hmean z hz
    have hk' : k ≤ 1 := hk
    rw [hsum] at hy
    have h2 := log_le_sub_one_of_pos (x := 4) (by norm_num)
    have h3 := log_small
    obtain ⟨y1, y2⟩ := hy
    have hm0 := hmean z hz
    rw [cast1] at h1
    generalize (z 0 + z 1) / 2 = x at *
    interval_cases k
    · simp
    · rw [sum_range_one]
      change |log (sahaEquation unitConsts 1 1 (2 * π * 2 ^ 2) (2 * π + -(π * x))) - y| ≤ 500
      have hco : sahaEquation unitConsts 1 1 (2 * π * 2 ^ 2) (2 * π + -(π * x)) =
          2 * 2 ^ 3 * exp (-(1 - x / 2) / 2 ^ 2) := by
        rw [← unit_saha 2 (1 - x / 2) two_pos]
        congr 1
        ring
      have h4 : 0 ≤ log (sahaEquation unitConsts 1 1 (2 * π * 2 ^ 2) (2 * π + -(π * x))) :=
        log_nonneg (w.first x hm0.1 hm0.2)
      rw [hco] at h4 ⊢
      have h5 : log (2 * 2 ^ 3 * exp (-(1 - x / 2) / 2 ^ 2)) ≤ 15 := by
        refine (log_le_sub_one_of_pos (by positivity)).trans ?_
        have : exp (-(1 - x / 2) / 2 ^ 2) ≤ exp 0 := exp_le_exp.2 (by linarith)
        rw [exp_zero] at this
        linarith
      rw [abs_le]
      constructor <;> linarith
  · intro z z' hz hz' D hD i k _
    have b0 := hz 0
    have b1 := hz 1
    have c0 := hz' 0
    have c1 := hz' 1
    push_cast at b0 b1 c0 c1
    have h0 := (hlip _ _ b0.1 b0.2 c0.1 c0.2).trans (hD 0)
    have h1 := (hlip _ _ b1.1 b1.2 c1.1 c1.2).trans (hD 1)
    have hm : |(z 0 + z 1) / 2 - (z' 0 + z' 1) / 2| ≤ D := by
      rw [abs_le] at h0 h1 ⊢
      constructor <;> linarith [h0.1, h0.2, h1.1, h1.2]
    have e1 : -(π * ((z 0 + z 1) / 2)) - -(π * ((z' 0 + z' 1) / 2)) =
        -(π * ((z 0 + z 1) / 2 - (z' 0 + z' 1) / 2)) := by ring
    have e2 : unitConsts.kB = 1 := rfl
    change |-(π * ((z 0 + z 1) / 2)) - -(π * ((z' 0 + z' 1) / 2))| ≤ _
    rw [e1, abs_neg, abs_mul, abs_of_pos hpi, e2]
    have h' : 0 ≤ D := (abs_nonneg _).trans hm
    push_cast
    nlinarith [mul_le_mul_of_nonneg_left hm hpi.le]

/-- A plasma with these two elements meets all hypotheses of the convergence. -/
example : ∃ (p : Plasma) (o : Options) (cl : (Fin 2 → ℝ) → Fin 2 → ℕ → ℝ) (zs : Fin 2 → ℝ) (out : Loop) (D : ℝ),
    p.elems = (List.finRange 2).map (fun _ => hydrogen (2 * π)) ∧ o.useIpd = true ∧ o.useChemPot = false ∧
    o.useDistribution = false ∧ (∀ z, p.ipd ((List.finRange 2).map z) none = (List.finRange 2).map (cl z)) ∧
    1 = (p.elems.map fun e => e.Z).foldr max 0 ∧
    WeakMixture unitConsts (fun _ : Fin 2 => hydrogen (2 * π)) p.T o.exclude cl 1 (1 / 2) ∧ InBox 1 zs ∧
    Charged unitConsts (fun _ : Fin 2 => hydrogen (2 * π)) p.T o.exclude (cl zs) zs ∧
    (∀ i, log ((1 : ℕ) : ℝ) - log (zs i) ≤ D) ∧ p.SahaReturns unitConsts o [] out := by
  obtain ⟨zs, ⟨h1, h2⟩, -⟩ := exact_unique_mixture hydrogen_mixture
  obtain ⟨p, hp⟩ : ∃ p : Plasma, p = ⟨(List.finRange 2).map (fun _ => hydrogen (2 * π)), 2 * π * 2 ^ 2,
    fun z _ => z.map fun _ _ => -(π * (z.sum / 2)), fun _ => 0⟩ := ⟨_, rfl⟩
  obtain ⟨out, h, -⟩ := sahaReturns_unique unitConsts p ⟨true, false, false, true⟩ []
  refine ⟨p, ⟨true, false, false, true⟩, _, zs, out, |log ((1 : ℕ) : ℝ) - log (zs 0)| + |log ((1 : ℕ) : ℝ) - log (zs 1)|,
    by rw [hp], rfl, rfl, rfl, ?_, ?_, by rw [hp]; exact hydrogen_mixture, h1, by rw [hp]; exact h2, ?_, h⟩
  · intro z
    rw [hp]
    simp [List.finRange]
  · rw [hp]
    simp [List.finRange, hydrogen]
  · intro i
    have a0 := abs_nonneg (log ((1 : ℕ) : ℝ) - log (zs 0))
    have a1 := abs_nonneg (log ((1 : ℕ) : ℝ) - log (zs 1))
    have b0 := le_abs_self (log ((1 : ℕ) : ℝ) - log (zs 0))
    have b1 := le_abs_self (log ((1 : ℕ) : ℝ) - log (zs 1))
    fin_cases i
    · exact b0.trans (by linarith)
    · exact b1.trans (by linarith)

/-- Two hydrogens with the lowering of Debye and Hückel meet the hypotheses. -/
example : WeakMixture unitConsts (fun _ : Fin 2 => hydrogen (2 * π)) (2 * π * 2 ^ 2) true
    (mixLowering unitConsts (fun _ : Fin 2 => hydrogen (2 * π)) (fun _ => 2 * π * 2 ^ 2) (2 * π * 2 ^ 2)) 1 (1 / 2) := by
  have hpi := pi_pos
  have hpi3 := pi_gt_three
  obtain ⟨T, hT⟩ : ∃ T, T = 2 * π * 2 ^ 2 := ⟨_, rfl⟩
  have hT24 : 24 ≤ T := by rw [hT]; linarith
  have cast1 : (((hydrogen (2 * π)).Z : ℕ) : ℝ) = 1 := by simp [hydrogen]
  have hsum : ∑ i : Fin 2, (((hydrogen (2 * π)).Z : ℕ) : ℝ) * (hydrogen (2 * π)).N = 4 := by
    simp [hydrogen]
    norm_num
  have hκ : ∀ z : Fin 2 → ℝ, InBox 1 z → 0 ≤ mixKappa unitConsts (fun _ : Fin 2 => hydrogen (2 * π)) T T z ∧
      mixKappa unitConsts (fun _ : Fin 2 => hydrogen (2 * π)) T T z ≤ 1 := by
    intro z hz
    have b0 := hz 0
    have b1 := hz 1
    push_cast at b0 b1
    rw [mixKappa_eq]
    refine ⟨sqrt_nonneg _, ?_⟩
    rw [sqrt_le_one]
    simp only [unitConsts, one_pow, one_mul, Fin.sum_univ_two, hydrogen]
    have h2 : 1 / T ≤ 1 / 24 := one_div_le_one_div_of_le (by norm_num) hT24
    have h3 : 0 ≤ 1 / T := by positivity
    have s1 : z 0 ^ 2 * 2 + z 1 ^ 2 * 2 ≤ 4 := by nlinarith [b0.1, b0.2, b1.1, b1.2]
    have s2 : z 0 * 2 + z 1 * 2 ≤ 4 := by linarith [b0.2, b1.2]
    have t1 := mul_le_mul_of_nonneg_left s1 h3
    have t2 := mul_le_mul_of_nonneg_left s2 h3
    linarith
  have hlow : ∀ z : Fin 2 → ℝ, InBox 1 z → ∀ i,
      -1 ≤ mixLowering unitConsts (fun _ : Fin 2 => hydrogen (2 * π)) (fun _ => T) T z i 0 ∧
      mixLowering unitConsts (fun _ : Fin 2 => hydrogen (2 * π)) (fun _ => T) T z i 0 ≤ 0 := by
    intro z hz i
    obtain ⟨k0, k1⟩ := hκ z hz
    rw [mixLowering_eq]
    have h2 : 1 / (4 * π) ≤ 1 := by
      rw [div_le_one (by positivity)]
      linarith
    have h3 : 0 ≤ 1 / (4 * π) := by positivity
    have e : (((0 : ℕ) : ℝ) + 1) * unitConsts.e ^ 2 / (4 * π * unitConsts.eps0) = 1 / (4 * π) := by simp [unitConsts]
    rw [e]
    constructor <;> nlinarith
  have hco : ∀ x : ℝ, -1 ≤ x → x ≤ 0 → 12 ≤ sahaEquation unitConsts 1 1 T (2 * π + x) ∧
      sahaEquation unitConsts 1 1 T (2 * π + x) ≤ 16 := by
    intro x h0 h1
    have e : 2 * π + x = 2 * π * (1 + x / (2 * π)) := by field_simp
    rw [hT, e, unit_saha 2 _ two_pos]
    have h2 : -1 ≤ x / (2 * π) := by
      rw [le_div_iff₀ (by positivity)]
      linarith
    have h3 : x / (2 * π) ≤ 0 := div_nonpos_of_nonpos_of_nonneg h1 (by positivity)
    generalize x / (2 * π) = w at *
    have h4 := add_one_le_exp (-(1 + w) / 2 ^ 2)
    have h5 : exp (-(1 + w) / 2 ^ 2) ≤ exp 0 := exp_le_exp.2 (by linarith)
    rw [exp_zero] at h5
    constructor <;> linarith
  have hone : InBox (n := 2) 1 fun _ => ((1 : ℕ) : ℝ) := fun _ => ⟨by norm_num, le_rfl⟩
  rw [← hT]
  refine debyeHueckel_mixture (fun _ => one_pos) (fun _ => le_refl 1) (fun _ _ _ => one_pos) (by linarith)
    (fun _ => by linarith) (fun _ => two_pos) ?_ ?_ ?_ ?_ (by norm_num) (by norm_num) ?_
  · rw [hsum]
    have := add_one_le_exp (1000 : ℝ)
    linarith
  · intro i k hk
    have hk' : k < 1 := hk
    interval_cases k
    have := (hlow _ hone i).1
    change 0 < 2 * π + _
    linarith
  · refine ⟨0, le_refl (2 : ℝ), ?_⟩
    have := (hco 0 (by norm_num) le_rfl).1
    rw [add_zero] at this
    change 1 ≤ sahaEquation unitConsts 1 1 T (2 * π)
    linarith
  · intro z hz y hy i k hk
    have hk' : k ≤ 1 := hk
    rw [hsum] at hy
    have h2 := log_le_sub_one_of_pos (x := 4) (by norm_num)
    have h3 := log_small
    obtain ⟨y1, y2⟩ := hy
    interval_cases k
    · simp
    · rw [sum_range_one]
      obtain ⟨c1, c2⟩ := hco _ (hlow z hz i).1 (hlow z hz i).2
      change |log (sahaEquation unitConsts 1 1 T (2 * π +
        mixLowering unitConsts (fun _ : Fin 2 => hydrogen (2 * π)) (fun _ => T) T z i 0)) - y| ≤ 500
      generalize sahaEquation unitConsts 1 1 T (2 * π +
        mixLowering unitConsts (fun _ : Fin 2 => hydrogen (2 * π)) (fun _ => T) T z i 0) = c at *
      have h4 := log_nonneg (by linarith : 1 ≤ c)
      have h5 := log_le_sub_one_of_pos (by linarith : 0 < c)
      rw [abs_le]
      constructor <;> linarith
  · intro i
    obtain ⟨k0, k1⟩ := hκ _ hone
    have h2 : 1 / (4 * π) ≤ 1 := by
      rw [div_le_one (by positivity)]
      linarith
    have h3 : 0 ≤ 1 / (4 * π) := by positivity
    have e : 2 * ((1 : ℕ) : ℝ) ^ 2 * (unitConsts.e ^ 2 / (4 * π * unitConsts.eps0)) = 2 * (1 / (4 * π)) := by
      simp [unitConsts]
    have e2 : unitConsts.kB = 1 := rfl
    have h4 := mul_le_mul h2 k1 k0 zero_le_one
    rw [e, e2]
    linarith

end Verif.Saha
