/-
C63, C88: the equilibrium as a function of the ionization energies, and the convergence of the iteration for the mean
charge.
-/
import Verif.Props.SahaLoop
import Verif.Props.BisectionMono
import Verif.Props.Ipd
import Verif.Model.IpdStates
import Mathlib.Topology.MetricSpace.Contracting

set_option autoImplicit false

open Real Finset Verif.Expt Verif.Resp

namespace Verif.Saha

variable (u : Consts)

/-! ### The equilibrium does not react more than the coefficients -/

theorem pr_scale (c : ℕ → ℝ) (a : ℝ) (i : ℕ) : pr (fun k => a * c k) i = a ^ i * pr c i := by
  unfold pr
  rw [prod_mul_distrib, prod_const, card_range]

theorem part_scale (Z : ℕ) (c : ℕ → ℝ) {a : ℝ} (ha : a ≠ 0) (t : ℝ) :
    part Z (fun k => a * c k) (t / a) = part Z c t := by
  unfold part
  refine sum_congr rfl fun i _ => ?_
  rw [pr_scale, div_pow]
  field_simp

theorem part1_scale (Z : ℕ) (c : ℕ → ℝ) {a : ℝ} (ha : a ≠ 0) (t : ℝ) :
    part1 Z (fun k => a * c k) (t / a) = part1 Z c t := by
  unfold part1
  refine sum_congr rfl fun i _ => ?_
  rw [pr_scale, div_pow]
  field_simp

theorem equilibrium_factor {l : List (Species × Species)} {a : ℝ} (ha : 1 ≤ a)
    (hl : ∀ p ∈ l, p.1.Z = p.2.Z ∧ p.1.N = p.2.N ∧ 0 ≤ p.1.N ∧
      ∀ k < p.1.Z, 0 < p.1.coeff k ∧ 0 < p.2.coeff k ∧ p.2.coeff k ≤ a * p.1.coeff k)
    {pop pop' : Species → ℕ → ℝ} {ne ne' : ℝ} (h : Equilibrium (l.map Prod.fst) pop ne)
    (h' : Equilibrium (l.map Prod.snd) pop' ne') : ne' ≤ a * ne := by
  have ha0 : 0 < a := by linarith
  have r1 : Regular (l.map Prod.fst) := by
    intro s hs
    obtain ⟨p, hp, rfl⟩ := List.mem_map.1 hs
    exact ⟨(hl p hp).2.2.1, fun k hk => ((hl p hp).2.2.2 k hk).1⟩
  have r2 : Regular (l.map Prod.snd) := by
    intro s hs
    obtain ⟨p, hp, rfl⟩ := List.mem_map.1 hs
    obtain ⟨e1, e2, e3, e4⟩ := hl p hp
    exact ⟨e2 ▸ e3, fun k hk => (e4 k (e1 ▸ hk)).2.1⟩
  have x1 := h.excess_zero r1
  have x2 := h'.excess_zero r2
  have hne := h.pos
  by_contra hlt
  push Not at hlt
  have hm := excess_mono r2 (mul_pos ha0 hne) hlt.le
  have hge : 0 ≤ excess (l.map Prod.snd) (a * ne) := by
    unfold excess at x1 ⊢
    rw [List.map_map] at x1 ⊢
    have hle : (l.map ((fun s : Species => s.N * (part1 s.Z s.coeff (1 / (a * ne)) / part s.Z s.coeff (1 / (a * ne)))) ∘
        Prod.snd)).sum ≤ (l.map ((fun s : Species => s.N * (part1 s.Z s.coeff (1 / ne) / part s.Z s.coeff (1 / ne))) ∘
        Prod.fst)).sum := by
      refine List.sum_le_sum fun p hp => ?_
      obtain ⟨e1, e2, e3, e4⟩ := hl p hp
      simp only [Function.comp_apply]
      rw [← e2, ← e1]
      refine mul_le_mul_of_nonneg_left ?_ e3
      have e : 1 / (a * ne) = 1 / ne / a := by field_simp
      rw [← part1_scale p.1.Z p.1.coeff ha0.ne' (1 / ne), ← part_scale p.1.Z p.1.coeff ha0.ne' (1 / ne), e]
      exact mean_coeff_mono (fun k hk => (e4 k hk).2.1) (fun k hk => (e4 k hk).2.2) (by positivity)
    nlinarith
  linarith

/-- C63.  The electron density of the equilibrium changes by no larger factor than the coefficients: `l` lists pairs of
the same element at two conditions. -/
theorem equilibrium_lipschitz {l : List (Species × Species)} {δ : ℝ} (hδ : 0 ≤ δ)
    (hl : ∀ p ∈ l, p.1.Z = p.2.Z ∧ p.1.N = p.2.N ∧ 0 ≤ p.1.N ∧
      ∀ k < p.1.Z, 0 < p.1.coeff k ∧ 0 < p.2.coeff k ∧ |log (p.2.coeff k) - log (p.1.coeff k)| ≤ δ)
    {pop pop' : Species → ℕ → ℝ} {ne ne' : ℝ} (h : Equilibrium (l.map Prod.fst) pop ne)
    (h' : Equilibrium (l.map Prod.snd) pop' ne') : |log ne' - log ne| ≤ δ := by
  have key : ∀ {x y : ℝ}, 0 < x → 0 < y → log y - log x ≤ δ → y ≤ exp δ * x := by
    intro x y hx hy hxy
    rw [← exp_log hx, ← exp_log hy, ← exp_add]
    exact exp_le_exp.2 (by linarith)
  have key' : ∀ {x y : ℝ}, 0 < x → 0 < y → y ≤ exp δ * x → log y - log x ≤ δ := by
    intro x y hx hy hxy
    have := log_le_log hy hxy
    rw [log_mul (exp_pos _).ne' hx.ne', log_exp] at this
    linarith
  have h1 : ne' ≤ exp δ * ne := by
    refine equilibrium_factor (one_le_exp hδ) (fun p hp => ?_) h h'
    obtain ⟨e1, e2, e3, e4⟩ := hl p hp
    refine ⟨e1, e2, e3, fun k hk => ⟨(e4 k hk).1, (e4 k hk).2.1, ?_⟩⟩
    exact key (e4 k hk).1 (e4 k hk).2.1 (abs_le.1 (e4 k hk).2.2).2
  have h2 : ne ≤ exp δ * ne' := by
    refine equilibrium_factor (l := l.map Prod.swap) (pop := pop') (pop' := pop) (one_le_exp hδ) (fun p hp => ?_)
      (by rw [List.map_map]; exact h') (by rw [List.map_map]; exact h)
    obtain ⟨q, hq, rfl⟩ := List.mem_map.1 hp
    obtain ⟨e1, e2, e3, e4⟩ := hl q hq
    refine ⟨e1.symm, e2.symm, e2 ▸ e3, fun k hk => ?_⟩
    have hk' : k < q.1.Z := e1 ▸ hk
    refine ⟨(e4 k hk').2.1, (e4 k hk').1, ?_⟩
    refine key (e4 k hk').2.1 (e4 k hk').1 ?_
    change log (q.1.coeff k) - log (q.2.coeff k) ≤ δ
    linarith [(abs_le.1 (e4 k hk').2.2).1]
  rw [abs_le]
  constructor
  · linarith [key' h'.pos h.pos h2]
  · exact key' h.pos h'.pos h1

/-! ### The mean charge near the root -/

theorem part1_pos {Z : ℕ} (hZ : 0 < Z) {c : ℕ → ℝ} (hc : ∀ k < Z, 0 < c k) {t : ℝ} (ht : 0 < t) : 0 < part1 Z c t := by
  refine sum_pos' (fun i hi => ?_) ⟨Z, by simp, ?_⟩
  · have := pr_pos hc (Nat.lt_succ_iff.1 (mem_range.1 hi))
    positivity
  · have := pr_pos hc (le_refl Z)
    have : (0 : ℝ) < Z := by exact_mod_cast hZ
    positivity

theorem mean_near_le {Z : ℕ} (hZ : 0 < Z) {c : ℕ → ℝ} (hc : ∀ k < Z, 0 < c k) {s t ε : ℝ} (hs : 0 < s) (hst : s ≤ t)
    (ht : t ≤ exp ε * s) :
    |log (part1 Z c t / part Z c t) - log (part1 Z c s / part Z c s)| ≤ Z * ε := by
  have ht0 := hs.trans_le hst
  have hε : 0 ≤ ε := by
    by_contra h
    push Not at h
    have := exp_lt_exp.2 h
    rw [exp_zero] at this
    nlinarith
  have h1 := mean_mono hc hs hst
  have p1 := part1_pos hZ hc hs
  have p2 := part1_pos hZ hc ht0
  have q1 := part_pos hc hs
  have q2 := part_pos hc ht0
  have hpow : ∀ i ≤ Z, t ^ i ≤ exp (Z * ε) * s ^ i := by
    intro i hi
    calc t ^ i ≤ (exp ε * s) ^ i := pow_le_pow_left₀ ht0.le ht i
      _ = exp (i * ε) * s ^ i := by rw [mul_pow, ← exp_nat_mul]
      _ ≤ _ := by
        refine mul_le_mul_of_nonneg_right (exp_le_exp.2 ?_) (by positivity)
        exact mul_le_mul_of_nonneg_right (by exact_mod_cast hi) hε
  have h2 : part1 Z c t ≤ exp (Z * ε) * part1 Z c s := by
    unfold part1
    rw [mul_sum]
    refine sum_le_sum fun i hi => ?_
    have hi' := Nat.lt_succ_iff.1 (mem_range.1 hi)
    have hp := pr_pos hc hi'
    calc (i : ℝ) * (pr c i * t ^ i) = (i * pr c i) * t ^ i := by ring
      _ ≤ (i * pr c i) * (exp (Z * ε) * s ^ i) := mul_le_mul_of_nonneg_left (hpow i hi') (by positivity)
      _ = _ := by ring
  have h3 : part Z c s ≤ part Z c t := by
    unfold part
    refine sum_le_sum fun i hi => ?_
    have hp := pr_pos hc (Nat.lt_succ_iff.1 (mem_range.1 hi))
    exact mul_le_mul_of_nonneg_left (pow_le_pow_left₀ hs.le hst i) hp.le
  have h4 : part1 Z c t / part Z c t ≤ exp (Z * ε) * (part1 Z c s / part Z c s) := by
    calc _ ≤ exp (Z * ε) * part1 Z c s / part Z c s := div_le_div₀ (by positivity) h2 q1 h3
      _ = _ := by ring
  have h5 := log_le_log (div_pos p1 q1) h1
  have h6 := log_le_log (div_pos p2 q2) h4
  rw [log_mul (exp_pos _).ne' (div_pos p1 q1).ne', log_exp] at h6
  rw [abs_le]
  constructor
  · have : 0 ≤ (Z : ℝ) * ε := by positivity
    linarith
  · linarith

theorem mean_near {Z : ℕ} (hZ : 0 < Z) {c : ℕ → ℝ} (hc : ∀ k < Z, 0 < c k) {x y ε : ℝ} (h : |x - y| ≤ ε) :
    |log (part1 Z c (1 / exp x) / part Z c (1 / exp x)) - log (part1 Z c (1 / exp y) / part Z c (1 / exp y))| ≤ Z * ε := by
  have e : ∀ z : ℝ, 1 / exp z = exp (-z) := fun z => by rw [exp_neg]; ring
  rw [e, e]
  obtain ⟨h1, h2⟩ := abs_le.1 h
  rcases le_total x y with hxy | hxy
  · refine mean_near_le hZ hc (exp_pos _) (exp_le_exp.2 (by linarith)) ?_
    rw [← exp_add]
    exact exp_le_exp.2 (by linarith)
  · rw [abs_sub_comm]
    refine mean_near_le hZ hc (exp_pos _) (exp_le_exp.2 (by linarith)) ?_
    rw [← exp_add]
    exact exp_le_exp.2 (by linarith)

/-- With a first coefficient of at least one and two ions per cubic metre there is at least one electron. -/
theorem one_le_density {s : Species} (hZ : 0 < s.Z) (hc : ∀ k < s.Z, 0 < s.coeff k) (h0 : 1 ≤ s.coeff 0) (hN : 2 ≤ s.N)
    {pop : Species → ℕ → ℝ} {ne : ℝ} (h : Equilibrium [s] pop ne) : 1 ≤ ne := by
  have hreg : Regular [s] := by
    intro t ht
    rw [List.mem_singleton] at ht
    subst ht
    exact ⟨by linarith, hc⟩
  by_contra hlt
  push Not at hlt
  have hm := excess_mono hreg h.pos hlt.le
  rw [h.excess_zero hreg] at hm
  have hp := part_pos hc (t := 1) one_pos
  have h2 : 2 ≤ part s.Z s.coeff 1 := by
    obtain ⟨m, hm'⟩ := Nat.exists_eq_succ_of_ne_zero hZ.ne'
    unfold part
    rw [hm', sum_range_succ', sum_range_succ']
    have : 0 ≤ ∑ k ∈ range m, pr s.coeff (k + 1 + 1) * 1 ^ (k + 1 + 1) := by
      refine sum_nonneg fun k hk => ?_
      have := pr_pos hc (i := k + 1 + 1) (by have := mem_range.1 hk; omega)
      positivity
    have e1 : pr s.coeff (0 + 1) = s.coeff 0 := by simp [pr]
    have e2 : pr s.coeff 0 = 1 := by simp [pr]
    rw [e1, e2]
    simp only [one_pow, mul_one] at this ⊢
    linarith
  have h3 : part s.Z s.coeff 1 - 1 ≤ part1 s.Z s.coeff 1 := by
    unfold part part1
    rw [sum_range_succ', sum_range_succ']
    have e2 : pr s.coeff 0 = 1 := by simp [pr]
    rw [e2]
    simp only [one_pow, mul_one, Nat.cast_zero, add_zero, add_sub_cancel_right]
    refine sum_le_sum fun k hk => ?_
    have := pr_pos hc (i := k + 1) (by have := mem_range.1 hk; omega)
    push_cast
    nlinarith [(k.cast_nonneg : (0 : ℝ) ≤ k)]
  have h4 : 1 / 2 ≤ part1 s.Z s.coeff 1 / part s.Z s.coeff 1 := by
    rw [le_div_iff₀ hp]
    linarith
  have h5 : excess [s] 1 ≤ 0 := by
    unfold excess
    simp only [List.map_cons, List.map_nil, List.sum_cons, List.sum_nil, add_zero, div_one]
    nlinarith
  linarith

/-- No logarithm is cut where the solver may look, and a little beyond. -/
def Clear (s : Species) : Prop :=
  ∀ y ∈ Set.Icc (log (1 / 100000000) - 1) (log (s.Z * s.N) + 1), Unclipped s y

/-- C63.  The charge which the solver returns for one element is that of the equilibrium, with a relative error of
`1e-8` times the atomic number plus four. -/
theorem solve_charge {s : Species} (hZ : 0 < s.Z) (hb : AllBound s) (hc : ∀ k < s.Z, 0 < s.coeff k)
    (h0 : 1 ≤ s.coeff 0) (hN : 2 ≤ s.N) (hr : s.Z * s.N ≤ exp 1000) (hu : Clear s) {pop : Species → ℕ → ℝ} {ne : ℝ}
    (he : Equilibrium [s] pop ne) {y : ℝ} (hy : Solves [s] y) :
    |log (zbar s y) - log (ne / s.N)| ≤ (s.Z + 4) / 100000000 := by
  have hreg : Regular [s] := by
    intro t ht
    rw [List.mem_singleton] at ht
    subst ht
    exact ⟨by linarith, hc⟩
  have hbl : ∀ t ∈ [s], AllBound t := by
    intro t ht
    rw [List.mem_singleton] at ht
    exact ht ▸ hb
  have hNs : ∀ t ∈ [s], 0 ≤ t.N := fun t ht => (hreg t ht).1
  have hmax : maxNe [s] = s.Z * s.N := by simp [maxNe]
  have hZ1 : (1 : ℝ) ≤ s.Z := by exact_mod_cast hZ
  have hm2 : 2 ≤ (s.Z : ℝ) * s.N := by nlinarith
  have hne := one_le_density hZ hc h0 hN he
  have hN0 : 0 < s.N := by linarith
  have hul : ∀ y ∈ Set.Icc (log (1 / 100000000) - 1) (log (s.Z * s.N) + 1), ∀ t ∈ [s], Unclipped t y := by
    intro y hy t ht
    rw [List.mem_singleton] at ht
    exact ht ▸ hu y hy
  have hlog : log (1 / 100000000) ≤ log (s.Z * s.N) := log_le_log (by norm_num) (by linarith)
  have hlo : residual [s] (log (1 / 100000000)) ≤ 0 := by
    rw [residual_eq_excess hreg hbl (hul _ ⟨by linarith, by linarith⟩), exp_log (by norm_num)]
    have := excess_mono hreg (a := 1 / 100000000) (b := ne) (by norm_num) (by linarith)
    rw [he.excess_zero hreg] at this
    linarith
  obtain ⟨y1, y2, h⟩ := (solve_accuracy hNs (by rw [hmax]; linarith) (by rw [hmax]; exact hr) hlo).2 y hy
  rw [hmax] at y2
  have huy := hul y ⟨by linarith, by linarith⟩
  have hz := (zbar_mem s y).2.2 hZ
  rcases h with h | ⟨r, h1, h2⟩
  · have hre : residual [s] y = exp y - s.N * zbar s y := by simp [residual]
    have h3 : |exp y - ne| ≤ 1 / 100000000 := by
      rw [residual_eq_excess hreg hbl huy] at h
      have hz0 := he.excess_zero hreg
      rcases le_total ne (exp y) with hh | hh
      · have := excess_mono hreg he.pos hh
        rw [abs_of_nonneg (by linarith)]
        linarith [(abs_le.1 h).2]
      · have := excess_mono hreg (exp_pos y) hh
        rw [abs_of_nonpos (by linarith)]
        linarith [(abs_le.1 h).1]
    rw [hre] at h
    have ha := abs_le.1 h
    have hbb := abs_le.1 h3
    have hzN : zbar s y = s.N * zbar s y / s.N := by field_simp
    rw [hzN, log_div (mul_pos hN0 hz.1).ne' hN0.ne', log_div (by linarith) hN0.ne']
    have hw0 : 0 < s.N * zbar s y := mul_pos hN0 hz.1
    generalize s.N * zbar s y = w at *
    have hq : |log w - log ne| ≤ 4 / 100000000 := by
      rw [abs_le]
      constructor
      · have h5 := one_sub_inv_le_log_of_pos (x := w / ne) (by positivity)
        rw [log_div hw0.ne' (by linarith)] at h5
        have h6 : (w / ne)⁻¹ ≤ 1 + 4 / 100000000 := by
          rw [inv_div, div_le_iff₀ hw0]
          nlinarith
        linarith
      · have h5 := log_le_sub_one_of_pos (x := w / ne) (by positivity)
        rw [log_div hw0.ne' (by linarith)] at h5
        have h6 : w / ne ≤ 1 + 4 / 100000000 := by
          rw [div_le_iff₀ (by linarith)]
          nlinarith
        linarith
    have e : log w - log s.N - (log ne - log s.N) = log w - log ne := by ring
    rw [e]
    refine hq.trans ?_
    have : (0 : ℝ) ≤ s.Z := by positivity
    linarith
  · have hab := abs_le.1 h2
    have hur := hul r ⟨by linarith [hab.2], by linarith [hab.1]⟩
    have heq := (equilibrium_unique hreg he (equilibrium_of_root hreg hbl hur h1)).1
    have hx := he.excess_zero hreg
    unfold excess at hx
    simp only [List.map_cons, List.map_nil, List.sum_cons, List.sum_nil, add_zero] at hx
    have e1 : ne / s.N = part1 s.Z s.coeff (1 / exp r) / part s.Z s.coeff (1 / exp r) := by
      rw [div_eq_iff hN0.ne', ← heq]
      linarith
    rw [e1, zbar_eq hb hc (huy s (List.mem_singleton.2 rfl))]
    refine (mean_near hZ hc h2).trans ?_
    have : (s.Z : ℝ) * (1 / 100000000) = s.Z / 100000000 := by ring
    rw [this]
    gcongr
    linarith

/-! ### The iteration for one element -/

/-- Specification of an exact solution for one element: the equilibrium for the lowering which belongs to the charge `z`
has the charge `z`. -/
def Exact (e : Elem) (T : ℝ) (b : Bool) (cl : ℝ → ℕ → ℝ) (z : ℝ) : Prop :=
  ∃ pop, Equilibrium [sahaSpecies u e.Z e.g e.E (cl z) T e.N b] pop (e.N * z)

/-- Conditions on one element with lowering `cl` which depends on the charge: all states stay bound, there are electrons,
no logarithm is cut, and the lowering in units of the temperature changes by at most `q` times the relative change of the
charge. -/
structure WeakLowering (e : Elem) (T : ℝ) (b : Bool) (cl : ℝ → ℕ → ℝ) (q : ℝ) : Prop where
  Z_pos : 0 < e.Z
  g_pos : ∀ k ≤ e.Z, 0 < e.g k
  T_pos : 0 < T
  ions : 2 ≤ e.N
  few : e.Z * e.N ≤ exp 1000
  bound : ∀ z : ℝ, 0 < z → z ≤ e.Z → ∀ k < e.Z, 0 < e.E k + cl z k
  first : ∀ z : ℝ, 0 < z → z ≤ e.Z → 1 ≤ sahaEquation u (e.g 0) (e.g 1) T (e.E 0 + cl z 0)
  clear : ∀ z : ℝ, 0 < z → z ≤ e.Z → Clear (sahaSpecies u e.Z e.g e.E (cl z) T e.N b)
  q_nonneg : 0 ≤ q
  q_lt : q < 1
  lip : ∀ z z' : ℝ, 0 < z → z ≤ e.Z → 0 < z' → z' ≤ e.Z → ∀ k < e.Z,
    |cl z k - cl z' k| ≤ q * (u.kB * T) * |log z - log z'|

variable {u}

theorem sahaEquation_pos {gi gj T dE : ℝ} (hi : 0 < gi) (hj : 0 < gj) (hT : 0 < T) : 0 < sahaEquation u gi gj T dE := by
  have := thermDeBroglie_pos u hT
  unfold sahaEquation
  positivity

theorem log_sahaEquation {gi gj T dE dE' : ℝ} (hi : 0 < gi) (hj : 0 < gj) (hT : 0 < T) :
    log (sahaEquation u gi gj T dE) - log (sahaEquation u gi gj T dE') = (dE' - dE) / (u.kB * T) := by
  have h := thermDeBroglie_pos u hT
  have hp : 0 < gj / gi * 2 / thermDeBroglie u T ^ 3 := by positivity
  unfold sahaEquation
  rw [log_mul hp.ne' (exp_pos _).ne', log_mul hp.ne' (exp_pos _).ne', log_exp, log_exp]
  ring

namespace WeakLowering

variable {e : Elem} {T : ℝ} {b : Bool} {cl : ℝ → ℕ → ℝ} {q : ℝ} (w : WeakLowering u e T b cl q)
include w

theorem coeff_pos (z : ℝ) : ∀ k < e.Z, 0 < (sahaSpecies u e.Z e.g e.E (cl z) T e.N b).coeff k :=
  fun k hk => sahaEquation_pos (w.g_pos k hk.le) (w.g_pos (k + 1) hk) w.T_pos

theorem allBound {z : ℝ} (hz : 0 < z) (hz' : z ≤ e.Z) : AllBound (sahaSpecies u e.Z e.g e.E (cl z) T e.N b) := by
  intro k hk
  have hk' : k < e.Z := hk
  simp only [sahaSpecies]
  split_ifs
  · rw [heav0, if_pos (w.bound z hz hz' k hk')]
    norm_num
  · norm_num

theorem exists_equilibrium (z : ℝ) :
    ∃ pop z', Equilibrium [sahaSpecies u e.Z e.g e.E (cl z) T e.N b] pop (e.N * z') ∧ 0 < z' ∧ z' ≤ e.Z := by
  have hN : 0 < e.N := by linarith [w.ions]
  have hZ : (0 : ℝ) < e.Z := by exact_mod_cast w.Z_pos
  have hm : maxNe [sahaSpecies u e.Z e.g e.E (cl z) T e.N b] = e.Z * e.N := by simp [maxNe, sahaSpecies]
  obtain ⟨pop, ne, h, hle⟩ := equilibrium_exists (l := [sahaSpecies u e.Z e.g e.E (cl z) T e.N b]) (by
    intro t ht
    rw [List.mem_singleton] at ht
    subst ht
    exact ⟨hN.le, w.coeff_pos z⟩) (by rw [hm]; positivity)
  rw [hm] at hle
  have hne := h.pos
  refine ⟨pop, ne / e.N, ?_, by positivity, ?_⟩
  · have : e.N * (ne / e.N) = ne := by field_simp
    rw [this]
    exact h
  · rw [div_le_iff₀ hN]
    exact hle

/-- The charges of the equilibria for two lowerings are closer than the charges the lowerings belong to. -/
theorem contracts {z1 z2 y1 y2 : ℝ} (h1 : 0 < z1) (h1' : z1 ≤ e.Z) (h2 : 0 < z2) (h2' : z2 ≤ e.Z) (hy1 : 0 < y1)
    (hy2 : 0 < y2) {pop1 pop2 : Species → ℕ → ℝ}
    (he1 : Equilibrium [sahaSpecies u e.Z e.g e.E (cl z1) T e.N b] pop1 (e.N * y1))
    (he2 : Equilibrium [sahaSpecies u e.Z e.g e.E (cl z2) T e.N b] pop2 (e.N * y2)) :
    |log y1 - log y2| ≤ q * |log z1 - log z2| := by
  have hN : 0 < e.N := by linarith [w.ions]
  have hkT : 0 < u.kB * T := mul_pos u.kB_pos w.T_pos
  have h := equilibrium_lipschitz (l := [(sahaSpecies u e.Z e.g e.E (cl z2) T e.N b,
    sahaSpecies u e.Z e.g e.E (cl z1) T e.N b)]) (δ := q * |log z1 - log z2|) (pop := pop2) (pop' := pop1)
    (ne := e.N * y2) (ne' := e.N * y1) (mul_nonneg w.q_nonneg (abs_nonneg _)) (by
      intro p hp
      rw [List.mem_singleton] at hp
      subst hp
      refine ⟨rfl, rfl, hN.le, fun k hk => ⟨w.coeff_pos z2 k hk, w.coeff_pos z1 k hk, ?_⟩⟩
      have hk' : k < e.Z := hk
      change |log (sahaEquation u (e.g k) (e.g (k + 1)) T (e.E k + cl z1 k)) -
        log (sahaEquation u (e.g k) (e.g (k + 1)) T (e.E k + cl z2 k))| ≤ _
      rw [log_sahaEquation (w.g_pos k hk'.le) (w.g_pos (k + 1) hk') w.T_pos, abs_div, abs_of_pos hkT,
        div_le_iff₀ hkT]
      have e1 : e.E k + cl z2 k - (e.E k + cl z1 k) = -(cl z1 k - cl z2 k) := by ring
      rw [e1, abs_neg]
      refine (w.lip z1 z2 h1 h1' h2 h2' k hk').trans (le_of_eq ?_)
      ring) he2 he1
  rw [log_mul hN.ne' hy1.ne', log_mul hN.ne' hy2.ne'] at h
  have e2 : log e.N + log y1 - (log e.N + log y2) = log y1 - log y2 := by ring
  rwa [e2] at h

/-- One iteration of the code is closer to every exact solution, up to the accuracy of the solver. -/
theorem step_near {z zs : ℝ} (hz : 0 < z) (hz' : z ≤ e.Z) (hs : 0 < zs) (hs' : zs ≤ e.Z) (hex : Exact u e T b cl zs)
    {y : ℝ} (hy : Solves [sahaSpecies u e.Z e.g e.E (cl z) T e.N b] y) :
    |log (zbar (sahaSpecies u e.Z e.g e.E (cl z) T e.N b) y) - log zs| ≤
      q * |log z - log zs| + (e.Z + 4) / 100000000 := by
  have hN : 0 < e.N := by linarith [w.ions]
  obtain ⟨pop, z', he, hz0, -⟩ := w.exists_equilibrium z
  obtain ⟨pop', hex⟩ := hex
  have h1 := w.contracts hz hz' hs hs' hz0 hs he hex
  have h2 := solve_charge w.Z_pos (w.allBound hz hz') (w.coeff_pos z) (w.first z hz hz') w.ions w.few
    (w.clear z hz hz') he hy
  have h3 : e.N * z' / (sahaSpecies u e.Z e.g e.E (cl z) T e.N b).N = z' := by
    change e.N * z' / e.N = z'
    field_simp
  rw [h3] at h2
  have h4 : ((sahaSpecies u e.Z e.g e.E (cl z) T e.N b).Z : ℝ) = e.Z := rfl
  rw [h4] at h2
  calc _ ≤ |log (zbar (sahaSpecies u e.Z e.g e.E (cl z) T e.N b) y) - log z'| + |log z' - log zs| := abs_sub_le _ _ _
    _ ≤ _ := by linarith

end WeakLowering

/-- C88: the iteration converges geometrically.  For one element, without the chemical potential, a lowering which, in
units of the temperature, changes by at most `q < 1` times the relative change of the charge, leads to a charge whose
logarithm differs from that of every exact solution by at most `q ^ 6` times the difference at the start (all electrons
free), plus the errors of the solver. -/
theorem sahaReturns_converge {p : Plasma} {o : Options} {e : Elem} (hp : p.elems = [e]) (hi : o.useIpd = true)
    (hc : o.useChemPot = false) (hd : o.useDistribution = false) {cl : ℝ → ℕ → ℝ} (hcl : ∀ z, p.ipd [z] none = [cl z])
    {q : ℝ} (w : WeakLowering u e p.T o.exclude cl q) {zs : ℝ} (hs : 0 < zs) (hs' : zs ≤ e.Z)
    (hex : Exact u e p.T o.exclude cl zs) {zfree : List ℝ} {out : Loop} (h : p.SahaReturns u o zfree out) :
    ∃ z, out.zmean = [z] ∧ 0 < z ∧ z ≤ e.Z ∧
      |log z - log zs| ≤ q ^ 6 * (log e.Z - log zs) + (e.Z + 4) / 100000000 / (1 - q) := by
  obtain ⟨η, hη⟩ : ∃ η : ℝ, η = (e.Z + 4) / 100000000 := ⟨_, rfl⟩
  have hη0 : 0 ≤ η := by rw [hη]; positivity
  have hq := w.q_lt
  have hq0 := w.q_nonneg
  have hZ : (0 : ℝ) < e.Z := by exact_mod_cast w.Z_pos
  have hstep : ∀ {s s' : Loop} {z : ℝ}, s.zfree = [z] → 0 < z → z ≤ e.Z → p.sahaStep u o s s' →
      ∃ z', s'.zmean = [z'] ∧ s'.zfree = [z'] ∧ 0 < z' ∧ z' ≤ e.Z ∧ |log z' - log zs| ≤ q * |log z - log zs| + η := by
    rintro s s' z hz h0 h1 ⟨⟨y, hy, -, hm⟩, hf⟩
    have hl : p.stepList u o s = [sahaSpecies u e.Z e.g e.E (cl z) p.T e.N o.exclude] := by
      simp [Plasma.stepList, Plasma.lowering, Plasma.sahaList, hi, hc, hd, hz, hcl, hp]
    rw [hl] at hy hm
    have hzb := zbar_mem (sahaSpecies u e.Z e.g e.E (cl z) p.T e.N o.exclude) y
    refine ⟨_, hm, hf.trans hm, (hzb.2.2 w.Z_pos).1, hzb.2.1, ?_⟩
    rw [hη]
    exact w.step_near h0 h1 hs hs' hex hy
  have hiter : ∀ (n : ℕ) {s s' : Loop} {z : ℝ}, s.zfree = [z] → 0 < z → z ≤ e.Z → Iter (p.sahaStep u o) (n + 1) s s' →
      ∃ z', s'.zmean = [z'] ∧ 0 < z' ∧ z' ≤ e.Z ∧
        |log z' - log zs| - η / (1 - q) ≤ q ^ (n + 1) * (|log z - log zs| - η / (1 - q)) := by
    have hfix : q * (η / (1 - q)) + η = η / (1 - q) := by
      have : (1 - q) ≠ 0 := by linarith
      field_simp
      ring
    intro n
    induction n with
    | zero =>
      intro s s' z hz h0 h1 hit
      cases hit with
      | succ hst hit =>
        cases hit
        obtain ⟨z', m1, -, m2, m3, m4⟩ := hstep hz h0 h1 hst
        refine ⟨z', m1, m2, m3, ?_⟩
        rw [zero_add, pow_one, mul_sub]
        linarith
    | succ n ih =>
      intro s s' z hz h0 h1 hit
      cases hit with
      | succ hst hit =>
        obtain ⟨z', m1, mf, m2, m3, m4⟩ := hstep hz h0 h1 hst
        obtain ⟨z'', k1, k2, k3, k4⟩ := ih mf m2 m3 hit
        refine ⟨z'', k1, k2, k3, ?_⟩
        have h1 : |log z' - log zs| - η / (1 - q) ≤ q * (|log z - log zs| - η / (1 - q)) := by
          rw [mul_sub]
          linarith
        have h2 := mul_le_mul_of_nonneg_left h1 (pow_nonneg hq0 (n + 1))
        rw [← mul_assoc, ← pow_succ] at h2
        exact k4.trans h2
  obtain ⟨s, hs0, -, hit⟩ := h
  have hr : p.reset zfree = [(e.Z : ℝ)] := by simp [Plasma.reset, hp]
  obtain ⟨z, k1, k2, k3, k4⟩ := hiter 5 (hs0.trans hr) hZ le_rfl hit
  refine ⟨z, k1, k2, k3, ?_⟩
  rw [abs_of_nonneg (sub_nonneg.2 (log_le_log hs hs'))] at k4
  rw [← hη]
  have hB : 0 ≤ q ^ 6 * (η / (1 - q)) := mul_nonneg (pow_nonneg hq0 6) (div_nonneg hη0 (by linarith))
  rw [mul_sub] at k4
  norm_num at k4
  linarith

/-- C88: there is exactly one exact solution. -/
theorem exact_unique {e : Elem} {T : ℝ} {b : Bool} {cl : ℝ → ℕ → ℝ} {q : ℝ} (w : WeakLowering u e T b cl q) :
    ∃ z : ℝ, (0 < z ∧ z ≤ e.Z ∧ Exact u e T b cl z) ∧
      ∀ z' : ℝ, 0 < z' → z' ≤ e.Z → Exact u e T b cl z' → z' = z := by
  have hZ : (0 : ℝ) < e.Z := by exact_mod_cast w.Z_pos
  choose pop F hF hF0 hFZ using w.exists_equilibrium
  -- the map for the logarithm of the charge
  let G : Set.Iic (log (e.Z : ℝ)) → Set.Iic (log (e.Z : ℝ)) :=
    fun x => ⟨log (F (exp x)), log_le_log (hF0 _) (hFZ _)⟩
  have hx : ∀ x : Set.Iic (log (e.Z : ℝ)), exp (x : ℝ) ≤ e.Z := by
    intro x
    exact (exp_le_exp.2 x.2).trans (exp_log hZ).le
  have hG : ContractingWith ⟨q, w.q_nonneg⟩ G := by
    refine ⟨by exact_mod_cast w.q_lt, LipschitzWith.of_dist_le_mul fun x y => ?_⟩
    rw [Subtype.dist_eq, Subtype.dist_eq, Real.dist_eq, Real.dist_eq]
    have := w.contracts (exp_pos x) (hx x) (exp_pos y) (hx y) (hF0 _) (hF0 _) (hF _) (hF _)
    rwa [log_exp, log_exp] at this
  have : Nonempty (Set.Iic (log (e.Z : ℝ))) := ⟨⟨_, le_refl (log (e.Z : ℝ))⟩⟩
  have : CompleteSpace (Set.Iic (log (e.Z : ℝ))) := isClosed_Iic.completeSpace_coe
  obtain ⟨x, hfix⟩ : ∃ x, G x = x := ⟨_, hG.fixedPoint_isFixedPt⟩
  have hfx : F (exp x) = exp x := by
    have := congrArg Subtype.val hfix
    change log (F (exp x)) = x at this
    exact (exp_log (hF0 _)).symm.trans (congrArg exp this)
  refine ⟨exp x, ⟨exp_pos _, hx x, pop (exp x), ?_⟩, ?_⟩
  · have := hF (exp x)
    rwa [hfx] at this
  · rintro z' h1 h2 ⟨pop', h3⟩
    have he := hF (exp x)
    rw [hfx] at he
    have h := w.contracts h1 h2 (exp_pos x) (hx x) h1 (exp_pos x) h3 he
    have hq := w.q_lt
    have h4 : |log z' - log (exp x)| = 0 := by
      have := abs_nonneg (log z' - log (exp x))
      nlinarith
    rw [abs_eq_zero, sub_eq_zero] at h4
    exact log_injOn_pos (Set.mem_Ioi.2 h1) (Set.mem_Ioi.2 (exp_pos _)) h4

/-! ### The lowering of Debye and Hückel -/

/-- The lowering for the charge states of a plasma with one element, as `all_element_states` of the model of Debye and
Hückel returns it for the mean charge `z` (models.py 3579-3600). -/
noncomputable def dhLowering (u : Consts) (N Ti Te z : ℝ) (k : ℕ) : ℝ :=
  Ipd.debyeHueckel u none (k : ℝ) (fun _ : Fin 1 => z) (fun _ => N) (fun _ => Ti) (z * N) Te 0

/-- This is what the model returns for a state with one element of charge `z`. -/
theorem dhLowering_all (u : Consts) (mu : ℝ → ℝ → ℝ) (s : Ipd.IpdState 1) (pop : Option (List ℝ)) {z N Ti : ℝ}
    (hz : s.Zfree = fun _ => z) (hN : s.ni = fun _ => N) (hT : s.Ti = fun _ => Ti) (hne : s.ne = z * N) :
    Ipd.IpdModel.all u mu s pop (.debyeHueckel none) =
      some fun j => (List.range (s.Z j)).map (dhLowering u N Ti s.Te z) := by
  simp only [Ipd.IpdModel.all, Ipd.stages, hz, hN, hT, hne, Option.isSome_some, implies_true, if_true, Option.getD_some]
  congr 1

/-- The inverse screening length of a plasma with one element. -/
noncomputable def dhKappa (u : Consts) (N Ti Te z : ℝ) : ℝ :=
  Ipd.kappaD u none (fun _ : Fin 1 => z) (fun _ => N) (z * N) Te Ti

theorem kappa_log {A B : ℝ} (hA : 0 ≤ A) (hB : 0 ≤ B) {z z' : ℝ} (hz : 0 < z) (h : z ≤ z') :
    sqrt (B * z ^ 2 + A * z) ≤ sqrt (B * z' ^ 2 + A * z') ∧
      sqrt (B * z' ^ 2 + A * z') - sqrt (B * z ^ 2 + A * z) ≤ sqrt (B * z' ^ 2 + A * z') * (log z' - log z) := by
  have hz' := hz.trans_le h
  refine ⟨sqrt_le_sqrt (by gcongr), ?_⟩
  have h1 : z / z' * sqrt (B * z' ^ 2 + A * z') ≤ sqrt (B * z ^ 2 + A * z) := by
    refine le_sqrt_of_sq_le ?_
    rw [mul_pow, sq_sqrt (by positivity), div_pow]
    have e : z ^ 2 / z' ^ 2 * (B * z' ^ 2 + A * z') = B * z ^ 2 + A * z * (z / z') := by field_simp
    rw [e]
    have : z / z' ≤ 1 := by rw [div_le_one hz']; exact h
    have : A * z * (z / z') ≤ A * z * 1 := mul_le_mul_of_nonneg_left this (by positivity)
    linarith
  have h2 := one_sub_inv_le_log_of_pos (x := z' / z) (by positivity)
  rw [log_div hz'.ne' hz.ne', inv_div] at h2
  have h3 := mul_le_mul_of_nonneg_left h2 (sqrt_nonneg (B * z' ^ 2 + A * z'))
  linarith

theorem dhKappa_eq (u : Consts) {N Ti Te : ℝ} (z : ℝ) :
    dhKappa u N Ti Te z = sqrt (u.e ^ 2 * N / (u.eps0 * u.kB * Ti) * z ^ 2 + u.e ^ 2 * N / (u.eps0 * u.kB * Te) * z) := by
  simp only [dhKappa, Ipd.kappaD, Ipd.kappaISq, Ipd.kappaESq, univ_unique, sum_singleton, one_mul]
  congr 1
  ring

theorem dhLowering_eq (u : Consts) (N Ti Te z : ℝ) (k : ℕ) :
    dhLowering u N Ti Te z k = -(((k : ℝ) + 1) * u.e ^ 2 / (4 * π * u.eps0) * dhKappa u N Ti Te z) := by
  simp only [dhLowering, Ipd.debyeHueckel, dhKappa]
  ring

/-- C88: the lowering of Debye and Hückel fulfils the condition for convergence if the energy of an electron next to the
full charge at the distance of the screening length is below the temperature.  The states have to be bound and the
logarithms not cut at all charges; it is enough that the states are bound in the fully ionized plasma. -/
theorem debyeHueckel_weak {e : Elem} {T Ti : ℝ} {b : Bool} (hZ : 0 < e.Z) (hg : ∀ k ≤ e.Z, 0 < e.g k) (hT : 0 < T)
    (hTi : 0 < Ti) (hN : 2 ≤ e.N) (hfew : e.Z * e.N ≤ exp 1000)
    (hE : ∀ k < e.Z, 0 < e.E k + dhLowering u e.N Ti T e.Z k)
    (h0 : 1 ≤ sahaEquation u (e.g 0) (e.g 1) T (e.E 0))
    (hcl : ∀ z : ℝ, 0 < z → z ≤ e.Z → Clear (sahaSpecies u e.Z e.g e.E (dhLowering u e.N Ti T z) T e.N b))
    (hq : e.Z * u.e ^ 2 / (4 * π * u.eps0) * dhKappa u e.N Ti T e.Z < u.kB * T) :
    WeakLowering u e T b (dhLowering u e.N Ti T)
      (e.Z * u.e ^ 2 / (4 * π * u.eps0) * dhKappa u e.N Ti T e.Z / (u.kB * T)) := by
  have h1 := u.eps0_pos
  have h2 := u.kB_pos
  have h3 := pi_pos
  have h4 := u.e_pos
  have hN0 : 0 < e.N := by linarith
  have hkT : 0 < u.kB * T := by positivity
  have hA : 0 ≤ u.e ^ 2 * e.N / (u.eps0 * u.kB * T) := by positivity
  have hB : 0 ≤ u.e ^ 2 * e.N / (u.eps0 * u.kB * Ti) := by positivity
  have hκ0 : ∀ z, 0 ≤ dhKappa u e.N Ti T z := fun z => by rw [dhKappa_eq]; exact sqrt_nonneg _
  have hmono : ∀ {z z' : ℝ}, 0 < z → z ≤ z' → dhKappa u e.N Ti T z ≤ dhKappa u e.N Ti T z' := by
    intro z z' hz h
    rw [dhKappa_eq, dhKappa_eq]
    exact (kappa_log hA hB hz h).1
  have hdiff : ∀ {z z' : ℝ}, 0 < z → z ≤ z' → z' ≤ e.Z →
      dhKappa u e.N Ti T z' - dhKappa u e.N Ti T z ≤ dhKappa u e.N Ti T e.Z * (log z' - log z) := by
    intro z z' hz h hz'
    have := (kappa_log hA hB hz h).2
    rw [← dhKappa_eq, ← dhKappa_eq] at this
    refine this.trans (mul_le_mul_of_nonneg_right (hmono (hz.trans_le h) hz') ?_)
    exact sub_nonneg.2 (log_le_log hz h)
  have hlow : ∀ {z z' : ℝ} (k : ℕ), 0 < z → z ≤ z' → dhLowering u e.N Ti T z' k ≤ dhLowering u e.N Ti T z k := by
    intro z z' k hz h
    rw [dhLowering_eq, dhLowering_eq]
    exact neg_le_neg (mul_le_mul_of_nonneg_left (hmono hz h) (by positivity))
  refine ⟨hZ, hg, hT, hN, hfew, fun z hz hz' k hk => ?_, fun z hz hz' => ?_, hcl, ?_, ?_, ?_⟩
  · have := hlow k hz hz'
    linarith [hE k hk]
  · refine h0.trans ?_
    have hz0 : dhLowering u e.N Ti T z 0 ≤ 0 := by
      rw [dhLowering_eq]
      have := hκ0 z
      simp only [Left.neg_nonpos_iff]
      positivity
    unfold sahaEquation
    have hp : 0 ≤ e.g 1 / e.g 0 * 2 / thermDeBroglie u T ^ 3 := by
      have := thermDeBroglie_pos u hT
      have := hg 0 (Nat.zero_le _)
      have := hg 1 hZ
      positivity
    refine mul_le_mul_of_nonneg_left (exp_le_exp.2 ?_) hp
    exact div_le_div_of_nonneg_right (by linarith) hkT.le
  · have := hκ0 e.Z
    positivity
  · rw [div_lt_one hkT]
    exact hq
  · have key : ∀ {z z' : ℝ} (k : ℕ), k < e.Z → 0 < z → z ≤ z' → z' ≤ e.Z →
        dhLowering u e.N Ti T z k - dhLowering u e.N Ti T z' k ≤
          e.Z * u.e ^ 2 / (4 * π * u.eps0) * dhKappa u e.N Ti T e.Z * (log z' - log z) := by
      intro z z' k hk hz h hz'
      rw [dhLowering_eq, dhLowering_eq]
      have hk' : ((k : ℝ) + 1) ≤ e.Z := by exact_mod_cast hk
      have hd := hdiff hz h hz'
      have hd0 := sub_nonneg.2 (hmono hz h)
      calc -(((k : ℝ) + 1) * u.e ^ 2 / (4 * π * u.eps0) * dhKappa u e.N Ti T z) -
            -(((k : ℝ) + 1) * u.e ^ 2 / (4 * π * u.eps0) * dhKappa u e.N Ti T z')
          = ((k : ℝ) + 1) * u.e ^ 2 / (4 * π * u.eps0) * (dhKappa u e.N Ti T z' - dhKappa u e.N Ti T z) := by ring
        _ ≤ e.Z * u.e ^ 2 / (4 * π * u.eps0) * (dhKappa u e.N Ti T z' - dhKappa u e.N Ti T z) := by gcongr
        _ ≤ e.Z * u.e ^ 2 / (4 * π * u.eps0) * (dhKappa u e.N Ti T e.Z * (log z' - log z)) :=
            mul_le_mul_of_nonneg_left hd (by positivity)
        _ = _ := by ring
    intro z z' hz hz1 hz' hz1' k hk
    rw [div_mul_cancel₀ _ hkT.ne']
    rcases le_total z z' with h | h
    · rw [abs_of_nonneg (sub_nonneg.2 (hlow k hz h)), abs_sub_comm (log z),
        abs_of_nonneg (sub_nonneg.2 (log_le_log hz h))]
      exact key k hk hz h hz1'
    · rw [abs_sub_comm, abs_of_nonneg (sub_nonneg.2 (hlow k hz' h)),
        abs_of_nonneg (sub_nonneg.2 (log_le_log hz' h))]
      exact key k hk hz' h hz1

/-- Hydrogen whose ionization energy is lowered in proportion to its charge. -/
def hydrogen (E : ℝ) : Elem := ⟨1, fun _ => 1, fun _ => E, fun _ => [], 2⟩

theorem hydrogen_weak : WeakLowering unitConsts (hydrogen (2 * π)) (2 * π * 2 ^ 2) true (fun z _ => -(π * z)) (1 / 2) := by
  have hpi := pi_pos
  have hco : ∀ z : ℝ, sahaEquation unitConsts 1 1 (2 * π * 2 ^ 2) (2 * π + -(π * z)) =
      2 * 2 ^ 3 * exp (-(1 - z / 2) / 2 ^ 2) := by
    intro z
    rw [← unit_saha 2 (1 - z / 2) two_pos]
    congr 1
    ring
  have hlow : ∀ z : ℝ, 0 < z → z ≤ 1 → 1 ≤ 2 * 2 ^ 3 * exp (-(1 - z / 2) / 2 ^ 2) := by
    intro z h0 h1
    have := add_one_le_exp (-(1 - z / 2) / 2 ^ 2)
    nlinarith
  have hlip : ∀ z z' : ℝ, 0 < z → z ≤ 1 → 0 < z' → z' ≤ 1 → |z - z'| ≤ |log z - log z'| := by
    have key : ∀ z z' : ℝ, 0 < z → z ≤ z' → z' ≤ 1 → z' - z ≤ log z' - log z := by
      intro z z' h0 h1 h2
      have hz' := h0.trans_le h1
      have h3 := one_sub_inv_le_log_of_pos (x := z' / z) (by positivity)
      rw [log_div hz'.ne' h0.ne', inv_div] at h3
      have h4 : z' - z ≤ 1 - z / z' := by
        have h5 : z / z' * z' = z := by field_simp
        have h6 : z / z' ≤ 1 := by rw [div_le_one hz']; exact h1
        nlinarith
      linarith
    intro z z' h0 h1 h0' h1'
    rcases le_total z z' with h | h
    · rw [abs_sub_comm, abs_sub_comm (log z), abs_of_nonneg (sub_nonneg.2 h)]
      exact (key z z' h0 h h1').trans (le_abs_self _)
    · rw [abs_of_nonneg (sub_nonneg.2 h)]
      exact (key z' z h0' h h1).trans (le_abs_self _)
  have cast1 : (((hydrogen (2 * π)).Z : ℕ) : ℝ) = 1 := by simp [hydrogen]
  refine ⟨one_pos, fun _ _ => one_pos, by positivity, le_refl (2 : ℝ), ?_, ?_, ?_, ?_, by norm_num, by norm_num, ?_⟩
  · rw [cast1]
    change (1 : ℝ) * 2 ≤ exp 1000
    have := add_one_le_exp (1000 : ℝ)
    linarith
  · intro z h0 h1 k _
    rw [cast1] at h1
    change 0 < 2 * π + -(π * z)
    nlinarith
  · intro z h0 h1
    rw [cast1] at h1
    change 1 ≤ sahaEquation unitConsts 1 1 (2 * π * 2 ^ 2) (2 * π + -(π * z))
    rw [hco]
    exact hlow z h0 h1
  · intro z h0 h1 y hy i hi
    rw [cast1] at h1
    have hi' : i ≤ 1 := hi
    have hm : (((sahaSpecies unitConsts (hydrogen (2 * π)).Z (hydrogen (2 * π)).g (hydrogen (2 * π)).E (fun _ => -(π * z))
        (2 * π * 2 ^ 2) (hydrogen (2 * π)).N true).Z : ℕ) : ℝ) * (sahaSpecies unitConsts (hydrogen (2 * π)).Z
        (hydrogen (2 * π)).g (hydrogen (2 * π)).E (fun _ => -(π * z)) (2 * π * 2 ^ 2) (hydrogen (2 * π)).N true).N = 2 := by
      simp [sahaSpecies, hydrogen]
    rw [hm] at hy
    have h2 := log_le_sub_one_of_pos (x := 2) (by norm_num)
    have h3 := log_small
    obtain ⟨y1, y2⟩ := hy
    interval_cases i
    · simp
    · rw [sum_range_one]
      change |log (sahaEquation unitConsts 1 1 (2 * π * 2 ^ 2) (2 * π + -(π * z))) - y| ≤ 500
      rw [hco]
      have h4 := log_nonneg (hlow z h0 h1)
      have h5 : log (2 * 2 ^ 3 * exp (-(1 - z / 2) / 2 ^ 2)) ≤ 15 := by
        refine (log_le_sub_one_of_pos (by positivity)).trans ?_
        have : exp (-(1 - z / 2) / 2 ^ 2) ≤ exp 0 := exp_le_exp.2 (by linarith)
        rw [exp_zero] at this
        linarith
      rw [abs_le]
      constructor <;> linarith
  · intro z z' h0 h1 h0' h1' k _
    rw [cast1] at h1 h1'
    have h := hlip z z' h0 h1 h0' h1'
    have e1 : -(π * z) - -(π * z') = -(π * (z - z')) := by ring
    have e2 : unitConsts.kB = 1 := rfl
    change |-(π * z) - -(π * z')| ≤ _
    rw [e1, abs_neg, abs_mul, abs_of_pos hpi, e2]
    have h' := abs_nonneg (log z - log z')
    nlinarith [mul_le_mul_of_nonneg_left h hpi.le]

/-- A plasma with this hydrogen meets the hypotheses: the exact solution exists, and the code returns a charge. -/
example : ∃ (p : Plasma) (o : Options) (zs : ℝ) (out : Loop), p.elems = [hydrogen (2 * π)] ∧ o.useIpd = true ∧
    o.useChemPot = false ∧ o.useDistribution = false ∧ (∀ z, p.ipd [z] none = [fun _ => -(π * z)]) ∧
    WeakLowering unitConsts (hydrogen (2 * π)) p.T o.exclude (fun z _ => -(π * z)) (1 / 2) ∧ 0 < zs ∧
    zs ≤ (hydrogen (2 * π)).Z ∧ Exact unitConsts (hydrogen (2 * π)) p.T o.exclude (fun z _ => -(π * z)) zs ∧
    p.SahaReturns unitConsts o [] out := by
  obtain ⟨zs, ⟨h1, h2, h3⟩, -⟩ := exact_unique hydrogen_weak
  obtain ⟨p, hp⟩ : ∃ p : Plasma, p = ⟨[hydrogen (2 * π)], 2 * π * 2 ^ 2, fun z _ => z.map fun x _ => -(π * x),
    fun _ => 0⟩ := ⟨_, rfl⟩
  obtain ⟨out, h, -⟩ := sahaReturns_unique unitConsts p ⟨true, false, false, true⟩ []
  refine ⟨p, ⟨true, false, false, true⟩, zs, out, ?_, rfl, rfl, rfl, ?_, ?_, h1, h2, ?_, h⟩
  · rw [hp]
  · intro z
    rw [hp]
    rfl
  · rw [hp]
    exact hydrogen_weak
  · rw [hp]
    exact h3

/-- Hydrogen with the lowering of Debye and Hückel meets the hypotheses. -/
example : ∃ q, WeakLowering unitConsts (hydrogen (2 * π)) (2 * π * 2 ^ 2) true
    (dhLowering unitConsts (hydrogen (2 * π)).N (2 * π * 2 ^ 2) (2 * π * 2 ^ 2)) q := by
  have hpi := pi_pos
  have hpi3 := pi_gt_three
  obtain ⟨T, hT⟩ : ∃ T, T = 2 * π * 2 ^ 2 := ⟨_, rfl⟩
  have hT24 : 24 ≤ T := by rw [hT]; linarith
  have hκ : ∀ z : ℝ, 0 < z → z ≤ 1 → 0 ≤ dhKappa unitConsts 2 T T z ∧ dhKappa unitConsts 2 T T z ≤ 1 := by
    intro z h0 h1
    rw [dhKappa_eq]
    refine ⟨sqrt_nonneg _, ?_⟩
    rw [sqrt_le_one]
    simp only [unitConsts, one_pow, one_mul]
    have h2 : 2 / T ≤ 1 / 12 := by
      rw [div_le_iff₀ (by linarith)]
      linarith
    have h3 : 0 ≤ 2 / T := by positivity
    nlinarith
  have hlow : ∀ z : ℝ, 0 < z → z ≤ 1 → -1 ≤ dhLowering unitConsts 2 T T z 0 ∧ dhLowering unitConsts 2 T T z 0 ≤ 0 := by
    intro z h0 h1
    obtain ⟨k0, k1⟩ := hκ z h0 h1
    rw [dhLowering_eq]
    simp only [unitConsts, one_pow, mul_one, Nat.cast_zero, zero_add]
    have h2 : 1 / (4 * π) ≤ 1 := by
      rw [div_le_one (by positivity)]
      linarith
    have h3 : 0 ≤ 1 / (4 * π) := by positivity
    change -1 ≤ -(1 / (4 * π) * dhKappa unitConsts 2 T T z) ∧ -(1 / (4 * π) * dhKappa unitConsts 2 T T z) ≤ 0
    constructor <;> nlinarith
  have hco : ∀ x : ℝ, -1 ≤ x → x ≤ 0 → 12 ≤ sahaEquation unitConsts 1 1 T (2 * π + x) ∧
      sahaEquation unitConsts 1 1 T (2 * π + x) ≤ 16 := by
    intro x h0 h1
    have e : 2 * π + x = 2 * π * (1 + x / (2 * π)) := by field_simp
    rw [hT, e, unit_saha 2 _ two_pos]
    have h2 : -1 ≤ x / (2 * π) := by
      rw [le_div_iff₀ (by positivity)]
      linarith
    have h3 : x / (2 * π) ≤ 0 := div_nonpos_of_nonpos_of_nonneg h1 (by positivity)
    generalize x / (2 * π) = w at *
    have h4 := add_one_le_exp (-(1 + w) / 2 ^ 2)
    have h5 : exp (-(1 + w) / 2 ^ 2) ≤ exp 0 := exp_le_exp.2 (by linarith)
    rw [exp_zero] at h5
    constructor <;> linarith
  have cast1 : (((hydrogen (2 * π)).Z : ℕ) : ℝ) = 1 := by simp [hydrogen]
  have hz1 := hlow 1 one_pos le_rfl
  rw [← hT]
  refine ⟨_, debyeHueckel_weak one_pos (fun _ _ => one_pos) (by linarith) (by linarith) (le_refl (2 : ℝ)) ?_ ?_ ?_ ?_ ?_⟩
  · rw [cast1]
    change (1 : ℝ) * 2 ≤ exp 1000
    have := add_one_le_exp (1000 : ℝ)
    linarith
  · intro k hk
    have hk' : k < 1 := hk
    interval_cases k
    rw [cast1]
    change 0 < 2 * π + dhLowering unitConsts 2 T T 1 0
    linarith [hz1.1]
  · have := (hco 0 (by norm_num) le_rfl).1
    rw [add_zero] at this
    change 1 ≤ sahaEquation unitConsts 1 1 T (2 * π)
    linarith
  · intro z h0 h1 y hy i hi
    rw [cast1] at h1
    have hi' : i ≤ 1 := hi
    have hm : (((sahaSpecies unitConsts (hydrogen (2 * π)).Z (hydrogen (2 * π)).g (hydrogen (2 * π)).E
        (dhLowering unitConsts (hydrogen (2 * π)).N T T z) T (hydrogen (2 * π)).N true).Z : ℕ) : ℝ) *
        (sahaSpecies unitConsts (hydrogen (2 * π)).Z (hydrogen (2 * π)).g (hydrogen (2 * π)).E
        (dhLowering unitConsts (hydrogen (2 * π)).N T T z) T (hydrogen (2 * π)).N true).N = 2 := by
      simp [sahaSpecies, hydrogen]
    rw [hm] at hy
    have h2 := log_le_sub_one_of_pos (x := 2) (by norm_num)
    have h3 := log_small
    obtain ⟨y1, y2⟩ := hy
    interval_cases i
    · simp
    · rw [sum_range_one]
      change |log (sahaEquation unitConsts 1 1 T (2 * π + dhLowering unitConsts 2 T T z 0)) - y| ≤ 500
      obtain ⟨c1, c2⟩ := hco _ (hlow z h0 h1).1 (hlow z h0 h1).2
      have h4 := log_nonneg (by linarith : 1 ≤ sahaEquation unitConsts 1 1 T (2 * π + dhLowering unitConsts 2 T T z 0))
      have h5 := log_le_sub_one_of_pos
        (by linarith : 0 < sahaEquation unitConsts 1 1 T (2 * π + dhLowering unitConsts 2 T T z 0))
      rw [abs_le]
      constructor <;> linarith
  · rw [cast1]
    have hk := hκ 1 one_pos le_rfl
    change 1 * (1 : ℝ) ^ 2 / (4 * π * 1) * dhKappa unitConsts 2 T T 1 < 1 * T
    have h2 : 1 * (1 : ℝ) ^ 2 / (4 * π * 1) ≤ 1 := by
      rw [div_le_one (by positivity)]
      linarith
    have h3 : 0 ≤ 1 * (1 : ℝ) ^ 2 / (4 * π * 1) := by positivity
    nlinarith

end Verif.Saha
