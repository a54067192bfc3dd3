/-
C10, C63, C67: the results of `bisection`, of the Saha solver and of the diameter of the charged hard spheres are ordered
as the functions, the coefficients and the temperatures are.
-/
import Verif.Props.Bisection
import Verif.Props.Ionization
import Verif.Props.HardSphere

set_option autoImplicit false

namespace Verif.Bisection

open Set

variable {f g : ℝ → ℝ} {o : Options}

theorem while_mem {s s' : State} (h : While f o s s') : s'.next ∈ uIcc s.prev s.next := by
  induction h with
  | stop _ => exact right_mem_uIcc
  | @step s s' _ _ ih =>
    have hm : (s.prev + s.next) / 2 ∈ uIcc s.prev s.next := mid_mem left_mem_uIcc right_mem_uIcc
    refine uIcc_subset_uIcc ?_ hm ih
    simp only [body]
    split_ifs
    · exact left_mem_uIcc
    · exact right_mem_uIcc

theorem body_keep {s : State} (h : Real.sign (f ((s.prev + s.next) / 2)) = Real.sign (f s.next)) :
    body f s = ⟨s.prev, (s.prev + s.next) / 2, s.count + 1⟩ := by
  simp only [body, if_pos h]

theorem body_swap {s : State} (h : Real.sign (f ((s.prev + s.next) / 2)) ≠ Real.sign (f s.next)) :
    body f s = ⟨s.next, (s.prev + s.next) / 2, s.count + 1⟩ := by
  simp only [body, if_neg h]

theorem sign_ne_of_pos {x y : ℝ} (hy : 0 < y) (hx : x ≤ 0) : Real.sign x ≠ Real.sign y := by
  rw [Real.sign_of_pos hy]
  rcases hx.lt_or_eq with h | rfl
  · rw [Real.sign_of_neg h]; norm_num
  · rw [Real.sign_zero]; norm_num

theorem sign_ne_of_neg {x y : ℝ} (hy : y < 0) (hx : 0 ≤ x) : Real.sign x ≠ Real.sign y := by
  rw [Real.sign_of_neg hy]
  rcases hx.lt_or_eq with h | rfl
  · rw [Real.sign_of_pos h]; norm_num
  · rw [Real.sign_zero]; norm_num

/-- A run that has met a root stops there. -/
theorem while_root (hmin : o.minIter ≤ 1) (ht : 0 ≤ o.tolerance) {p c : ℝ} {n : ℕ} {s' : State}
    (h : While f o ⟨p, c, n + 1⟩ s') (h0 : f c = 0) : s'.next = c := by
  cases h with
  | stop _ => rfl
  | step hc _ =>
    exfalso
    simp only [condition, h0, abs_zero, Bool.or_eq_true, Bool.and_eq_true, decide_eq_true_eq] at hc
    rcases hc with ⟨⟨-, h2⟩, -⟩ | h2
    · exact absurd h2 (not_lt.2 ht)
    · omega

/-- The sign at the last point tells on which side of it the search goes on. -/
def Toward (f g : ℝ → ℝ) (s : State) : Prop :=
  (s.prev ≤ s.next ∧ 0 < g s.next) ∨ (s.next ≤ s.prev ∧ f s.next < 0)

theorem while_mono (hmin : o.minIter ≤ 1) (ht : 0 ≤ o.tolerance) {a b : ℝ} (hfg : ∀ x ∈ uIcc a b, g x ≤ f x)
    {s sf : State} (hf : While f o s sf) : s.prev ∈ uIcc a b → s.next ∈ uIcc a b → Toward f g s →
      ∀ {sg : State}, While g o s sg → sf.next ≤ sg.next := by
  induction hf with
  | @stop s hcf =>
    intro hp hn hto sg hg
    have hmem := while_mem hg
    cases hg with
    | stop _ => exact le_rfl
    | step hcg _ =>
      rcases hto with ⟨hle, hpos⟩ | ⟨hle, -⟩
      · exfalso
        have hgf := hfg _ hn
        simp only [condition, Bool.or_eq_true, Bool.and_eq_true, decide_eq_true_eq] at hcg
        simp only [condition, Bool.or_eq_false_iff, Bool.and_eq_false_iff, decide_eq_false_iff_not, not_lt,
          gt_iff_lt] at hcf
        obtain ⟨h1, h2⟩ := hcf
        rcases hcg with ⟨⟨c1, c2⟩, c3⟩ | c4
        · rcases h1 with (h1 | h1) | h1
          · omega
          · rw [abs_of_pos (hpos.trans_le hgf)] at h1
            rw [abs_of_pos hpos] at c2
            linarith
          · linarith
        · omega
      · rw [uIcc_of_ge hle] at hmem
        exact hmem.1
  | @step s sf hcf hw ih =>
    intro hp hn hto sg hg
    have hmemf := while_mem (While.step hcf hw)
    have hmemg := while_mem hg
    have hc : (s.prev + s.next) / 2 ∈ uIcc a b := mid_mem hp hn
    have hgc := hfg _ hc
    have hgn := hfg _ hn
    cases hg with
    | stop hcg =>
      rcases hto with ⟨hle, -⟩ | ⟨hle, hneg⟩
      · rw [uIcc_of_le hle] at hmemf
        exact hmemf.2
      · exfalso
        simp only [condition, Bool.or_eq_true, Bool.and_eq_true, decide_eq_true_eq] at hcf
        simp only [condition, Bool.or_eq_false_iff, Bool.and_eq_false_iff, decide_eq_false_iff_not, not_lt,
          gt_iff_lt] at hcg
        obtain ⟨h1, h2⟩ := hcg
        rcases hcf with ⟨⟨c1, c2⟩, c3⟩ | c4
        · rcases h1 with (h1 | h1) | h1
          · omega
          · rw [abs_of_neg (hgn.trans_lt hneg)] at h1
            rw [abs_of_neg hneg] at c2
            linarith
          · linarith
        · omega
    | step hcg hwg =>
      rcases hto with ⟨hle, hpos⟩ | ⟨hle, hneg⟩
      · have hposf := hpos.trans_le hgn
        rcases le_or_gt (f ((s.prev + s.next) / 2)) 0 with h1 | h1
        · have h2 := hgc.trans h1
          rw [body_swap (sign_ne_of_pos hposf h1)] at hw ih
          rw [body_swap (sign_ne_of_pos hpos h2)] at hwg
          rcases h1.lt_or_eq with h1 | h1
          · refine ih hn hc (Or.inr ⟨?_, h1⟩) hwg
            change (s.prev + s.next) / 2 ≤ s.next
            linarith
          · rw [while_root hmin ht hw h1]
            have := while_mem hwg
            rw [uIcc_of_ge (by change (s.prev + s.next) / 2 ≤ s.next; linarith)] at this
            exact this.1
        · rw [body_keep (by rw [Real.sign_of_pos h1, Real.sign_of_pos hposf])] at hw ih
          rcases le_or_gt (g ((s.prev + s.next) / 2)) 0 with h2 | h2
          · rw [body_swap (sign_ne_of_pos hpos h2)] at hwg
            have e1 := while_mem hw
            have e2 := while_mem hwg
            rw [uIcc_of_le (by change s.prev ≤ (s.prev + s.next) / 2; linarith)] at e1
            rw [uIcc_of_ge (by change (s.prev + s.next) / 2 ≤ s.next; linarith)] at e2
            exact e1.2.trans e2.1
          · rw [body_keep (by rw [Real.sign_of_pos h2, Real.sign_of_pos hpos])] at hwg
            refine ih hp hc (Or.inl ⟨?_, h2⟩) hwg
            change s.prev ≤ (s.prev + s.next) / 2
            linarith
      · have hnegg := hgn.trans_lt hneg
        rcases lt_or_ge (f ((s.prev + s.next) / 2)) 0 with h1 | h1
        · have h2 := hgc.trans_lt h1
          rw [body_keep (by rw [Real.sign_of_neg h1, Real.sign_of_neg hneg])] at hw ih
          rw [body_keep (by rw [Real.sign_of_neg h2, Real.sign_of_neg hnegg])] at hwg
          refine ih hp hc (Or.inr ⟨?_, h1⟩) hwg
          change (s.prev + s.next) / 2 ≤ s.prev
          linarith
        · rw [body_swap (sign_ne_of_neg hneg h1)] at hw ih
          have e1 := while_mem hw
          rw [uIcc_of_le (by change s.next ≤ (s.prev + s.next) / 2; linarith)] at e1
          rcases lt_or_ge (g ((s.prev + s.next) / 2)) 0 with h2 | h2
          · rw [body_keep (by rw [Real.sign_of_neg h2, Real.sign_of_neg hnegg])] at hwg
            have e2 := while_mem hwg
            rw [uIcc_of_ge (by change (s.prev + s.next) / 2 ≤ s.prev; linarith)] at e2
            exact e1.2.trans e2.1
          · rw [body_swap (sign_ne_of_neg hnegg h2)] at hwg
            rcases h2.lt_or_eq with h2 | h2
            · refine ih hn hc (Or.inl ⟨?_, h2⟩) hwg
              change s.next ≤ (s.prev + s.next) / 2
              linarith
            · rw [while_root hmin ht hwg h2.symm]
              exact e1.2

/-- C10.  The search respects the order of functions: of two functions that are positive at the upper bound, the one that
is nowhere smaller gets the smaller result, whatever the tolerance and the largest number of iterations.  No continuity
is needed, and the results need not have the same number of iterations. -/
theorem bisection_mono (hmin : o.minIter ≤ 1) (ht : 0 ≤ o.tolerance) {a b : ℝ} (hab : a ≤ b)
    (hfg : ∀ x ∈ Icc a b, g x ≤ f x) (hb : 0 < g b) {x y : ℝ} {n m : ℕ} (hf : Returns f o a b x n)
    (hg : Returns g o a b y m) : x ≤ y := by
  obtain ⟨sf, hf, rfl, -⟩ := hf
  obtain ⟨sg, hg, rfl, -⟩ := hg
  exact while_mono hmin ht (by rwa [uIcc_of_le hab]) hf left_mem_uIcc right_mem_uIcc (Or.inl ⟨hab, hb⟩) hg

theorem while_neg {s s' : State} (h : While f o s s') : While (fun x => -f x) o s s' := by
  have hc : ∀ s, condition (fun x => -f x) o s = condition f o s := by
    intro s
    simp only [condition, abs_neg]
  have hb : ∀ s, body (fun x => -f x) s = body f s := by
    intro s
    simp only [body, Real.sign_neg, neg_inj]
  induction h with
  | stop h => exact .stop ((hc _).trans h)
  | step h _ ih => exact .step ((hc _).trans h) ((hb _).symm ▸ ih)

/-- C10.  The sign of the function does not matter. -/
theorem returns_neg {a b x : ℝ} {n : ℕ} (h : Returns f o a b x n) : Returns (fun x => -f x) o a b x n := by
  obtain ⟨s, h, h1, h2⟩ := h
  exact ⟨s, while_neg h, h1, h2⟩

/-- Two straight lines meet the hypotheses. -/
example : (1 : ℕ) ≤ 1 ∧ (0 : ℝ) ≤ 1 / 100 ∧ (0 : ℝ) ≤ 2 ∧
    (∀ x ∈ Icc (0 : ℝ) 2, (fun x => x - 3 / 2) x ≤ (fun x : ℝ => x - 1) x) ∧ (0 : ℝ) < (fun x => x - 3 / 2) 2 := by
  refine ⟨le_rfl, by norm_num, by norm_num, fun x _ => ?_, by norm_num⟩
  change x - 3 / 2 ≤ x - 1
  linarith

end Verif.Bisection

namespace Verif.Saha

open Real Finset Verif.Expt Verif.Resp

variable (u : Consts)

/-- No logarithm is cut where the solver may look. -/
def UnclippedIn (l : List Species) : Prop :=
  ∀ s ∈ l, ∀ y ∈ Set.Icc (log (1 / 100000000)) (log (maxNe l)), Unclipped s y

/-- Below the largest possible density there is room for more electrons. -/
theorem residual_hi_pos {l : List Species} (hN : ∀ s ∈ l, 0 ≤ s.N) (hm : 0 < maxNe l) :
    0 < residual l (log (maxNe l)) := by
  unfold residual
  rw [exp_log hm, sub_pos]
  obtain ⟨s, hs, hp⟩ : ∃ s ∈ l, 0 < (s.Z : ℝ) * s.N := by
    by_contra h
    push Not at h
    refine absurd hm (not_lt.2 ?_)
    refine (List.sum_le_card_nsmul _ 0 fun x hx => ?_).trans (by simp)
    obtain ⟨s, hs, rfl⟩ := List.mem_map.1 hx
    exact h s hs
  rw [maxNe]
  refine List.sum_lt_sum _ _ (fun t ht => ?_) ⟨s, hs, ?_⟩
  · rw [mul_comm]
    exact mul_le_mul_of_nonneg_right (zbar_mem t _).2.1 (hN t ht)
  · have hNs : 0 < s.N := by
      rcases (hN s hs).lt_or_eq with h | h
      · exact h
      · rw [← h, mul_zero] at hp
        exact absurd hp (lt_irrefl _)
    have hZ : 0 < s.Z := by
      rcases Nat.eq_zero_or_pos s.Z with h | h
      · rw [h] at hp
        simp at hp
      · exact h
    rw [mul_comm]
    exact mul_lt_mul_of_pos_right ((zbar_mem s _).2.2 hZ).2 hNs

/-- C63.  What the solver returns, not only the equilibrium it looks for, is ordered: larger coefficients never give fewer
free electrons.  `l` lists pairs of the same element at two conditions. -/
theorem solve_mono {l : List (Species × Species)}
    (hl : ∀ p ∈ l, p.1.Z = p.2.Z ∧ p.1.N = p.2.N ∧ 0 ≤ p.1.N ∧
      ∀ k < p.1.Z, 0 < p.1.coeff k ∧ p.1.coeff k ≤ p.2.coeff k)
    (hb : ∀ p ∈ l, AllBound p.1 ∧ AllBound p.2) (hm : 1 / 100000000 ≤ maxNe (l.map Prod.fst))
    (hu : UnclippedIn (l.map Prod.fst)) (hu' : UnclippedIn (l.map Prod.snd)) {y y' : ℝ}
    (h : Solves (l.map Prod.fst) y) (h' : Solves (l.map Prod.snd) y') : y ≤ y' := by
  have hmax : maxNe (l.map Prod.snd) = maxNe (l.map Prod.fst) := by
    unfold maxNe
    rw [List.map_map, List.map_map]
    congr 1
    refine List.map_congr_left fun p hp => ?_
    simp only [Function.comp_apply, (hl p hp).1, (hl p hp).2.1]
  have hm0 : 0 < maxNe (l.map Prod.fst) := lt_of_lt_of_le (by norm_num) hm
  obtain ⟨n, h⟩ := h
  obtain ⟨m, h'⟩ := h'
  have hpos : 0 < residual (l.map Prod.snd) (log (maxNe (l.map Prod.snd))) := by
    refine residual_hi_pos (fun s hs => ?_) (hmax ▸ hm0)
    obtain ⟨p, hp, rfl⟩ := List.mem_map.1 hs
    exact (hl p hp).2.1 ▸ (hl p hp).2.2.1
  unfold UnclippedIn at hu'
  rw [hmax] at hpos h' hu'
  refine Bisection.bisection_mono (by norm_num) (by norm_num) (log_le_log (by norm_num) hm) (fun x hx => ?_) hpos h h'
  unfold residual
  rw [List.map_map, List.map_map]
  refine sub_le_sub_left (List.sum_le_sum fun p hp => ?_) _
  obtain ⟨e1, e2, e3, e4⟩ := hl p hp
  simp only [Function.comp_apply]
  rw [← e2]
  refine mul_le_mul_of_nonneg_left ?_ e3
  rw [zbar_eq (hb p hp).1 (fun k hk => (e4 k hk).1) (hu p.1 (List.mem_map.2 ⟨p, hp, rfl⟩) x hx),
    zbar_eq (hb p hp).2 (fun k hk => (e4 k (e1 ▸ hk)).1.trans_le (e4 k (e1 ▸ hk)).2)
      (hu' p.2 (List.mem_map.2 ⟨p, hp, rfl⟩) x hx), ← e1]
  exact mean_coeff_mono (fun k hk => (e4 k hk).1) (fun k hk => (e4 k hk).2) (one_div_pos.2 (exp_pos x))

/-- An element: number of electrons, statistical weights, binding energies, density. -/
structure Atom where
  Z : ℕ
  g : ℕ → ℝ
  E : ℕ → ℝ
  N : ℝ

/-- C63.  The electron density that `solve_saha` returns never falls when the plasma gets hotter or the continuum is
lowered further (`ipd` is not positive for a lowering), as long as all states stay bound. -/
theorem saha_solver_mono (l : List (Atom × (ℕ → ℝ) × (ℕ → ℝ))) {T T' : ℝ} (hT : 0 < T) (hTT : T ≤ T')
    (hl : ∀ e ∈ l, 0 ≤ e.1.N ∧ (∀ k ≤ e.1.Z, 0 < e.1.g k) ∧
      ∀ k < e.1.Z, 0 < e.1.E k + e.2.2 k ∧ e.2.2 k ≤ e.2.1 k)
    (b : Bool) (hm : 1 / 100000000 ≤ (l.map fun e => (e.1.Z : ℝ) * e.1.N).sum)
    (hu : UnclippedIn (l.map fun e => sahaSpecies u e.1.Z e.1.g e.1.E e.2.1 T e.1.N b))
    (hu' : UnclippedIn (l.map fun e => sahaSpecies u e.1.Z e.1.g e.1.E e.2.2 T' e.1.N b)) {y y' : ℝ}
    (h : Solves (l.map fun e => sahaSpecies u e.1.Z e.1.g e.1.E e.2.1 T e.1.N b) y)
    (h' : Solves (l.map fun e => sahaSpecies u e.1.Z e.1.g e.1.E e.2.2 T' e.1.N b) y') : exp y ≤ exp y' := by
  obtain ⟨L, hL⟩ : ∃ L, L = l.map fun e => (sahaSpecies u e.1.Z e.1.g e.1.E e.2.1 T e.1.N b,
    sahaSpecies u e.1.Z e.1.g e.1.E e.2.2 T' e.1.N b) := ⟨_, rfl⟩
  have e1 : (l.map fun e => sahaSpecies u e.1.Z e.1.g e.1.E e.2.1 T e.1.N b) = L.map Prod.fst := by
    rw [hL, List.map_map]; rfl
  have e2 : (l.map fun e => sahaSpecies u e.1.Z e.1.g e.1.E e.2.2 T' e.1.N b) = L.map Prod.snd := by
    rw [hL, List.map_map]; rfl
  have hm' : 1 / 100000000 ≤ maxNe (L.map Prod.fst) := by
    rw [← e1, maxNe, List.map_map]
    exact hm
  rw [e1] at hu h
  rw [e2] at hu' h'
  refine exp_le_exp.2 (solve_mono (fun p hp => ?_) (fun p hp => ?_) hm' hu hu' h h')
  · rw [hL] at hp
    obtain ⟨e, he, rfl⟩ := List.mem_map.1 hp
    obtain ⟨h1, h2, h3⟩ := hl e he
    refine ⟨rfl, rfl, h1, fun k hk => ?_⟩
    have hk' : k < e.1.Z := hk
    exact sahaEquation_mono u (h2 k hk'.le) (h2 (k + 1) hk') hT hTT (by linarith [(h3 k hk').2])
      (by linarith [(h3 k hk').1, (h3 k hk').2])
  · rw [hL] at hp
    obtain ⟨e, he, rfl⟩ := List.mem_map.1 hp
    obtain ⟨-, -, h3⟩ := hl e he
    constructor <;> intro k hk <;> simp only [sahaSpecies] at hk ⊢ <;> split_ifs
    · rw [heav0, if_pos (by linarith [(h3 k hk).1, (h3 k hk).2])]; norm_num
    · norm_num
    · rw [heav0, if_pos (h3 k hk).1]; norm_num
    · norm_num

theorem log_small : -72 ≤ log (1 / 100000000 : ℝ) := by
  have h : (1 / 100000000 : ℝ) = (10 ^ 8)⁻¹ := by norm_num
  rw [h, log_inv, log_pow]
  have := log_le_sub_one_of_pos (x := 10) (by norm_num)
  push_cast
  linarith

theorem unclipped_one {c : ℝ} (h1 : -100 ≤ log c) (h2 : log c ≤ 100) :
    UnclippedIn [⟨1, fun _ => c, fun _ => 1, 1⟩] := by
  intro s hs y hy i hi
  rw [List.mem_singleton] at hs
  subst hs
  have hm : maxNe [(⟨1, fun _ => c, fun _ => 1, 1⟩ : Species)] = 1 := by simp [maxNe]
  rw [hm, log_one] at hy
  have := log_small.trans hy.1
  have hy2 := hy.2
  have hi' : i ≤ 1 := hi
  interval_cases i
  · simp
  · rw [sum_range_one, abs_le]
    constructor <;> linarith

/-- Hydrogen at two conditions meets the hypotheses of `solve_mono`. -/
example : ∃ l : List (Species × Species), l ≠ [] ∧
    (∀ p ∈ l, p.1.Z = p.2.Z ∧ p.1.N = p.2.N ∧ 0 ≤ p.1.N ∧
      ∀ k < p.1.Z, 0 < p.1.coeff k ∧ p.1.coeff k ≤ p.2.coeff k) ∧
    (∀ p ∈ l, AllBound p.1 ∧ AllBound p.2) ∧ 1 / 100000000 ≤ maxNe (l.map Prod.fst) ∧
    UnclippedIn (l.map Prod.fst) ∧ UnclippedIn (l.map Prod.snd) ∧ (∃ y, Solves (l.map Prod.fst) y) ∧
    ∃ y, Solves (l.map Prod.snd) y := by
  have h2 := log_le_sub_one_of_pos (x := 2) (by norm_num)
  have h3 := log_pos (x := 2) (by norm_num)
  refine ⟨[(⟨1, fun _ => 1, fun _ => 1, 1⟩, ⟨1, fun _ => 2, fun _ => 1, 1⟩)], by simp, ?_, ?_, ?_,
    unclipped_one (by simp) (by simp), unclipped_one (by linarith) (by linarith), ?_, ?_⟩
  · intro p hp
    rw [List.mem_singleton] at hp
    subst hp
    refine ⟨rfl, rfl, by norm_num, fun k _ => ⟨?_, ?_⟩⟩
    · change (0 : ℝ) < 1
      norm_num
    · change (1 : ℝ) ≤ 2
      norm_num
  · intro p hp
    rw [List.mem_singleton] at hp
    subst hp
    exact ⟨fun k _ => one_pos, fun k _ => one_pos⟩
  · simp [maxNe]
    norm_num
  · obtain ⟨y, n, hy, -⟩ := Bisection.bisection_returns (residual [(⟨1, fun _ => 1, fun _ => 1, 1⟩ : Species)])
      ⟨1 / 100000000, 1000, 1⟩ (log (1 / 100000000)) (log (maxNe [(⟨1, fun _ => 1, fun _ => 1, 1⟩ : Species)]))
    exact ⟨y, n, hy⟩
  · obtain ⟨y, n, hy, -⟩ := Bisection.bisection_returns (residual [(⟨1, fun _ => 2, fun _ => 1, 1⟩ : Species)])
      ⟨1 / 100000000, 1000, 1⟩ (log (1 / 100000000)) (log (maxNe [(⟨1, fun _ => 2, fun _ => 1, 1⟩ : Species)]))
    exact ⟨y, n, hy⟩

theorem unit_saha (r e : ℝ) (hr : 0 < r) :
    sahaEquation unitConsts 1 1 (2 * π * r ^ 2) (2 * π * e) = 2 * r ^ 3 * exp (-e / r ^ 2) := by
  have hpi := pi_pos
  have hd : thermDeBroglie unitConsts (2 * π * r ^ 2) = 1 / r := by
    have h1 : 2 * π / (1 * 1 * (2 * π * r ^ 2)) = (1 / r) ^ 2 := by
      field_simp
    simp only [thermDeBroglie, unitConsts]
    rw [h1, sqrt_sq (by positivity)]; ring
  unfold sahaEquation
  rw [hd]
  have h1 : -(2 * π * e) / (unitConsts.kB * (2 * π * r ^ 2)) = -e / r ^ 2 := by
    simp only [unitConsts]
    field_simp
  rw [h1]
  field_simp

/-- Hydrogen at two temperatures and with two lowerings meets the hypotheses of `saha_solver_mono`. -/
example : ∃ (l : List (Atom × (ℕ → ℝ) × (ℕ → ℝ))) (T T' : ℝ), l ≠ [] ∧ 0 < T ∧ T < T' ∧
    (∀ e ∈ l, 0 ≤ e.1.N ∧ (∀ k ≤ e.1.Z, 0 < e.1.g k) ∧
      ∀ k < e.1.Z, 0 < e.1.E k + e.2.2 k ∧ e.2.2 k ≤ e.2.1 k) ∧
    1 / 100000000 ≤ (l.map fun e => (e.1.Z : ℝ) * e.1.N).sum ∧
    UnclippedIn (l.map fun e => sahaSpecies unitConsts e.1.Z e.1.g e.1.E e.2.1 T e.1.N false) ∧
    UnclippedIn (l.map fun e => sahaSpecies unitConsts e.1.Z e.1.g e.1.E e.2.2 T' e.1.N false) := by
  have hpi := pi_pos
  have hc := unit_saha
  have hlog : ∀ r e : ℝ, 0 < r → log (2 * r ^ 3 * exp (-e / r ^ 2)) = log 2 + 3 * log r - e / r ^ 2 := by
    intro r e hr
    rw [log_mul (by positivity) (exp_pos _).ne', log_mul (by norm_num) (by positivity), log_pow, log_exp]
    push_cast
    ring
  have h2 := log_le_sub_one_of_pos (x := 2) (by norm_num)
  have h3 := log_pos (x := 2) (by norm_num)
  refine ⟨[(⟨1, fun _ => 1, fun _ => 2 * π * 2, 1⟩, fun _ => 0, fun _ => -(2 * π * 1))], 2 * π * 1 ^ 2, 2 * π * 2 ^ 2,
    by simp, by positivity, by linarith, ?_, by norm_num, ?_, ?_⟩
  · intro e he
    rw [List.mem_singleton] at he
    subst he
    refine ⟨by norm_num, fun _ _ => by norm_num, fun k _ => ⟨?_, ?_⟩⟩
    · change 0 < 2 * π * 2 + -(2 * π * 1)
      linarith
    · change -(2 * π * 1) ≤ 0
      linarith
  · have e : sahaEquation unitConsts 1 1 (2 * π * 1 ^ 2) (2 * π * 2 + 0) = 2 * 1 ^ 3 * exp (-2 / 1 ^ 2) := by
      rw [add_zero, hc 1 2 one_pos]
    simp only [List.map_cons, List.map_nil, sahaSpecies, e, Bool.false_eq_true, if_false]
    refine unclipped_one ?_ ?_ <;> rw [hlog 1 2 one_pos, log_one] <;> norm_num <;> linarith
  · have e : sahaEquation unitConsts 1 1 (2 * π * 2 ^ 2) (2 * π * 2 + -(2 * π * 1)) = 2 * 2 ^ 3 * exp (-1 / 2 ^ 2) := by
      rw [← hc 2 1 two_pos]
      congr 1
      ring
    simp only [List.map_cons, List.map_nil, sahaSpecies, e, Bool.false_eq_true, if_false]
    refine unclipped_one ?_ ?_ <;> rw [hlog 2 1 two_pos] <;> norm_num <;> linarith

end Verif.Saha

namespace Verif.Ssf

open Real Set Verif.Expt Verif.Resp

variable {u : Consts} {n Z : ℝ}

theorem h0_sq_mono {η x y : ℝ} (hx : 0 ≤ x) (hxy : x ≤ y) :
    ((1 + 2 * η) / (1 - η) * (1 - sqrt (1 + 2 * (1 - η) ^ 3 * x / (1 + 2 * η) ^ 2))) ^ 2 ≤
      ((1 + 2 * η) / (1 - η) * (1 - sqrt (1 + 2 * (1 - η) ^ 3 * y / (1 + 2 * η) ^ 2))) ^ 2 := by
  rw [mul_pow, mul_pow]
  refine mul_le_mul_of_nonneg_left ?_ (sq_nonneg _)
  have e : ∀ z : ℝ, 2 * (1 - η) ^ 3 * z / (1 + 2 * η) ^ 2 = 2 * (1 - η) ^ 3 / (1 + 2 * η) ^ 2 * z := fun z => by ring
  rw [e, e]
  rcases le_total 0 (1 - η) with h | h
  · have hq : 0 ≤ 2 * (1 - η) ^ 3 / (1 + 2 * η) ^ 2 := by positivity
    generalize 2 * (1 - η) ^ 3 / (1 + 2 * η) ^ 2 = q at *
    have h1 : 1 ≤ sqrt (1 + q * x) := by
      rw [one_le_sqrt]
      nlinarith [mul_nonneg hq hx]
    have h2 : sqrt (1 + q * x) ≤ sqrt (1 + q * y) := sqrt_le_sqrt (by nlinarith)
    nlinarith
  · have hq : 2 * (1 - η) ^ 3 / (1 + 2 * η) ^ 2 ≤ 0 := by
      refine div_nonpos_of_nonpos_of_nonneg ?_ (sq_nonneg _)
      have : 0 ≤ (η - 1) ^ 3 := pow_nonneg (by linarith) 3
      nlinarith
    generalize 2 * (1 - η) ^ 3 / (1 + 2 * η) ^ 2 = q at *
    have h1 : sqrt (1 + q * x) ≤ 1 := by
      rw [sqrt_le_one]
      nlinarith
    have h2 : sqrt (1 + q * y) ≤ sqrt (1 + q * x) := sqrt_le_sqrt (by nlinarith)
    nlinarith

/-- The condition for the diameter is less fulfilled in a hotter plasma. -/
theorem g07h1_antitone (hn : 0 < n) {T T' : ℝ} (hT : 0 < T) (hTT : T ≤ T') {sig : ℝ} (hs : 0 < sig) :
    g07h1 u n Z T' sig ≤ g07h1 u n Z T sig := by
  have hη := g07eta_pos hn hs
  have hγ : g07gamma u Z T' sig ≤ g07gamma u Z T sig := by
    have := u.eps0_pos
    have := u.kB_pos
    have := pi_pos
    unfold g07gamma
    exact div_le_div_of_nonneg_left (by positivity) (by positivity) (by gcongr)
  have hχ : g07chi u n Z T' sig ≤ g07chi u n Z T sig := by
    unfold g07chi
    exact sqrt_le_sqrt (mul_le_mul_of_nonneg_left hγ (by positivity))
  have hχ0 : 0 ≤ g07chi u n Z T' sig := sqrt_nonneg _
  unfold g07h1 g07h0
  simp only []
  refine sub_le_sub_right ?_ _
  exact div_le_div_of_nonneg_right (h0_sq_mono hχ0 hχ) (by positivity)

/-- C67: the diameter that the bisection returns never grows with the temperature of the ions. -/
theorem chs_hotter (hn : 0 < n) (hZ : 0 < Z) {T T' : ℝ} (hT : 0 < T) (hTT : T ≤ T') {sig sig' : ℝ}
    (h : ChsDiameter u n Z T (Z * n) sig) (h' : ChsDiameter u n Z T' (Z * n) sig') : sig' ≤ sig := by
  obtain ⟨hd, -⟩ := chsDist_cube hn hZ
  obtain ⟨m, h⟩ := h
  obtain ⟨m', h'⟩ := h'
  have hηb : 1 < g07eta n (21 / 10 * chsDist (Z * n) Z) := by rw [g07eta_scaled hn hZ]; norm_num
  have hb := (g07h1_neg (u := u) hn hZ hT (mul_pos (by norm_num : (0 : ℝ) < 21 / 10) hd) hηb).1
  refine Bisection.bisection_mono (by norm_num) (by norm_num) (by linarith) (fun x hx => ?_) (by linarith)
    (Bisection.returns_neg h') (Bisection.returns_neg h)
  exact neg_le_neg (g07h1_antitone hn hT hTT (lt_of_lt_of_le (by positivity) hx.1))

/-- The hypotheses hold for unit densities; the bisection always returns. -/
example : (0 : ℝ) < 1 ∧ (1 : ℝ) < 2 ∧ (∃ s, ChsDiameter unitConsts 1 1 1 (1 * 1) s) ∧
    ∃ s, ChsDiameter unitConsts 1 1 2 (1 * 1) s := by
  refine ⟨one_pos, one_lt_two, ?_, ?_⟩
  · obtain ⟨s, m, hs, -⟩ := Bisection.bisection_returns (g07h1 unitConsts 1 1 1) ⟨1 / 10 ^ 15, 10000, 0⟩
      (1 / 1000 * chsDist (1 * 1) 1) (21 / 10 * chsDist (1 * 1) 1)
    exact ⟨s, m, hs⟩
  · obtain ⟨s, m, hs, -⟩ := Bisection.bisection_returns (g07h1 unitConsts 1 1 2) ⟨1 / 10 ^ 15, 10000, 0⟩
      (1 / 1000 * chsDist (1 * 1) 1) (21 / 10 * chsDist (1 * 1) 1)
    exact ⟨s, m, hs⟩

end Verif.Ssf
