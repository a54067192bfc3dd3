/-
C88: convergence of the iterations for the mean charges with a chemical potential and with the Beth-Uhlenbeck partition
sums.
-/
import Verif.Props.SahaMixture

set_option autoImplicit false

open Real Finset Verif.Expt Verif.Resp

namespace Verif.Saha

variable {n : ℕ}

/-- Specification: in the equilibrium of the elements `S` the charges are `z`. -/
def HasCharges (S : Fin n → Species) (z : Fin n → ℝ) : Prop :=
  ∃ pop ne, Equilibrium ((List.finRange n).map S) pop ne ∧
    ∀ i, ∑ k ∈ range ((S i).Z + 1), (k : ℝ) * pop (S i) k = (S i).N * z i

/-- Conditions on elements whose coefficients depend on the charges of all elements: all states stay bound, there are
electrons, no logarithm is cut, and the logarithms of the coefficients change by at most `q / (2 Zm)` times the largest
relative change of a charge. -/
structure WeakFamily (S : (Fin n → ℝ) → Fin n → Species) (Z : Fin n → ℕ) (N : Fin n → ℝ) (Zm : ℕ) (q : ℝ) : Prop where
  numbers : ∀ z i, (S z i).Z = Z i ∧ (S z i).N = N i
  Z_pos : ∀ i, 0 < Z i
  Z_le : ∀ i, Z i ≤ Zm
  N_pos : ∀ i, 0 < N i
  few : ∑ i, Z i * N i ≤ exp 1000
  coeff_pos : ∀ z, InBox Zm z → ∀ i, ∀ k < Z i, 0 < (S z i).coeff k
  bound : ∀ z, InBox Zm z → ∀ i, AllBound (S z i)
  first : ∀ z, InBox Zm z → ∃ i, 2 ≤ N i ∧ 1 ≤ (S z i).coeff 0
  clear : ∀ z, InBox Zm z → ∀ y ∈ Set.Icc (log (1 / 100000000) - 1) (log (∑ i, Z i * N i) + 1), ∀ i, Unclipped (S z i) y
  q_nonneg : 0 ≤ q
  q_lt : q < 1
  lip : ∀ z z', InBox Zm z → InBox Zm z' → ∀ D : ℝ, (∀ i, |log (z i) - log (z' i)| ≤ D) → ∀ i, ∀ k < Z i,
    |log ((S z i).coeff k) - log ((S z' i).coeff k)| ≤ q / (2 * Zm) * D

namespace WeakFamily

variable {S : (Fin n → ℝ) → Fin n → Species} {Z : Fin n → ℕ} {N : Fin n → ℝ} {Zm : ℕ} {q : ℝ} (w : WeakFamily S Z N Zm q)
include w

theorem maxNe_eq (z : Fin n → ℝ) : maxNe ((List.finRange n).map (S z)) = ∑ i, Z i * N i := by
  unfold maxNe
  rw [List.map_map, ← List.sum_ofFn, List.ofFn_eq_map]
  congr 1
  refine List.map_congr_left fun i _ => ?_
  simp only [Function.comp_apply]
  rw [(w.numbers z i).1, (w.numbers z i).2]

theorem regular {z : Fin n → ℝ} (hz : InBox Zm z) : Regular ((List.finRange n).map (S z)) := by
  intro s hs
  obtain ⟨i, -, rfl⟩ := List.mem_map.1 hs
  refine ⟨by rw [(w.numbers z i).2]; exact (w.N_pos i).le, fun k hk => w.coeff_pos z hz i k ?_⟩
  rwa [(w.numbers z i).1] at hk

omit w in
theorem mem (z : Fin n → ℝ) (i : Fin n) : S z i ∈ (List.finRange n).map (S z) :=
  List.mem_map.2 ⟨i, List.mem_finRange i, rfl⟩

theorem exists_charges {z : Fin n → ℝ} (hz : InBox Zm z) : ∃ z', HasCharges (S z) z' ∧ InBox Zm z' := by
  obtain ⟨i0, hN0, -⟩ := w.first z hz
  have hpos : 0 < ∑ i, (Z i : ℝ) * N i :=
    sum_pos (fun i _ => mul_pos (by exact_mod_cast w.Z_pos i) (w.N_pos i)) ⟨i0, mem_univ _⟩
  obtain ⟨pop, ne, h, -⟩ := equilibrium_exists (w.regular hz) (by rw [w.maxNe_eq]; exact hpos)
  have hp := one_div_pos.2 h.pos
  have hreg := w.regular hz
  refine ⟨fun i => part1 (S z i).Z (S z i).coeff (1 / ne) / part (S z i).Z (S z i).coeff (1 / ne),
    ⟨pop, ne, h, fun i => ?_⟩, fun i => ⟨?_, ?_⟩⟩
  · exact (h.saha _ (mem z i)).mean (hreg _ (mem z i)).2 h.pos
  · have hZ : 0 < (S z i).Z := by rw [(w.numbers z i).1]; exact w.Z_pos i
    exact div_pos (part1_pos hZ (hreg _ (mem z i)).2 hp) (part_pos (hreg _ (mem z i)).2 hp)
  · refine (part1_le (hreg _ (mem z i)).2 hp).trans ?_
    rw [(w.numbers z i).1]
    exact_mod_cast w.Z_le i

theorem contracts {z1 z2 y1 y2 : Fin n → ℝ} (h1 : InBox Zm z1) (h2 : InBox Zm z2) (he1 : HasCharges (S z1) y1)
    (he2 : HasCharges (S z2) y2) {D : ℝ} (hD : ∀ i, |log (z1 i) - log (z2 i)| ≤ D) (i : Fin n) :
    0 < y1 i ∧ 0 < y2 i ∧ |log (y1 i) - log (y2 i)| ≤ q * D := by
  have hD0 : 0 ≤ D := (abs_nonneg _).trans (hD i)
  have hZi := w.Z_pos i
  have hZm : (0 : ℝ) < Zm := by exact_mod_cast hZi.trans_le (w.Z_le i)
  obtain ⟨pop1, ne1, he1, hy1⟩ := he1
  obtain ⟨pop2, ne2, he2, hy2⟩ := he2
  have hδ : 0 ≤ q / (2 * Zm) * D := mul_nonneg (div_nonneg w.q_nonneg (by positivity)) hD0
  obtain ⟨k1, k2, k3⟩ := equilibrium_charges_lipschitz
    (l := (List.finRange n).map fun j => (S z2 j, S z1 j)) (δ := q / (2 * Zm) * D)
    (pop := pop2) (pop' := pop1) (ne := ne2) (ne' := ne1) hδ (by
      intro p hp
      obtain ⟨j, -, rfl⟩ := List.mem_map.1 hp
      obtain ⟨a1, a2⟩ := w.numbers z1 j
      obtain ⟨b1, b2⟩ := w.numbers z2 j
      simp only [a1, a2, b1, b2]
      exact ⟨trivial, trivial, w.N_pos j, fun k hk => ⟨w.coeff_pos _ h2 j k hk, w.coeff_pos _ h1 j k hk,
        w.lip z1 z2 h1 h2 D hD j k hk⟩⟩) (by rw [List.map_map]; exact he2) (by rw [List.map_map]; exact he1)
    (p := (S z2 i, S z1 i)) (List.mem_map.2 ⟨i, List.mem_finRange i, rfl⟩)
    (by simp only [(w.numbers z2 i).1]; exact hZi) (hy2 i) (hy1 i)
  refine ⟨k2, k1, k3.trans ?_⟩
  simp only [(w.numbers z2 i).1]
  have e : 2 * (Zm : ℝ) * (q / (2 * Zm) * D) = q * D := by field_simp
  rw [← e]
  refine mul_le_mul_of_nonneg_right ?_ hδ
  have : (Z i : ℝ) ≤ Zm := by exact_mod_cast w.Z_le i
  linarith

theorem step_near {z zs : Fin n → ℝ} (hz : InBox Zm z) (hs : InBox Zm zs) (hex : HasCharges (S zs) zs) {y : ℝ}
    (hy : Solves ((List.finRange n).map (S z)) y) {D : ℝ} (hD : ∀ i, |log (z i) - log (zs i)| ≤ D) (i : Fin n) :
    |log (zbar (S z i) y) - log (zs i)| ≤ q * D + 2 * Zm / 100000000 := by
  obtain ⟨z', hc, -⟩ := w.exists_charges hz
  have h1 := (w.contracts hz hs hc hex hD i).2.2
  obtain ⟨pop, ne, he, hq⟩ := hc
  obtain ⟨i0, hN0, hc0⟩ := w.first z hz
  have h2 := solve_charges (w.regular hz) (by
      intro s hs
      obtain ⟨j, -, rfl⟩ := List.mem_map.1 hs
      exact w.bound z hz j) (mem z i0) (by rw [(w.numbers z i0).1]; exact w.Z_pos i0) hc0
    (by rw [(w.numbers z i0).2]; exact hN0) (by rw [w.maxNe_eq]; exact w.few) (by
      intro y hy s hs
      rw [w.maxNe_eq] at hy
      obtain ⟨j, -, rfl⟩ := List.mem_map.1 hs
      exact w.clear z hz y hy j) he hy (mem z i) (by rw [(w.numbers z i).1]; exact w.Z_pos i)
    (by rw [(w.numbers z i).2]; exact w.N_pos i) (hq i)
  rw [(w.numbers z i).1] at h2
  have h3 : (Z i : ℝ) ≤ Zm := by exact_mod_cast w.Z_le i
  calc _ ≤ |log (zbar (S z i) y) - log (z' i)| + |log (z' i) - log (zs i)| := abs_sub_le _ _ _
    _ ≤ 2 * Z i / 100000000 + q * D := add_le_add h2 h1
    _ ≤ _ := by
      have : 2 * (Z i : ℝ) / 100000000 ≤ 2 * Zm / 100000000 := by gcongr
      linarith

/-- Six iterations, each of which solves the equations of `S` for the charges of the state. -/
theorem converge {step : Loop → Loop → Prop}
    (hstep : ∀ s s' z, s.zfree = (List.finRange n).map z → step s s' →
      Solved ((List.finRange n).map (S z)) s'.dist s'.zmean ∧ s'.zfree = s'.zmean)
    {zs : Fin n → ℝ} (hs : InBox Zm zs) (hex : HasCharges (S zs) zs) {D : ℝ} (hD : ∀ i, log Zm - log (zs i) ≤ D)
    {s out : Loop} (h0 : s.zfree = (List.finRange n).map fun _ => (Zm : ℝ)) (hit : Iter step 6 s out) :
    ∃ z : Fin n → ℝ, out.zmean = (List.finRange n).map z ∧ InBox Zm z ∧
      ∀ i, |log (z i) - log (zs i)| ≤ q ^ 6 * D + 2 * Zm / 100000000 / (1 - q) := by
  obtain ⟨η, hη⟩ : ∃ η : ℝ, η = 2 * Zm / 100000000 := ⟨_, rfl⟩
  have hη0 : 0 ≤ η := by rw [hη]; positivity
  have hq := w.q_lt
  have hq0 := w.q_nonneg
  have hst : ∀ {s s' : Loop} {z : Fin n → ℝ} {D : ℝ}, s.zfree = (List.finRange n).map z → InBox Zm z →
      (∀ i, |log (z i) - log (zs i)| ≤ D) → step s s' →
      ∃ z', s'.zmean = (List.finRange n).map z' ∧ s'.zfree = (List.finRange n).map z' ∧ InBox Zm z' ∧
        ∀ i, |log (z' i) - log (zs i)| ≤ q * D + η := by
    intro s s' z D hz hb hzD h
    obtain ⟨⟨y, hy, -, hm⟩, hf⟩ := hstep s s' z hz h
    rw [List.map_map] at hm
    refine ⟨fun i => zbar (S z i) y, hm, hf.trans hm, fun i => ?_, fun i => ?_⟩
    · have hzb := zbar_mem (S z i) y
      rw [(w.numbers z i).1] at hzb
      exact ⟨(hzb.2.2 (w.Z_pos i)).1, hzb.2.1.trans (by exact_mod_cast w.Z_le i)⟩
    · rw [hη]
      exact w.step_near hb hs hex hy hzD i
  have hfix : q * (η / (1 - q)) + η = η / (1 - q) := by
    have : (1 - q) ≠ 0 := by linarith
    field_simp
    ring
  have hiter : ∀ (m : ℕ) {s s' : Loop} {z : Fin n → ℝ} {D : ℝ}, s.zfree = (List.finRange n).map z → InBox Zm z →
      (∀ i, |log (z i) - log (zs i)| ≤ D + η / (1 - q)) → Iter step (m + 1) s s' →
      ∃ z', s'.zmean = (List.finRange n).map z' ∧ InBox Zm z' ∧
        ∀ i, |log (z' i) - log (zs i)| ≤ q ^ (m + 1) * D + η / (1 - q) := by
    intro m
    induction m with
    | zero =>
      intro s s' z D hz hb hzD hit
      cases hit with
      | succ h hit =>
        cases hit
        obtain ⟨z', m1, -, m2, m3⟩ := hst hz hb hzD h
        refine ⟨z', m1, m2, fun i => (m3 i).trans ?_⟩
        rw [zero_add, pow_one, mul_add]
        linarith
    | succ m ih =>
      intro s s' z D hz hb hzD hit
      cases hit with
      | succ h hit =>
        obtain ⟨z', m1, mf, m2, m3⟩ := hst hz hb hzD h
        obtain ⟨z'', k1, k2, k3⟩ := ih (D := q * D) mf m2 (fun i => (m3 i).trans (by rw [mul_add]; linarith)) hit
        refine ⟨z'', k1, k2, fun i => (k3 i).trans (le_of_eq ?_)⟩
        ring
  have hZ : ∀ _i : Fin n, (0 : ℝ) < Zm := fun i => by exact_mod_cast (w.Z_pos i).trans_le (w.Z_le i)
  obtain ⟨z, k1, k2, k3⟩ := hiter 5 (z := fun _ => (Zm : ℝ)) (D := D) h0
    (fun i => ⟨hZ i, le_rfl⟩) (fun i => by
      rw [abs_of_nonneg (sub_nonneg.2 (log_le_log (hs i).1 (hs i).2))]
      have : 0 ≤ η / (1 - q) := div_nonneg hη0 (by linarith)
      linarith [hD i]) hit
  refine ⟨z, k1, k2, fun i => ?_⟩
  rw [← hη]
  exact k3 i

/-- There is exactly one exact solution. -/
theorem exact_unique : ∃ z, (InBox Zm z ∧ HasCharges (S z) z) ∧ ∀ z', InBox Zm z' → HasCharges (S z') z' → z' = z := by
  have hn : Nonempty (Fin n) := by
    by_contra hn
    obtain ⟨i, -⟩ := w.first (fun _ => 0) fun i => absurd ⟨i⟩ hn
    exact hn ⟨i⟩
  have hZ : (0 : ℝ) < Zm := by
    obtain ⟨i⟩ := hn
    exact_mod_cast (w.Z_pos i).trans_le (w.Z_le i)
  have hbox : ∀ x : Fin n → Set.Iic (log (Zm : ℝ)), InBox Zm fun i => exp (x i : ℝ) := by
    intro x i
    exact ⟨exp_pos _, (exp_le_exp.2 (x i).2).trans (exp_log hZ).le⟩
  choose F hF hF0 using fun x : Fin n → Set.Iic (log (Zm : ℝ)) => w.exists_charges (hbox x)
  let G : (Fin n → Set.Iic (log (Zm : ℝ))) → (Fin n → Set.Iic (log (Zm : ℝ))) :=
    fun x i => ⟨log (F x i), log_le_log (hF0 x i).1 (hF0 x i).2⟩
  have hG : ContractingWith ⟨q, w.q_nonneg⟩ G := by
    refine ⟨by exact_mod_cast w.q_lt, LipschitzWith.of_dist_le_mul fun x y => ?_⟩
    refine (dist_pi_le_iff (mul_nonneg w.q_nonneg dist_nonneg)).2 fun i => ?_
    rw [Subtype.dist_eq, Real.dist_eq]
    refine (w.contracts (hbox x) (hbox y) (hF x) (hF y) (D := dist x y) (fun j => ?_) i).2.2
    rw [log_exp, log_exp, ← Real.dist_eq, ← Subtype.dist_eq]
    exact dist_le_pi_dist x y j
  have : Nonempty (Fin n → Set.Iic (log (Zm : ℝ))) := ⟨fun _ => ⟨_, le_refl (log (Zm : ℝ))⟩⟩
  have : CompleteSpace (Set.Iic (log (Zm : ℝ))) := isClosed_Iic.completeSpace_coe
  obtain ⟨x, hfix⟩ : ∃ x, G x = x := ⟨_, hG.fixedPoint_isFixedPt⟩
  have hfx : F x = fun i => exp (x i : ℝ) := by
    funext i
    have := congrArg Subtype.val (congrFun hfix i)
    change log (F x i) = x i at this
    exact (exp_log (hF0 x i).1).symm.trans (congrArg exp this)
  have hex := hF x
  rw [hfx] at hex
  refine ⟨fun i => exp (x i : ℝ), ⟨hbox x, hex⟩, fun z' h1 h2 => ?_⟩
  obtain ⟨D, hD⟩ : ∃ D : ℝ, D = ∑ i, |log (z' i) - log (exp (x i : ℝ))| := ⟨_, rfl⟩
  have hD1 : ∀ i, |log (z' i) - log (exp (x i : ℝ))| ≤ D := by
    intro i
    rw [hD]
    exact single_le_sum (f := fun i => |log (z' i) - log (exp (x i : ℝ))|) (fun j _ => abs_nonneg _) (mem_univ i)
  have hpow : ∀ m : ℕ, ∀ i, |log (z' i) - log (exp (x i : ℝ))| ≤ q ^ m * D := by
    intro m
    induction m with
    | zero => simpa using hD1
    | succ m ih =>
      intro i
      have := (w.contracts h1 (hbox x) h2 hex ih i).2.2
      rwa [← mul_assoc, ← pow_succ'] at this
  funext i
  have hlim : Filter.Tendsto (fun m : ℕ => q ^ m * D) Filter.atTop (nhds 0) := by
    simpa using (tendsto_pow_atTop_nhds_zero_of_lt_one w.q_nonneg w.q_lt).mul_const D
  have h0 := ge_of_tendsto' hlim fun m => hpow m i
  have h4 := abs_nonpos_iff.1 h0
  rw [sub_eq_zero] at h4
  exact log_injOn_pos (Set.mem_Ioi.2 (h1 i).1) (Set.mem_Ioi.2 (exp_pos _)) h4

end WeakFamily

section loops

variable {u : Consts}

/-- The balance terms of the generalised Saha equation for a mixture of the elements `E`. -/
noncomputable def genMix (u : Consts) (E : Fin n → Elem) (T ne mu : ℝ) (b : Bool) (c : Fin n → ℕ → ℝ) (i : Fin n) : Species :=
  genSahaSpecies u (E i).Z (E i).g (E i).E (c i) T ne mu (E i).N b

/-- Those with the Beth-Uhlenbeck partition sums. -/
noncomputable def buMix (u : Consts) (E : Fin n → Elem) (T ne mu : ℝ) (c : Fin n → ℕ → ℝ) (i : Fin n) : Species :=
  buSpecies u (E i).Z (E i).levels (E i).E (c i) T ne mu (E i).N

/-- C88: the iteration with the chemical potential `mu` and the lowering `cl`, both functions of the charges, converges
geometrically if the logarithms of the coefficients change by at most `q / (2 Zm)` times the largest relative change of a
charge. -/
theorem sahaReturns_gen {p : Plasma} {o : Options} {E : Fin n → Elem} (hp : p.elems = (List.finRange n).map E)
    (hi : o.useIpd = true) (hc : o.useChemPot = true) (hd : o.useDistribution = false)
    {cl : (Fin n → ℝ) → Fin n → ℕ → ℝ} (hcl : ∀ z, p.ipd ((List.finRange n).map z) none = (List.finRange n).map (cl z))
    {mu : (Fin n → ℝ) → ℝ} (hmu : ∀ z, p.mu ((List.finRange n).map z) = mu z)
    {Zm : ℕ} (hZm : Zm = (p.elems.map fun e => e.Z).foldr max 0) {q : ℝ}
    (w : WeakFamily (fun z => genMix u E p.T (∑ i, z i * (E i).N) (mu z) o.exclude (cl z)) (fun i => (E i).Z)
      (fun i => (E i).N) Zm q)
    {zs : Fin n → ℝ} (hs : InBox Zm zs)
    (hex : HasCharges (genMix u E p.T (∑ i, zs i * (E i).N) (mu zs) o.exclude (cl zs)) zs) {D : ℝ}
    (hD : ∀ i, log Zm - log (zs i) ≤ D) {zfree : List ℝ} {out : Loop} (h : p.SahaReturns u o zfree out) :
    ∃ z : Fin n → ℝ, out.zmean = (List.finRange n).map z ∧ InBox Zm z ∧
      ∀ i, |log (z i) - log (zs i)| ≤ q ^ 6 * D + 2 * Zm / 100000000 / (1 - q) := by
  obtain ⟨s, hs0, -, hit⟩ := h
  refine w.converge (step := p.sahaStep u o) ?_ hs hex hD (by rw [hs0, reset_finRange hp, ← hZm]) hit
  rintro s s' z hz ⟨hS, hf⟩
  refine ⟨?_, hf⟩
  have hne : p.nE ((List.finRange n).map z) = ∑ i, z i * (E i).N := by
    rw [Plasma.nE, hp, List.zip_map', List.map_map, ← List.sum_ofFn, List.ofFn_eq_map]
    rfl
  have hl : p.stepList u o s = (List.finRange n).map
      (genMix u E p.T (∑ i, z i * (E i).N) (mu z) o.exclude (cl z)) := by
    simp only [Plasma.stepList, Plasma.lowering, Plasma.genList, hi, hc, hd, hz, hne, if_true, Bool.false_eq_true, if_false,
      hcl, hmu, hp, List.zip_map', List.map_map]
    rfl
  rwa [hl] at hS

/-- C88: the same for `calculate_mean_free_charge_BU`. -/
theorem buReturns_converge {p : Plasma} {E : Fin n → Elem} (hp : p.elems = (List.finRange n).map E)
    {cl : (Fin n → ℝ) → Fin n → ℕ → ℝ} (hcl : ∀ z, p.ipd ((List.finRange n).map z) none = (List.finRange n).map (cl z))
    {mu : (Fin n → ℝ) → ℝ} (hmu : ∀ z, p.mu ((List.finRange n).map z) = mu z)
    {Zm : ℕ} (hZm : Zm = (p.elems.map fun e => e.Z).foldr max 0) {q : ℝ}
    (w : WeakFamily (fun z => buMix u E p.T (∑ i, z i * (E i).N) (mu z) (cl z)) (fun i => (E i).Z) (fun i => (E i).N) Zm q)
    {zs : Fin n → ℝ} (hs : InBox Zm zs) (hex : HasCharges (buMix u E p.T (∑ i, zs i * (E i).N) (mu zs) (cl zs)) zs) {D : ℝ}
    (hD : ∀ i, log Zm - log (zs i) ≤ D) {zfree : List ℝ} {out : Loop} (h : p.BuReturns u true false zfree out) :
    ∃ z : Fin n → ℝ, out.zmean = (List.finRange n).map z ∧ InBox Zm z ∧
      ∀ i, |log (z i) - log (zs i)| ≤ q ^ 6 * D + 2 * Zm / 100000000 / (1 - q) := by
  obtain ⟨s, hs0, -, hit⟩ := h
  refine w.converge (step := p.buStep u true false) ?_ hs hex hD (by rw [hs0, reset_finRange hp, ← hZm]) hit
  rintro s s' z hz ⟨hS, hf⟩
  refine ⟨?_, hf⟩
  have hne : p.nE ((List.finRange n).map z) = ∑ i, z i * (E i).N := by
    rw [Plasma.nE, hp, List.zip_map', List.map_map, ← List.sum_ofFn, List.ofFn_eq_map]
    rfl
  have hl : p.buList u (p.nE s.zfree) (p.mu s.zfree) (p.lowering true false s) = (List.finRange n).map
      (buMix u E p.T (∑ i, z i * (E i).N) (mu z) (cl z)) := by
    simp only [Plasma.lowering, Plasma.buList, hne, hz, if_true, Bool.false_eq_true, if_false, hcl, hmu, hp, List.zip_map',
      List.map_map]
    rfl
  rwa [hl] at hS

/-- C88: for the generalised equation the condition is one on the lowering and on the deviation of the chemical potential
from that of a classical gas, in which `log ne - mu / kT` does not change. -/
theorem gen_family {E : Fin n → Elem} {T : ℝ} {b : Bool} {cl : (Fin n → ℝ) → Fin n → ℕ → ℝ} {mu : (Fin n → ℝ) → ℝ} {Zm : ℕ}
    {q : ℝ} (hZ : ∀ i, 0 < (E i).Z) (hZm : ∀ i, (E i).Z ≤ Zm) (hg : ∀ i, ∀ k ≤ (E i).Z, 0 < (E i).g k)
    (hN : ∀ i, 0 < (E i).N) (hfew : ∑ i, (E i).Z * (E i).N ≤ exp 1000)
    (hE : ∀ z, InBox Zm z → ∀ i, ∀ k < (E i).Z, 0 < (E i).E k + cl z i k)
    (h0 : ∀ z, InBox Zm z → ∃ i, 2 ≤ (E i).N ∧
      1 ≤ genSahaEquation u ((E i).g 0) ((E i).g 1) T (∑ j, z j * (E j).N) ((E i).E 0 + cl z i 0) (mu z))
    (hcl : ∀ z, InBox Zm z → ∀ y ∈ Set.Icc (log (1 / 100000000) - 1) (log (∑ i, (E i).Z * (E i).N) + 1), ∀ i,
      Unclipped (genMix u E T (∑ j, z j * (E j).N) (mu z) b (cl z) i) y)
    (hq0 : 0 ≤ q) (hq1 : q < 1)
    (hlip : ∀ z z', InBox Zm z → InBox Zm z' → ∀ D : ℝ, (∀ i, |log (z i) - log (z' i)| ≤ D) → ∀ i, ∀ k < (E i).Z,
      |(log (∑ j, z j * (E j).N) - (mu z + cl z i k) / (u.kB * T)) -
        (log (∑ j, z' j * (E j).N) - (mu z' + cl z' i k) / (u.kB * T))| ≤ q / (2 * Zm) * D) :
    WeakFamily (fun z => genMix u E T (∑ i, z i * (E i).N) (mu z) b (cl z)) (fun i => (E i).Z) (fun i => (E i).N) Zm q := by
  have hne : ∀ z, InBox Zm z → ∀ _i : Fin n, 0 < ∑ j, z j * (E j).N := fun z hz i =>
    sum_pos (fun j _ => mul_pos (hz j).1 (hN j)) ⟨i, mem_univ _⟩
  have hpos : ∀ z, InBox Zm z → ∀ i, ∀ k < (E i).Z,
      0 < genSahaEquation u ((E i).g k) ((E i).g (k + 1)) T (∑ j, z j * (E j).N) ((E i).E k + cl z i k) (mu z) := by
    intro z hz i k hk
    have := hne z hz i
    have := hg i k hk.le
    have := hg i (k + 1) hk
    unfold genSahaEquation
    positivity
  have hlog : ∀ z, InBox Zm z → ∀ i, ∀ k < (E i).Z,
      log (genSahaEquation u ((E i).g k) ((E i).g (k + 1)) T (∑ j, z j * (E j).N) ((E i).E k + cl z i k) (mu z)) =
        log ((E i).g (k + 1) / (E i).g k) - (E i).E k / (u.kB * T) +
          (log (∑ j, z j * (E j).N) - (mu z + cl z i k) / (u.kB * T)) := by
    intro z hz i k hk
    have h1 := hne z hz i
    have h2 : 0 < (E i).g (k + 1) / (E i).g k := div_pos (hg i (k + 1) hk) (hg i k hk.le)
    unfold genSahaEquation
    rw [log_mul (by positivity) (exp_pos _).ne', log_mul (by positivity) (exp_pos _).ne', log_mul h2.ne' h1.ne', log_exp,
      log_exp]
    ring
  refine ⟨fun _ _ => ⟨rfl, rfl⟩, hZ, hZm, hN, hfew, hpos, fun z hz i k hk => ?_, h0, hcl, hq0, hq1,
    fun z z' hz hz' D hD i k hk => ?_⟩
  · have hk' : k < (E i).Z := hk
    simp only [genMix, genSahaSpecies]
    split_ifs
    · rw [heav0, if_pos (hE z hz i k hk')]
      norm_num
    · norm_num
  · change |log (genSahaEquation u ((E i).g k) ((E i).g (k + 1)) T (∑ j, z j * (E j).N) ((E i).E k + cl z i k) (mu z)) -
      log (genSahaEquation u ((E i).g k) ((E i).g (k + 1)) T (∑ j, z' j * (E j).N) ((E i).E k + cl z' i k) (mu z'))| ≤ _
    rw [hlog z hz i k hk, hlog z' hz' i k hk, add_sub_add_left_eq_sub]
    exact hlip z z' hz hz' D hD i k hk

/-- The chemical potential of a classical gas with the electrons of the charges `z`. -/
noncomputable def classicalMu (u : Consts) (E : Fin n → Elem) (T : ℝ) (z : Fin n → ℝ) : ℝ :=
  u.kB * T * log (degeneracyParam u (∑ i, z i * (E i).N) T / 2)

theorem genMix_classical {E : Fin n → Elem} {T : ℝ} (hT : 0 < T) (hN : ∀ i, 0 < (E i).N) {Zm : ℕ} {z : Fin n → ℝ}
    (hz : InBox Zm z) (b : Bool) (c : Fin n → ℕ → ℝ) :
    genMix u E T (∑ i, z i * (E i).N) (classicalMu u E T z) b c = mix u E T b c := by
  funext i
  have hne : 0 < ∑ j, z j * (E j).N := sum_pos (fun j _ => mul_pos (hz j).1 (hN j)) ⟨i, mem_univ _⟩
  unfold genMix mix genSahaSpecies sahaSpecies
  congr 1
  funext k
  by_cases h0 : (E i).g k = 0
  · simp [genSahaEquation, sahaEquation, h0]
  by_cases h1 : (E i).g (k + 1) = 0
  · simp [genSahaEquation, sahaEquation, h1]
  exact (genSaha_eq_iff u h0 h1 hT hne).2 rfl

/-- C88: with the classical chemical potential the generalised equation converges under the conditions for the Saha
equation. -/
theorem classical_family {E : Fin n → Elem} {T : ℝ} {b : Bool} {cl : (Fin n → ℝ) → Fin n → ℕ → ℝ} {Zm : ℕ} {q : ℝ}
    (w : WeakMixture u E T b cl Zm q) :
    WeakFamily (fun z => genMix u E T (∑ i, z i * (E i).N) (classicalMu u E T z) b (cl z)) (fun i => (E i).Z)
      (fun i => (E i).N) Zm q := by
  have hB := u.kB_pos
  have hT := w.T_pos
  refine gen_family w.Z_pos w.Z_le w.g_pos w.N_pos w.few w.bound ?_ ?_ w.q_nonneg w.q_lt ?_
  · intro z hz
    obtain ⟨i, h1, h2⟩ := w.first z hz
    refine ⟨i, h1, ?_⟩
    have := congrArg (fun s : Species => s.coeff 0) (congrFun (genMix_classical (u := u) hT w.N_pos hz b (cl z)) i)
    exact h2.trans_eq this.symm
  · intro z hz y hy i
    rw [genMix_classical hT w.N_pos hz]
    exact w.clear z hz y hy i
  · intro z z' hz hz' D hD i k hk
    have p := thermDeBroglie_pos u hT
    have hmu : ∀ z, InBox Zm z → log (∑ j, z j * (E j).N) - (classicalMu u E T z + cl z i k) / (u.kB * T) =
        -log (thermDeBroglie u T ^ 3 / 2) - cl z i k / (u.kB * T) := by
      intro z hz
      have hne : 0 < ∑ j, z j * (E j).N := sum_pos (fun j _ => mul_pos (hz j).1 (w.N_pos j)) ⟨i, mem_univ _⟩
      have e : degeneracyParam u (∑ j, z j * (E j).N) T / 2 = (∑ j, z j * (E j).N) * (thermDeBroglie u T ^ 3 / 2) := by
        unfold degeneracyParam
        ring
      rw [classicalMu, e, log_mul hne.ne' (by positivity), add_div, mul_div_cancel_left₀ _ (by positivity)]
      ring
    rw [hmu z hz, hmu z' hz', sub_sub_sub_cancel_left, ← sub_div, abs_div, abs_of_pos (by positivity : 0 < u.kB * T),
      div_le_iff₀ (by positivity), abs_sub_comm]
    refine (w.lip z z' hz hz' D hD i k hk).trans (le_of_eq ?_)
    ring

end loops

/-- Two hydrogens with the classical chemical potential and a lowering meet all hypotheses of the convergence. -/
example : ∃ (p : Plasma) (o : Options) (cl : (Fin 2 → ℝ) → Fin 2 → ℕ → ℝ) (mu : (Fin 2 → ℝ) → ℝ) (zs : Fin 2 → ℝ)
    (out : Loop) (D : ℝ), p.elems = (List.finRange 2).map (fun _ => hydrogen (2 * π)) ∧ o.useIpd = true ∧
    o.useChemPot = true ∧ o.useDistribution = false ∧
    (∀ z, p.ipd ((List.finRange 2).map z) none = (List.finRange 2).map (cl z)) ∧
    (∀ z, p.mu ((List.finRange 2).map z) = mu z) ∧ 1 = (p.elems.map fun e => e.Z).foldr max 0 ∧
    WeakFamily (fun z => genMix unitConsts (fun _ : Fin 2 => hydrogen (2 * π)) p.T
      (∑ i, z i * ((fun _ : Fin 2 => hydrogen (2 * π)) i).N) (mu z) o.exclude (cl z))
      (fun _ => (hydrogen (2 * π)).Z) (fun _ => (hydrogen (2 * π)).N) 1 (1 / 2) ∧ InBox 1 zs ∧
    HasCharges (genMix unitConsts (fun _ : Fin 2 => hydrogen (2 * π)) p.T
      (∑ i, zs i * ((fun _ : Fin 2 => hydrogen (2 * π)) i).N) (mu zs) o.exclude (cl zs)) zs ∧
    (∀ i, log ((1 : ℕ) : ℝ) - log (zs i) ≤ D) ∧ p.SahaReturns unitConsts o [] out := by
  have hpi := pi_pos
  obtain ⟨zs, ⟨h1, h2⟩, -⟩ := exact_unique_mixture hydrogen_mixture
  obtain ⟨mu, hmu⟩ : ∃ mu, mu = classicalMu unitConsts (fun _ : Fin 2 => hydrogen (2 * π)) (2 * π * 2 ^ 2) := ⟨_, rfl⟩
  obtain ⟨p, hp⟩ : ∃ p : Plasma, p = ⟨(List.finRange 2).map (fun _ => hydrogen (2 * π)), 2 * π * 2 ^ 2,
    fun z _ => z.map fun _ _ => -(π * (z.sum / 2)), fun z => mu fun i => z.getD i 0⟩ := ⟨_, rfl⟩
  obtain ⟨out, h, -⟩ := sahaReturns_unique unitConsts p ⟨true, true, false, true⟩ []
  refine ⟨p, ⟨true, true, false, true⟩, fun z _ _ => -(π * ((z 0 + z 1) / 2)), mu, zs, out,
    |log ((1 : ℕ) : ℝ) - log (zs 0)| + |log ((1 : ℕ) : ℝ) - log (zs 1)|,
    by rw [hp], rfl, rfl, rfl, ?_, ?_, ?_, ?_, h1, ?_, ?_, h⟩
  · intro z
    rw [hp]
    simp [List.finRange]
  · intro z
    rw [hp]
    change mu _ = mu z
    congr 1
    funext i
    fin_cases i <;> simp [List.finRange]
  · rw [hp]
    simp [List.finRange, hydrogen]
  · rw [hp, hmu]
    exact classical_family hydrogen_mixture
  · rw [hp, hmu]
    change HasCharges (genMix unitConsts (fun _ : Fin 2 => hydrogen (2 * π)) (2 * π * 2 ^ 2) _ _ _ _) zs
    rw [genMix_classical (by positivity) (fun _ => two_pos) h1]
    exact h2
  · intro i
    have a0 := abs_nonneg (log ((1 : ℕ) : ℝ) - log (zs 0))
    have a1 := abs_nonneg (log ((1 : ℕ) : ℝ) - log (zs 1))
    have b0 := le_abs_self (log ((1 : ℕ) : ℝ) - log (zs 0))
    have b1 := le_abs_self (log ((1 : ℕ) : ℝ) - log (zs 1))
    fin_cases i
    · exact b0.trans (by linarith)
    · exact b1.trans (by linarith)

/-- Hydrogen with one level, for the Beth-Uhlenbeck equations. -/
def hydrogenBu (E : ℝ) : Elem := ⟨1, fun _ => 1, fun _ => E, fun _ => [(1, 0)], 2⟩

theorem hydrogenBu_coeff {z : Fin 1 → ℝ} (hz : InBox 1 z) : (buMix unitConsts (fun _ : Fin 1 => hydrogenBu (2 * π * 2 ^ 2))
    (2 * π * 2 ^ 2) (∑ i, z i * ((fun _ : Fin 1 => hydrogenBu (2 * π * 2 ^ 2)) i).N)
    (classicalMu unitConsts (fun _ : Fin 1 => hydrogenBu (2 * π * 2 ^ 2)) (2 * π * 2 ^ 2) z) (fun _ _ => 0) 0).coeff 0 =
      16 * exp 1 := by
  have hpi := pi_pos
  have hN : ∀ i : Fin 1, 0 < ((fun _ : Fin 1 => hydrogenBu (2 * π * 2 ^ 2)) i).N := fun _ => two_pos
  have hne : 0 < ∑ j, z j * ((fun _ : Fin 1 => hydrogenBu (2 * π * 2 ^ 2)) j).N :=
    sum_pos (fun j _ => mul_pos (hz j).1 (hN j)) ⟨0, mem_univ _⟩
  have h1 := (genSaha_eq_iff unitConsts (gi := 1) (gj := 1) (dE := 2 * π * 0) one_ne_zero one_ne_zero
    (by positivity : 0 < 2 * π * 2 ^ 2) hne).2 rfl
  rw [unit_saha 2 0 two_pos] at h1
  change genSahaEquation unitConsts 1 1 (2 * π * 2 ^ 2) _ _ (classicalMu unitConsts _ (2 * π * 2 ^ 2) z) = _ at h1
  have hp : planckLarkin unitConsts [(1, 2 * π * 2 ^ 2 + 0 - 0)] (2 * π * 2 ^ 2) = exp (-1) := by
    have h : (0 : ℝ) < 2 * π * 2 ^ 2 := by positivity
    simp only [planckLarkin, List.map_cons, List.map_nil, List.sum_cons, List.sum_nil, add_zero, sub_zero, heav0, if_pos h,
      unitConsts, mul_one, div_self h.ne']
    ring
  change genBalance unitConsts (planckLarkin unitConsts [(1, 2 * π * 2 ^ 2 + 0 - 0)] (2 * π * 2 ^ 2)) 1 (2 * π * 2 ^ 2) _ _ = _
  rw [hp]
  simp only [genSahaEquation, mul_zero, neg_zero, zero_div, exp_zero, mul_one, div_one, one_mul] at h1
  simp only [genBalance, one_mul]
  rw [mul_assoc, h1, exp_neg, one_div, inv_inv]
  ring

/-- It meets the hypotheses with the classical chemical potential. -/
theorem hydrogenBu_family : WeakFamily (fun z => buMix unitConsts (fun _ : Fin 1 => hydrogenBu (2 * π * 2 ^ 2))
    (2 * π * 2 ^ 2) (∑ i, z i * ((fun _ : Fin 1 => hydrogenBu (2 * π * 2 ^ 2)) i).N)
    (classicalMu unitConsts (fun _ : Fin 1 => hydrogenBu (2 * π * 2 ^ 2)) (2 * π * 2 ^ 2) z) (fun _ _ => 0))
    (fun _ => 1) (fun _ => 2) 1 (1 / 2) := by
  have hpi := pi_pos
  have he := add_one_le_exp (1 : ℝ)
  have he3 : exp 1 ≤ 3 := exp_one_lt_d9.le.trans (by norm_num)
  have hsum : ∑ _i : Fin 1, ((1 : ℕ) : ℝ) * 2 = 2 := by simp
  have hp : planckLarkin unitConsts [(1, 2 * π * 2 ^ 2 + 0 - 0)] (2 * π * 2 ^ 2) = exp (-1) := by
    have h : (0 : ℝ) < 2 * π * 2 ^ 2 := by positivity
    simp only [planckLarkin, List.map_cons, List.map_nil, List.sum_cons, List.sum_nil, add_zero, sub_zero, heav0, if_pos h,
      unitConsts, mul_one, div_self h.ne']
    ring
  refine ⟨fun _ _ => ⟨rfl, rfl⟩, fun _ => one_pos, fun _ => le_rfl, fun _ => two_pos, ?_, ?_, ?_, ?_, ?_, by norm_num,
    by norm_num, ?_⟩
  · rw [hsum]
    have := add_one_le_exp (1000 : ℝ)
    linarith
  · intro z hz i k hk
    have hi : i = 0 := Subsingleton.elim _ _
    have hk0 : k = 0 := by omega
    subst hi hk0
    rw [hydrogenBu_coeff hz]
    positivity
  · intro z hz i k hk
    have hk' : k < 1 := hk
    have hk0 : k = 0 := by omega
    subst hk0
    change 0 < heav0 (planckLarkin unitConsts [(1, 2 * π * 2 ^ 2 + 0 - 0)] (2 * π * 2 ^ 2))
    rw [hp, heav0, if_pos (exp_pos _)]
    norm_num
  · intro z hz
    refine ⟨0, le_rfl, ?_⟩
    rw [hydrogenBu_coeff hz]
    linarith
  · intro z hz y hy i k hk
    rw [hsum] at hy
    have hi : i = 0 := Subsingleton.elim _ _
    subst hi
    have hk' : k ≤ 1 := hk
    have h2 := log_le_sub_one_of_pos (x := 2) (by norm_num)
    have h3 := log_small
    obtain ⟨y1, y2⟩ := hy
    interval_cases k
    · simp
    · rw [sum_range_one, hydrogenBu_coeff hz]
      have h4 := log_nonneg (by linarith : 1 ≤ 16 * exp 1)
      have h5 := log_le_sub_one_of_pos (by linarith : 0 < 16 * exp 1)
      rw [abs_le]
      constructor <;> linarith
  · intro z z' hz hz' D hD i k hk
    have hi : i = 0 := Subsingleton.elim _ _
    have hk0 : k = 0 := by omega
    subst hi hk0
    have hD0 : 0 ≤ D := (abs_nonneg _).trans (hD 0)
    rw [hydrogenBu_coeff hz, hydrogenBu_coeff hz', sub_self, abs_zero]
    positivity

/-- A plasma with this element meets all hypotheses of the convergence. -/
example : ∃ (p : Plasma) (cl : (Fin 1 → ℝ) → Fin 1 → ℕ → ℝ) (mu : (Fin 1 → ℝ) → ℝ) (zs : Fin 1 → ℝ) (out : Loop) (D : ℝ),
    p.elems = (List.finRange 1).map (fun _ => hydrogenBu (2 * π * 2 ^ 2)) ∧
    (∀ z, p.ipd ((List.finRange 1).map z) none = (List.finRange 1).map (cl z)) ∧
    (∀ z, p.mu ((List.finRange 1).map z) = mu z) ∧ 1 = (p.elems.map fun e => e.Z).foldr max 0 ∧
    WeakFamily (fun z => buMix unitConsts (fun _ : Fin 1 => hydrogenBu (2 * π * 2 ^ 2)) p.T
      (∑ i, z i * ((fun _ : Fin 1 => hydrogenBu (2 * π * 2 ^ 2)) i).N) (mu z) (cl z)) (fun _ => 1) (fun _ => 2) 1 (1 / 2) ∧
    InBox 1 zs ∧ HasCharges (buMix unitConsts (fun _ : Fin 1 => hydrogenBu (2 * π * 2 ^ 2)) p.T
      (∑ i, zs i * ((fun _ : Fin 1 => hydrogenBu (2 * π * 2 ^ 2)) i).N) (mu zs) (cl zs)) zs ∧
    (∀ i, log ((1 : ℕ) : ℝ) - log (zs i) ≤ D) ∧ p.BuReturns unitConsts true false [] out := by
  obtain ⟨zs, ⟨h1, h2⟩, -⟩ := hydrogenBu_family.exact_unique
  obtain ⟨mu, hmu⟩ : ∃ mu, mu = classicalMu unitConsts (fun _ : Fin 1 => hydrogenBu (2 * π * 2 ^ 2)) (2 * π * 2 ^ 2) :=
    ⟨_, rfl⟩
  obtain ⟨p, hp⟩ : ∃ p : Plasma, p = ⟨(List.finRange 1).map (fun _ => hydrogenBu (2 * π * 2 ^ 2)), 2 * π * 2 ^ 2,
    fun z _ => z.map fun _ _ => 0, fun z => mu fun i => z.getD i 0⟩ := ⟨_, rfl⟩
  obtain ⟨out, h, -⟩ := buReturns_unique unitConsts p true false []
  refine ⟨p, fun _ _ _ => 0, mu, zs, out, log ((1 : ℕ) : ℝ) - log (zs 0), by rw [hp], ?_, ?_, ?_, ?_, h1, ?_, ?_, h⟩
  · intro z
    rw [hp]
    simp [List.finRange]
  · intro z
    rw [hp]
    change mu _ = mu z
    congr 1
    funext i
    fin_cases i
    simp [List.finRange]
  · rw [hp]
    simp [List.finRange, hydrogenBu]
  · rw [hp, hmu]
    exact hydrogenBu_family
  · rw [hp, hmu]
    exact h2
  · intro i
    rw [Subsingleton.elim i 0]

end Verif.Saha
