/-
C88: the iterations for the mean charge.
-/
import Verif.Model.SahaLoop
import Verif.Props.Saha
import Verif.Props.Bisection
import Verif.Props.Setup

set_option autoImplicit false

open Real Finset Verif.Expt Verif.Resp

namespace Verif.Saha

variable (u : Consts)

/-! ### One solution, many iterations -/

theorem solves_exists (l : List Species) : ∃ y, Solves l y ∧ ∀ y', Solves l y' → y' = y := by
  obtain ⟨x, n, hx, huniq, -⟩ := Bisection.bisection_returns (residual l)
    ⟨1 / 100000000, 1000, 1⟩ (log (1 / 100000000)) (log (maxNe l))
  exact ⟨x, ⟨n, hx⟩, fun y' ⟨n', h'⟩ => (huniq y' n' h').1⟩

theorem solved_exists (l : List Species) :
    ∃ d z, Solved l d z ∧ ∀ d' z', Solved l d' z' → d' = d ∧ z' = z := by
  obtain ⟨y, hy, hu⟩ := solves_exists l
  refine ⟨_, _, ⟨y, hy, rfl, rfl⟩, ?_⟩
  rintro d' z' ⟨y', hy', rfl, rfl⟩
  rw [hu y' hy']
  exact ⟨rfl, rfl⟩

theorem Solved.det {l : List Species} {d z d' z' : List ℝ} (h : Solved l d z) (h' : Solved l d' z') :
    d' = d ∧ z' = z := by
  obtain ⟨d0, z0, -, hu⟩ := solved_exists l
  have h1 := hu _ _ h
  have h2 := hu _ _ h'
  exact ⟨h2.1.trans h1.1.symm, h2.2.trans h1.2.symm⟩

theorem sahaStep_det {p : Plasma} {o : Options} {s a b : Loop} (ha : p.sahaStep u o s a) (hb : p.sahaStep u o s b) :
    a = b := by
  obtain ⟨a1, a2⟩ := ha
  obtain ⟨b1, b2⟩ := hb
  obtain ⟨e1, e2⟩ := a1.det b1
  cases a
  cases b
  simp_all

theorem buStep_det {p : Plasma} {i d : Bool} {s a b : Loop} (ha : p.buStep u i d s a) (hb : p.buStep u i d s b) :
    a = b := by
  obtain ⟨a1, a2⟩ := ha
  obtain ⟨b1, b2⟩ := hb
  obtain ⟨e1, e2⟩ := a1.det b1
  cases a
  cases b
  simp_all

theorem Iter.total {step : Loop → Loop → Prop} (h : ∀ s, ∃ s', step s s') (n : ℕ) (s : Loop) :
    ∃ s', Iter step n s s' := by
  induction n generalizing s with
  | zero => exact ⟨s, .zero s⟩
  | succ n ih =>
    obtain ⟨a, ha⟩ := h s
    obtain ⟨b, hb⟩ := ih a
    exact ⟨b, .succ ha hb⟩

theorem Iter.det {step : Loop → Loop → Prop} (h : ∀ s a b, step s a → step s b → a = b) {n : ℕ} {s a b : Loop}
    (ha : Iter step n s a) (hb : Iter step n s b) : a = b := by
  induction ha with
  | zero s => cases hb; rfl
  | succ h1 _ ih =>
    cases hb with
    | succ g1 g2 =>
      cases h _ _ _ h1 g1
      exact ih g2

theorem Iter.last {step : Loop → Loop → Prop} {n : ℕ} {s a : Loop} (h : Iter step (n + 1) s a) :
    ∃ b, Iter step n s b ∧ step b a := by
  induction n generalizing s with
  | zero =>
    cases h with
    | succ h1 h2 =>
      cases h2
      exact ⟨s, .zero s, h1⟩
  | succ n ih =>
    cases h with
    | succ h1 h2 =>
      obtain ⟨b, hb, hs⟩ := ih h2
      exact ⟨b, .succ h1 hb, hs⟩

/-- C88: `calculate_mean_free_charge_saha` always returns, and one result only. -/
theorem sahaReturns_unique (p : Plasma) (o : Options) (zfree : List ℝ) :
    ∃ out, p.SahaReturns u o zfree out ∧ ∀ out', p.SahaReturns u o zfree out' → out' = out := by
  obtain ⟨d, z, h, hu⟩ := solved_exists (p.sahaList u p.noLowering true)
  have ht : ∀ s, ∃ s', p.sahaStep u o s s' := by
    intro s
    obtain ⟨d, z, h, -⟩ := solved_exists (p.stepList u o s)
    exact ⟨⟨z, d, z⟩, h, rfl⟩
  obtain ⟨out, hout⟩ := Iter.total ht 6 ⟨p.reset zfree, d, z⟩
  refine ⟨out, ⟨⟨p.reset zfree, d, z⟩, rfl, h, hout⟩, ?_⟩
  rintro out' ⟨s, h1, h2, h3⟩
  obtain ⟨e1, e2⟩ := hu _ _ h2
  have : s = ⟨p.reset zfree, d, z⟩ := by
    cases s
    simp_all
  subst this
  exact Iter.det (step := p.sahaStep u o) (fun s a b h1 h2 => sahaStep_det u h1 h2) h3 hout

/-- C88: the result does not depend on the charges that the state had before the call. -/
theorem sahaReturns_initial (p : Plasma) (o : Options) (z z' : List ℝ) (out out' : Loop)
    (h : p.SahaReturns u o z out) (h' : p.SahaReturns u o z' out') : out = out' := by
  obtain ⟨r, -, hu⟩ := sahaReturns_unique u p o z
  rw [hu out h, hu out' h']

/-- C88: the same for `calculate_mean_free_charge_BU`. -/
theorem buReturns_unique (p : Plasma) (i d : Bool) (zfree : List ℝ) :
    ∃ out, p.BuReturns u i d zfree out ∧ ∀ z' out', p.BuReturns u i d z' out' → out' = out := by
  obtain ⟨d0, z0, h, hu⟩ :=
    solved_exists (p.buList u (p.nE (p.reset zfree)) (p.mu (p.reset zfree)) p.noLowering)
  have ht : ∀ s, ∃ s', p.buStep u i d s s' := by
    intro s
    obtain ⟨d', z', h, -⟩ :=
      solved_exists (p.buList u (p.nE s.zfree) (p.mu s.zfree) (p.lowering i d s))
    exact ⟨⟨z', d', z'⟩, h, rfl⟩
  obtain ⟨out, hout⟩ := Iter.total ht 6 ⟨p.reset zfree, d0, z0⟩
  refine ⟨out, ⟨⟨p.reset zfree, d0, z0⟩, rfl, h, hout⟩, ?_⟩
  rintro z' out' ⟨s, h1, h2, h3⟩
  have hr : p.reset z' = p.reset zfree := rfl
  rw [hr] at h1
  rw [h1] at h2
  obtain ⟨e1, e2⟩ := hu _ _ h2
  have : s = ⟨p.reset zfree, d0, z0⟩ := by
    cases s
    simp only [Loop.mk.injEq]
    exact ⟨h1, e1, e2⟩
  rw [this] at h3
  exact Iter.det (step := p.buStep u i d) (fun s a b h1 h2 => buStep_det u h1 h2) h3 hout

/-! ### What every result satisfies -/

theorem map_zip_left {α β γ : Type} {l : List α} {m : List β} (h : m.length = l.length) (f : α → γ) :
    (l.zip m).map (fun q => f q.1) = l.map f := by
  have := List.map_fst_zip (l₁ := l) (l₂ := m) (by omega)
  conv_rhs => rw [← this]
  rw [List.map_map]
  rfl

/-- Specification of a list of charges: one for each element, none below zero or above the atomic number. -/
def Charges (p : Plasma) (z : List ℝ) : Prop :=
  z.length = p.elems.length ∧ ∀ q ∈ p.elems.zip z, 0 ≤ q.2 ∧ q.2 ≤ q.1.Z

theorem charges_of {p : Plasma} {cl : List (ℕ → ℝ)} (hcl : cl.length = p.elems.length)
    {f : Elem × (ℕ → ℝ) → Species} (hf : ∀ q, (f q).Z = q.1.Z) (y : ℝ) :
    Charges p (((p.elems.zip cl).map f).map fun s => zbar s y) := by
  constructor
  · simp [hcl]
  · rcases p with ⟨es, T, ipd, mu⟩
    simp only at hcl ⊢
    induction es generalizing cl with
    | nil => simp
    | cons e es ih =>
      cases cl with
      | nil => simp at hcl
      | cons c cl =>
        intro q hq
        simp only [List.zip_cons_cons, List.map_cons, List.mem_cons] at hq
        rcases hq with rfl | hq
        · have := zbar_mem (f (e, c)) y
          rw [hf] at this
          exact ⟨this.1, this.2.1⟩
        · exact ih (by simpa using hcl) q hq

theorem sum_of {p : Plasma} {cl : List (ℕ → ℝ)} (hcl : cl.length = p.elems.length)
    {f : Elem × (ℕ → ℝ) → Species} (hN : ∀ q, (f q).N = q.1.N) (y : ℝ) :
    (allDensities ((p.elems.zip cl).map f) y).sum = (p.elems.map fun e => e.N).sum := by
  rw [allDensities_sum, List.map_map]
  have : ((fun s : Species => s.N) ∘ f) = fun q => (fun e : Elem => e.N) q.1 := by
    ext q
    exact hN q
  rw [this, map_zip_left hcl]

theorem lowering_length {p : Plasma} (hipd : ∀ z d, (p.ipd z d).length = p.elems.length) (i d : Bool) (s : Loop) :
    (p.lowering i d s).length = p.elems.length := by
  unfold Plasma.lowering
  split_ifs
  · exact hipd _ _
  · exact hipd _ _
  · simp [Plasma.noLowering]

/-- C88: whatever the options and the models for the lowering and the chemical potential, the first result is the
density of each charge state of each element and sums to the density of all ions, the second one has a possible
charge for each element, and the state has these charges afterwards. -/
theorem sahaReturns_sound {p : Plasma} (hipd : ∀ z d, (p.ipd z d).length = p.elems.length) {o : Options}
    {zfree : List ℝ} {out : Loop} (h : p.SahaReturns u o zfree out) :
    out.dist.sum = (p.elems.map fun e => e.N).sum ∧ Charges p out.zmean ∧ out.zfree = out.zmean := by
  obtain ⟨s, -, -, h3⟩ := h
  obtain ⟨b, -, ⟨y, -, hd, hz⟩, hf⟩ := h3.last
  have hl := lowering_length hipd o.useIpd o.useDistribution b
  refine ⟨?_, ?_, hf⟩
  · rw [hd]
    simp only [Plasma.stepList]
    split_ifs
    · exact sum_of hl (fun _ => rfl) y
    · exact sum_of hl (fun _ => rfl) y
  · rw [hz]
    simp only [Plasma.stepList]
    split_ifs
    · exact charges_of hl (fun _ => rfl) y
    · exact charges_of hl (fun _ => rfl) y

/-- C88: the same for `calculate_mean_free_charge_BU`. -/
theorem buReturns_sound {p : Plasma} (hipd : ∀ z d, (p.ipd z d).length = p.elems.length) {i d : Bool}
    {zfree : List ℝ} {out : Loop} (h : p.BuReturns u i d zfree out) :
    out.dist.sum = (p.elems.map fun e => e.N).sum ∧ Charges p out.zmean ∧ out.zfree = out.zmean := by
  obtain ⟨s, -, -, h3⟩ := h
  obtain ⟨b, -, ⟨y, -, hd, hz⟩, hf⟩ := h3.last
  have hl := lowering_length hipd i d b
  refine ⟨?_, ?_, hf⟩
  · rw [hd]
    exact sum_of hl (fun _ => rfl) y
  · rw [hz]
    exact charges_of hl (fun _ => rfl) y

/-- C88: without lowering and chemical potential the result is the one of `solve_saha`: the iteration changes
nothing. -/
theorem sahaReturns_plain {p : Plasma} {o : Options} (hi : o.useIpd = false) (hc : o.useChemPot = false)
    {zfree : List ℝ} {out : Loop} (h : p.SahaReturns u o zfree out) :
    Solved (p.sahaList u p.noLowering o.exclude) out.dist out.zmean := by
  obtain ⟨s, -, -, h3⟩ := h
  obtain ⟨b, -, h4, -⟩ := h3.last
  simpa [Plasma.stepList, Plasma.lowering, hi, hc] using h4

/-! ### Self-consistency -/

/-- Specification: lowering, density and chemical potential, taken at the state itself, lead back to it. -/
def SelfConsistent (p : Plasma) (o : Options) (s : Loop) : Prop := p.sahaStep u o s s

/-- C88: if an iteration repeats the charges (and the distribution, if that is used) the state is self-consistent,
and any number of further iterations returns it. -/
theorem saha_stationary {p : Plasma} {o : Options} {s s' : Loop} (h : p.sahaStep u o s s')
    (hz : s'.zfree = s.zfree) (hd : o.useDistribution = true → s'.dist = s.dist) :
    SelfConsistent u p o s' ∧ ∀ n out, Iter (p.sahaStep u o) n s' out → out = s' := by
  have hsc : SelfConsistent u p o s' := by
    unfold SelfConsistent
    have e : p.stepList u o s' = p.stepList u o s := by
      unfold Plasma.stepList Plasma.lowering
      rw [hz]
      cases ho : o.useDistribution
      · simp
      · rw [hd ho]
    obtain ⟨h1, h2⟩ := h
    exact ⟨e ▸ h1, h2⟩
  refine ⟨hsc, fun n out hit => ?_⟩
  have : ∀ n, Iter (p.sahaStep u o) n s' s' := by
    intro n
    induction n with
    | zero => exact .zero s'
    | succ n ih => exact .succ hsc ih
  exact Iter.det (step := p.sahaStep u o) (fun s a b h1 h2 => sahaStep_det u h1 h2) hit (this n)

/-- A lowering that does not depend on the charges is self-consistent after one iteration. -/
theorem sahaReturns_constant {p : Plasma} {o : Options} (hc : o.useChemPot = false) (cl : List (ℕ → ℝ))
    (hipd : ∀ z d, p.ipd z d = cl) {zfree : List ℝ} {out : Loop} (h : p.SahaReturns u o zfree out) :
    SelfConsistent u p o out := by
  obtain ⟨s, -, -, h3⟩ := h
  obtain ⟨b, -, h4, h5⟩ := h3.last
  refine ⟨?_, h5⟩
  have : p.stepList u o out = p.stepList u o b := by
    simp [Plasma.stepList, Plasma.lowering, hc, hipd]
  rw [this]
  exact h4

theorem nE_zbar {p : Plasma} {cl : List (ℕ → ℝ)} (hcl : cl.length = p.elems.length)
    {f : Elem × (ℕ → ℝ) → Species} (hN : ∀ q, (f q).N = q.1.N) (y : ℝ) :
    p.nE (((p.elems.zip cl).map f).map fun s => zbar s y) =
      (((p.elems.zip cl).map f).map fun s => s.N * zbar s y).sum := by
  unfold Plasma.nE
  rcases p with ⟨es, T, ipd, mu⟩
  simp only at hcl ⊢
  induction es generalizing cl with
  | nil => simp
  | cons e es ih =>
    cases cl with
    | nil => simp at hcl
    | cons c cl =>
      have := ih (cl := cl) (by simpa using hcl)
      simp only [List.zip_cons_cons, List.map_cons, List.sum_cons, this, hN]
      ring

/-- C88: in a self-consistent state of the generalised Saha equation the populations of neighbouring charge states have
the ratio of the grand canonical ensemble, with the chemical potential and the lowering of the state itself, up to the
quotient of the electron density of the state and that which the solver returned.  The difference of these two is what is
left of the neutrality condition, which `solve_accuracy` bounds. -/
theorem gen_selfconsistent_near {p : Plasma} (hipd : ∀ z d, (p.ipd z d).length = p.elems.length) {o : Options}
    (hc : o.useChemPot = true) {s : Loop} (h : SelfConsistent u p o s)
    (hreg : ∀ e ∈ p.elems, 0 ≤ e.N ∧ ∀ k ≤ e.Z, 0 < e.g k) (hne : 0 < p.nE s.zfree)
    (hb : ∀ t ∈ p.stepList u o s, AllBound t)
    (hroot : ∀ y, Solves (p.stepList u o s) y → ∀ t ∈ p.stepList u o s, Unclipped t y) :
    ∃ (y : ℝ) (pop : Elem × (ℕ → ℝ) → ℕ → ℝ), Solves (p.stepList u o s) y ∧
      p.nE s.zfree - exp y = -residual (p.stepList u o s) y ∧
      s.dist = ((p.elems.zip (p.lowering o.useIpd o.useDistribution s)).map fun q =>
        (List.range (q.1.Z + 1)).map (pop q)).flatten ∧
      ∀ q ∈ p.elems.zip (p.lowering o.useIpd o.useDistribution s), ∀ i < q.1.Z,
        pop q (i + 1) * q.1.g i = pop q i * q.1.g (i + 1) *
          exp (-(q.1.E i + q.2 i + p.mu s.zfree) / (u.kB * p.T)) * (p.nE s.zfree / exp y) := by
  obtain ⟨⟨y, hy, hd, hz⟩, hf⟩ := h
  have hu := hroot y hy
  have hl := lowering_length hipd o.useIpd o.useDistribution s
  have el : p.stepList u o s =
      p.genList u (p.nE s.zfree) (p.mu s.zfree) (p.lowering o.useIpd o.useDistribution s) o.exclude := by
    simp [Plasma.stepList, hc]
  rw [el] at hb hu hd hz hy
  rw [el]
  set cl := p.lowering o.useIpd o.useDistribution s with hcl
  set ne := p.nE s.zfree with hnedef
  set mu := p.mu s.zfree with hmu
  have hnee : ne - exp y = -residual (p.genList u ne mu cl o.exclude) y := by
    have e1 : ne = (((p.genList u ne mu cl o.exclude).map fun t => t.N * zbar t y)).sum := by
      conv_lhs => rw [hnedef, hf, hz]
      exact nE_zbar hl (f := fun q => genSahaSpecies u q.1.Z q.1.g q.1.E q.2 p.T ne mu q.1.N o.exclude)
        (fun _ => rfl) y
    unfold residual
    linarith
  refine ⟨y, fun q i => q.1.N * weight (genSahaSpecies u q.1.Z q.1.g q.1.E q.2 p.T ne mu q.1.N o.exclude) y i, hy,
    hnee, ?_, ?_⟩
  · rw [hd]
    simp only [allDensities, Plasma.genList, List.map_map]
    rfl
  · intro q hq i hi
    have hmem : genSahaSpecies u q.1.Z q.1.g q.1.E q.2 p.T ne mu q.1.N o.exclude ∈ p.genList u ne mu cl o.exclude :=
      List.mem_map.2 ⟨q, hq, rfl⟩
    have hqe : q.1 ∈ p.elems := (List.of_mem_zip hq).1
    obtain ⟨r1, r2⟩ := hreg q.1 hqe
    have hco : ∀ k < q.1.Z,
        0 < (genSahaSpecies u q.1.Z q.1.g q.1.E q.2 p.T ne mu q.1.N o.exclude).coeff k := by
      intro k hk
      have a1 := r2 k (by omega)
      have a2 := r2 (k + 1) (by omega)
      simp only [genSahaSpecies, genSahaEquation]
      positivity
    have hs : q.1.N * weight (genSahaSpecies u q.1.Z q.1.g q.1.E q.2 p.T ne mu q.1.N o.exclude) y (i + 1) * exp y =
        q.1.N * weight (genSahaSpecies u q.1.Z q.1.g q.1.E q.2 p.T ne mu q.1.N o.exclude) y i *
          genSahaEquation u (q.1.g i) (q.1.g (i + 1)) p.T ne (q.1.E i + q.2 i) mu :=
      (saha_weights r1 (hb _ hmem) hco (hu _ hmem)).balance i hi
    rw [genSahaEquation] at hs
    simp only
    generalize weight (genSahaSpecies u q.1.Z q.1.g q.1.E q.2 p.T ne mu q.1.N o.exclude) y (i + 1) = w1 at *
    generalize weight (genSahaSpecies u q.1.Z q.1.g q.1.E q.2 p.T ne mu q.1.N o.exclude) y i = w0 at *
    have a1 := r2 i (by omega)
    have e2 : exp (-(q.1.E i + q.2 i + mu) / (u.kB * p.T)) =
        exp (-(q.1.E i + q.2 i) / (1 * u.kB * p.T)) * exp (-mu / (1 * u.kB * p.T)) := by
      rw [← exp_add]
      congr 1
      rw [one_mul]
      ring
    rw [e2]
    have hey := exp_pos y
    generalize exp (-(q.1.E i + q.2 i) / (1 * u.kB * p.T)) = A at *
    generalize exp (-mu / (1 * u.kB * p.T)) = B at *
    generalize exp y = Y at *
    field_simp at hs ⊢
    linarith

/-- C88: where the solver has met the neutrality condition exactly, the electron density drops out, and the populations
of neighbouring charge states have the ratio of the grand canonical ensemble, with the chemical potential and the
lowering of the state itself. -/
theorem gen_selfconsistent {p : Plasma} (hipd : ∀ z d, (p.ipd z d).length = p.elems.length) {o : Options}
    (hc : o.useChemPot = true) {s : Loop} (h : SelfConsistent u p o s)
    (hreg : ∀ e ∈ p.elems, 0 ≤ e.N ∧ ∀ k ≤ e.Z, 0 < e.g k) (hne : 0 < p.nE s.zfree)
    (hb : ∀ t ∈ p.stepList u o s, AllBound t)
    (hroot : ∀ y, Solves (p.stepList u o s) y → residual (p.stepList u o s) y = 0 ∧
      ∀ t ∈ p.stepList u o s, Unclipped t y) :
    ∃ pop : Elem × (ℕ → ℝ) → ℕ → ℝ,
      s.dist = ((p.elems.zip (p.lowering o.useIpd o.useDistribution s)).map fun q =>
        (List.range (q.1.Z + 1)).map (pop q)).flatten ∧
      ∀ q ∈ p.elems.zip (p.lowering o.useIpd o.useDistribution s), ∀ i < q.1.Z,
        pop q (i + 1) * q.1.g i =
          pop q i * q.1.g (i + 1) * exp (-(q.1.E i + q.2 i + p.mu s.zfree) / (u.kB * p.T)) := by
  obtain ⟨y, pop, hy, hr, hd, hq⟩ := gen_selfconsistent_near u hipd hc h hreg hne hb fun y hy => (hroot y hy).2
  refine ⟨pop, hd, fun q hm i hi => ?_⟩
  have e : p.nE s.zfree = exp y := by
    have := (hroot y hy).1
    linarith
  rw [hq q hm i hi, e, div_self (exp_pos y).ne', mul_one]

/-! ### A self-consistent state -/

theorem solves_mid {l : List Species} {m : ℝ} (hm : m = (log (1 / 100000000) + log (maxNe l)) / 2)
    (h : residual l m = 0) : Solves l m := by
  refine ⟨1, _, Bisection.While.step ?_ (Bisection.While.stop ?_), ?_, ?_⟩
  · simp [Bisection.condition]
  · simp only [Bisection.condition, Bisection.body]
    rw [← hm, h]
    simp
  · simp [Bisection.body, hm]
  · simp [Bisection.body]

/-- Hydrogen, half of it ionized, with a chemical potential that makes up for the ionization energy. -/
noncomputable def halfPlasma : Plasma :=
  ⟨[⟨1, fun _ => 1, fun _ => 1, fun _ => [], 4 / 100000000⟩], 1, fun _ _ => [fun _ => 0], fun _ => -1⟩

noncomputable def halfState : Loop := ⟨[1 / 2], [2 / 100000000, 2 / 100000000], [1 / 2]⟩

theorem half_list : halfPlasma.stepList unitConsts ⟨true, true, true, true⟩ halfState =
    [⟨1, fun _ => 2 / 100000000, fun _ => 1, 4 / 100000000⟩] := by
  simp only [Plasma.stepList, Plasma.lowering, Plasma.genList, halfPlasma, halfState, Plasma.nE]
  simp [genSahaSpecies, genSahaEquation, heav0, unitConsts]
  funext k
  rw [mul_assoc, ← exp_add]
  norm_num

theorem half_weight (i : ℕ) :
    weight ⟨1, fun _ => 2 / 100000000, fun _ => 1, 4 / 100000000⟩ (log (2 / 100000000)) i = 1 / 2 := by
  have h0 : ∀ j, clip500 (logP ⟨1, fun _ => 2 / 100000000, fun _ => 1, 4 / 100000000⟩ (log (2 / 100000000)) j) = 0 := by
    intro j
    simp [logP, clip500]
  unfold weight
  simp only [h0]
  norm_num [Finset.sum_range_succ]

theorem half_zbar : zbar ⟨1, fun _ => 2 / 100000000, fun _ => 1, 4 / 100000000⟩ (log (2 / 100000000)) = 1 / 2 := by
  unfold zbar
  rw [sum_range_succ, sum_range_one, half_weight 0, half_weight 1]
  norm_num

theorem half_root : residual [⟨1, fun _ => 2 / 100000000, fun _ => 1, 4 / 100000000⟩] (log (2 / 100000000)) = 0 := by
  unfold residual
  simp only [List.map_cons, List.map_nil, List.sum_cons, List.sum_nil]
  rw [half_zbar, exp_log (by norm_num)]
  norm_num

theorem half_solves : Solves [⟨1, fun _ => 2 / 100000000, fun _ => 1, 4 / 100000000⟩] (log (2 / 100000000)) := by
  apply solves_mid _ half_root
  have e : maxNe [⟨1, fun _ => 2 / 100000000, fun _ => 1, 4 / 100000000⟩] = 4 / 100000000 := by
    simp [maxNe]
  rw [e, ← log_mul (by norm_num) (by norm_num),
    show (1 / 100000000 : ℝ) * (4 / 100000000) = (2 / 100000000) ^ 2 by norm_num, log_pow]
  push_cast
  ring

theorem half_consistent : SelfConsistent unitConsts halfPlasma ⟨true, true, true, true⟩ halfState := by
  refine ⟨⟨log (2 / 100000000), ?_, ?_, ?_⟩, rfl⟩
  · rw [half_list]
    exact half_solves
  · rw [half_list]
    simp only [allDensities, densities, List.map_cons, List.map_nil, List.flatten_cons, List.flatten_nil,
      List.range_succ, List.range_zero, List.nil_append, List.append_nil, List.cons_append]
    rw [half_weight 0, half_weight 1]
    norm_num [halfState]
  · rw [half_list]
    simp only [List.map_cons, List.map_nil, half_zbar, halfState]

/-- All hypotheses of `gen_selfconsistent` hold for this state. -/
example : ∃ pop : Elem × (ℕ → ℝ) → ℕ → ℝ,
    halfState.dist = ((halfPlasma.elems.zip (halfPlasma.lowering true true halfState)).map fun q =>
      (List.range (q.1.Z + 1)).map (pop q)).flatten := by
  have hy : ∀ y, Solves [⟨1, fun _ => 2 / 100000000, fun _ => 1, 4 / 100000000⟩] y → y = log (2 / 100000000) := by
    intro y hy
    obtain ⟨z, -, hz⟩ := solves_exists [⟨1, fun _ => 2 / 100000000, fun _ => 1, 4 / 100000000⟩]
    rw [hz y hy, hz _ half_solves]
  obtain ⟨pop, h, -⟩ := gen_selfconsistent unitConsts (p := halfPlasma) (o := ⟨true, true, true, true⟩)
    (fun _ _ => rfl) rfl half_consistent
    (by
      intro e he
      simp only [halfPlasma, List.mem_singleton] at he
      subst he
      norm_num)
    (by norm_num [Plasma.nE, halfPlasma, halfState])
    (by
      rw [half_list]
      intro t ht
      simp only [List.mem_singleton] at ht
      subst ht
      intro k _
      norm_num)
    (by
      rw [half_list]
      intro y h
      rw [hy y h]
      refine ⟨half_root, ?_⟩
      intro t ht
      simp only [List.mem_singleton] at ht
      subst ht
      intro i _
      simp)
  exact ⟨pop, h⟩

/-! ### The first values -/

theorem le_foldr_max : ∀ (l : List ℕ) (x : ℕ), x ∈ l → x ≤ l.foldr max 0
  | a :: l, x, h => by
    rw [List.foldr_cons]
    rcases List.mem_cons.1 h with rfl | h
    · exact le_max_left _ _
    · exact (le_foldr_max l x h).trans (le_max_right _ _)

theorem nE_const (p : Plasma) (c : ℝ) : p.nE (p.elems.map fun _ => c) = (p.elems.map fun e => c * e.N).sum := by
  unfold Plasma.nE
  induction p.elems with
  | nil => rfl
  | cons a l ih => simpa using ih

/-- C88: the first lowering is that of a plasma with at least all its electrons free; as the charges of all
elements are set to the largest atomic number, there are more free electrons than electrons in a mixture of
different elements. -/
theorem reset_density (p : Plasma) (zfree : List ℝ) (hN : ∀ e ∈ p.elems, 0 < e.N) :
    (p.elems.map fun e => (e.Z : ℝ) * e.N).sum ≤ p.nE (p.reset zfree) ∧
      ((p.elems.map fun e => (e.Z : ℝ) * e.N).sum = p.nE (p.reset zfree) ↔ ∀ e ∈ p.elems, ∀ e' ∈ p.elems, e.Z = e'.Z) := by
  set c := (p.elems.map fun e => e.Z).foldr max 0 with hc
  have hle : ∀ e ∈ p.elems, e.Z ≤ c := fun e he => le_foldr_max _ _ (List.mem_map.2 ⟨e, he, rfl⟩)
  have hr : p.nE (p.reset zfree) = (p.elems.map fun e => (c : ℝ) * e.N).sum := nE_const p c
  rw [hr]
  have h1 : (p.elems.map fun e => (e.Z : ℝ) * e.N).sum ≤ (p.elems.map fun e => (c : ℝ) * e.N).sum :=
    List.sum_le_sum fun e he => mul_le_mul_of_nonneg_right (by exact_mod_cast hle e he) (hN e he).le
  refine ⟨h1, ?_⟩
  have hmem : p.elems ≠ [] → ∃ e ∈ p.elems, e.Z = c := by
    intro hne
    have : ∀ l : List ℕ, l ≠ [] → l.foldr max 0 ∈ l := by
      intro l
      induction l with
      | nil => intro h; exact absurd rfl h
      | cons a l ih =>
        intro _
        rw [List.foldr_cons]
        by_cases hl : l = []
        · subst hl; simp
        · rcases le_total (l.foldr max 0) a with h | h
          · rw [max_eq_left h]; exact List.mem_cons_self
          · rw [max_eq_right h]; exact List.mem_cons_of_mem _ (ih hl)
    obtain ⟨e, he, h⟩ := List.mem_map.1 (this (p.elems.map fun e => e.Z) (by simpa using hne))
    exact ⟨e, he, h⟩
  constructor
  · intro h
    have hall : ∀ e ∈ p.elems, e.Z = c := by
      by_contra hcon
      push Not at hcon
      obtain ⟨e, he, hne⟩ := hcon
      refine (List.sum_lt_sum (fun e => (e.Z : ℝ) * e.N) (fun e => (c : ℝ) * e.N)
        (fun e he => mul_le_mul_of_nonneg_right (by exact_mod_cast hle e he) (hN e he).le) ⟨e, he, ?_⟩).ne h
      exact mul_lt_mul_of_pos_right (by exact_mod_cast (hle e he).lt_of_ne hne) (hN e he)
    exact fun e he e' he' => (hall e he).trans (hall e' he').symm
  · intro h
    by_cases hne : p.elems = []
    · simp [hne]
    · obtain ⟨e0, he0, h0⟩ := hmem hne
      congr 1
      refine List.map_congr_left fun e he => ?_
      rw [h e he e0 he0, h0]

/-- Carbon and hydrogen, one of each: 12 electrons instead of 7. -/
example (z : List ℝ) : (Plasma.mk [⟨6, fun _ => 1, fun _ => 1, fun _ => [], 1⟩, ⟨1, fun _ => 1, fun _ => 1, fun _ => [], 1⟩] 1
    (fun _ _ => []) fun _ => 0).nE (Plasma.reset (Plasma.mk [⟨6, fun _ => 1, fun _ => 1, fun _ => [], 1⟩,
      ⟨1, fun _ => 1, fun _ => 1, fun _ => [], 1⟩] 1 (fun _ _ => []) fun _ => 0) z) = 12 := by
  norm_num [Plasma.nE, Plasma.reset]

end Verif.Saha
