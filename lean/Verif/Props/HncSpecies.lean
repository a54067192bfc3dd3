/-
Properties C37, C71 and C72: species and temperatures in the hypernetted chain scheme.
-/
import Verif.Props.HncSolution
import Mathlib.Tactic.IntervalCases

set_option autoImplicit false

namespace Verif.Hnc

open Real

namespace Input

/-! ### A simulation -/

section

variable {m m' : ℕ} {p : Input m} {p' : Input m'}
  {oz : ℝ → Matrix (Fin m) (Fin m) ℝ → Matrix (Fin m) (Fin m) ℝ}
  {oz' : ℝ → Matrix (Fin m') (Fin m') ℝ → Matrix (Fin m') (Fin m') ℝ}

/-- If a map takes each step of one problem to a step of another one, it takes results to results. -/
theorem Runs.map (φ : State m → State m') {Q : State m → Prop} (hQ : ∀ mult s, Q s → Q (p.step oz mult s))
    (hQi : ∀ s i, Q s → Q { s with iter := i }) (hQ0 : ∀ mult, Q (p.init mult))
    (hstep : ∀ mult s, Q s → φ (p.step oz mult s) = p'.step oz' mult (φ s))
    (hcond : ∀ s, p'.cond (φ s) = p.cond s) (hinit : ∀ mult, φ (p.init mult) = p'.init mult)
    (hiter : ∀ s, (φ s).iter = s.iter) (hset : ∀ s i, φ { s with iter := i } = { φ s with iter := i })
    {ms : List ℝ} {t : State m} {j : ℕ} (h : p.Runs oz ms t j) : p'.Runs oz' ms (φ t) j := by
  have hw : ∀ mult s t, p.While oz mult s t → Q s → p'.While oz' mult (φ s) (φ t) ∧ Q t := by
    intro mult s t hw
    induction hw with
    | stop hc => exact fun hs => ⟨.stop (by rw [hcond]; exact hc), hs⟩
    | step hc _ ih =>
      intro hs
      obtain ⟨h1, h2⟩ := ih (hQ _ _ hs)
      rw [hstep _ _ hs] at h1
      exact ⟨.step (by rw [hcond]; exact hc) h1, h2⟩
  have h5 : ∀ mult n s, Q s → φ ((p.step oz mult)^[n] s) = (p'.step oz' mult)^[n] (φ s) ∧ Q ((p.step oz mult)^[n] s) := by
    intro mult n s hs
    induction n with
    | zero => exact ⟨rfl, hs⟩
    | succ n ih =>
      rw [Function.iterate_succ_apply', Function.iterate_succ_apply', hstep _ _ ih.2, ih.1]
      exact ⟨rfl, hQ _ _ ih.2⟩
  have hr : ∀ ms s i t j, p.Rest oz ms s i t j → Q s → p'.Rest oz' ms (φ s) i (φ t) j := by
    intro ms s i t j hr
    induction hr with
    | done => exact fun _ => .done
    | @next mult ms s s' t it it' hw' _ ih =>
      intro hs
      obtain ⟨h1, h2⟩ := hw _ _ _ hw' (hQi _ _ (h5 _ _ _ hs).2)
      have h3 := ih h2
      refine .next (s' := φ s') ?_ ?_
      · unfold warm at h1 ⊢
        rw [hset, (h5 _ _ _ hs).1] at h1
        exact h1
      · rw [hiter]
        exact h3
  cases ms with
  | nil => exact h.elim
  | cons mult ms =>
    obtain ⟨s, h1, h2⟩ := h
    obtain ⟨h3, h4⟩ := hw _ _ _ h1 (hQ0 mult)
    rw [hinit] at h3
    refine ⟨φ s, h3, ?_⟩
    rw [hiter]
    exact hr _ _ _ _ _ h2 h4

end

variable {m : ℕ} {p : Input m}

/-- The problem with other units of energy. -/
def scaled (p : Input m) (lam : ℝ) : Input m :=
  { p with Vs := fun a b j => lam * p.Vs a b j, Vlk := fun a b j => lam * p.Vlk a b j, T := fun a b => lam * p.T a b }

/-- C71: only the ratios of the potentials and the temperatures matter. -/
theorem returns_scaled {lam : ℝ} (hl : lam ≠ 0) {tmult : List ℝ} {g : Fin m → Fin m → ℕ → ℝ} {it : ℕ}
    (h : p.Returns tmult g it) : (p.scaled lam).Returns tmult g it := by
  obtain ⟨t, hr, rfl⟩ := h
  have hv : ∀ mult, (p.scaled lam).vs mult = p.vs mult := by
    intro mult
    funext a b j
    simp only [vs, scaled]
    rw [show p.kB * (lam * p.T a b) * mult = lam * (p.kB * p.T a b * mult) by ring, one_div, mul_inv, ← mul_assoc,
      mul_right_comm lam⁻¹, inv_mul_cancel₀ hl, one_mul, one_div]
  have hl' : ∀ mult, (p.scaled lam).vlk mult = p.vlk mult := by
    intro mult
    funext a b j
    simp only [vlk, scaled]
    rw [show p.kB * (lam * p.T a b) * mult = lam * (p.kB * p.T a b * mult) by ring, one_div, mul_inv, ← mul_assoc,
      mul_right_comm lam⁻¹, inv_mul_cancel₀ hl, one_mul, one_div]
  refine ⟨t, ?_, rfl⟩
  refine hr.map (p := p) (p' := p.scaled lam) id (Q := fun _ => True) (fun _ _ _ => trivial) (fun _ _ _ => trivial) (fun _ => trivial) ?_
    (fun s => rfl) ?_ (fun _ => rfl) (fun _ _ => rfl)
  · intro mult s _
    have hc : (p.scaled lam).cK mult s = p.cK mult s := by
      funext i a b
      show (p.scaled lam).csK s a b i - (p.scaled lam).vlk mult a b i = p.csK s a b i - p.vlk mult a b i
      rw [hl']
      rfl
    show p.step (fun _ => ozr p.n p.maxSize) mult s = (p.scaled lam).step (fun _ => ozr p.n p.maxSize) mult s
    unfold step
    simp only [hc, hv]
    rfl
  · intro mult
    unfold init
    rw [hv]
    rfl

/-! ### Groups of particles of the same kind -/

/-- The problem in which the particles of species `t` are divided into the groups `s` with `f s = t`, with
the densities `n'`. -/
def split {m' : ℕ} (p : Input m) (f : Fin m' → Fin m) (n' : Fin m' → ℝ) (maxSize : ℕ) : Input m' :=
  { N := p.N, r := p.r, Vs := fun a b => p.Vs (f a) (f b), Vlk := fun a b => p.Vlk (f a) (f b), T := fun a b => p.T (f a) (f b),
    n := n', mix := p.mix, maxSize := maxSize, kB := p.kB }

/-- The corresponding states. -/
def splitState {m' : ℕ} (f : Fin m' → Fin m) (s : State m) : State m' :=
  ⟨fun a b => s.logG (f a) (f b), fun a b => s.Ns (f a) (f b), fun a b => s.NsOld (f a) (f b), s.iter⟩

/-- C71: one cycle does not depend on whether particles of the same kind are treated as one species or as
several ones. -/
theorem step_split {m' : ℕ} {f : Fin m' → Fin m} {n' : Fin m' → ℝ} (N' : ℕ) (hn : ∀ t, p.n t = ∑ s with f s = t, n' s)
    (hd : p.DataSymm) {s : State m} (hs : StateSymm s) (mult : ℝ) :
    splitState f (p.step (fun _ => ozr p.n p.maxSize) mult s) =
      (p.split f n' N').step (fun _ => ozr n' N') mult (splitState f s) := by
  have hh : ∀ i a b, ozr n' N' ((p.split f n' N').cK mult (splitState f s) i) a b =
      ozr p.n p.maxSize (p.cK mult s i) (f a) (f b) := by
    intro i a b
    rw [← ozr_split p.n n' f p.maxSize N' hn (cK_symm hd hs mult i)]
    rfl
  have hNs : (fun a b => (p.step (fun _ => ozr p.n p.maxSize) mult s).Ns (f a) (f b)) =
      ((p.split f n' N').step (fun _ => ozr n' N') mult (splitState f s)).Ns := by
    funext a b j
    rw [step_Ns, step_Ns]
    show _ * _ + _ = (1 - p.mix) * (p.split f n' N').full (fun _ => ozr n' N') mult (splitState f s) a b j + _
    congr 2
    unfold full
    simp only [hh]
    rfl
  have hlog : (fun a b => (p.step (fun _ => ozr p.n p.maxSize) mult s).logG (f a) (f b)) =
      ((p.split f n' N').step (fun _ => ozr n' N') mult (splitState f s)).logG := by
    funext a b j
    show (fun a b => (p.step (fun _ => ozr p.n p.maxSize) mult s).Ns (f a) (f b)) a b j - p.vs mult (f a) (f b) j = _
    rw [hNs]
    rfl
  have e : ∀ u v : State m', u.logG = v.logG → u.Ns = v.Ns → u.NsOld = v.NsOld → u.iter = v.iter → u = v := by
    rintro ⟨a, b, c, d⟩ ⟨a', b', c', d'⟩ h1 h2 h3 h4
    simp only at h1 h2 h3 h4
    subst h1 h2 h3 h4
    rfl
  exact e _ _ hlog hNs rfl rfl

/-- C71: the order of the species does not matter. -/
theorem returns_relabel (σ : Equiv.Perm (Fin m)) (hd : p.DataSymm) {tmult : List ℝ} {g : Fin m → Fin m → ℕ → ℝ} {it : ℕ}
    (h : p.Returns tmult g it) :
    (p.split σ (fun a => p.n (σ a)) p.maxSize).Returns tmult (fun a b => g (σ a) (σ b)) it := by
  obtain ⟨t, hr, rfl⟩ := h
  refine ⟨splitState σ t, ?_, rfl⟩
  refine hr.map (p := p) (p' := p.split σ (fun a => p.n (σ a)) p.maxSize) (splitState σ) (Q := StateSymm)
    (fun mult s hs => step_symm (fun _ _ hC => ozr_symm _ _ hC) hd hs mult) (fun s i hs => hs) (fun mult => init_symm hd mult)
    (fun mult s hs => ?_) ?_ (fun _ => rfl) (fun _ => rfl) (fun _ _ => rfl)
  · refine step_split p.maxSize (fun t => ?_) hd hs mult
    have : (Finset.univ.filter fun s => σ s = t) = {σ.symm t} := by
      ext s
      simp [Equiv.eq_symm_apply]
    rw [this, Finset.sum_singleton, Equiv.apply_symm_apply]
  · intro s
    have e : (p.split σ (fun a => p.n (σ a)) p.maxSize).err (splitState σ s) = p.err s := by
      unfold err
      rw [← Equiv.sum_comp σ (fun a => ∑ b, ∑ j ∈ Finset.range p.N, (s.Ns a b j - s.NsOld a b j) ^ 2)]
      refine Finset.sum_congr rfl fun a _ => ?_
      rw [← Equiv.sum_comp σ (fun b => ∑ j ∈ Finset.range p.N, (s.Ns (σ a) b j - s.NsOld (σ a) b j) ^ 2)]
      rfl
    unfold cond
    rw [e]
    rfl

/-! ### Different temperatures -/

/-- The linear system of the scheme for several temperatures. -/
theorem svt_mulVec {n mass : Fin m → ℝ} (hm : ∀ a, 0 < mass a) (T : Fin m → Fin m → ℝ) (C H : Matrix (Fin m) (Fin m) ℝ) (a b : Fin m) :
    (svtMatrix n mass T C).mulVec (fun st => H st.1 st.2) (a, b) = H a b -
      ∑ s, n s * (mass b / (mass a + mass b) * (T a s / T a b) * C a s * H s b +
        mass a / (mass a + mass b) * (T b s / T a b) * C s b * H a s) := by
  have c1 : ∀ a b s, coeff1 n mass T a b s = n s * (mass b / (mass a + mass b) * (T a s / T a b)) := by
    intro a b s
    unfold coeff1 mAb
    have := (hm a).ne'
    have := (add_pos (hm a) (hm b)).ne'
    by_cases h : T a b = 0
    · simp [h]
    · field_simp
  have c2 : ∀ a b s, coeff2 n mass T a b s = n s * (mass a / (mass a + mass b) * (T b s / T a b)) := by
    intro a b s
    unfold coeff2 mAb
    have := (hm b).ne'
    have := (add_pos (hm a) (hm b)).ne'
    by_cases h : T a b = 0
    · simp [h]
    · field_simp
  simp only [Matrix.mulVec, dotProduct, svtMatrix, add_mul, Finset.sum_add_distrib]
  have e1 : ∑ x : Fin m × Fin m, (if (a, b) = x then (1 : ℝ) else 0) * H x.1 x.2 = H a b := by
    simp
  have e2 : ∑ x : Fin m × Fin m, -(coeff1 n mass T a b x.1 * C a x.1) * (if b = x.2 then 1 else 0) * H x.1 x.2 =
      -∑ s, coeff1 n mass T a b s * C a s * H s b := by
    rw [Fintype.sum_prod_type, ← Finset.sum_neg_distrib]
    refine Finset.sum_congr rfl fun s _ => ?_
    simp
  have e3 : ∑ x : Fin m × Fin m, -(coeff2 n mass T a b x.2 * C.transpose b x.2) * (if a = x.1 then 1 else 0) * H x.1 x.2 =
      -∑ s, coeff2 n mass T a b s * C s b * H a s := by
    rw [Fintype.sum_prod_type, Finset.sum_comm, ← Finset.sum_neg_distrib]
    refine Finset.sum_congr rfl fun s _ => ?_
    simp
  rw [e1, e2, e3, add_assoc, ← neg_add, ← Finset.sum_add_distrib, sub_eq_add_neg]
  congr 2
  refine Finset.sum_congr rfl fun s _ => ?_
  rw [c1, c2]
  ring

theorem svt_iff {n mass : Fin m → ℝ} (hm : ∀ a, 0 < mass a) (T : Fin m → Fin m → ℝ) (C H : Matrix (Fin m) (Fin m) ℝ) :
    OrnsteinZernikeT n mass T C H ↔ (svtMatrix n mass T C).mulVec (fun st => H st.1 st.2) = fun st => C st.1 st.2 := by
  have key := svt_mulVec (n := n) hm T C H
  constructor
  · intro h
    funext ⟨a, b⟩
    rw [key, h a b]
    ring
  · intro h a b
    have := congrFun h (a, b)
    rw [key] at this
    simp only at this
    linarith

/-- C72: the step of the scheme with several temperatures solves its equation, and there is no other
solution. -/
theorem svt_solves {n mass : Fin m → ℝ} (hm : ∀ a, 0 < mass a) (T : Fin m → Fin m → ℝ) {C : Matrix (Fin m) (Fin m) ℝ}
    (hd : (svtMatrix n mass T C).det ≠ 0) (H : Matrix (Fin m) (Fin m) ℝ) :
    OrnsteinZernikeT n mass T C H ↔ H = svtOzr n mass T C := by
  have hu : IsUnit (svtMatrix n mass T C).det := isUnit_iff_ne_zero.2 hd
  rw [svt_iff hm]
  constructor
  · intro h
    ext a b
    have : (fun st : Fin m × Fin m => H st.1 st.2) = (svtMatrix n mass T C)⁻¹.mulVec (fun st => C st.1 st.2) := by
      rw [← h, Matrix.mulVec_mulVec, Matrix.nonsing_inv_mul _ hu, Matrix.one_mulVec]
    exact congrFun this (a, b)
  · rintro rfl
    have : (fun st : Fin m × Fin m => svtOzr n mass T C st.1 st.2) = (svtMatrix n mass T C)⁻¹.mulVec (fun st => C st.1 st.2) := rfl
    rw [this, Matrix.mulVec_mulVec, Matrix.mul_nonsing_inv _ hu, Matrix.one_mulVec]

/-- C72: with equal temperatures it is the Ornstein-Zernike equation, whatever the masses. -/
theorem svt_equal {n mass : Fin m → ℝ} (hm : ∀ a, 0 < mass a) {T : Fin m → Fin m → ℝ} {t : ℝ} (ht : t ≠ 0) (hT : ∀ a b, T a b = t)
    {C : Matrix (Fin m) (Fin m) ℝ} (hC : PairSymm C) (hd : (svtMatrix n mass T C).det ≠ 0)
    (hd1 : (1 - C * Matrix.diagonal n).det ≠ 0) (N : ℕ) : svtOzr n mass T C = ozr n N C := by
  symm
  rw [← svt_solves hm T hd]
  have h := (ornstein_zernike n N hC hd1 _).2 rfl
  have hs := ozr_symm n N hC
  intro a b
  have h1 := h a b
  have h2 := h b a
  have e : ∀ s, n s * (mass b / (mass a + mass b) * (T a s / T a b) * C a s * ozr n N C s b +
        mass a / (mass a + mass b) * (T b s / T a b) * C s b * ozr n N C a s) =
      mass b / (mass a + mass b) * (C a s * n s * ozr n N C s b) + mass a / (mass a + mass b) * (C b s * n s * ozr n N C s a) := by
    intro s
    rw [hT, hT, hT, div_self ht, hC s b, hs a s]
    ring
  simp only [e, Finset.sum_add_distrib, ← Finset.mul_sum]
  have e1 : ∑ s, C a s * n s * ozr n N C s b = ozr n N C a b - C a b := by linarith
  have e2 : ∑ s, C b s * n s * ozr n N C s a = ozr n N C a b - C a b := by
    rw [hs a b, hC a b]
    linarith
  rw [e1, e2]
  have := (add_pos (hm a) (hm b)).ne'
  field_simp
  ring

/-- C72: the result is symmetric. -/
theorem svt_symm {n mass : Fin m → ℝ} (hm : ∀ a, 0 < mass a) {T : Fin m → Fin m → ℝ} (hT : PairSymm T)
    {C : Matrix (Fin m) (Fin m) ℝ} (hC : PairSymm C) (hd : (svtMatrix n mass T C).det ≠ 0) :
    PairSymm (svtOzr n mass T C) := by
  have h := (svt_solves hm T hd _).2 rfl
  have h' : OrnsteinZernikeT n mass T C (svtOzr n mass T C).transpose := by
    intro a b
    rw [Matrix.transpose_apply, h b a, hC b a]
    congr 1
    refine Finset.sum_congr rfl fun s _ => ?_
    rw [Matrix.transpose_apply, Matrix.transpose_apply, hT b a, hC b s, hC s a, add_comm (mass b)]
    ring
  have e := (svt_solves hm T hd _).1 h'
  intro a b
  have := congrFun (congrFun e b) a
  rw [← this]
  rfl

/-- C72: the pair distribution function of the scheme with several temperatures is symmetric.  A singular system has no
value in the code; in the model its solution is zero. -/
theorem svtReturns_symm (h : p.DataSymm) {mass : Fin m → ℝ} (hm : ∀ a, 0 < mass a) {tmult : List ℝ}
    {g : Fin m → Fin m → ℕ → ℝ} {it : ℕ} (hr : p.SvtReturns mass tmult g it) (a b : Fin m) (j : ℕ) :
    g a b j = g b a j := by
  obtain ⟨t, total, hr, rfl, _⟩ := hr
  have hoz : ∀ mult C, PairSymm C → PairSymm (svtOzr p.n mass (fun a b => mult * p.T a b) C) := by
    intro mult C hC
    by_cases hd : (svtMatrix p.n mass (fun a b => mult * p.T a b) C).det = 0
    · have h0 : (svtMatrix p.n mass (fun a b => mult * p.T a b) C)⁻¹ = 0 :=
        Matrix.nonsing_inv_apply_not_isUnit _ (by rw [hd]; exact not_isUnit_zero)
      intro a b
      simp [svtOzr, h0]
    · exact svt_symm hm (fun a b => by rw [h.2.2 a b]) hC hd
  have ht : StateSymm t := hr.invariant (P := StateSymm) (fun mult s hs => step_symm hoz h hs mult)
    (fun s i hs => hs) (fun mult => init_symm h mult)
  simp only []
  rw [ht.1 a b]

/-- The coefficients of the equation do not depend on the unit of the temperatures. -/
theorem svt_scale {n mass : Fin m → ℝ} {T : Fin m → Fin m → ℝ} {mult : ℝ} (hm : mult ≠ 0) :
    svtOzr n mass (fun a b => mult * T a b) = svtOzr n mass T := by
  have h1 : coeff1 n mass (fun a b => mult * T a b) = coeff1 n mass T := by
    funext a b s
    unfold coeff1
    rw [show mAb mass a b * (mult * T a s) = mult * (mAb mass a b * T a s) by ring,
      show mass a * (mult * T a b) = mult * (mass a * T a b) by ring, mul_div_mul_left _ _ hm]
  have h2 : coeff2 n mass (fun a b => mult * T a b) = coeff2 n mass T := by
    funext a b s
    unfold coeff2
    rw [show mAb mass a b * (mult * T b s) = mult * (mAb mass a b * T b s) by ring,
      show mass b * (mult * T a b) = mult * (mass b * T a b) by ring, mul_div_mul_left _ _ hm]
  funext C
  unfold svtOzr svtMatrix
  rw [h1, h2]

/-- C72: every result of the scheme is positive, and it reports at most 2000 cycles.
(Partial: the number of cycles is that of the last temperature only, see `svtReturns_ideal`.) -/
theorem svtReturns_spec_partial (p : Input m) (mass : Fin m → ℝ) (tmult : List ℝ) :
    (∃ g it, p.SvtReturns mass tmult g it) ∧ ∀ g it, p.SvtReturns mass tmult g it → (∀ a b j, 0 < g a b j) ∧ it ≤ 2000 := by
  refine ⟨?_, ?_⟩
  · obtain ⟨mult, ms, hms⟩ : ∃ mult ms, tmult ++ [1] = mult :: ms := by
      cases tmult with
      | nil => exact ⟨1, [], rfl⟩
      | cons a l => exact ⟨a, l ++ [1], rfl⟩
    obtain ⟨s, hw⟩ := while_exists (p := p) (oz := fun mult => svtOzr p.n mass (fun a b => mult * p.T a b)) mult (p.init mult)
    obtain ⟨t, j, hr⟩ := rest_exists (p := p) (oz := fun mult => svtOzr p.n mass (fun a b => mult * p.T a b)) ms s s.iter
    exact ⟨_, _, t, j, by rw [hms]; exact ⟨s, hw, hr⟩, rfl, rfl⟩
  · rintro g it ⟨t, total, hr, rfl, rfl⟩
    refine ⟨fun a b j => exp_pos _, ?_⟩
    have hrest : ∀ ms s i t j, p.Rest (fun mult => svtOzr p.n mass (fun a b => mult * p.T a b)) ms s i t j → s.iter ≤ 2000 → t.iter ≤ 2000 := by
      intro ms s i t j hr
      induction hr with
      | done => exact id
      | next hw _ ih => exact fun _ => ih (hw.iter_le (Nat.zero_le _)).2
    cases htm : tmult ++ [1] with
    | nil => rw [htm] at hr; exact hr.elim
    | cons mult ms =>
      rw [htm] at hr
      obtain ⟨s, hw, hr⟩ := hr
      exact hrest _ _ _ _ _ hr (hw.iter_le (Nat.zero_le _)).2

end Input

/-- C72: the mean temperatures of pairs. -/
theorem geometricMeanT_spec {m : ℕ} {T : Fin m → ℝ} (hT : ∀ a, 0 ≤ T a) (a b : Fin m) :
    geometricMeanT T a b = geometricMeanT T b a ∧ geometricMeanT T a a = T a ∧ geometricMeanT T a b ^ 2 = T a * T b ∧
      min (T a) (T b) ≤ geometricMeanT T a b ∧ geometricMeanT T a b ≤ max (T a) (T b) := by
  unfold geometricMeanT
  refine ⟨by rw [mul_comm], sqrt_mul_self (hT a), by rw [sq_sqrt (mul_nonneg (hT b) (hT a)), mul_comm], ?_, ?_⟩
  · apply le_sqrt_of_sq_le
    rw [sq]
    exact mul_le_mul (min_le_right _ _) (min_le_left _ _) (le_min (hT a) (hT b)) (hT b)
  · rw [sqrt_le_left ((hT a).trans (le_max_left _ _)), sq]
    exact mul_le_mul (le_max_right _ _) (le_max_left _ _) (hT a) ((hT a).trans (le_max_left _ _))

theorem massWeightedT_spec {m : ℕ} {mass : Fin m → ℝ} (hm : ∀ a, 0 < mass a) (T : Fin m → ℝ) (a b : Fin m) :
    massWeightedT mass T a b = massWeightedT mass T b a ∧ massWeightedT mass T a a = T a ∧
      min (T a) (T b) ≤ massWeightedT mass T a b ∧ massWeightedT mass T a b ≤ max (T a) (T b) ∧
      |massWeightedT mass T a b - T a| = mass a / (mass a + mass b) * |T b - T a| := by
  unfold massWeightedT
  have hab := add_pos (hm a) (hm b)
  have haa := (hm a).ne'
  refine ⟨by rw [add_comm (mass a), add_comm (mass b) (mass a), add_comm (mass a * T b)], by field_simp, ?_, ?_, ?_⟩
  · rw [le_div_iff₀ hab]
    nlinarith [mul_le_mul_of_nonneg_left (min_le_right (T a) (T b)) (hm a).le,
      mul_le_mul_of_nonneg_left (min_le_left (T a) (T b)) (hm b).le]
  · rw [div_le_iff₀ hab]
    nlinarith [mul_le_mul_of_nonneg_left (le_max_right (T a) (T b)) (hm a).le,
      mul_le_mul_of_nonneg_left (le_max_left (T a) (T b)) (hm b).le]
  · have e : (mass a * T b + mass b * T a) / (mass a + mass b) - T a = mass a / (mass a + mass b) * (T b - T a) := by
      field_simp; ring
    rw [e, abs_mul, abs_of_pos (div_pos (hm a) hab)]

/-! ### The first wavenumber -/

/-- C71: the structure factor is symmetric, and it is one without correlations.
(Partial: from the second wavenumber on; the first value is replaced, see `sIiHNC_first`.) -/
theorem sIiHNC_spec_partial {m : ℕ} (N : ℕ) (k r : ℕ → ℝ) (n : Fin m → ℝ) {g : Fin m → Fin m → ℕ → ℝ} (hg : PairSymm g) (i : ℕ) :
    PairSymm (sIiHNC N k r n g i) ∧ ((∀ a b j, g a b j = 1) → sIiHNC N k r n g i = 1) := by
  have hs : ∀ i, PairSymm (sK N k r n g i) := by
    intro i a b
    show (if a = b then (1 : ℝ) else 0) + _ = (if b = a then (1 : ℝ) else 0) + _
    rw [hg a b, mul_comm (n a)]
    simp only [eq_comm]
  have h1 : (∀ a b j, g a b j = 1) → ∀ i, sK N k r n g i = 1 := by
    intro h i
    ext a b
    show (if a = b then (1 : ℝ) else 0) + _ = _
    have : (fun j => g a b j - 1) = fun _ => 0 := by funext j; rw [h, sub_self]
    rw [this, fourierSine_zero, zero_mul, add_zero, Matrix.one_apply]
  unfold sIiHNC
  split_ifs
  · exact ⟨hs 1, fun h => h1 h 1⟩
  · exact ⟨hs i, fun h => h1 h i⟩

/-- C71: at the first wavenumber, the value of the second one is returned: the result is not the transform
of the pair distribution function there. -/
theorem sIiHNC_first : ∃ g : Fin 1 → Fin 1 → ℕ → ℝ,
    sIiHNC 2 (kGrid 2 (rGrid 2 1 2)) (rGrid 2 1 2) (fun _ => 1) g 0 ≠ sK 2 (kGrid 2 (rGrid 2 1 2)) (rGrid 2 1 2) (fun _ => 1) g 0 := by
  set r := rGrid 2 1 2 with hr
  set k := kGrid 2 r with hk
  have h0 : r 0 = 1 := by rw [hr]; unfold rGrid; norm_num
  have h1 : r 1 = 2 := by rw [hr]; unfold rGrid; norm_num
  have hkp : ∀ n, 0 < k n := fun n => kGrid_pos (by rw [h1]; norm_num) (by rw [h0, h1]; norm_num) n
  refine ⟨fun _ _ j => 1 + fourierSine 2 r k (fun i => i) j / (2 * π) ^ 3, fun h => ?_⟩
  have key : ∀ n < 2, fourierSine 2 k r (fun j => 1 + fourierSine 2 r k (fun i => (i : ℝ)) j / (2 * π) ^ 3 - 1) n = n := by
    intro n hn
    simp only [add_sub_cancel_left]
    exact fourierSine_inverse' (M := 1) one_pos k r (fun i => (i : ℝ))
      (fun j hj => by interval_cases j <;> simp [h0, h1]) (fun n _ => (hkp n).ne')
      (by rw [h0, h1]; norm_num) (kGrid_step 2 r) hn
  have := congrFun (congrFun h 0) 0
  unfold sIiHNC at this
  rw [if_pos rfl] at this
  unfold sK at this
  rw [key 0 (by norm_num), key 1 (by norm_num)] at this
  norm_num at this

/-! ### Examples -/

/-- A problem with a solution which is not trivial: for every grid there are a density and a potential for
which a pair distribution function that differs from one solves the equations. -/
theorem exists_solution : ∃ (p : Input 1) (s : State 1), p.GridOk 1 ∧ p.mix ≠ 1 ∧ p.DataSymm ∧ Input.StateSymm s ∧
    (∀ a b, ∀ j < p.N, s.logG a b j = s.Ns a b j - p.vs 1 a b j) ∧
    (∀ i < p.N, (1 - p.cK 1 s i * Matrix.diagonal p.n).det ≠ 0) ∧
    (∀ a b, ∀ j < p.N, (p.step (fun _ => ozr p.n p.maxSize) 1 s).Ns a b j = s.Ns a b j) ∧ p.n 0 ≠ 0 ∧ s.logG 0 0 0 ≠ 0 := by
  set r := rGrid 2 1 2 with hr
  set k := kGrid 2 r with hk
  have h0 : r 0 = 1 := by rw [hr]; unfold rGrid; norm_num
  have h1 : r 1 = 2 := by rw [hr]; unfold rGrid; norm_num
  have hkp : ∀ n, 0 < k n := fun n => kGrid_pos (by rw [h1]; norm_num) (by rw [h0, h1]; norm_num) n
  have hrne : ∀ j < 2 * 1, r j ≠ 0 := fun j hj => by interval_cases j <;> simp [h0, h1]
  have hdr : r 1 - r 0 ≠ 0 := by rw [h0, h1]; norm_num
  set H : ℕ → ℝ := fourierSine 2 k r (fun _ => 1) with hH
  obtain ⟨n, hn, hnH⟩ : ∃ n : ℝ, 0 < n ∧ ∀ i < 2, 1 + n * H i ≠ 0 := by
    refine ⟨1 / (1 + |H 0| + |H 1|), by positivity, fun i hi => ?_⟩
    have hden : 0 < 1 + |H 0| + |H 1| := by positivity
    have : 0 < 1 + 1 / (1 + |H 0| + |H 1|) * H i := by
      rw [one_div_mul_eq_div, ← neg_lt_iff_pos_add', lt_div_iff₀ hden]
      interval_cases i
      · linarith [neg_abs_le (H 0), abs_nonneg (H 1)]
      · linarith [neg_abs_le (H 1), abs_nonneg (H 0)]
    exact this.ne'
  set c : ℕ → ℝ := fun j => fourierSine 2 r k (fun i => H i / (1 + n * H i)) j / (2 * π) ^ 3 with hc
  set p : Input 1 := ⟨2, r, fun _ _ j => 1 - c j - log 2, fun _ _ _ => 0, fun _ _ => 1, fun _ => n, 0, 4, 1⟩ with hp
  set s : State 1 := ⟨fun _ _ _ => log 2, fun _ _ j => 1 - c j, fun _ _ _ => 0, 0⟩ with hs
  have hg : p.GridOk 1 := ⟨one_pos, rfl, hrne, fun i _ => (hkp i).ne', hdr⟩
  have hd : p.DataSymm := ⟨fun _ _ => rfl, fun _ _ => rfl, fun _ _ => rfl⟩
  have hss : Input.StateSymm s := ⟨fun _ _ => rfl, fun _ _ => rfl, fun _ _ => rfl⟩
  have hlog : ∀ a b, ∀ j < p.N, s.logG a b j = s.Ns a b j - p.vs 1 a b j := by
    intro a b j _
    show log 2 = 1 - c j - 1 / (1 * 1 * 1) * (1 - c j - log 2)
    ring
  have hck : ∀ i < 2, ∀ a b, p.cK 1 s i a b = H i / (1 + n * H i) := by
    intro i hi a b
    show fourierSine 2 k r (fun j => (exp (log 2) - 1) - (1 - c j)) i - 1 / (1 * 1 * 1) * 0 = _
    rw [exp_log two_pos]
    have e : (fun j => ((2 : ℝ) - 1) - (1 - c j)) = c := by funext j; ring
    rw [e, mul_zero, sub_zero, hc]
    exact fourierSine_inverse' (M := 1) one_pos k r _ hrne (fun n _ => (hkp n).ne') hdr (kGrid_step 2 r) hi
  have hdet : ∀ i < p.N, (1 - p.cK 1 s i * Matrix.diagonal p.n).det ≠ 0 := by
    intro i hi
    rw [Matrix.det_fin_one, Matrix.sub_apply, Matrix.mul_diagonal, hck i hi]
    show (1 : Matrix (Fin 1) (Fin 1) ℝ) 0 0 - H i / (1 + n * H i) * n ≠ 0
    rw [Matrix.one_apply_eq]
    have := hnH i hi
    have e : 1 - H i / (1 + n * H i) * n = 1 / (1 + n * H i) := by
      rw [eq_div_iff this, sub_mul, div_mul_eq_mul_div, div_mul_cancel₀ _ this]; ring
    rw [e]
    exact one_div_ne_zero this
  refine ⟨p, s, hg, by show (0 : ℝ) ≠ 1; norm_num, hd, hss, hlog, hdet, ?_, hn.ne', (log_pos (by norm_num)).ne'⟩
  rw [Input.fixed_iff hg (by show (0 : ℝ) ≠ 1; norm_num) hd hss hlog hdet]
  refine ⟨fun a b j hj => ?_, fun i hi a b => ?_⟩
  · congr 1
    rw [hlog a b j hj]
    ring
  · have e := hck i hi a b
    show fourierSine 2 k r (fun j => exp (log 2) - 1) i = p.cK 1 s i a b + ∑ t, p.cK 1 s i a t * n * fourierSine 2 k r (fun j => exp (log 2) - 1) i
    have e2 : fourierSine 2 k r (fun j => exp (log 2) - 1) i = H i := by
      rw [exp_log two_pos, show (2 : ℝ) - 1 = 1 by norm_num]
    rw [e2]
    simp only [hck i hi, Finset.univ_unique, Finset.sum_singleton]
    rw [div_mul_eq_mul_div, div_mul_eq_mul_div, ← add_div, eq_div_iff (hnH i hi)]
    ring

/-- Two species with different masses and the same temperature, at one wavenumber. -/
example : (svtMatrix (fun _ : Fin 2 => (1 : ℝ)) ![1, 2] (fun _ _ => 1) (Matrix.diagonal ![1 / 2, 1 / 4])).det ≠ 0 := by
  have e : svtMatrix (fun _ : Fin 2 => (1 : ℝ)) ![1, 2] (fun _ _ => 1) (Matrix.diagonal ![1 / 2, 1 / 4]) =
      Matrix.diagonal fun ab => (if ab.1 = 0 then (if ab.2 = 0 then 1 / 2 else 7 / 12) else (if ab.2 = 0 then 7 / 12 else 3 / 4) : ℝ) := by
    ext ⟨a, b⟩ ⟨s, t⟩
    fin_cases a <;> fin_cases b <;> fin_cases s <;> fin_cases t <;>
      simp [svtMatrix, coeff1, coeff2, mAb] <;> norm_num
  rw [e, Matrix.det_diagonal]
  refine Finset.prod_ne_zero_iff.2 fun ab _ => ?_
  split_ifs <;> norm_num

end Verif.Hnc
