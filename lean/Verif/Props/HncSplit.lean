/-
Property C76: how the number of cycles of the hypernetted chain scheme depends on the list of the species.
-/
import Verif.Props.HncSpecies

set_option autoImplicit false

namespace Verif.Hnc

open Real

namespace Input

variable {m m' : ℕ} {p : Input m}

/-- A change counts once for each pair of groups. -/
theorem err_split {f : Fin m' → Fin m} (hf : Function.Surjective f) (n' : Fin m' → ℝ) (N' : ℕ) (s : State m) :
    p.err s ≤ (p.split f n' N').err (splitState f s) := by
  have key : ∀ F : Fin m → ℝ, (∀ a, 0 ≤ F a) → ∑ a, F a ≤ ∑ a, F (f a) := by
    intro F hF
    obtain ⟨g, hg⟩ := hf.hasRightInverse
    have hi : Function.Injective g := hg.injective
    calc ∑ a, F a = ∑ a, F (f (g a)) := Finset.sum_congr rfl fun a _ => by rw [hg a]
      _ = ∑ b ∈ Finset.univ.map ⟨g, hi⟩, F (f b) := by rw [Finset.sum_map]; rfl
      _ ≤ ∑ b, F (f b) := Finset.sum_le_sum_of_subset_of_nonneg (Finset.subset_univ _) fun b _ _ => hF _
  have h0 : ∀ a b, 0 ≤ ∑ j ∈ Finset.range p.N, (s.Ns a b j - s.NsOld a b j) ^ 2 :=
    fun a b => Finset.sum_nonneg fun j _ => sq_nonneg _
  unfold err
  refine (key (fun a => ∑ b, ∑ j ∈ Finset.range p.N, (s.Ns a b j - s.NsOld a b j) ^ 2)
    fun a => Finset.sum_nonneg fun b _ => h0 a b).trans ?_
  exact Finset.sum_le_sum fun a _ => key (fun b => ∑ j ∈ Finset.range p.N, (s.Ns (f a) b j - s.NsOld (f a) b j) ^ 2)
    fun b => h0 _ b

/-- C76: if a species is listed as several groups, at least as many cycles are made as without, and these are the
cycles of the problem without groups.  (Only for a calculation at one temperature.) -/
theorem cycles_split_partial {f : Fin m' → Fin m} (hf : Function.Surjective f) {n' : Fin m' → ℝ} {N' : ℕ}
    (hn : ∀ t, p.n t = ∑ s with f s = t, n' s) (hd : p.DataSymm) {g : Fin m → Fin m → ℕ → ℝ} {g' : Fin m' → Fin m' → ℕ → ℝ}
    {it it' : ℕ} (h : p.Returns [] g it) (h' : (p.split f n' N').Returns [] g' it') :
    it ≤ it' ∧
      (g = fun a b j => exp (((p.step (fun _ => ozr p.n p.maxSize) 1)^[it] (p.init 1)).logG a b j)) ∧
      g' = fun a b j => exp (((p.step (fun _ => ozr p.n p.maxSize) 1)^[it'] (p.init 1)).logG (f a) (f b) j) := by
  set st := p.step (fun _ => ozr p.n p.maxSize) 1 with hst
  set p' := p.split f n' N' with hp'
  have iters : ∀ {m₀ : ℕ} (q : Input m₀) (oz : ℝ → Matrix (Fin m₀) (Fin m₀) ℝ → Matrix (Fin m₀) (Fin m₀) ℝ) (s t : State m₀),
      q.While oz 1 s t → ∃ d, t = (q.step oz 1)^[d] s ∧ t.iter = s.iter + d := by
    intro m₀ q oz s t h
    induction h with
    | stop _ => exact ⟨0, rfl, rfl⟩
    | @step s t _ _ ih =>
      obtain ⟨d, h1, h2⟩ := ih
      refine ⟨d + 1, h1, ?_⟩
      rw [h2]
      show s.iter + 1 + d = _
      omega
  have hsplit : ∀ d s, StateSymm s → StateSymm (st^[d] s) ∧ (p'.step (fun _ => ozr n' N') 1)^[d] (splitState f s) = splitState f (st^[d] s) := by
    intro d
    induction d with
    | zero => intro s hs; exact ⟨hs, rfl⟩
    | succ d ih =>
      intro s hs
      obtain ⟨h1, h2⟩ := ih (st s) (step_symm (fun _ _ hC => ozr_symm _ _ hC) hd hs 1)
      refine ⟨h1, ?_⟩
      rw [Function.iterate_succ_apply, Function.iterate_succ_apply, ← h2, hst, step_split N' hn hd hs 1]
  have hcond : ∀ s, p.cond s = true → p'.cond (splitState f s) = true := by
    intro s hs
    obtain ⟨h1, h2⟩ := (cond_iff s).1 hs
    exact (cond_iff _).2 ⟨h1, lt_of_lt_of_le h2 (err_split hf n' N' s)⟩
  have hle : ∀ s t, p.While (fun _ => ozr p.n p.maxSize) 1 s t → StateSymm s → s.iter ≤ 2000 → ∀ t',
      p'.While (fun _ => ozr n' N') 1 (splitState f s) t' → t.iter ≤ t'.iter := by
    intro s t h
    induction h with
    | @stop s _ =>
      intro _ hi t' ht'
      exact (ht'.iter_le hi).1
    | @step s t hc hw ih =>
      intro hs hi t' ht'
      have := ((cond_iff s).1 hc).1
      cases ht' with
      | stop hc' => rw [hcond s hc] at hc'; cases hc'
      | step _ h2 =>
        rw [← step_split N' hn hd hs 1] at h2
        exact ih (step_symm (fun _ _ hC => ozr_symm _ _ hC) hd hs 1) (by show s.iter + 1 ≤ 2000; omega) t' h2
  obtain ⟨t, ⟨s, hw, hr⟩, rfl⟩ := h
  obtain ⟨t', ⟨s', hw', hr'⟩, rfl⟩ := h'
  cases hr
  cases hr'
  have hi : p'.init 1 = splitState f (p.init 1) := rfl
  obtain ⟨d, h1, h2⟩ := iters p _ _ _ hw
  obtain ⟨d', h1', h2'⟩ := iters p' _ _ _ hw'
  have e : t.iter = d := by rw [h2]; exact Nat.zero_add d
  have e' : t'.iter = d' := by rw [h2']; exact Nat.zero_add d'
  refine ⟨hle _ _ hw (init_symm hd 1) (Nat.zero_le _) _ hw', ?_, ?_⟩
  · rw [e, ← h1]
  · rw [e', h1', hi]
    have := (hsplit d' (p.init 1) (init_symm hd 1)).2
    funext a b j
    show exp (((p'.step (fun _ => ozr n' N') 1)^[d'] (splitState f (p.init 1))).logG a b j) = _
    rw [this]
    rfl

/-- C76: the number of cycles does depend on the list.  For every problem with one species whose first cycle changes
anything there is a mixing with which one cycle is made, but two or more if the species is listed as several groups. -/
theorem cycles_differ (p : Input 1) (hN : 0 < p.N) (hd : p.DataSymm)
    (hS : 0 < ∑ j ∈ Finset.range p.N, p.full (fun _ => ozr p.n p.maxSize) 1 (p.init 1) 0 0 j ^ 2) {n' : Fin m' → ℝ} (N' : ℕ)
    (hm : 2 ≤ m') (hn : p.n 0 = ∑ s, n' s) :
    ∃ mix < 1, (∃ g, (p.withMix mix).Returns [] g 1) ∧
      ∀ g' it', ((p.withMix mix).split (fun _ : Fin m' => 0) n' N').Returns [] g' it' → 2 ≤ it' := by
  set F := p.full (fun _ => ozr p.n p.maxSize) 1 (p.init 1) with hF
  set S := ∑ j ∈ Finset.range p.N, F 0 0 j ^ 2 with hSd
  set c := 1 / (1000 * sqrt S) with hc
  have hs := sqrt_pos.2 hS
  have hc0 : 0 < c := by positivity
  have hcS : c ^ 2 * S = 1 / 1000000 := by
    rw [hc, div_pow, mul_pow, sq_sqrt hS.le]
    field_simp
    norm_num
  set q := p.withMix (1 - c) with hq
  have hNs : ∀ a b j, (q.step (fun _ => ozr q.n q.maxSize) 1 (q.init 1)).Ns a b j = c * F a b j := by
    intro a b j
    rw [step_Ns]
    show (1 - (1 - c)) * F a b j + (1 - c) * 0 = _
    ring
  have herr : q.err (q.step (fun _ => ozr q.n q.maxSize) 1 (q.init 1)) = 1 / 1000000 := by
    unfold err
    rw [Fin.sum_univ_one, Fin.sum_univ_one, ← hcS, hSd, Finset.mul_sum]
    refine Finset.sum_congr rfl fun j _ => ?_
    rw [hNs]
    show (c * F 0 0 j - 0) ^ 2 = _
    ring
  have h0 : q.cond (q.init 1) = true := by
    refine (cond_iff _).2 ⟨by show 0 < 2000; norm_num, ?_⟩
    unfold err
    rw [Fin.sum_univ_one, Fin.sum_univ_one]
    show _ < ∑ j ∈ Finset.range p.N, ((0 : ℝ) - -1) ^ 2
    simp only [sub_neg_eq_add, zero_add, one_pow, Finset.sum_const, Finset.card_range, nsmul_eq_mul, mul_one]
    have : (1 : ℝ) ≤ p.N := by exact_mod_cast hN
    linarith
  have hstop : q.cond (q.step (fun _ => ozr q.n q.maxSize) 1 (q.init 1)) = false := by
    rw [← Bool.not_eq_true, cond_iff]
    rintro ⟨-, h⟩
    rw [herr] at h
    exact lt_irrefl _ h
  refine ⟨1 - c, by linarith, ⟨_, ⟨_, ⟨_, .step h0 (.stop hstop), .done⟩, rfl⟩⟩, ?_⟩
  intro g' it' h'
  obtain ⟨t', ⟨s', hw', hr'⟩, rfl⟩ := h'
  cases hr'
  set q' := q.split (fun _ : Fin m' => (0 : Fin 1)) n' N' with hq'
  have hsymm : StateSymm (q.init 1) := init_symm (p := q) hd 1
  have hsurj : Function.Surjective (fun _ : Fin m' => (0 : Fin 1)) := fun b => ⟨⟨0, by omega⟩, (Subsingleton.elim _ _)⟩
  have hstep : q'.step (fun _ => ozr n' N') 1 (q'.init 1) =
      splitState (fun _ => 0) (q.step (fun _ => ozr q.n q.maxSize) 1 (q.init 1)) := by
    refine (step_split (p := q) N' (fun t => ?_) hd hsymm 1).symm
    rw [Subsingleton.elim t 0]
    have : p.n 0 = ∑ s, n' s := hn
    simp only [Finset.filter_true]
    exact this
  have h0' : q'.cond (q'.init 1) = true := by
    obtain ⟨h1, h2⟩ := (cond_iff (p := q) _).1 h0
    exact (cond_iff _).2 ⟨h1, lt_of_lt_of_le h2 (err_split hsurj n' N' _)⟩
  have herr' : q'.err (q'.step (fun _ => ozr n' N') 1 (q'.init 1)) = (m' : ℝ) ^ 2 * (1 / 1000000) := by
    rw [hstep, ← herr]
    unfold err
    rw [Fin.sum_univ_one, Fin.sum_univ_one]
    show ∑ a : Fin m', ∑ b : Fin m', _ = _
    simp only [splitState, Finset.sum_const, Finset.card_univ, Fintype.card_fin, nsmul_eq_mul]
    rw [← mul_assoc, ← sq]
    rfl
  have h1' : q'.cond (q'.step (fun _ => ozr n' N') 1 (q'.init 1)) = true := by
    refine (cond_iff _).2 ⟨by show 0 + 1 < 2000; norm_num, ?_⟩
    rw [herr']
    have : (2 : ℝ) ≤ m' := by exact_mod_cast hm
    nlinarith
  cases hw' with
  | stop hc => rw [h0'] at hc; cases hc
  | step _ hw =>
    cases hw with
    | stop hc => have h2 := h1'.symm.trans hc; cases h2
    | step _ hw =>
      have := (hw.iter_le (by show 0 + 1 + 1 ≤ 2000; norm_num)).1
      exact this

end Input

/-! ### Examples -/

/-- One species in two equal groups, with a constant direct correlation function. -/
example : ∃ p : Input 1, 0 < p.N ∧ p.DataSymm ∧
    0 < ∑ j ∈ Finset.range p.N, p.full (fun _ => ozr p.n p.maxSize) 1 (p.init 1) 0 0 j ^ 2 ∧
    (p.n 0 = ∑ s, (fun _ : Fin 2 => (1 / 2 : ℝ)) s) ∧ Function.Surjective (fun _ : Fin 2 => (0 : Fin 1)) := by
  set r := rGrid 2 1 2 with hr
  set k := kGrid 2 r with hk
  have h0 : r 0 = 1 := by rw [hr]; unfold rGrid; norm_num
  have h1 : r 1 = 2 := by rw [hr]; unfold rGrid; norm_num
  have hkp : ∀ n, 0 < k n := fun n => kGrid_pos (by rw [h1]; norm_num) (by rw [h0, h1]; norm_num) n
  have hrne : ∀ j < 2 * 1, r j ≠ 0 := fun j hj => by interval_cases j <;> simp [h0, h1]
  have hdr : r 1 - r 0 ≠ 0 := by rw [h0, h1]; norm_num
  set p : Input 1 := ⟨2, r, fun _ _ _ => 0, fun _ _ _ => -(1 / 2), fun _ _ => 1, fun _ => 1, 0, 4, 1⟩ with hp
  have hcs : ∀ i < 2, p.csK (p.init 1) 0 0 i = 0 := by
    intro i hi
    show fourierSine 2 k r (fun j => (exp (-(1 / (1 * 1 * 1) * 0)) - 1) - 0) i = 0
    simpa using fourierSine_zero 2 k r i
  have hoz : ∀ i < 2, ozr p.n p.maxSize (p.cK 1 (p.init 1) i) 0 0 - p.csK (p.init 1) 0 0 i = 1 := by
    intro i hi
    have hc : p.cK 1 (p.init 1) i = !![1 / 2] := by
      ext a b
      rw [Subsingleton.elim a 0, Subsingleton.elim b 0]
      show p.csK (p.init 1) 0 0 i - 1 / (1 * 1 * 1) * -(1 / 2) = _
      rw [hcs i hi]
      norm_num
    rw [hcs i hi, hc, sub_zero, ozr_eq _ _ (fun a b => by rw [Subsingleton.elim a b])]
    have e : (1 - !![1 / 2] * Matrix.diagonal p.n : Matrix (Fin 1) (Fin 1) ℝ) = !![1 / 2] := by
      ext a b
      rw [Subsingleton.elim a 0, Subsingleton.elim b 0, Matrix.sub_apply, Matrix.mul_diagonal]
      show (1 : Matrix (Fin 1) (Fin 1) ℝ) 0 0 - 1 / 2 * 1 = 1 / 2
      rw [Matrix.one_apply_eq]
      norm_num
    rw [e, Matrix.nonsing_inv_mul _ (by rw [Matrix.det_fin_one]; show IsUnit (1 / 2 : ℝ); exact (by norm_num : (1 / 2 : ℝ) ≠ 0).isUnit)]
    rfl
  refine ⟨p, by norm_num [hp], ⟨fun _ _ => rfl, fun _ _ => rfl, fun _ _ => rfl⟩, ?_, ?_, fun b => ⟨0, Subsingleton.elim _ _⟩⟩
  · refine lt_of_le_of_ne (Finset.sum_nonneg fun j _ => sq_nonneg _) fun h => ?_
    have hall := (Finset.sum_eq_zero_iff_of_nonneg fun j _ => sq_nonneg _).1 h.symm
    have := fourierSine_inverse' (M := 1) one_pos k r
      (fun i => ozr p.n p.maxSize (p.cK 1 (p.init 1) i) 0 0 - p.csK (p.init 1) 0 0 i) hrne (fun n _ => (hkp n).ne') hdr
      (kGrid_step 2 r) (n := 0) (by norm_num)
    rw [hoz 0 (by norm_num)] at this
    have e := fourierSine_congr (M := 1) one_pos (k := k) (r := r) (f := fun j => fourierSine (2 * 1) r k
      (fun i => ozr p.n p.maxSize (p.cK 1 (p.init 1) i) 0 0 - p.csK (p.init 1) 0 0 i) j / (2 * π) ^ 3) (f' := fun _ => 0)
      (fun j hj => pow_eq_zero_iff two_ne_zero |>.1 (hall j (Finset.mem_range.2 hj))) (n := 0) (by norm_num)
    rw [e, fourierSine_zero] at this
    exact zero_ne_one this
  · show (1 : ℝ) = _
    norm_num

end Verif.Hnc
