/-
Properties C37, C70 and C71: what the hypernetted chain scheme converges to, and its limits.
-/
import Verif.Props.Hnc
import Mathlib.Analysis.SpecialFunctions.Log.Basic
import Mathlib.Algebra.Order.Archimedean.Real.Basic
import Mathlib.Tactic.NormNum

set_option autoImplicit false

namespace Verif.Hnc

open Real

/-! ### Specification -/

/-- The equations of the hypernetted chain approximation on a grid.  `g` is the pair distribution function,
`c` the part of short range of the direct correlation function, `vs` and `vl` are the parts of the
potential of short and long range divided by the temperature, `vl` and `F` in the space of wavenumbers. -/
structure HncEquations {m : ℕ} (N : ℕ) (F : (ℕ → ℝ) → ℕ → ℝ) (n : Fin m → ℝ) (vs vl : Fin m → Fin m → ℕ → ℝ)
    (g c : Fin m → Fin m → ℕ → ℝ) : Prop where
  /-- The closure of the hypernetted chain. -/
  closure : ∀ a b, ∀ j < N, g a b j = exp (-vs a b j + (g a b j - 1) - c a b j)
  /-- The Ornstein-Zernike equation. -/
  oz : ∀ i < N, OrnsteinZernike n (fun a b => F (c a b) i - vl a b i) (fun a b => F (fun j => g a b j - 1) i)

/-! ### The transform -/

theorem fourierSine_congr {M : ℕ} (hM : 0 < M) {k r f f' : ℕ → ℝ} (h : ∀ j < 2 * M, f j = f' j) {n : ℕ} (hn : n < 2 * M) :
    fourierSine (2 * M) k r f n = fourierSine (2 * M) k r f' n := by
  rw [fourierSine_eq hM _ _ _ hn, fourierSine_eq hM _ _ _ hn, sineSum_congr (fun j hj => by rw [h j hj])]

theorem fourierSine_sub {M : ℕ} (hM : 0 < M) (k r f f' : ℕ → ℝ) {n : ℕ} (hn : n < 2 * M) :
    fourierSine (2 * M) k r (fun j => f j - f' j) n = fourierSine (2 * M) k r f n - fourierSine (2 * M) k r f' n := by
  rw [fourierSine_eq hM _ _ _ hn, fourierSine_eq hM _ _ _ hn, fourierSine_eq hM _ _ _ hn, ← mul_sub]
  congr 1
  have : sineSum (2 * M) (fun j => r j * (f j - f' j)) n =
      sineSum (2 * M) (fun j => r j * f j + -1 * (r j * f' j)) n := sineSum_congr (fun j _ => by ring) n
  rw [this, sineSum_add, sineSum_smul]
  ring

theorem fourierSine_zero (N : ℕ) (k r : ℕ → ℝ) (n : ℕ) : fourierSine N k r (fun _ => 0) n = 0 := by
  unfold fourierSine dst4 fft
  simp

theorem ozr_zero {m : ℕ} (n : Fin m → ℝ) (N : ℕ) : ozr n N 0 = 0 := by
  rw [ozr_eq n N (fun _ _ => rfl), mul_zero]

namespace Input

variable {m : ℕ} {p : Input m} {oz : ℝ → Matrix (Fin m) (Fin m) ℝ → Matrix (Fin m) (Fin m) ℝ}

/-- The grid of distances is usable: an even number of points, none of them zero, not all the same. -/
structure GridOk (p : Input m) (M : ℕ) : Prop where
  pos : 0 < M
  even : p.N = 2 * M
  r : ∀ j < p.N, p.r j ≠ 0
  k : ∀ i < p.N, p.k i ≠ 0
  dr : p.r 1 - p.r 0 ≠ 0

/-- The new value of the nodal function, before it is mixed with the old one. -/
noncomputable def full (p : Input m) (oz : ℝ → Matrix (Fin m) (Fin m) ℝ → Matrix (Fin m) (Fin m) ℝ) (mult : ℝ) (s : State m)
    (a b : Fin m) (j : ℕ) : ℝ :=
  fourierSine p.N p.r p.k (fun i => oz mult (p.cK mult s i) a b - p.csK s a b i) j / (2 * π) ^ 3

theorem step_Ns (mult : ℝ) (s : State m) (a b : Fin m) (j : ℕ) :
    (p.step oz mult s).Ns a b j = (1 - p.mix) * p.full oz mult s a b j + p.mix * s.Ns a b j := rfl

/-- The cycle without mixing keeps the nodal function if and only if the relation between the direct and the total
correlation functions holds for it. -/
theorem full_iff {M : ℕ} (hg : p.GridOk M) (mult : ℝ) (s : State m) :
    (∀ a b, ∀ j < p.N, p.full oz mult s a b j = s.Ns a b j) ↔
      ∀ a b, ∀ i < p.N, oz mult (p.cK mult s i) a b = fourierSine p.N p.k p.r (fun j => exp (s.logG a b j) - 1) i := by
  obtain ⟨hM, hN, hr, hk, hdr⟩ := hg
  have hstep := kGrid_step p.N p.r
  have hcs : ∀ a b, ∀ i < p.N, p.csK s a b i =
      fourierSine p.N p.k p.r (fun j => exp (s.logG a b j) - 1) i - fourierSine p.N p.k p.r (s.Ns a b) i := by
    intro a b i hi
    unfold csK
    rw [hN] at hi ⊢
    exact fourierSine_sub hM _ _ _ _ hi
  refine forall_congr' fun a => forall_congr' fun b => ?_
  constructor
  · intro h i hi
    have e := hcs a b i hi
    have := fourierSine_inverse' hM p.k p.r (fun i => oz mult (p.cK mult s i) a b - p.csK s a b i)
      (by rw [← hN]; exact hr) (by rw [← hN]; exact hk) hdr (by rw [← hN]; exact hstep) (n := i) (by rw [← hN]; exact hi)
    have h3 : fourierSine (2 * M) p.k p.r (fun j => fourierSine (2 * M) p.r p.k
          (fun i => oz mult (p.cK mult s i) a b - p.csK s a b i) j / (2 * π) ^ 3) i =
        fourierSine (2 * M) p.k p.r (s.Ns a b) i := by
      refine fourierSine_congr hM (fun j hj => ?_) (by rw [← hN]; exact hi)
      have := h j (by rw [hN]; exact hj)
      unfold full at this
      rw [hN] at this
      exact this
    rw [h3] at this
    rw [← hN] at this
    linarith
  · intro h j hj
    unfold full
    have h3 : fourierSine p.N p.r p.k (fun i => oz mult (p.cK mult s i) a b - p.csK s a b i) j =
        fourierSine p.N p.r p.k (fourierSine p.N p.k p.r (s.Ns a b)) j := by
      have hj' := hj
      rw [hN] at hj' ⊢
      refine fourierSine_congr hM (fun i hi => ?_) hj'
      rw [← hN] at hi ⊢
      rw [h i hi, hcs a b i hi]
      ring
    rw [h3]
    have hj' := hj
    rw [hN] at hj' ⊢
    exact fourierSine_inverse hM p.k p.r (s.Ns a b) (by rw [← hN]; exact hr) (by rw [← hN]; exact hk) hdr
      (by rw [← hN]; exact hstep) hj'

/-- C37: a state is left unchanged by the cycle if and only if it solves the equations of the hypernetted
chain approximation. -/
theorem fixed_iff {M : ℕ} (hg : p.GridOk M) (hmix : p.mix ≠ 1) (hd : p.DataSymm) {mult : ℝ} {s : State m} (hs : StateSymm s)
    (hlog : ∀ a b, ∀ j < p.N, s.logG a b j = s.Ns a b j - p.vs mult a b j)
    (hdet : ∀ i < p.N, (1 - p.cK mult s i * Matrix.diagonal p.n).det ≠ 0) :
    (∀ a b, ∀ j < p.N, (p.step (fun _ => ozr p.n p.maxSize) mult s).Ns a b j = s.Ns a b j) ↔
      HncEquations p.N (fourierSine p.N p.k p.r) p.n (p.vs mult) (p.vlk mult) (fun a b j => exp (s.logG a b j))
        (fun a b j => exp (s.logG a b j) - 1 - s.Ns a b j) := by
  have h1 : (∀ a b, ∀ j < p.N, (p.step (fun _ => ozr p.n p.maxSize) mult s).Ns a b j = s.Ns a b j) ↔
      ∀ a b, ∀ j < p.N, p.full (fun _ => ozr p.n p.maxSize) mult s a b j = s.Ns a b j := by
    refine forall_congr' fun a => forall_congr' fun b => forall_congr' fun j => forall_congr' fun hj => ?_
    rw [step_Ns]
    have hm : (1 - p.mix) ≠ 0 := sub_ne_zero.2 hmix.symm
    constructor
    · intro h
      apply mul_left_cancel₀ hm
      linarith
    · intro h
      rw [h]
      ring
  have h2 := full_iff (oz := fun _ => ozr p.n p.maxSize) hg mult s
  rw [h1, h2]
  constructor
  · intro h
    refine ⟨fun a b j hj => ?_, fun i hi => ?_⟩
    · congr 1
      rw [hlog a b j hj]
      ring
    · refine (ornstein_zernike p.n p.maxSize (cK_symm hd hs mult i) (hdet i hi) _).2 ?_
      funext a b
      exact (h a b i hi).symm
  · intro h a b i hi
    have := (ornstein_zernike p.n p.maxSize (cK_symm hd hs mult i) (hdet i hi) _).1 (h.oz i hi)
    exact (congrFun (congrFun this a) b).symm

/-- C71: at a solution, the structure factor is the inverse of one minus the direct correlation function. -/
theorem structureFactor {N : ℕ} {k r : ℕ → ℝ} {n : Fin m → ℝ} (hn : ∀ a, 0 ≤ n a) {vs vl g c : Fin m → Fin m → ℕ → ℝ}
    (h : HncEquations N (fourierSine N k r) n vs vl g c) {i : ℕ} (hi : i < N) :
    (1 - Matrix.of fun a b => sqrt (n a) * (fourierSine N k r (c a b) i - vl a b i) * sqrt (n b)) * sK N k r n g i = 1 := by
  set C : Matrix (Fin m) (Fin m) ℝ := fun a b => fourierSine N k r (c a b) i - vl a b i with hC
  set H : Matrix (Fin m) (Fin m) ℝ := fun a b => fourierSine N k r (fun j => g a b j - 1) i with hH
  set R : Matrix (Fin m) (Fin m) ℝ := Matrix.diagonal fun a => sqrt (n a) with hR
  have e1 : (Matrix.of fun a b => sqrt (n a) * (fourierSine N k r (c a b) i - vl a b i) * sqrt (n b)) = R * C * R := by
    ext a b
    rw [hR, Matrix.mul_diagonal, Matrix.diagonal_mul]
    rfl
  have e2 : sK N k r n g i = 1 + R * H * R := by
    ext a b
    rw [Matrix.add_apply, hR, Matrix.mul_diagonal, Matrix.diagonal_mul, Matrix.one_apply]
    show _ + _ * sqrt (n a * n b) = _
    rw [sqrt_mul (hn a)]
    show _ + H a b * _ = _
    ring
  have e3 : R * R = Matrix.diagonal n := by
    rw [hR, Matrix.diagonal_mul_diagonal]
    congr 1
    funext a
    exact mul_self_sqrt (hn a)
  have e4 : (1 - C * Matrix.diagonal n) * H = C := (oz_iff n C H).1 (h.oz i hi)
  rw [e1, e2]
  have e5 : (1 - R * C * R) * (1 + R * H * R) = 1 + R * (H - C * (R * R) * H - C) * R := by
    noncomm_ring
  rw [e5, e3]
  have e6 : H - C * Matrix.diagonal n * H - C = 0 := by
    rw [← one_sub_mul, e4, sub_self]
  rw [e6]
  simp

/-! ### The convergence test -/

/-- If the loop has made a step and has stopped before the limit, then the last step has changed the nodal
function only a little; the change contains the factor `1 - mix`.  (Partial: the residual is not bounded by the tolerance
alone, see `mixing_stops`.) -/
theorem While.residual_partial {mult : ℝ} {s t : State m} (h : p.While oz mult s t) (h1 : s.iter < t.iter) (h2 : t.iter < 2000) :
    ∃ u, t = p.step oz mult u ∧
      (1 - p.mix) ^ 2 * ∑ a, ∑ b, ∑ j ∈ Finset.range p.N, (p.full oz mult u a b j - u.Ns a b j) ^ 2 ≤ 1 / 1000000 := by
  have key : ∃ u, t = p.step oz mult u := by
    clear h2
    induction h with
    | stop _ => exact absurd h1 (lt_irrefl _)
    | @step s t hc hw ih =>
      by_cases hlt : (p.step oz mult s).iter < t.iter
      · exact ih hlt
      · cases hw with
        | stop _ => exact ⟨s, rfl⟩
        | step hc' hw' =>
          exfalso
          apply hlt
          have h3 : (p.step oz mult (p.step oz mult s)).iter = (p.step oz mult s).iter + 1 := rfl
          have h4 := ((cond_iff _).1 hc').1
          have := (hw'.iter_le (by rw [h3]; omega)).1
          omega
  obtain ⟨u, rfl⟩ := key
  refine ⟨u, rfl, ?_⟩
  rcases h.converged with h3 | h3
  · omega
  · refine le_trans (le_of_eq ?_) h3
    unfold err
    simp only [Finset.mul_sum]
    refine Finset.sum_congr rfl fun a _ => Finset.sum_congr rfl fun b _ => Finset.sum_congr rfl fun j _ => ?_
    rw [step_Ns]
    show _ = ((1 - p.mix) * p.full oz mult u a b j + p.mix * u.Ns a b j - u.Ns a b j) ^ 2
    ring

/-- The same problem with another mixing. -/
def withMix (p : Input m) (mix : ℝ) : Input m := { p with mix := mix }

theorem full_withMix (mix mult : ℝ) (s : State m) : (p.withMix mix).full oz mult s = p.full oz mult s := rfl

theorem init_withMix (mix mult : ℝ) : (p.withMix mix).init mult = p.init mult := rfl

/-- C70: the test for convergence does not take the mixing into account.  For every problem, if the mixing
is close enough to one then the loop stops after one cycle, as if it had converged, and returns the pair
distribution function from which it started, as closely as one likes. -/
theorem mixing_stops (p : Input m) (hm : 0 < m) (hN : 0 < p.N) {δ : ℝ} (hδ : 0 < δ) :
    ∃ mix0 < 1, ∀ mix, mix0 ≤ mix → mix < 1 → ∃ g, (p.withMix mix).Returns [] g 1 ∧
      ∀ a b, ∀ j < p.N, |log (g a b j) - -p.vs 1 a b j| < δ := by
  set f := p.full (fun _ => ozr p.n p.maxSize) 1 (p.init 1) with hf
  set S := ∑ a, ∑ b, ∑ j ∈ Finset.range p.N, f a b j ^ 2 with hS
  have hS0 : 0 ≤ S := Finset.sum_nonneg fun a _ => Finset.sum_nonneg fun b _ => Finset.sum_nonneg fun j _ => sq_nonneg _
  obtain ⟨ε, hε, h1, h2⟩ : ∃ ε : ℝ, 0 < ε ∧ ε ^ 2 * S ≤ 1 / 1000000 ∧ ε ^ 2 * S < δ ^ 2 := by
    obtain ⟨K, hK⟩ : ∃ K : ℝ, K = 1000000 * (S + 1) * (1 + 1 / δ ^ 2) := ⟨_, rfl⟩
    have hKpos : 0 < K := by rw [hK]; positivity
    have hK1 : 1 ≤ K := by
      rw [hK]
      have : (0 : ℝ) ≤ 1 / δ ^ 2 := by positivity
      nlinarith
    have hsq : (1 / K) ^ 2 ≤ 1 / K := by
      rw [sq]
      exact mul_le_of_le_one_left (by positivity) (by rw [div_le_one hKpos]; exact hK1)
    have hSK : (1 / K) ^ 2 * S ≤ S / K := by
      have := mul_le_mul_of_nonneg_right hsq hS0
      rw [one_div_mul_eq_div] at this
      exact this
    refine ⟨1 / K, by positivity, hSK.trans ?_, lt_of_le_of_lt hSK ?_⟩
    · rw [div_le_iff₀ hKpos, hK]
      have : (0 : ℝ) ≤ 1 / δ ^ 2 := by positivity
      nlinarith [mul_nonneg (by linarith : (0 : ℝ) ≤ S + 1) this]
    · rw [div_lt_iff₀ hKpos, hK]
      have e : δ ^ 2 * (1000000 * (S + 1) * (1 + 1 / δ ^ 2)) = 1000000 * (S + 1) * (δ ^ 2 + 1) := by
        field_simp
      rw [e]
      nlinarith [sq_nonneg δ, mul_nonneg hS0 (sq_nonneg δ)]
  refine ⟨1 - ε, by linarith, fun mix hl hu => ?_⟩
  set q := p.withMix mix with hq
  have hNs : ∀ a b j, (q.step (fun _ => ozr p.n p.maxSize) 1 (q.init 1)).Ns a b j = (1 - mix) * f a b j := by
    intro a b j
    rw [step_Ns]
    show (1 - mix) * f a b j + mix * 0 = _
    ring
  have hle : (1 - mix) ^ 2 ≤ ε ^ 2 := pow_le_pow_left₀ (by linarith) (by linarith) 2
  have hstop : q.cond (q.step (fun _ => ozr p.n p.maxSize) 1 (q.init 1)) = false := by
    rw [← Bool.not_eq_true, cond_iff]
    rintro ⟨-, h⟩
    have e : q.err (q.step (fun _ => ozr p.n p.maxSize) 1 (q.init 1)) = (1 - mix) ^ 2 * S := by
      rw [hS]
      unfold err
      simp only [Finset.mul_sum]
      refine Finset.sum_congr rfl fun a _ => Finset.sum_congr rfl fun b _ => Finset.sum_congr rfl fun j _ => ?_
      rw [hNs]
      show ((1 - mix) * f a b j - 0) ^ 2 = _
      ring
    rw [e] at h
    have := mul_le_mul_of_nonneg_right hle hS0
    linarith
  refine ⟨_, ⟨q.step (fun _ => ozr p.n p.maxSize) 1 (q.init 1), ⟨_, .step (err_init hm hN) (.stop hstop), .done⟩, rfl⟩, ?_⟩
  intro a b j hj
  rw [log_exp]
  have e : (q.step (fun _ => ozr p.n p.maxSize) 1 (q.init 1)).logG a b j = (1 - mix) * f a b j - p.vs 1 a b j := by
    rw [← hNs]; rfl
  rw [e]
  have e2 : (1 - mix) * f a b j - p.vs 1 a b j - -p.vs 1 a b j = (1 - mix) * f a b j := by ring
  rw [e2]
  apply abs_lt_of_sq_lt_sq _ hδ.le
  have hfS : f a b j ^ 2 ≤ S := by
    rw [hS]
    refine le_trans ?_ (Finset.single_le_sum (f := fun a => ∑ b, ∑ j ∈ Finset.range p.N, f a b j ^ 2)
      (fun a _ => Finset.sum_nonneg fun b _ => Finset.sum_nonneg fun j _ => sq_nonneg _) (Finset.mem_univ a))
    refine le_trans ?_ (Finset.single_le_sum (f := fun b => ∑ j ∈ Finset.range p.N, f a b j ^ 2)
      (fun b _ => Finset.sum_nonneg fun j _ => sq_nonneg _) (Finset.mem_univ b))
    exact Finset.single_le_sum (f := fun j => f a b j ^ 2) (fun j _ => sq_nonneg _) (Finset.mem_range.2 hj)
  calc ((1 - mix) * f a b j) ^ 2 = (1 - mix) ^ 2 * f a b j ^ 2 := by ring
    _ ≤ ε ^ 2 * S := mul_le_mul hle hfS (sq_nonneg _) (sq_nonneg _)
    _ < δ ^ 2 := h2

/-! ### The last temperature -/

/-- What holds after every step at the last temperature, from a state with the invariant `Q`, holds for the
result. -/
theorem Rest.after_step {P Q : State m → Prop} (hQ : ∀ mult s, Q s → Q (p.step oz mult s))
    (hQi : ∀ s i, Q s → Q { s with iter := i }) (hP : ∀ s, Q s → P (p.step oz 1 s))
    (hi : ∀ s i, P s → P { s with iter := i }) {ms : List ℝ} {s t : State m} {i j : ℕ}
    (h : p.Rest oz (ms ++ [1]) s i t j) (hs : Q s) : P t := by
  have h5 : ∀ mult n s, Q s → Q ((p.step oz mult)^[n] s) := by
    intro mult n s hs
    induction n with
    | zero => exact hs
    | succ n ih => rw [Function.iterate_succ_apply']; exact hQ _ _ ih
  induction ms generalizing s i with
  | nil =>
    cases h with
    | next hw hr =>
      cases hr
      refine (hw.invariant (P := fun s => Q s ∧ P s) (fun s hs => ⟨hQ _ _ hs.1, hP s hs.1⟩) ⟨hQi _ _ (h5 _ _ _ hs), hi _ _ ?_⟩).2
      rw [Function.iterate_succ_apply']
      exact hP _ (h5 _ _ _ hs)
  | cons a l ih =>
    cases h with
    | next hw hr => exact ih hr (hw.invariant (hQ _) (hQi _ _ (h5 _ _ _ hs)))

theorem Runs.after_step {P Q : State m → Prop} (hQ : ∀ mult s, Q s → Q (p.step oz mult s))
    (hQi : ∀ s i, Q s → Q { s with iter := i }) (hQ0 : ∀ mult, Q (p.init mult)) (hP : ∀ s, Q s → P (p.step oz 1 s))
    (hi : ∀ s i, P s → P { s with iter := i })
    (hm : 0 < m) (hN : 0 < p.N) {tmult : List ℝ} {t : State m} {j : ℕ} (h : p.Runs oz (tmult ++ [1]) t j) : P t := by
  cases tmult with
  | nil =>
    obtain ⟨s, hw, hr⟩ := h
    cases hr
    cases hw with
    | stop hc => rw [err_init hm hN] at hc; cases hc
    | step _ hw' =>
      exact (hw'.invariant (P := fun s => Q s ∧ P s) (fun s hs => ⟨hQ _ _ hs.1, hP s hs.1⟩) ⟨hQ _ _ (hQ0 1), hP _ (hQ0 1)⟩).2
  | cons a l =>
    obtain ⟨s, hw, hr⟩ := h
    exact hr.after_step hQ hQi hP hi (hw.invariant (hQ _) (hQ0 a))

/-- C37: the result satisfies the closure, with the nodal function of the last cycle. -/
theorem returns_closure (hm : 0 < m) (hN : 0 < p.N) {tmult : List ℝ} {g : Fin m → Fin m → ℕ → ℝ} {it : ℕ}
    (h : p.Returns tmult g it) : ∃ Ns : Fin m → Fin m → ℕ → ℝ, ∀ a b j, g a b j = exp (Ns a b j - p.Vs a b j / (p.kB * p.T a b)) := by
  obtain ⟨t, hr, rfl⟩ := h
  have := hr.after_step (P := fun s => ∀ a b j, s.logG a b j = s.Ns a b j - p.vs 1 a b j) (Q := fun _ => True)
    (fun _ _ _ => trivial) (fun _ _ _ => trivial) (fun _ => trivial) (fun s _ a b j => rfl) (fun s i hs => hs) hm hN
  refine ⟨t.Ns, fun a b j => ?_⟩
  simp only []
  rw [this]
  congr 2
  unfold vs
  rw [mul_one]
  ring

/-- C71: without any density, the pair distribution function is the factor of Boltzmann of the whole
potential, whatever the intermediate temperatures. -/
theorem dilute (hm : 0 < m) (hN : 0 < p.N) (hd : p.DataSymm) (hn : p.n = 0) (hmix : p.mix = 0) {M : ℕ} (hg : p.GridOk M)
    {tmult : List ℝ} {g : Fin m → Fin m → ℕ → ℝ} {it : ℕ} (h : p.Returns tmult g it)
    (a b : Fin m) {j : ℕ} (hj : j < p.N) :
    g a b j = exp (-(p.Vs a b j + fourierSine p.N p.r p.k (p.Vlk a b) j / (2 * π) ^ 3) / (p.kB * p.T a b)) := by
  obtain ⟨t, hr, rfl⟩ := h
  have hoz : ∀ C : Matrix (Fin m) (Fin m) ℝ, PairSymm C → ozr p.n p.maxSize C = C := by
    intro C hC
    have h1 := (ornstein_zernike p.n p.maxSize hC (by rw [hn, show Matrix.diagonal (0 : Fin m → ℝ) = 0 from Matrix.diagonal_zero]; simp) C).1
    refine (h1 ?_).symm
    intro a b
    simp [hn]
  have hlin : ∀ a b, ∀ j < p.N, fourierSine p.N p.r p.k (fun i => -p.vlk 1 a b i) j =
      -(1 / (p.kB * p.T a b)) * fourierSine p.N p.r p.k (p.Vlk a b) j := by
    intro a b j hj
    rw [hg.even] at hj ⊢
    rw [fourierSine_eq hg.pos _ _ _ hj, fourierSine_eq hg.pos _ _ _ hj]
    have : sineSum (2 * M) (fun i => p.k i * -p.vlk 1 a b i) j =
        sineSum (2 * M) (fun i => -(1 / (p.kB * p.T a b)) * (p.k i * p.Vlk a b i)) j :=
      sineSum_congr (fun i _ => by unfold vlk; rw [mul_one]; ring) j
    rw [this, sineSum_smul]
    ring
  have key := hr.after_step (Q := StateSymm) (P := fun t => ∀ a b, ∀ j < p.N, t.logG a b j =
      -(1 / (p.kB * p.T a b)) * fourierSine p.N p.r p.k (p.Vlk a b) j / (2 * π) ^ 3 - p.vs 1 a b j)
    (fun mult s hs => step_symm (fun _ _ hC => ozr_symm _ _ hC) hd hs mult) (fun s i hs => hs) (fun mult => init_symm hd mult)
    (fun s hs a b j hj => by
      have e : (p.step (fun _ => ozr p.n p.maxSize) 1 s).logG a b j =
          (1 - p.mix) * p.full (fun _ => ozr p.n p.maxSize) 1 s a b j + p.mix * s.Ns a b j - p.vs 1 a b j := rfl
      rw [e, hmix]
      have e2 : p.full (fun _ => ozr p.n p.maxSize) 1 s a b j =
          -(1 / (p.kB * p.T a b)) * fourierSine p.N p.r p.k (p.Vlk a b) j / (2 * π) ^ 3 := by
        unfold full
        rw [← hlin a b j hj]
        congr 2
        funext i
        have h1 := congrFun (congrFun (hoz _ (cK_symm hd hs 1 i)) a) b
        show ozr p.n p.maxSize (p.cK 1 s i) a b - p.csK s a b i = _
        rw [h1]
        show p.csK s a b i - p.vlk 1 a b i - p.csK s a b i = _
        ring
      rw [e2]
      ring) (fun s i hs => hs) hm hN a b j hj
  simp only []
  rw [key]
  congr 1
  unfold vs
  rw [mul_one]
  ring

/-- C37: without interactions the pair distribution function is one, after one cycle at the first
temperature and five at each of the others. -/
theorem ideal (hm : 0 < m) (hN : 0 < p.N) (h1 : ∀ a b j, p.Vs a b j = 0) (h2 : ∀ a b j, p.Vlk a b j = 0)
    (hoz : ∀ mult, oz mult 0 = 0) {tmult : List ℝ} {t : State m} {it : ℕ} (h : p.Runs oz (tmult ++ [1]) t it) :
    (∀ a b j, t.logG a b j = 0) ∧ it = 1 + 5 * tmult.length ∧ t.iter = if tmult = [] then 1 else 0 := by
  have hvs : ∀ mult a b j, p.vs mult a b j = 0 := fun mult a b j => by unfold vs; rw [h1, mul_zero]
  have hvl : ∀ mult a b j, p.vlk mult a b j = 0 := fun mult a b j => by unfold vlk; rw [h2, mul_zero]
  have hst : ∀ mult s, (∀ a b j, s.logG a b j = 0 ∧ s.Ns a b j = 0) →
      ∀ a b j, (p.step oz mult s).logG a b j = 0 ∧ (p.step oz mult s).Ns a b j = 0 ∧ (p.step oz mult s).NsOld a b j = 0 := by
    intro mult s hs a b j
    have hcs : ∀ a b i, p.csK s a b i = 0 := by
      intro a b i
      unfold csK
      have e : (fun j => exp (s.logG a b j) - 1 - s.Ns a b j) = fun _ => 0 := by
        funext j
        rw [(hs a b j).1, (hs a b j).2, exp_zero]
        ring
      rw [e, fourierSine_zero]
    have hc : ∀ i, p.cK mult s i = 0 := by
      intro i
      ext a b
      show p.csK s a b i - p.vlk mult a b i = 0
      rw [hcs, hvl, sub_zero]
    have hNs : (p.step oz mult s).Ns a b j = 0 := by
      rw [step_Ns, (hs a b j).2]
      have e : p.full oz mult s a b j = 0 := by
        unfold full
        have e : (fun i => oz mult (p.cK mult s i) a b - p.csK s a b i) = fun _ => 0 := by
          funext i
          rw [hc, hoz, hcs]
          simp
        rw [e, fourierSine_zero, zero_div]
      rw [e]
      ring
    refine ⟨?_, hNs, (hs a b j).2⟩
    show (p.step oz mult s).Ns a b j - p.vs mult a b j = 0
    rw [hNs, hvs, sub_zero]
  have hstop : ∀ s : State m, (∀ a b j, s.logG a b j = 0 ∧ s.Ns a b j = 0 ∧ s.NsOld a b j = 0) → p.cond s = false := by
    intro s hs
    rw [← Bool.not_eq_true, cond_iff]
    rintro ⟨-, h⟩
    have e : p.err s = 0 := by
      unfold err
      refine Finset.sum_eq_zero fun a _ => Finset.sum_eq_zero fun b _ => Finset.sum_eq_zero fun j _ => ?_
      rw [(hs a b j).2.1, (hs a b j).2.2]
      norm_num
    rw [e] at h
    norm_num at h
  have hweak : ∀ s : State m, (∀ a b j, s.logG a b j = 0 ∧ s.Ns a b j = 0 ∧ s.NsOld a b j = 0) →
      ∀ a b j, s.logG a b j = 0 ∧ s.Ns a b j = 0 := fun s hs a b j => ⟨(hs a b j).1, (hs a b j).2.1⟩
  have hwhile : ∀ mult s t, (∀ a b j, s.logG a b j = 0 ∧ s.Ns a b j = 0 ∧ s.NsOld a b j = 0) → p.While oz mult s t → t = s := by
    intro mult s t hs hw
    cases hw with
    | stop _ => rfl
    | step hc _ => rw [hstop s hs] at hc; cases hc
  have hwarm : ∀ mult s, (∀ a b j, s.logG a b j = 0 ∧ s.Ns a b j = 0 ∧ s.NsOld a b j = 0) →
      ∀ a b j, (p.warm oz mult s).logG a b j = 0 ∧ (p.warm oz mult s).Ns a b j = 0 ∧ (p.warm oz mult s).NsOld a b j = 0 := by
    intro mult s hs
    show ∀ a b j, ((p.step oz mult)^[5] s).logG a b j = 0 ∧ ((p.step oz mult)^[5] s).Ns a b j = 0 ∧
      ((p.step oz mult)^[5] s).NsOld a b j = 0
    have : ∀ n, ∀ a b j, ((p.step oz mult)^[n] s).logG a b j = 0 ∧ ((p.step oz mult)^[n] s).Ns a b j = 0 ∧
        ((p.step oz mult)^[n] s).NsOld a b j = 0 := by
      intro n
      induction n with
      | zero => exact hs
      | succ n ih => rw [Function.iterate_succ_apply']; exact hst mult _ (hweak _ ih)
    exact this 5
  have hrest : ∀ ms s i t j, p.Rest oz ms s i t j → (∀ a b j, s.logG a b j = 0 ∧ s.Ns a b j = 0 ∧ s.NsOld a b j = 0) →
      (∀ a b j, t.logG a b j = 0) ∧ j = i + 5 * ms.length ∧ t.iter = if ms = [] then s.iter else 0 := by
    intro ms s i t j hr
    induction hr with
    | done => exact fun hs => ⟨fun a b j => (hs a b j).1, by simp, by simp⟩
    | next hw _ ih =>
      intro hs
      obtain rfl := hwhile _ _ _ (hwarm _ _ hs) hw
      obtain ⟨h1, h2, h3⟩ := ih (hwarm _ _ hs)
      refine ⟨h1, ?_, ?_⟩
      · rw [h2]
        show _ + 5 + 0 + _ = _
        simp only [List.length_cons]
        ring
      · rw [h3, if_neg (List.cons_ne_nil _ _)]
        split_ifs <;> rfl
  have hfirst : ∀ mult s, p.While oz mult (p.init mult) s → s = p.step oz mult (p.init mult) ∧
      ∀ a b j, s.logG a b j = 0 ∧ s.Ns a b j = 0 ∧ s.NsOld a b j = 0 := by
    intro mult s hw
    have h0 := hst mult (p.init mult) (fun a b j => ⟨by show -p.vs mult a b j = 0; rw [hvs, neg_zero], rfl⟩)
    cases hw with
    | stop hc => rw [err_init hm hN] at hc; cases hc
    | step _ hw' =>
      obtain rfl := hwhile _ _ _ h0 hw'
      exact ⟨rfl, h0⟩
  cases tmult with
  | nil =>
    obtain ⟨s, hw, hr⟩ := h
    obtain ⟨rfl, h0⟩ := hfirst _ _ hw
    obtain ⟨h1, h2, h3⟩ := hrest _ _ _ _ _ hr h0
    exact ⟨h1, h2, h3⟩
  | cons a l =>
    obtain ⟨s, hw, hr⟩ := h
    change p.Rest oz (l ++ [1]) _ _ _ _ at hr
    obtain ⟨rfl, h0⟩ := hfirst _ _ hw
    obtain ⟨h1, h2, h3⟩ := hrest _ _ _ _ _ hr h0
    refine ⟨h1, ?_, ?_⟩
    · rw [h2]
      show 0 + 1 + _ = _
      simp only [List.length_append, List.length_cons, List.length_nil]
    · rw [h3, if_neg (by simp), if_neg (by simp)]

theorem returns_ideal (hm : 0 < m) (hN : 0 < p.N) (h1 : ∀ a b j, p.Vs a b j = 0) (h2 : ∀ a b j, p.Vlk a b j = 0)
    {tmult : List ℝ} {g : Fin m → Fin m → ℕ → ℝ} {it : ℕ} (h : p.Returns tmult g it) :
    (∀ a b j, g a b j = 1) ∧ it = 1 + 5 * tmult.length := by
  obtain ⟨t, hr, rfl⟩ := h
  obtain ⟨h3, h4, -⟩ := ideal hm hN h1 h2 (fun _ => ozr_zero _ _) hr
  exact ⟨fun a b j => by simp only []; rw [h3, exp_zero], h4⟩

theorem svtOzr_zero (n mass : Fin m → ℝ) (T : Fin m → Fin m → ℝ) : svtOzr n mass T 0 = 0 := by
  ext a b
  unfold svtOzr
  have : (fun st : Fin m × Fin m => (0 : Matrix (Fin m) (Fin m) ℝ) st.1 st.2) = 0 := rfl
  rw [this, Matrix.mulVec_zero]
  rfl

/-- The same for the scheme with several temperatures; but with intermediate temperatures it reports that
no cycle was needed. -/
theorem svtReturns_ideal (hm : 0 < m) (hN : 0 < p.N) (h1 : ∀ a b j, p.Vs a b j = 0) (h2 : ∀ a b j, p.Vlk a b j = 0) (mass : Fin m → ℝ)
    {tmult : List ℝ} {g : Fin m → Fin m → ℕ → ℝ} {it : ℕ} (h : p.SvtReturns mass tmult g it) :
    (∀ a b j, g a b j = 1) ∧ it = if tmult = [] then 1 else 0 := by
  obtain ⟨t, total, hr, rfl, rfl⟩ := h
  obtain ⟨h3, -, h5⟩ := ideal hm hN h1 h2 (fun _ => svtOzr_zero _ _ _) hr
  exact ⟨fun a b j => by simp only []; rw [h3, exp_zero], h5⟩

end Input

end Verif.Hnc
