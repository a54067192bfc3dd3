/-
C20, C88: the lowering of Stewart and Pyatt changes by no larger factor than the charges; the iteration for the mean
charges with it.
-/
import Verif.Props.SahaMixture
import Mathlib.Analysis.Convex.SpecificFunctions.Pow

set_option autoImplicit false

open Real Finset Verif.Expt Verif.Resp

namespace Verif.Ipd

/-! ### The interpolation of Stewart and Pyatt -/

theorem spG_antitone {s t : ℝ} (hs : 0 ≤ s) (hst : s ≤ t) : spG t ≤ spG s := by
  have ht := hs.trans hst
  have hc := Real.concaveOn_rpow (p := 2 / 3) (by norm_num) (by norm_num)
  have h3 : s ^ 3 ≤ t ^ 3 := pow_le_pow_left₀ hs hst 3
  have hx : 0 ≤ s ^ 3 := by positivity
  unfold spG
  rw [← cube_rpow hs, ← cube_rpow ht]
  generalize s ^ 3 = x at *
  generalize t ^ 3 = y at *
  obtain ⟨c, hcd⟩ : ∃ c, c = (y - x) / (1 + y - x) := ⟨_, rfl⟩
  have hd : 0 < 1 + y - x := by linarith
  have hc0 : 0 ≤ c := by rw [hcd]; exact div_nonneg (by linarith) hd.le
  have hc1 : c ≤ 1 := by rw [hcd, div_le_one hd]; linarith
  have hm : c * (1 + y - x) = y - x := by rw [hcd]; field_simp
  have k1 := hc.2 (x := x) (y := 1 + y) hx (by simp only [Set.mem_Ici]; linarith) hc0 (by linarith : 0 ≤ 1 - c) (by ring)
  have k2 := hc.2 (x := x) (y := 1 + y) hx (by simp only [Set.mem_Ici]; linarith) (by linarith : 0 ≤ 1 - c) hc0 (by ring)
  simp only [smul_eq_mul] at k1 k2
  have e1 : c * x + (1 - c) * (1 + y) = 1 + x := by linarith
  have e2 : (1 - c) * x + c * (1 + y) = y := by linarith
  rw [e1] at k1
  rw [e2] at k2
  linarith

/-- A screening length which is `a ≥ 1` times shorter gives a lowering at most `a` times larger. -/
theorem spG_scale {s a : ℝ} (hs : 0 ≤ s) (ha : 1 ≤ a) : spG s ≤ a * spG (a * s) := by
  have ha0 : 0 < a := by linarith
  have hc := Real.concaveOn_rpow (p := 2 / 3) (by norm_num) (by norm_num)
  have h3 : 1 ≤ a ^ 3 := one_le_pow₀ ha
  have hinv : (a ^ 3)⁻¹ ≤ 1 := inv_le_one_of_one_le₀ h3
  have k := hc.2 (x := 1 + s ^ 3) (y := s ^ 3) (by simp only [Set.mem_Ici]; positivity)
    (by simp only [Set.mem_Ici]; positivity) (by positivity : 0 ≤ (a ^ 3)⁻¹) (by linarith : 0 ≤ 1 - (a ^ 3)⁻¹) (by ring)
  simp only [smul_eq_mul] at k
  have e1 : (a ^ 3)⁻¹ * (1 + s ^ 3) + (1 - (a ^ 3)⁻¹) * s ^ 3 = (a ^ 3)⁻¹ * (1 + (a * s) ^ 3) := by
    field_simp
    ring
  rw [e1, mul_rpow (by positivity) (by positivity), inv_rpow (by positivity), cube_rpow ha0.le, cube_rpow hs] at k
  unfold spG
  have k' := mul_le_mul_of_nonneg_left k (by positivity : 0 ≤ a ^ 3)
  have e2 : a ^ 3 * ((a ^ 2)⁻¹ * (1 + (a * s) ^ 3) ^ (2 / 3 : ℝ)) = a * (1 + (a * s) ^ 3) ^ (2 / 3 : ℝ) := by
    field_simp
  have e3 : a ^ 3 * ((a ^ 3)⁻¹ * (1 + s ^ 3) ^ (2 / 3 : ℝ) + (1 - (a ^ 3)⁻¹) * s ^ 2) =
      (1 + s ^ 3) ^ (2 / 3 : ℝ) + (a ^ 3 - 1) * s ^ 2 := by
    field_simp
  rw [e2, e3] at k'
  linarith [mul_pow a s 2]

theorem kappaD_factor (u : Consts) {n : ℕ} {ni : Fin n → ℝ} (hN : ∀ j, 0 ≤ ni j) {Ti Te : ℝ} (hTi : 0 < Ti) (hTe : 0 < Te)
    {c c' : Fin n → ℝ} (hc' : ∀ j, 0 ≤ c' j) {a ne ne' : ℝ} (hne : 0 ≤ ne) (ha : 1 ≤ a) (h : ∀ j, c' j ≤ a * c j)
    (hn : ne' ≤ a * ne) : kappaD u none c' ni ne' Te Ti ≤ a * kappaD u none c ni ne Te Ti := by
  have h1 := u.eps0_pos
  have h2 := u.kB_pos
  have h4 := u.e_pos
  have ha0 : 0 < a := by linarith
  simp only [kappaD, kappaISq, kappaESq, one_mul]
  nth_rw 1 [← sqrt_sq ha0.le]
  rw [← sqrt_mul (by positivity)]
  refine sqrt_le_sqrt ?_
  have s1 : ∑ j, c' j ^ 2 * u.e ^ 2 * ni j ≤ a ^ 2 * ∑ j, c j ^ 2 * u.e ^ 2 * ni j := by
    rw [mul_sum]
    refine sum_le_sum fun j _ => ?_
    have : c' j ^ 2 ≤ (a * c j) ^ 2 := pow_le_pow_left₀ (hc' j) (h j) 2
    have := mul_le_mul_of_nonneg_right this (mul_nonneg (sq_nonneg u.e) (hN j))
    nlinarith
  have s2 : ne' ≤ a ^ 2 * ne := hn.trans (mul_le_mul_of_nonneg_right (by nlinarith) hne)
  rw [mul_add]
  refine add_le_add ?_ ?_
  · rw [← mul_div_assoc]
    exact div_le_div_of_nonneg_right s1 (by positivity)
  · have : 0 ≤ u.e ^ 2 / (u.eps0 * u.kB * Te) := by positivity
    have := mul_le_mul_of_nonneg_left s2 this
    calc _ = u.e ^ 2 / (u.eps0 * u.kB * Te) * ne' := by ring
      _ ≤ _ := this
      _ = _ := by ring

/-- C20.  The lowering of Stewart and Pyatt grows by at most the factor `a ≥ 1` if the charges of the plasma do; with
`a = 1`: it does not grow when no charge does. -/
theorem stewartPyatt_graded (u : Consts) {n : ℕ} {ni Ti : Fin n → ℝ} (hN : ∀ j, 0 < ni j) (hTi : ∀ j, 0 < Ti j) {Te : ℝ}
    (hTe : 0 < Te) (q : ℝ) {z z' : Fin n → ℝ} (hz : ∀ j, 0 < z j) (hz' : ∀ j, 0 < z' j) {a : ℝ} (ha : 1 ≤ a)
    (h : ∀ j, z' j ≤ a * z j) (i : Fin n) :
    -stewartPyatt u none q z' ni Ti (∑ j, z' j * ni j) Te i ≤
      a * -stewartPyatt u none q z ni Ti (∑ j, z j * ni j) Te i := by
  have h1 := u.eps0_pos
  have h3 := pi_pos
  have hsum : ∀ {x : Fin n → ℝ}, (∀ j, 0 < x j) → 0 < ∑ j, x j * ni j := fun hx =>
    sum_pos (fun j _ => mul_pos (hx j) (hN j)) ⟨i, mem_univ _⟩
  have hN0 : 0 < ∑ j, ni j := sum_pos (fun j _ => hN j) ⟨i, mem_univ _⟩
  have hR := sphere_pos hN0
  have hk := kappaD_pos u (arb := none) (fun j => clipZ (z j)) (fun j => (hN j).le) (hTi i) (kappaESq_pos u (hsum hz) hTe)
  have hk' := kappaD_pos u (arb := none) (fun j => clipZ (z' j)) (fun j => (hN j).le) (hTi i)
    (kappaESq_pos u (hsum hz') hTe)
  have hf := kappaD_factor u (fun j => (hN j).le) (hTi i) hTe (c := fun j => clipZ (z j)) (c' := fun j => clipZ (z' j))
    (fun j => (clipZ_pos _).le) (hsum hz).le ha (fun j => by
      refine max_le ((h j).trans (mul_le_mul_of_nonneg_left (le_clipZ _) (by linarith))) ?_
      have : (1 / 1000000 : ℝ) ≤ clipZ (z j) := le_max_right _ _
      nlinarith) (ne' := ∑ j, z' j * ni j) (by
      rw [mul_sum]
      refine sum_le_sum fun j _ => ?_
      rw [← mul_assoc]
      exact mul_le_mul_of_nonneg_right (h j) (hN j).le)
  rw [stewartPyatt_eq, stewartPyatt_eq]
  generalize kappaD u none (fun j => clipZ (z j)) ni (∑ j, z j * ni j) Te (Ti i) = k at *
  generalize kappaD u none (fun j => clipZ (z' j)) ni (∑ j, z' j * ni j) Te (Ti i) = k' at *
  generalize sphere ni = R at *
  have hg : spG (1 / k' / R) ≤ a * spG (1 / k / R) := by
    have ha0 : 0 < a := by linarith
    have e : a * (1 / (a * k) / R) = 1 / k / R := by field_simp
    calc spG (1 / k' / R) ≤ spG (1 / (a * k) / R) := by
          refine spG_antitone (by positivity) ?_
          gcongr
      _ ≤ a * spG (a * (1 / (a * k) / R)) := spG_scale (by positivity) ha
      _ = _ := by rw [e]
  have hcz := clipZ_pos q
  have hp : 0 ≤ 3 * (clipZ q + 1) * u.e ^ 2 / (8 * π * u.eps0 * R) := by positivity
  have := mul_le_mul_of_nonneg_left hg hp
  rw [neg_div]
  linarith

end Verif.Ipd

namespace Verif.Saha

variable {u : Consts}

theorem graded_diff {x y M D : ℝ} (hx : 0 ≤ x) (hy : 0 ≤ y) (hxM : x ≤ M) (hyM : y ≤ M) (h1 : x ≤ exp D * y)
    (h2 : y ≤ exp D * x) (hD : 0 ≤ D) : |x - y| ≤ M * D := by
  have key : ∀ {x y : ℝ}, 0 ≤ x → x ≤ M → x ≤ exp D * y → x - y ≤ M * D := by
    intro x y hx hxM h1
    have h5 : exp (-D) * x ≤ y := by
      have := mul_le_mul_of_nonneg_left h1 (exp_pos (-D)).le
      rwa [← mul_assoc, ← exp_add, neg_add_cancel, exp_zero, one_mul] at this
    have h6 := add_one_le_exp (-D)
    nlinarith
  rw [abs_le]
  constructor
  · linarith [key hy hyM h2]
  · exact key hx hxM h1

/-- C88: a lowering `L` of one element which grows by no larger factor than the charge fulfils the condition for
convergence if that in the fully ionized plasma is at most `q < 1` times the temperature. -/
theorem weak_of_graded {e : Elem} {T : ℝ} {b : Bool} {L : ℝ → ℕ → ℝ} {q : ℝ} (hZ : 0 < e.Z)
    (hg : ∀ k ≤ e.Z, 0 < e.g k) (hT : 0 < T) (hN : 2 ≤ e.N) (hfew : e.Z * e.N ≤ exp 1000)
    (hL : ∀ z : ℝ, 0 < z → ∀ k, 0 ≤ L z k)
    (hgr : ∀ z z' a : ℝ, 0 < z → 0 < z' → 1 ≤ a → z' ≤ a * z → ∀ k, L z' k ≤ a * L z k)
    (hE : ∀ k < e.Z, L e.Z k < e.E k) (h0 : 1 ≤ sahaEquation u (e.g 0) (e.g 1) T (e.E 0))
    (hcl : ∀ z : ℝ, 0 < z → z ≤ e.Z → Clear (sahaSpecies u e.Z e.g e.E (fun k => -L z k) T e.N b))
    (hq0 : 0 ≤ q) (hq1 : q < 1) (hq : ∀ k < e.Z, L e.Z k ≤ q * (u.kB * T)) :
    WeakLowering u e T b (fun z k => -L z k) q := by
  have hkT : 0 < u.kB * T := mul_pos u.kB_pos hT
  have hZ0 : (0 : ℝ) < e.Z := by exact_mod_cast hZ
  have hmax : ∀ z : ℝ, 0 < z → z ≤ e.Z → ∀ k, L z k ≤ L e.Z k := by
    intro z h1 h2 k
    have := hgr e.Z z 1 hZ0 h1 le_rfl (by rw [one_mul]; exact h2) k
    rwa [one_mul] at this
  refine ⟨hZ, hg, hT, hN, hfew, fun z h1 h2 k hk => ?_, fun z h1 h2 => ?_, hcl, hq0, hq1, ?_⟩
  · linarith [hmax z h1 h2 k, hE k hk]
  · refine h0.trans ?_
    have hz0 := hL z h1 0
    unfold sahaEquation
    have hp : 0 ≤ e.g 1 / e.g 0 * 2 / thermDeBroglie u T ^ 3 := by
      have := thermDeBroglie_pos u hT
      have := hg 0 (Nat.zero_le _)
      have := hg 1 hZ
      positivity
    refine mul_le_mul_of_nonneg_left (exp_le_exp.2 ?_) hp
    exact div_le_div_of_nonneg_right (by linarith) hkT.le
  · intro z z' h1 h2 h1' h2' k hk
    have key : ∀ {x y : ℝ}, 0 < x → 0 < y → y ≤ exp |log z - log z'| * x → L y k ≤ exp |log z - log z'| * L x k :=
      fun hx hy h => hgr _ _ _ hx hy (one_le_exp (abs_nonneg _)) h k
    have hfac : ∀ {x y : ℝ}, 0 < x → 0 < y → log y - log x ≤ |log z - log z'| → y ≤ exp |log z - log z'| * x := by
      intro x y hx hy h
      calc y = exp (log y) := (exp_log hy).symm
        _ ≤ exp (|log z - log z'| + log x) := exp_le_exp.2 (by linarith)
        _ = _ := by rw [exp_add, exp_log hx]
    have k1 := key h1' h1 (hfac h1' h1 (le_abs_self _))
    have k2 := key h1 h1' (hfac h1 h1' (by rw [abs_sub_comm]; exact le_abs_self _))
    have := graded_diff (hL z h1 k) (hL z' h1' k) (hmax z h1 h2 k) (hmax z' h1' h2' k) k1 k2 (abs_nonneg _)
    have e1 : -L z k - -L z' k = -(L z k - L z' k) := by ring
    rw [e1, abs_neg]
    exact this.trans (mul_le_mul_of_nonneg_right (hq k hk) (abs_nonneg _))

/-- C88: the same for mixtures; the lowering of the states in the plasma with the charges `Zm` is at most `q / (2 Zm)`
times the temperature. -/
theorem mixture_of_graded {n : ℕ} {E : Fin n → Elem} {T : ℝ} {b : Bool} {L : (Fin n → ℝ) → Fin n → ℕ → ℝ} {Zm : ℕ} {q : ℝ}
    (hZ : ∀ i, 0 < (E i).Z) (hZm : ∀ i, (E i).Z ≤ Zm) (hg : ∀ i, ∀ k ≤ (E i).Z, 0 < (E i).g k) (hT : 0 < T)
    (hN : ∀ i, 0 < (E i).N) (hfew : ∑ i, (E i).Z * (E i).N ≤ exp 1000)
    (hL : ∀ z, (∀ j, 0 < z j) → ∀ i k, 0 ≤ L z i k)
    (hgr : ∀ z z' (a : ℝ), (∀ j, 0 < z j) → (∀ j, 0 < z' j) → 1 ≤ a → (∀ j, z' j ≤ a * z j) → ∀ i k,
      L z' i k ≤ a * L z i k)
    (hE : ∀ i, ∀ k < (E i).Z, L (fun _ => Zm) i k < (E i).E k)
    (h0 : ∃ i, 2 ≤ (E i).N ∧ 1 ≤ sahaEquation u ((E i).g 0) ((E i).g 1) T ((E i).E 0))
    (hcl : ∀ z, InBox Zm z → ∀ y ∈ Set.Icc (log (1 / 100000000) - 1) (log (∑ i, (E i).Z * (E i).N) + 1), ∀ i,
      Unclipped (mix u E T b (fun i k => -L z i k) i) y)
    (hq0 : 0 ≤ q) (hq1 : q < 1) (hq : ∀ i, ∀ k < (E i).Z, L (fun _ => Zm) i k ≤ q / (2 * Zm) * (u.kB * T)) :
    WeakMixture u E T b (fun z i k => -L z i k) Zm q := by
  have hkT : 0 < u.kB * T := mul_pos u.kB_pos hT
  have hmax : ∀ z, InBox Zm z → ∀ i k, L z i k ≤ L (fun _ => Zm) i k := by
    intro z hz i k
    have := hgr (fun _ => (Zm : ℝ)) z 1 (fun j => (hz j).1.trans_le (hz j).2) (fun j => (hz j).1) le_rfl
      (fun j => by rw [one_mul]; exact (hz j).2) i k
    rwa [one_mul] at this
  refine ⟨hZ, hZm, hg, hT, hN, hfew, fun z hz i k hk => ?_, fun z hz => ?_, hcl, hq0, hq1, ?_⟩
  · linarith [hmax z hz i k, hE i k hk]
  · obtain ⟨i, hi, hc⟩ := h0
    refine ⟨i, hi, hc.trans ?_⟩
    have hz0 := hL z (fun j => (hz j).1) i 0
    unfold sahaEquation
    have hp : 0 ≤ (E i).g 1 / (E i).g 0 * 2 / thermDeBroglie u T ^ 3 := by
      have := thermDeBroglie_pos u hT
      have := hg i 0 (Nat.zero_le _)
      have := hg i 1 (hZ i)
      positivity
    refine mul_le_mul_of_nonneg_left (exp_le_exp.2 ?_) hp
    exact div_le_div_of_nonneg_right (by linarith) hkT.le
  · intro z z' hz hz' D hD i k hk
    have hD0 : 0 ≤ D := (abs_nonneg _).trans (hD i)
    have hfac : ∀ {x y : ℝ}, 0 < x → 0 < y → log y - log x ≤ D → y ≤ exp D * x := by
      intro x y hx hy h
      calc y = exp (log y) := (exp_log hy).symm
        _ ≤ exp (D + log x) := exp_le_exp.2 (by linarith)
        _ = _ := by rw [exp_add, exp_log hx]
    have k1 := hgr z' z (exp D) (fun j => (hz' j).1) (fun j => (hz j).1) (one_le_exp hD0)
      (fun j => hfac (hz' j).1 (hz j).1 (abs_le.1 (hD j)).2) i k
    have k2 := hgr z z' (exp D) (fun j => (hz j).1) (fun j => (hz' j).1) (one_le_exp hD0)
      (fun j => hfac (hz j).1 (hz' j).1 (by linarith [(abs_le.1 (hD j)).1])) i k
    have := graded_diff (hL z (fun j => (hz j).1) i k) (hL z' (fun j => (hz' j).1) i k) (hmax z hz i k) (hmax z' hz' i k)
      k1 k2 hD0
    have e1 : -L z i k - -L z' i k = -(L z i k - L z' i k) := by ring
    rw [e1, abs_neg]
    exact this.trans (mul_le_mul_of_nonneg_right (hq i k hk) hD0)

/-! ### Stewart and Pyatt -/

/-- How far the continuum is lowered for the charge states of element `i`, as `all_element_states` of the model of Stewart
and Pyatt returns it for the mean charges `z`, without the sign (models.py 3743-3766). -/
noncomputable def spLowering (u : Consts) {n : ℕ} (E : Fin n → Elem) (Ti : Fin n → ℝ) (Te : ℝ) (z : Fin n → ℝ) (i : Fin n)
    (k : ℕ) : ℝ :=
  -Ipd.stewartPyatt u none (k : ℝ) z (fun j => (E j).N) Ti (∑ j, z j * (E j).N) Te i

/-- This is what the model returns for a state whose elements have the charges `z`. -/
theorem spLowering_all {n : ℕ} (mu : ℝ → ℝ → ℝ) (s : Ipd.IpdState n) (pop : Option (List ℝ)) {E : Fin n → Elem}
    (hN : s.ni = fun j => (E j).N) (hne : s.ne = ∑ j, s.Zfree j * (E j).N) :
    Ipd.IpdModel.all u mu s pop (.stewartPyatt none) =
      some fun j => (List.range (s.Z j)).map fun k => -spLowering u E s.Ti s.Te s.Zfree j k := by
  simp only [Ipd.IpdModel.all, Ipd.stages, hN, hne, Option.isSome_some, implies_true, if_true, Option.getD_some,
    spLowering, neg_neg]

theorem spLowering_nonneg {n : ℕ} {E : Fin n → Elem} {Ti : Fin n → ℝ} {Te : ℝ} (hN : ∀ j, 0 < (E j).N)
    (hTi : ∀ j, 0 < Ti j) (hTe : 0 < Te) {z : Fin n → ℝ} (hz : ∀ j, 0 < z j) (i : Fin n) (k : ℕ) :
    0 ≤ spLowering u E Ti Te z i k := by
  have h1 := u.eps0_pos
  have h3 := pi_pos
  have hN0 : 0 < ∑ j, (E j).N := sum_pos (fun j _ => hN j) ⟨i, mem_univ _⟩
  have hne : 0 < ∑ j, z j * (E j).N := sum_pos (fun j _ => mul_pos (hz j) (hN j)) ⟨i, mem_univ _⟩
  have hR := Ipd.sphere_pos hN0
  have hk := Ipd.kappaD_pos u (arb := none) (fun j => Ipd.clipZ (z j)) (fun j => (hN j).le) (hTi i)
    (Ipd.kappaESq_pos u hne hTe)
  have hcz := Ipd.clipZ_pos (k : ℝ)
  unfold spLowering
  rw [Ipd.stewartPyatt_eq, neg_div, neg_mul, neg_neg]
  exact mul_nonneg (by positivity) (Ipd.spG_pos (by positivity)).le

/-- C88: for one element the lowering of Stewart and Pyatt fulfils the condition for convergence if that in the fully
ionized plasma is at most `q < 1` times the temperature. -/
theorem stewartPyatt_weak {e : Elem} {T Ti : ℝ} {b : Bool} {q : ℝ} (hZ : 0 < e.Z) (hg : ∀ k ≤ e.Z, 0 < e.g k) (hT : 0 < T)
    (hTi : 0 < Ti) (hN : 2 ≤ e.N) (hfew : e.Z * e.N ≤ exp 1000)
    (hE : ∀ k < e.Z, spLowering u (fun _ : Fin 1 => e) (fun _ => Ti) T (fun _ => e.Z) 0 k < e.E k)
    (h0 : 1 ≤ sahaEquation u (e.g 0) (e.g 1) T (e.E 0))
    (hcl : ∀ z : ℝ, 0 < z → z ≤ e.Z → Clear (sahaSpecies u e.Z e.g e.E
      (fun k => -spLowering u (fun _ : Fin 1 => e) (fun _ => Ti) T (fun _ => z) 0 k) T e.N b))
    (hq0 : 0 ≤ q) (hq1 : q < 1)
    (hq : ∀ k < e.Z, spLowering u (fun _ : Fin 1 => e) (fun _ => Ti) T (fun _ => e.Z) 0 k ≤ q * (u.kB * T)) :
    WeakLowering u e T b (fun z k => -spLowering u (fun _ : Fin 1 => e) (fun _ => Ti) T (fun _ => z) 0 k) q := by
  have hN0 : 0 < e.N := by linarith
  exact weak_of_graded hZ hg hT hN hfew
    (fun z hz k => spLowering_nonneg (fun _ => hN0) (fun _ => hTi) hT (fun _ => hz) 0 k)
    (fun z z' a hz hz' ha h k => Ipd.stewartPyatt_graded u (fun _ => hN0) (fun _ => hTi) hT k (fun _ => hz) (fun _ => hz') ha
      (fun _ => h) 0) hE h0 hcl hq0 hq1 hq

/-- C88: in a mixture it is enough that the lowering in the plasma with the charges `Zm`, the largest atomic number, is at
most `q / (2 Zm)` times the temperature. -/
theorem stewartPyatt_mixture {n : ℕ} {E : Fin n → Elem} {T : ℝ} {Ti : Fin n → ℝ} {b : Bool} {Zm : ℕ} {q : ℝ}
    (hZ : ∀ i, 0 < (E i).Z) (hZm : ∀ i, (E i).Z ≤ Zm) (hg : ∀ i, ∀ k ≤ (E i).Z, 0 < (E i).g k) (hT : 0 < T)
    (hTi : ∀ i, 0 < Ti i) (hN : ∀ i, 0 < (E i).N) (hfew : ∑ i, (E i).Z * (E i).N ≤ exp 1000)
    (hE : ∀ i, ∀ k < (E i).Z, spLowering u E Ti T (fun _ => Zm) i k < (E i).E k)
    (h0 : ∃ i, 2 ≤ (E i).N ∧ 1 ≤ sahaEquation u ((E i).g 0) ((E i).g 1) T ((E i).E 0))
    (hcl : ∀ z, InBox Zm z → ∀ y ∈ Set.Icc (log (1 / 100000000) - 1) (log (∑ i, (E i).Z * (E i).N) + 1), ∀ i,
      Unclipped (mix u E T b (fun i k => -spLowering u E Ti T z i k) i) y)
    (hq0 : 0 ≤ q) (hq1 : q < 1)
    (hq : ∀ i, ∀ k < (E i).Z, spLowering u E Ti T (fun _ => Zm) i k ≤ q / (2 * Zm) * (u.kB * T)) :
    WeakMixture u E T b (fun z i k => -spLowering u E Ti T z i k) Zm q :=
  mixture_of_graded hZ hZm hg hT hN hfew (fun _ hz i k => spLowering_nonneg hN hTi hT hz i k)
    (fun _ _ _ hz hz' ha h i k => Ipd.stewartPyatt_graded u hN hTi hT k hz hz' ha h i) hE h0 hcl hq0 hq1 hq

/-! ### The hypotheses can be met -/

theorem hydrogen_sp {n : ℕ} (hn : n ≤ 2) {T : ℝ} (hT : 0 < T) {z : Fin n → ℝ} (hz : ∀ j, 0 < z j) (i : Fin n) :
    0 ≤ spLowering unitConsts (fun _ => hydrogen (2 * π)) (fun _ => T) T z i 0 ∧
      spLowering unitConsts (fun _ => hydrogen (2 * π)) (fun _ => T) T z i 0 ≤ 1 := by
  have hpi := pi_pos
  have hpi3 := pi_gt_three
  have hpi4 := pi_lt_four
  have h2N : (hydrogen (2 * π)).N = 2 := rfl
  have hN : ∀ j : Fin n, 0 < ((fun _ : Fin n => hydrogen (2 * π)) j).N := fun _ => two_pos
  refine ⟨spLowering_nonneg hN (fun _ => hT) hT hz i 0, ?_⟩
  have hn1 : (1 : ℝ) ≤ n := by exact_mod_cast Nat.one_le_iff_ne_zero.2 (by rintro rfl; exact i.elim0)
  have hn2 : (n : ℝ) ≤ 2 := by exact_mod_cast hn
  have hsum : ∑ _j : Fin n, (hydrogen (2 * π)).N = n * 2 := by simp [h2N]
  have hne : 0 < ∑ j, z j * (hydrogen (2 * π)).N := sum_pos (fun j _ => mul_pos (hz j) (hN j)) ⟨i, mem_univ _⟩
  have hR : 1 / 3 ≤ Ipd.sphere (fun _ : Fin n => (hydrogen (2 * π)).N) := by
    unfold Ipd.sphere
    rw [hsum]
    have e : (1 / 3 : ℝ) = ((1 / 3) ^ 3) ^ (1 / 3 : ℝ) := by
      rw [← rpow_natCast, ← rpow_mul (by norm_num)]
      norm_num
    refine e.le.trans (rpow_le_rpow (by norm_num) ?_ (by norm_num))
    rw [le_div_iff₀ (by positivity)]
    nlinarith
  have hk := Ipd.kappaD_pos unitConsts (arb := none) (fun j => Ipd.clipZ (z j)) (fun j => (hN j).le) hT
    (Ipd.kappaESq_pos unitConsts hne hT)
  unfold spLowering
  rw [Ipd.stewartPyatt_eq, neg_div, neg_mul, neg_neg]
  generalize Ipd.sphere (fun _ : Fin n => (hydrogen (2 * π)).N) = R at *
  have hg := Ipd.spG_le_one (s := 1 / Ipd.kappaD unitConsts none (fun j => Ipd.clipZ (z j))
    (fun j : Fin n => (hydrogen (2 * π)).N) (∑ j, z j * (hydrogen (2 * π)).N) T T / R)
    (div_nonneg (one_div_nonneg.2 hk.le) (by linarith))
  have hc : Ipd.clipZ ((0 : ℕ) : ℝ) ≤ 1 / 2 := by simp [Ipd.clipZ]; norm_num
  have hp : 3 * (Ipd.clipZ ((0 : ℕ) : ℝ) + 1) * unitConsts.e ^ 2 / (8 * π * unitConsts.eps0 * R) ≤ 1 := by
    simp only [unitConsts]
    rw [div_le_one (by positivity)]
    have := mul_le_mul hpi3.le hR (by norm_num) hpi.le
    generalize Ipd.clipZ ((0 : ℕ) : ℝ) = c at *
    linarith
  have hcp := Ipd.clipZ_pos ((0 : ℕ) : ℝ)
  have hp0 : 0 ≤ 3 * (Ipd.clipZ ((0 : ℕ) : ℝ) + 1) * unitConsts.e ^ 2 / (8 * π * unitConsts.eps0 * R) := by
    simp only [unitConsts]
    positivity
  exact (mul_le_mul_of_nonneg_left hg hp0).trans (by linarith)

theorem hydrogen_coeff {x : ℝ} (h0 : 0 ≤ x) (h1 : x ≤ 1) :
    12 ≤ sahaEquation unitConsts 1 1 (2 * π * 2 ^ 2) (2 * π + -x) ∧
      sahaEquation unitConsts 1 1 (2 * π * 2 ^ 2) (2 * π + -x) ≤ 16 := by
  have hpi := pi_pos
  have hpi3 := pi_gt_three
  have e : 2 * π + -x = 2 * π * (1 + -x / (2 * π)) := by field_simp
  rw [e, unit_saha 2 _ two_pos]
  have h2 : -1 ≤ -x / (2 * π) := by
    rw [le_div_iff₀ (by positivity)]
    linarith
  have h3 : -x / (2 * π) ≤ 0 := div_nonpos_of_nonpos_of_nonneg (by linarith) (by positivity)
  generalize -x / (2 * π) = w at *
  have h4 := add_one_le_exp (-(1 + w) / 2 ^ 2)
  have h5 : exp (-(1 + w) / 2 ^ 2) ≤ exp 0 := exp_le_exp.2 (by linarith)
  rw [exp_zero] at h5
  constructor <;> linarith

theorem hydrogen_unclipped {L : ℕ → ℝ} (h0 : 0 ≤ L 0) (h1 : L 0 ≤ 1) {y : ℝ} (hy : log (1 / 100000000) - 1 ≤ y)
    (hy' : y ≤ log 4 + 1) : Unclipped (sahaSpecies unitConsts (hydrogen (2 * π)).Z (hydrogen (2 * π)).g
      (hydrogen (2 * π)).E (fun k => -L k) (2 * π * 2 ^ 2) (hydrogen (2 * π)).N true) y := by
  intro k hk
  have hk' : k ≤ 1 := hk
  have h2 := log_le_sub_one_of_pos (x := 4) (by norm_num)
  have h3 := log_small
  interval_cases k
  · simp
  · rw [sum_range_one]
    obtain ⟨c1, c2⟩ := hydrogen_coeff h0 h1
    change |log (sahaEquation unitConsts 1 1 (2 * π * 2 ^ 2) (2 * π + -L 0)) - y| ≤ 500
    generalize sahaEquation unitConsts 1 1 (2 * π * 2 ^ 2) (2 * π + -L 0) = c at *
    have h4 := log_nonneg (by linarith : 1 ≤ c)
    have h5 := log_le_sub_one_of_pos (by linarith : 0 < c)
    rw [abs_le]
    constructor <;> linarith

/-- Hydrogen with the lowering of Stewart and Pyatt meets the hypotheses. -/
example : WeakLowering unitConsts (hydrogen (2 * π)) (2 * π * 2 ^ 2) true (fun z k =>
    -spLowering unitConsts (fun _ : Fin 1 => hydrogen (2 * π)) (fun _ => 2 * π * 2 ^ 2) (2 * π * 2 ^ 2) (fun _ => z) 0 k)
    (1 / 2) := by
  have hpi := pi_pos
  have hpi3 := pi_gt_three
  have hT : 0 < 2 * π * 2 ^ 2 := by positivity
  have cast1 : (((hydrogen (2 * π)).Z : ℕ) : ℝ) = 1 := by simp [hydrogen]
  have hsp : ∀ z : ℝ, 0 < z → _ := fun z hz =>
    hydrogen_sp (n := 1) (by norm_num) hT (z := fun _ => z) (fun _ => hz) 0
  refine stewartPyatt_weak one_pos (fun _ _ => one_pos) hT hT (le_refl (2 : ℝ)) ?_ ?_ ?_ ?_ (by norm_num) (by norm_num) ?_
  · rw [cast1]
    change (1 : ℝ) * 2 ≤ exp 1000
    have := add_one_le_exp (1000 : ℝ)
    linarith
  · intro k hk
    have hk' : k < 1 := hk
    interval_cases k
    have := (hsp _ (by rw [cast1]; norm_num : (0 : ℝ) < ((hydrogen (2 * π)).Z : ℕ))).2
    exact this.trans_lt (by change 1 < 2 * π; linarith)
  · have := (hydrogen_coeff (x := 0) le_rfl zero_le_one).1
    rw [neg_zero, add_zero] at this
    change 1 ≤ sahaEquation unitConsts 1 1 (2 * π * 2 ^ 2) (2 * π)
    linarith
  · intro z h0 h1 y hy
    have hm : (((1 : ℕ) : ℝ)) * (2 : ℝ) ≤ 4 := by norm_num
    have hl := log_le_log (by norm_num) hm
    exact hydrogen_unclipped (hsp z h0).1 (hsp z h0).2 hy.1 (hy.2.trans (by
      change log (((1 : ℕ) : ℝ) * 2) + 1 ≤ log 4 + 1
      linarith))
  · intro k hk
    have hk' : k < 1 := hk
    interval_cases k
    have := (hsp _ (by rw [cast1]; norm_num : (0 : ℝ) < ((hydrogen (2 * π)).Z : ℕ))).2
    refine this.trans ?_
    change 1 ≤ 1 / 2 * (1 * (2 * π * 2 ^ 2))
    linarith

/-- Two hydrogens with the lowering of Stewart and Pyatt meet the hypotheses. -/
example : WeakMixture unitConsts (fun _ : Fin 2 => hydrogen (2 * π)) (2 * π * 2 ^ 2) true (fun z i k =>
    -spLowering unitConsts (fun _ : Fin 2 => hydrogen (2 * π)) (fun _ => 2 * π * 2 ^ 2) (2 * π * 2 ^ 2) z i k) 1
    (1 / 2) := by
  have hpi := pi_pos
  have hpi3 := pi_gt_three
  have hT : 0 < 2 * π * 2 ^ 2 := by positivity
  have hsum : ∑ i : Fin 2, (((hydrogen (2 * π)).Z : ℕ) : ℝ) * (hydrogen (2 * π)).N = 4 := by
    simp [hydrogen]
    norm_num
  refine stewartPyatt_mixture (fun _ => one_pos) (fun _ => le_refl 1) (fun _ _ _ => one_pos) hT (fun _ => hT)
    (fun _ => two_pos) ?_ ?_ ?_ ?_ (by norm_num) (by norm_num) ?_
  · rw [hsum]
    have := add_one_le_exp (1000 : ℝ)
    linarith
  · intro i k hk
    have hk' : k < 1 := hk
    interval_cases k
    have := (hydrogen_sp le_rfl hT (z := fun _ : Fin 2 => ((1 : ℕ) : ℝ)) (fun _ => by norm_num) i).2
    exact this.trans_lt (by change 1 < 2 * π; linarith)
  · refine ⟨0, le_refl (2 : ℝ), ?_⟩
    have := (hydrogen_coeff (x := 0) le_rfl zero_le_one).1
    rw [neg_zero, add_zero] at this
    change 1 ≤ sahaEquation unitConsts 1 1 (2 * π * 2 ^ 2) (2 * π)
    linarith
  · intro z hz y hy i
    rw [hsum] at hy
    have hb := hydrogen_sp le_rfl hT (z := z) (fun j => (hz j).1) i
    exact hydrogen_unclipped hb.1 hb.2 hy.1 hy.2
  · intro i k hk
    have hk' : k < 1 := hk
    interval_cases k
    have := (hydrogen_sp le_rfl hT (z := fun _ : Fin 2 => ((1 : ℕ) : ℝ)) (fun _ => by norm_num) i).2
    refine this.trans ?_
    change 1 ≤ 1 / 2 / (2 * ((1 : ℕ) : ℝ)) * (1 * (2 * π * 2 ^ 2))
    push_cast
    linarith

end Verif.Saha
