/-
C88: convergence of the iteration for the mean charges with the chemical potential of the code (the interpolation of
Ichimaru).
-/
import Verif.Props.SahaFamily
import Verif.Props.SahaStewart
import Verif.Props.Fermi

set_option autoImplicit false

open Real Finset Verif.Expt Verif.Resp

namespace Verif.Saha

/-- The numerator of the correction of the interpolation to the classical chemical potential, at the temperature `t` in units
of the Fermi energy. -/
noncomputable def ichiTop (t : ℝ) : ℝ :=
  25954 / 100000 * t ^ (-(858 / 1000) - 1 : ℝ) + 72 / 1000 * t ^ (-(858 / 1000 + 1) / 2 : ℝ)

/-- The correction. -/
noncomputable def ichiH (t : ℝ) : ℝ := ichiTop t / (1 + 25954 / 100000 * t ^ (-(858 / 1000) : ℝ))

theorem ichiTop_pos {t : ℝ} (ht : 0 < t) : 0 < ichiTop t := by
  unfold ichiTop
  positivity

theorem ichiH_pos {t : ℝ} (ht : 0 < t) : 0 < ichiH t := by
  have := ichiTop_pos ht
  unfold ichiH
  positivity

theorem ichiH_le {t : ℝ} (ht : 0 < t) : ichiH t ≤ ichiTop t := by
  have h := ichiTop_pos ht
  refine div_le_self h.le ?_
  have : 0 < t ^ (-(858 / 1000) : ℝ) := rpow_pos_of_pos ht _
  linarith

theorem ichiTop_anti {t s : ℝ} (ht : 0 < t) (h : t ≤ s) : ichiTop s ≤ ichiTop t := by
  have h1 := rpow_le_rpow_of_nonpos ht h (by norm_num : (-(858 / 1000) - 1 : ℝ) ≤ 0)
  have h2 := rpow_le_rpow_of_nonpos ht h (by norm_num : (-(858 / 1000 + 1) / 2 : ℝ) ≤ 0)
  unfold ichiTop
  linarith

/-- A power grows by at most the power of the factor. -/
theorem rpow_factor {t s d p c : ℝ} (ht : 0 < t) (hs : 0 < s) (hd : |log t - log s| ≤ d) (hp : |p| ≤ c) :
    t ^ p ≤ exp (c * d) * s ^ p := by
  rw [rpow_def_of_pos ht, rpow_def_of_pos hs, ← exp_add]
  refine exp_le_exp.2 ?_
  have h1 : (log t - log s) * p ≤ d * c := by
    refine (le_abs_self _).trans ?_
    rw [abs_mul]
    exact mul_le_mul hd hp (abs_nonneg _) ((abs_nonneg _).trans hd)
  linarith

/-- The correction changes by a factor of at most the power 1.858 of that of its argument. -/
theorem ichiH_factor {t s d : ℝ} (ht : 0 < t) (hs : 0 < s) (hd : |log t - log s| ≤ d) :
    ichiH t ≤ exp (1858 / 1000 * d) * ichiH s := by
  have hd0 := (abs_nonneg _).trans hd
  have hts := ichiTop_pos hs
  have htt := ichiTop_pos ht
  have ps : 0 < s ^ (-(858 / 1000) : ℝ) := rpow_pos_of_pos hs _
  have pt : 0 < t ^ (-(858 / 1000) : ℝ) := rpow_pos_of_pos ht _
  have e1 : 1 ≤ exp (1858 / 1000 * d) := one_le_exp (by positivity)
  unfold ichiH
  rw [← mul_div_assoc, div_le_div_iff₀ (by linarith) (by linarith)]
  rcases le_total t s with h | h
  · have h1 := rpow_factor (p := -(858 / 1000) - 1) (c := 1858 / 1000) ht hs hd (by rw [abs_of_nonpos] <;> norm_num)
    have h2 := rpow_factor (p := -(858 / 1000 + 1) / 2) (c := 1858 / 1000) ht hs hd (by rw [abs_of_nonpos] <;> norm_num)
    have h3 := rpow_le_rpow_of_nonpos ht h (by norm_num : (-(858 / 1000) : ℝ) ≤ 0)
    have h4 : ichiTop t ≤ exp (1858 / 1000 * d) * ichiTop s := by
      unfold ichiTop
      rw [mul_add]
      linarith
    exact mul_le_mul h4 (by linarith) (by linarith) (by positivity)
  · have h1 := ichiTop_anti hs h
    have h2 := rpow_factor (d := d) (p := -(858 / 1000)) (c := 1858 / 1000) hs ht (by rwa [abs_sub_comm])
      (by rw [abs_of_nonpos] <;> norm_num)
    have h3 : 1 + 25954 / 100000 * s ^ (-(858 / 1000) : ℝ) ≤
        exp (1858 / 1000 * d) * (1 + 25954 / 100000 * t ^ (-(858 / 1000) : ℝ)) := by
      rw [mul_add]
      linarith
    calc _ ≤ ichiTop s * (exp (1858 / 1000 * d) * (1 + 25954 / 100000 * t ^ (-(858 / 1000) : ℝ))) :=
          mul_le_mul h1 h3 (by linarith) hts.le
      _ = _ := by ring

section

variable {u : Consts}

/-- The chemical potential of the code is the classical one and the correction. -/
theorem chemPotIchimaru_split {T ne : ℝ} (hT : 0 < T) (hn : 0 < ne) :
    chemPotIchimaru u T ne / (u.kB * T) = log (degeneracyParam u ne T / 2) + ichiH (u.kB * T / fermiEnergy u ne) := by
  have hE := fermiEnergy_pos u hn
  have hB := u.kB_pos
  have hth : 0 < u.kB * T / fermiEnergy u ne := by positivity
  have hc : 0 < 4 / (3 * sqrt π) := by
    have := sqrt_pos.2 pi_pos
    positivity
  have e0 : degeneracyParam u ne T / 2 = 4 / (3 * sqrt π) * (u.kB * T / fermiEnergy u ne) ^ (-(3 / 2) : ℝ) :=
    degeneracyParam_eq u hn hT
  have e1 : chemPotIchimaru u T ne / (u.kB * T) = ichimaruF (25954 / 100000) (72 / 1000) (858 / 1000)
      (u.kB * T / fermiEnergy u ne) := by
    unfold chemPotIchimaru
    field_simp
  rw [e1, e0, log_mul hc.ne' (rpow_pos_of_pos hth _).ne', log_rpow hth]
  unfold ichimaruF ichiH ichiTop
  ring

/-- At densities up to `nm` the deviation from the classical gas changes by at most a multiple of the relative change of the
density. -/
theorem ichimaru_lip {T nm n1 n2 D : ℝ} (hT : 0 < T) (h1 : 0 < n1) (h2 : 0 < n2) (h1m : n1 ≤ nm) (h2m : n2 ≤ nm)
    (hD : |log n1 - log n2| ≤ D) :
    |(log n1 - chemPotIchimaru u T n1 / (u.kB * T)) - (log n2 - chemPotIchimaru u T n2 / (u.kB * T))| ≤
      ichiTop (u.kB * T / fermiEnergy u nm) * (1858 / 1500 * D) := by
  have hB := u.kB_pos
  have hm := h1.trans_le h1m
  have hpi := pi_pos
  have hD0 := (abs_nonneg _).trans hD
  have p := thermDeBroglie_pos u hT
  have hdev : ∀ n, 0 < n → log n - chemPotIchimaru u T n / (u.kB * T) =
      -log (thermDeBroglie u T ^ 3 / 2) - ichiH (u.kB * T / fermiEnergy u n) := by
    intro n hn
    have e : degeneracyParam u n T / 2 = n * (thermDeBroglie u T ^ 3 / 2) := by
      unfold degeneracyParam
      ring
    rw [chemPotIchimaru_split hT hn, e, log_mul hn.ne' (by positivity)]
    ring
  have hEm : ∀ n, 0 < n → n ≤ nm → fermiEnergy u n ≤ fermiEnergy u nm := by
    intro n hn hnm
    unfold fermiEnergy
    have := u.hbar_pos
    have := u.me_pos
    gcongr
  have hlog : ∀ n, 0 < n → log (u.kB * T / fermiEnergy u n) =
      log (u.kB * T) - log (u.hbar ^ 2 / (2 * u.me)) - 2 / 3 * log (3 * π ^ 2) - 2 / 3 * log n := by
    intro n hn
    have := u.hbar_pos
    have := u.me_pos
    rw [log_div (by positivity) (fermiEnergy_pos u hn).ne', fermiEnergy, log_mul (by positivity)
      (rpow_pos_of_pos (by positivity) _).ne', log_rpow (by positivity), log_mul (by positivity) hn.ne']
    ring
  have t1 : 0 < u.kB * T / fermiEnergy u n1 := div_pos (by positivity) (fermiEnergy_pos u h1)
  have t2 : 0 < u.kB * T / fermiEnergy u n2 := div_pos (by positivity) (fermiEnergy_pos u h2)
  have tm : 0 < u.kB * T / fermiEnergy u nm := div_pos (by positivity) (fermiEnergy_pos u hm)
  have hd : |log (u.kB * T / fermiEnergy u n1) - log (u.kB * T / fermiEnergy u n2)| ≤ 2 / 3 * D := by
    rw [hlog n1 h1, hlog n2 h2, abs_le]
    obtain ⟨a, b⟩ := abs_le.1 hD
    constructor <;> linarith
  have hM : ∀ n, 0 < n → n ≤ nm → ichiH (u.kB * T / fermiEnergy u n) ≤ ichiTop (u.kB * T / fermiEnergy u nm) := by
    intro n hn hnm
    have hEn := fermiEnergy_pos u hn
    refine (ichiH_le (div_pos (by positivity) hEn)).trans (ichiTop_anti tm ?_)
    exact div_le_div_of_nonneg_left (by positivity) hEn (hEm n hn hnm)
  rw [hdev n1 h1, hdev n2 h2, sub_sub_sub_cancel_left, abs_sub_comm]
  have e : (1858 / 1500 * D : ℝ) = 1858 / 1000 * (2 / 3 * D) := by ring
  rw [e]
  exact graded_diff (ichiH_pos t1).le (ichiH_pos t2).le (hM n1 h1 h1m) (hM n2 h2 h2m) (ichiH_factor t1 t2 hd)
    (ichiH_factor t2 t1 (by rwa [abs_sub_comm])) (by positivity)

variable {n : ℕ}

/-- C88: with the chemical potential of the code the iteration converges if the lowering is weak and the plasma is hot
enough: the correction to the classical chemical potential at the density of all electrons has to be small. -/
theorem ichimaru_family {E : Fin n → Elem} {T : ℝ} {b : Bool} {cl : (Fin n → ℝ) → Fin n → ℕ → ℝ} {Zm : ℕ} {q r : ℝ}
    (hZ : ∀ i, 0 < (E i).Z) (hZm : ∀ i, (E i).Z ≤ Zm) (hg : ∀ i, ∀ k ≤ (E i).Z, 0 < (E i).g k) (hT : 0 < T)
    (hN : ∀ i, 0 < (E i).N) (hfew : ∑ i, (E i).Z * (E i).N ≤ exp 1000)
    (hE : ∀ z, InBox Zm z → ∀ i, ∀ k < (E i).Z, 0 < (E i).E k + cl z i k)
    (h0 : ∀ z, InBox Zm z → ∃ i, 2 ≤ (E i).N ∧
      1 ≤ genSahaEquation u ((E i).g 0) ((E i).g 1) T (∑ j, z j * (E j).N) ((E i).E 0 + cl z i 0)
        (chemPotIchimaru u T (∑ j, z j * (E j).N)))
    (hcl : ∀ z, InBox Zm z → ∀ y ∈ Set.Icc (log (1 / 100000000) - 1) (log (∑ i, (E i).Z * (E i).N) + 1), ∀ i,
      Unclipped (genMix u E T (∑ j, z j * (E j).N) (chemPotIchimaru u T (∑ j, z j * (E j).N)) b (cl z) i) y)
    (hq : 0 ≤ q) (hr : 0 ≤ r) (hqr : q + r < 1)
    (hlip : ∀ z z', InBox Zm z → InBox Zm z' → ∀ D : ℝ, (∀ i, |log (z i) - log (z' i)| ≤ D) → ∀ i, ∀ k < (E i).Z,
      |cl z i k - cl z' i k| ≤ q / (2 * Zm) * (u.kB * T) * D)
    (hot : ichiTop (u.kB * T / fermiEnergy u (∑ i, Zm * (E i).N)) * (1858 / 1500) ≤ r / (2 * Zm)) :
    WeakFamily (fun z => genMix u E T (∑ i, z i * (E i).N) (chemPotIchimaru u T (∑ j, z j * (E j).N)) b (cl z))
      (fun i => (E i).Z) (fun i => (E i).N) Zm (q + r) := by
  have hkT : 0 < u.kB * T := mul_pos u.kB_pos hT
  refine gen_family hZ hZm hg hN hfew hE h0 hcl (by linarith) hqr fun z z' hz hz' D hD i k hk => ?_
  have hD0 : 0 ≤ D := (abs_nonneg _).trans (hD i)
  have hfac : ∀ {x y : ℝ}, 0 < x → 0 < y → log y - log x ≤ D → y ≤ exp D * x := by
    intro x y hx hy h
    calc y = exp (log y) := (exp_log hy).symm
      _ ≤ exp (D + log x) := exp_le_exp.2 (by linarith)
      _ = _ := by rw [exp_add, exp_log hx]
  have hne : ∀ z, InBox Zm z → 0 < ∑ j, z j * (E j).N := fun z hz =>
    sum_pos (fun j _ => mul_pos (hz j).1 (hN j)) ⟨i, mem_univ _⟩
  have hnm : ∀ z, InBox Zm z → ∑ j, z j * (E j).N ≤ ∑ j, Zm * (E j).N := fun z hz =>
    sum_le_sum fun j _ => mul_le_mul_of_nonneg_right (hz j).2 (hN j).le
  have key : ∀ z z', InBox Zm z → InBox Zm z' → (∀ i, |log (z i) - log (z' i)| ≤ D) →
      log (∑ j, z j * (E j).N) - log (∑ j, z' j * (E j).N) ≤ D := by
    intro z z' hz hz' h
    have h1 : ∑ j, z j * (E j).N ≤ exp D * ∑ j, z' j * (E j).N := by
      rw [mul_sum]
      refine sum_le_sum fun j _ => ?_
      rw [← mul_assoc]
      exact mul_le_mul_of_nonneg_right (hfac (hz' j).1 (hz j).1 (abs_le.1 (h j)).2) (hN j).le
    have h2 := log_le_log (hne z hz) h1
    rw [log_mul (exp_pos _).ne' (hne z' hz').ne', log_exp] at h2
    linarith
  have hlogn : |log (∑ j, z j * (E j).N) - log (∑ j, z' j * (E j).N)| ≤ D := by
    rw [abs_le]
    have := key z z' hz hz' hD
    have := key z' z hz' hz fun j => by rw [abs_sub_comm]; exact hD j
    constructor <;> linarith
  have h1 := ichimaru_lip (u := u) hT (hne z hz) (hne z' hz') (hnm z hz) (hnm z' hz') hlogn
  have h2 := hlip z z' hz hz' D hD i k hk
  have h3 : |cl z i k / (u.kB * T) - cl z' i k / (u.kB * T)| ≤ q / (2 * Zm) * D := by
    rw [← sub_div, abs_div, abs_of_pos hkT, div_le_iff₀ hkT]
    refine h2.trans (le_of_eq ?_)
    ring
  have h4 := mul_le_mul_of_nonneg_right hot hD0
  have e : (q + r) / (2 * Zm) * D = r / (2 * Zm) * D + q / (2 * Zm) * D := by ring
  rw [e, add_div, add_div]
  calc _ = |((log (∑ j, z j * (E j).N) - chemPotIchimaru u T (∑ j, z j * (E j).N) / (u.kB * T)) -
        (log (∑ j, z' j * (E j).N) - chemPotIchimaru u T (∑ j, z' j * (E j).N) / (u.kB * T))) -
        (cl z i k / (u.kB * T) - cl z' i k / (u.kB * T))| := by
          congr 1
          ring
    _ ≤ _ := abs_sub _ _
    _ ≤ _ := add_le_add (h1.trans (by linarith)) h3

end

/-- Hydrogen without lowering meets the hypotheses. -/
theorem hydrogen_ichimaru : WeakFamily (fun z => genMix unitConsts (fun _ : Fin 1 => hydrogen (2 * π)) (2 * π * 2 ^ 2)
    (∑ i, z i * ((fun _ : Fin 1 => hydrogen (2 * π)) i).N)
    (chemPotIchimaru unitConsts (2 * π * 2 ^ 2) (∑ i, z i * ((fun _ : Fin 1 => hydrogen (2 * π)) i).N)) true (fun _ _ => 0))
    (fun _ => (hydrogen (2 * π)).Z) (fun _ => (hydrogen (2 * π)).N) 1 (0 + 1 / 2) := by
  have hpi := pi_pos
  have hpi3 := pi_gt_three
  have hT : 0 < 2 * π * 2 ^ 2 := by positivity
  have hsum : ∑ _i : Fin 1, (((hydrogen (2 * π)).Z : ℕ) : ℝ) * (hydrogen (2 * π)).N = 2 := by simp [hydrogen]
  have hsum1 : ∑ _i : Fin 1, ((1 : ℕ) : ℝ) * (hydrogen (2 * π)).N = 2 := by simp [hydrogen]
  have hEF : fermiEnergy unitConsts 2 ≤ 8 := by
    have h64 : (64 : ℝ) ^ (2 / 3 : ℝ) = 16 := by
      rw [show (64 : ℝ) = 4 ^ (3 : ℝ) by norm_num, ← rpow_mul (by norm_num)]
      norm_num
    have h1 : 3 * π ^ 2 * 2 ≤ 64 := by nlinarith [pi_lt_d2]
    have h2 := rpow_le_rpow (by positivity) h1 (by norm_num : (0 : ℝ) ≤ 2 / 3)
    rw [h64] at h2
    simp only [fermiEnergy, unitConsts]
    linarith
  have htm : 3 ≤ unitConsts.kB * (2 * π * 2 ^ 2) / fermiEnergy unitConsts 2 := by
    rw [le_div_iff₀ (fermiEnergy_pos unitConsts two_pos)]
    change _ ≤ 1 * (2 * π * 2 ^ 2)
    linarith
  have htop : ∀ t : ℝ, 3 ≤ t → ichiTop t ≤ 16 / 100 := by
    intro t ht
    have ht0 : 0 < t := by linarith
    have h1 : t ^ (-(858 / 1000) - 1 : ℝ) ≤ 1 / 3 := by
      refine (rpow_le_rpow_of_exponent_le (by linarith) (by norm_num : (-(858 / 1000) - 1 : ℝ) ≤ -1)).trans ?_
      rw [rpow_neg_one, ← one_div]
      exact one_div_le_one_div_of_le (by norm_num) ht
    have h2 : t ^ (-(858 / 1000 + 1) / 2 : ℝ) ≤ 1 := rpow_le_one_of_one_le_of_nonpos (by linarith) (by norm_num)
    unfold ichiTop
    linarith
  have hco : ∀ z : Fin 1 → ℝ, InBox 1 z → 10 ≤ genSahaEquation unitConsts 1 1 (2 * π * 2 ^ 2)
        (∑ i, z i * ((fun _ : Fin 1 => hydrogen (2 * π)) i).N) (2 * π + 0)
        (chemPotIchimaru unitConsts (2 * π * 2 ^ 2) (∑ i, z i * ((fun _ : Fin 1 => hydrogen (2 * π)) i).N)) ∧
      genSahaEquation unitConsts 1 1 (2 * π * 2 ^ 2)
        (∑ i, z i * ((fun _ : Fin 1 => hydrogen (2 * π)) i).N) (2 * π + 0)
        (chemPotIchimaru unitConsts (2 * π * 2 ^ 2) (∑ i, z i * ((fun _ : Fin 1 => hydrogen (2 * π)) i).N)) ≤ 16 := by
    intro z hz
    obtain ⟨m, hm⟩ : ∃ m : ℝ, m = ∑ i, z i * ((fun _ : Fin 1 => hydrogen (2 * π)) i).N := ⟨_, rfl⟩
    have hmz : m = z 0 * 2 := by rw [hm]; simp [hydrogen]
    have hz0 := hz 0
    push_cast at hz0
    rw [← hm]
    have m0 : 0 < m := by linarith [hz0.1]
    have m2 : m ≤ 2 := by linarith [hz0.2]
    have hEm : fermiEnergy unitConsts m ≤ fermiEnergy unitConsts 2 := by
      simp only [fermiEnergy, unitConsts]
      gcongr
    have ht : 3 ≤ unitConsts.kB * (2 * π * 2 ^ 2) / fermiEnergy unitConsts m := by
      refine htm.trans (div_le_div_of_nonneg_left ?_ (fermiEnergy_pos unitConsts m0) hEm)
      change 0 ≤ 1 * (2 * π * 2 ^ 2)
      positivity
    have hh0 := ichiH_pos (lt_of_lt_of_le (by norm_num) ht)
    have hh1 := (ichiH_le (lt_of_lt_of_le (by norm_num) ht)).trans (htop _ ht)
    have hsplit := chemPotIchimaru_split (u := unitConsts) hT m0
    have hcl := (genSaha_eq_iff unitConsts (gi := 1) (gj := 1) (dE := 2 * π + 0) one_ne_zero one_ne_zero hT m0).2 rfl
    have hsaha := hydrogen_coeff (x := 0) le_rfl zero_le_one
    rw [neg_zero] at hsaha
    generalize ichiH (unitConsts.kB * (2 * π * 2 ^ 2) / fermiEnergy unitConsts m) = h at *
    have hd : genSahaEquation unitConsts 1 1 (2 * π * 2 ^ 2) m (2 * π + 0) (chemPotIchimaru unitConsts (2 * π * 2 ^ 2) m) =
        sahaEquation unitConsts 1 1 (2 * π * 2 ^ 2) (2 * π + 0) * exp (-h) := by
      have hk : unitConsts.kB * (2 * π * 2 ^ 2) ≠ 0 := by
        change (1 : ℝ) * (2 * π * 2 ^ 2) ≠ 0
        positivity
      rw [← hcl]
      simp only [genSahaEquation, one_mul, neg_div]
      rw [hsplit, mul_div_cancel_left₀ _ hk, neg_add, exp_add]
      ring
    rw [hd]
    have e1 := add_one_le_exp (-h)
    have e2 : exp (-h) ≤ 1 := exp_le_one_iff.2 (by linarith)
    constructor <;> nlinarith [hsaha.1, hsaha.2, exp_pos (-h)]
  refine ichimaru_family (E := fun _ : Fin 1 => hydrogen (2 * π)) (cl := fun _ _ _ => 0) (fun _ => one_pos)
    (fun _ => le_refl 1) (fun _ _ _ => one_pos) hT (fun _ => two_pos) ?_ ?_ ?_ ?_ le_rfl (by norm_num) (by norm_num) ?_ ?_
  · rw [hsum]
    have := add_one_le_exp (1000 : ℝ)
    linarith
  · intro z hz i k hk
    change 0 < 2 * π + 0
    linarith
  · intro z hz
    exact ⟨0, le_refl (2 : ℝ), (by norm_num : (1 : ℝ) ≤ 10).trans (hco z hz).1⟩
  · intro z hz y hy i k hk
    rw [hsum] at hy
    have hk' : k ≤ 1 := hk
    have h2 := log_le_sub_one_of_pos (x := 2) (by norm_num)
    have h3 := log_small
    obtain ⟨y1, y2⟩ := hy
    obtain ⟨c1, c2⟩ := hco z hz
    interval_cases k
    · simp
    · rw [sum_range_one]
      change |log (genSahaEquation unitConsts 1 1 (2 * π * 2 ^ 2) (∑ i, z i * ((fun _ : Fin 1 => hydrogen (2 * π)) i).N)
        (2 * π + 0) (chemPotIchimaru unitConsts (2 * π * 2 ^ 2)
          (∑ i, z i * ((fun _ : Fin 1 => hydrogen (2 * π)) i).N))) - y| ≤ 500
      generalize genSahaEquation unitConsts 1 1 (2 * π * 2 ^ 2) _ (2 * π + 0) _ = c at *
      have h4 := log_nonneg (by linarith : 1 ≤ c)
      have h5 := log_le_sub_one_of_pos (by linarith : 0 < c)
      rw [abs_le]
      constructor <;> linarith
  · intro z z' hz hz' D hD i k hk
    simp
  · rw [hsum1]
    have := htop _ htm
    push_cast
    linarith

/-- A plasma with this element and the chemical potential of the code meets all hypotheses of `sahaReturns_gen`. -/
example : ∃ (p : Plasma) (o : Options) (zs : Fin 1 → ℝ) (out : Loop),
    p.elems = (List.finRange 1).map (fun _ => hydrogen (2 * π)) ∧ o.useIpd = true ∧ o.useChemPot = true ∧
    o.useDistribution = false ∧ (∀ z : Fin 1 → ℝ, p.ipd ((List.finRange 1).map z) none = (List.finRange 1).map fun _ _ => 0) ∧
    (∀ z : Fin 1 → ℝ, p.mu ((List.finRange 1).map z) = chemPotIchimaru unitConsts p.T
      (∑ i, z i * ((fun _ : Fin 1 => hydrogen (2 * π)) i).N)) ∧
    1 = (p.elems.map fun e => e.Z).foldr max 0 ∧ p.T = 2 * π * 2 ^ 2 ∧ o.exclude = true ∧ InBox 1 zs ∧
    HasCharges (genMix unitConsts (fun _ : Fin 1 => hydrogen (2 * π)) p.T
      (∑ i, zs i * ((fun _ : Fin 1 => hydrogen (2 * π)) i).N) (chemPotIchimaru unitConsts p.T
      (∑ i, zs i * ((fun _ : Fin 1 => hydrogen (2 * π)) i).N)) o.exclude (fun _ _ => 0)) zs ∧
    p.SahaReturns unitConsts o [] out := by
  obtain ⟨zs, ⟨h1, h2⟩, -⟩ := hydrogen_ichimaru.exact_unique
  obtain ⟨p, hp⟩ : ∃ p : Plasma, p = ⟨(List.finRange 1).map (fun _ => hydrogen (2 * π)), 2 * π * 2 ^ 2,
    fun z _ => z.map fun _ _ => 0, fun z => chemPotIchimaru unitConsts (2 * π * 2 ^ 2) (z.getD 0 0 * 2)⟩ := ⟨_, rfl⟩
  obtain ⟨out, h, -⟩ := sahaReturns_unique unitConsts p ⟨true, true, false, true⟩ []
  refine ⟨p, ⟨true, true, false, true⟩, zs, out, by rw [hp], rfl, rfl, rfl, ?_, ?_, ?_, by rw [hp], rfl, h1, ?_, h⟩
  · intro z
    rw [hp]
    simp [List.finRange]
  · intro z
    rw [hp]
    simp [List.finRange, hydrogen]
  · rw [hp]
    simp [List.finRange, hydrogen]
  · rw [hp]
    exact h2

end Verif.Saha
