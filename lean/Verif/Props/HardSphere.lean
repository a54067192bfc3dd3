/-
Properties of the charged hard sphere model.
-/
import Verif.Props.Rayleigh
import Verif.Props.Bisection
import Mathlib.Tactic.NormNum.Prime

set_option autoImplicit false

namespace Verif.Ssf

open Real Filter Topology Set Verif.Expt Verif.Resp

variable {u : Consts}

/-! ### Screening -/

/-- C67: the screening charge of the model is the one of Debye and Hückel when there is no local field
correction. -/
theorem chsQ_eq {k kDe Z lfc : ℝ} (hk : 0 < k) (hD : 0 < kDe) (hl : lfc ≤ 1) :
    chsQ k kDe Z lfc = Z * kDe ^ 2 / (k ^ 2 + kDe ^ 2 * (1 - lfc)) := by
  have h1 : 0 ≤ 1 - lfc := by linarith
  have : 0 < k ^ 2 + kDe ^ 2 * (1 - lfc) := by positivity
  unfold chsQ chsSee0
  field_simp

theorem chsQ_dh {k kDe Z : ℝ} (hk : 0 < k) (hD : 0 < kDe) : chsQ k kDe Z 0 = qDebyeHueckel k kDe Z := by
  rw [chsQ_eq hk hD zero_le_one]
  simp [qDebyeHueckel]

theorem chsSee0_mem {k kDe lfc : ℝ} (hk : 0 < k) (hD : 0 < kDe) (hl : lfc < 1) :
    0 < chsSee0 k kDe lfc ∧ chsSee0 k kDe lfc < 1 := by
  have h1 : 0 < 1 - lfc := by linarith
  have h2 : 0 < kDe ^ 2 * (1 - lfc) := by positivity
  unfold chsSee0
  exact ⟨by positivity, by rw [div_lt_one (by positivity)]; linarith⟩

/-- C67: the determinant of the structure factors of the charged hard sphere model is the product of the
ion-ion structure factor and of the structure factor of the electrons alone, so that the matrix is
positive definite exactly when the ion-ion structure factor is positive. -/
theorem chs_det {k Te Ti ne Zf ni lfc sig : ℝ} (hz : 0 < Zf) :
    sIiCHS u k Te Ti ne Zf ni lfc sig * sEeCHS u k Te Ti ne Zf ni lfc sig -
        sEiCHS u k Te Ti ne Zf ni lfc sig ^ 2 =
      sIiCHS u k Te Ti ne Zf ni lfc sig * chsSee0 k (kDAD u Te ne) lfc := by
  unfold sEeCHS sEiCHS
  generalize sIiCHS u k Te Ti ne Zf ni lfc sig = S
  generalize chsQ k (kDAD u Te ne) Zf lfc = q
  rw [mul_pow, div_pow, sq_sqrt hz.le]
  ring

theorem chs_positive {k Te Ti ne Zf ni lfc sig : ℝ} (hk : 0 < k) (hT : 0 < Te) (hn : 0 < ne) (hz : 0 < Zf) (hl : lfc < 1)
    (hS : 0 < sIiCHS u k Te Ti ne Zf ni lfc sig) :
    0 < sEeCHS u k Te Ti ne Zf ni lfc sig ∧
      sEiCHS u k Te Ti ne Zf ni lfc sig ^ 2 <
        sIiCHS u k Te Ti ne Zf ni lfc sig * sEeCHS u k Te Ti ne Zf ni lfc sig := by
  have hD : 0 < kDAD u Te ne := by
    have := u.eps0_pos; have := u.kB_pos; have := u.e_pos
    unfold kDAD; positivity
  have h1 := (chsSee0_mem hk hD hl).1
  have h2 := chs_det (u := u) (k := k) (Te := Te) (Ti := Ti) (ne := ne) (ni := ni) (lfc := lfc) (sig := sig) hz
  refine ⟨?_, ?_⟩
  · unfold sEeCHS; positivity
  · have : 0 < sIiCHS u k Te Ti ne Zf ni lfc sig * chsSee0 k (kDAD u Te ne) lfc := by positivity
    linarith

/-- C67: the reciprocal of the ion-ion structure factor: the screening by the electrons lowers it by
`cos²(k σ / 2) κ_e² κ_i² / (k² (k² + κ_e² (1 - G)))` below the first node, and not at all above. -/
theorem chs_inverse {k kDe kDi Zf sig lfc Cii : ℝ} (hk : 0 < k) (hD : 0 < kDe) (hz : 0 < Zf) (hl : lfc ≤ 1)
    (hC : Cii ≠ 1) :
    (k < π / sig → (chsScreened k kDe kDi Zf sig lfc Cii)⁻¹ =
      1 - Cii - cos (k * sig / 2) ^ 2 * (kDe ^ 2 * kDi ^ 2) / (k ^ 2 * (k ^ 2 + kDe ^ 2 * (1 - lfc)))) ∧
    (π / sig ≤ k → (chsScreened k kDe kDi Zf sig lfc Cii)⁻¹ = 1 - Cii) := by
  have h1 : 0 ≤ 1 - lfc := by linarith
  have hp : 0 < k ^ 2 + kDe ^ 2 * (1 - lfc) := by positivity
  have hC' : 1 - Cii ≠ 0 := sub_ne_zero.2 (Ne.symm hC)
  unfold chsScreened
  simp only []
  refine ⟨fun h => ?_, fun h => ?_⟩
  · rw [if_pos h, inv_div, chsQ_eq hk hD hl]
    field_simp
    ring
  · rw [if_neg (not_lt.2 h), inv_div]
    field_simp
    ring

namespace Mix

variable {m : ℕ} {s : Mix m}

/-- C67: the screening charges of a mixture. -/
theorem chsScreening_eq (h : s.Phys) (TD : Fin m → ℝ) {k lfc sig : ℝ} (hk : 0 < k) (hT : 0 < s.Te) (hn : 0 < s.ne)
    (hl : lfc ≤ 1) (hS : sIiCHS u k (tCfGreg u s.Te s.ne) (s.tiEff TD) s.ne s.zf s.nChs lfc sig ≠ 0) (a : Fin m) :
    s.chsScreening u TD k lfc sig a = sqrt (s.Z a * s.zf) *
      (kDAD u (tCfGreg u s.Te s.ne) s.ne ^ 2 / (k ^ 2 + kDAD u (tCfGreg u s.Te s.ne) s.ne ^ 2 * (1 - lfc))) := by
  have hz := zf_pos h
  have hT' : 0 < tCfGreg u s.Te s.ne := lt_of_lt_of_le (abs_pos.2 hT.ne') (tCfGreg_ge_partial u s.Te s.ne).1
  have hD : 0 < kDAD u (tCfGreg u s.Te s.ne) s.ne := by
    have := u.eps0_pos; have := u.kB_pos; have := u.e_pos
    unfold kDAD; positivity
  have hsz : 0 < sqrt s.zf := sqrt_pos.2 hz
  unfold chsScreening qGlenzer2009 sEiCHS
  rw [chsQ_eq hk hD hl, sqrt_mul (h.Z a)]
  generalize sIiCHS u k (tCfGreg u s.Te s.ne) (s.tiEff TD) s.ne s.zf s.nChs lfc sig = S at *
  have hsz2 : sqrt s.zf ^ 2 = s.zf := sq_sqrt hz.le
  have h1 : 0 ≤ 1 - lfc := by linarith
  split_ifs with hZ
  · simp [hZ]
  · generalize sqrt s.zf = z at *
    rw [← hsz2]
    field_simp

/-- C67: electrons screen all of their charge only when all ions have the same charge: the mean screening
charge of a mixture with two different charges stays below the mean charge by a fixed factor. -/
theorem chsScreening_deficit (h : s.Phys) (TD : Fin m → ℝ) {k sig : ℝ} (hk : 0 < k) (hT : 0 < s.Te) (hn : 0 < s.ne)
    (hS : sIiCHS u k (tCfGreg u s.Te s.ne) (s.tiEff TD) s.ne s.zf s.nChs 0 sig ≠ 0)
    (hne : ∃ a, s.Z a ≠ s.zf) :
    s.mean (s.chsScreening u TD k 0 sig) < (s.mean fun a => sqrt (s.Z a * s.zf)) ∧
      (s.mean fun a => sqrt (s.Z a * s.zf)) < s.mean s.Z := by
  have hz := zf_pos h
  have hN := ntot_pos h
  have hT' : 0 < tCfGreg u s.Te s.ne := lt_of_lt_of_le (abs_pos.2 hT.ne') (tCfGreg_ge_partial u s.Te s.ne).1
  have hD : 0 < kDAD u (tCfGreg u s.Te s.ne) s.ne := by
    have := u.eps0_pos; have := u.kB_pos; have := u.e_pos
    unfold kDAD; positivity
  constructor
  · unfold mean
    refine div_lt_div_of_pos_right ?_ hN
    obtain ⟨b, hb⟩ := h.charged
    have hfac : kDAD u (tCfGreg u s.Te s.ne) s.ne ^ 2 / (k ^ 2 + kDAD u (tCfGreg u s.Te s.ne) s.ne ^ 2 * (1 - 0)) < 1 := by
      rw [div_lt_one (by positivity)]
      have : 0 < k ^ 2 := by positivity
      linarith
    refine Finset.sum_lt_sum (fun a _ => ?_) ⟨b, Finset.mem_univ b, ?_⟩
    · rw [chsScreening_eq h TD hk hT hn zero_le_one hS]
      exact mul_le_mul_of_nonneg_left (mul_le_of_le_one_right (sqrt_nonneg _) hfac.le) (h.n a).le
    · rw [chsScreening_eq h TD hk hT hn zero_le_one hS]
      exact mul_lt_mul_of_pos_left (mul_lt_of_lt_one_right (sqrt_pos.2 (mul_pos hb hz)) hfac) (h.n b)
  · have hle : ∀ a, sqrt (s.Z a * s.zf) ≤ (s.Z a + s.zf) / 2 := fun a =>
      sqrt_le_iff.2 ⟨by linarith [h.Z a], by nlinarith [sq_nonneg (s.Z a - s.zf)]⟩
    have hlt : (∑ a, s.n a * sqrt (s.Z a * s.zf)) < ∑ a, s.n a * ((s.Z a + s.zf) / 2) := by
      obtain ⟨b, hb⟩ := hne
      refine Finset.sum_lt_sum (fun a _ => mul_le_mul_of_nonneg_left (hle a) (h.n a).le) ⟨b, Finset.mem_univ b, ?_⟩
      refine mul_lt_mul_of_pos_left ?_ (h.n b)
      rw [sqrt_lt' (by linarith [h.Z b])]
      have : 0 < (s.Z b - s.zf) ^ 2 := by
        have := sub_ne_zero.2 hb
        positivity
      nlinarith
    have hsum : ∑ a, s.n a * ((s.Z a + s.zf) / 2) = ∑ a, s.n a * s.Z a := by
      have e : ∀ a, s.n a * ((s.Z a + s.zf) / 2) = s.n a * s.Z a / 2 + s.n a * (s.zf / 2) := fun a => by ring
      simp only [e, Finset.sum_add_distrib, ← Finset.sum_div, ← Finset.sum_mul]
      have hz2 : s.zf = (∑ a, s.n a * s.Z a) / ∑ a, s.n a := zf_eq s
      change 0 < ∑ a, s.n a at hN
      rw [hz2]
      field_simp
      ring
    unfold mean
    exact div_lt_div_of_pos_right (hlt.trans_eq hsum) hN

end Mix

/-! ### The diameter of the hard spheres -/

section

variable {n Z T : ℝ}

/-- Inverse screening length of the ions. -/
noncomputable def kapIon (u : Consts) (n Z T : ℝ) : ℝ := sqrt (n * (Z * u.e) ^ 2 / (u.eps0 * u.kB * T))

/-- The condition for the diameter, solved for the screening length: a function which falls strictly. -/
noncomputable def diamFun (u : Consts) (n Z T sig : ℝ) : ℝ :=
  kapIon u n Z T * (1 - g07eta n sig) ^ 3 -
    (12 * (π / 6 * n) * sig ^ 2 + 6 * (π / 6 * n) ^ 2 * sig ^ 5 +
      (1 + 2 * g07eta n sig) * sqrt (24 * (π / 6 * n) * sig + 12 * (π / 6 * n) ^ 2 * sig ^ 4))

theorem kapIon_pos (hn : 0 < n) (hZ : 0 < Z) (hT : 0 < T) : 0 < kapIon u n Z T := by
  have := u.eps0_pos; have := u.kB_pos; have := u.e_pos
  unfold kapIon; positivity

theorem g07chi_eq (hn : 0 < n) (hZ : 0 < Z) (hT : 0 < T) {sig : ℝ} (hs : 0 < sig) :
    g07chi u n Z T sig = kapIon u n Z T * sig := by
  have := u.eps0_pos; have := u.kB_pos; have := u.e_pos
  unfold g07chi kapIon g07eta g07gamma
  have e : 24 * (π / 6 * (n * sig ^ 3)) * (Z ^ 2 * u.e ^ 2 / (4 * π * u.eps0 * sig * u.kB * T)) =
      n * (Z * u.e) ^ 2 / (u.eps0 * u.kB * T) * sig ^ 2 := by
    field_simp
    ring
  rw [e, sqrt_mul (by positivity), sqrt_sq hs.le]

theorem g07eta_pos (hn : 0 < n) {sig : ℝ} (hs : 0 < sig) : 0 < g07eta n sig := by
  unfold g07eta; positivity

/-- Where the spheres fit, the function whose root the code searches is a positive multiple of
`diamFun`. -/
theorem g07h1_eq (hn : 0 < n) (hZ : 0 < Z) (hT : 0 < T) {sig : ℝ} (hs : 0 < sig) (hη : g07eta n sig < 1) :
    ∃ p > 0, g07h1 u n Z T sig = p * diamFun u n Z T sig := by
  have hη0 := g07eta_pos hn hs
  have hk := kapIon_pos (u := u) hn hZ hT
  unfold g07h1 g07h0 diamFun
  simp only []
  rw [g07chi_eq hn hZ hT hs]
  have hβ : 0 < π / 6 * n := by positivity
  have hηβ : g07eta n sig = π / 6 * n * sig ^ 3 := by unfold g07eta; ring
  set η := g07eta n sig with hηd
  set β := π / 6 * n with hβd
  set P := 2 * (1 - η) ^ 3 * (kapIon u n Z T * sig) with hP
  have h1η : 0 < 1 - η := by linarith
  have hP0 : 0 < P := by positivity
  set B := 1 + 2 * η with hB
  have hB0 : 0 < B := by positivity
  set W := sqrt (B ^ 2 + P) with hW
  have hW2 : W ^ 2 = B ^ 2 + P := sq_sqrt (by positivity)
  have hWB : B < W := by
    rw [hW]; exact lt_sqrt_of_sq_lt (by linarith)
  have hs1 : sqrt (1 + P / B ^ 2) = W / B := by
    rw [hW, show 1 + P / B ^ 2 = (B ^ 2 + P) / B ^ 2 by field_simp, sqrt_div (by positivity), sqrt_sq hB0.le]
  set r := sqrt (24 * β * sig + 12 * β ^ 2 * sig ^ 4) with hr
  have hr2 : r ^ 2 = 24 * β * sig + 12 * β ^ 2 * sig ^ 4 := sq_sqrt (by positivity)
  have hr0 : 0 < r := sqrt_pos.2 (by positivity)
  -- R = r * sig solves the equation for the contact value
  have hR2 : (r * sig) ^ 2 = 24 * η + 12 * η ^ 2 := by rw [mul_pow, hr2, hηβ]; ring
  set w := W - B with hw
  have hw0 : 0 < w := by linarith
  have hwP : w ^ 2 + 2 * B * w = P := by
    have : w ^ 2 + 2 * B * w = W ^ 2 - B ^ 2 := by rw [hw]; ring
    linarith
  rw [hs1]
  have e0 : (B / (1 - η) * (1 - W / B)) ^ 2 / (24 * η) - (1 + η / 2) / (1 - η) ^ 2 =
      (w ^ 2 - (r * sig) ^ 2) / (24 * η * (1 - η) ^ 2) := by
    rw [hR2, hw]
    field_simp
    ring
  rw [e0]
  have e1 : P - ((r * sig) ^ 2 + 2 * B * (r * sig)) = 2 * sig *
      (kapIon u n Z T * (1 - η) ^ 3 - (12 * β * sig ^ 2 + 6 * β ^ 2 * sig ^ 5 + B * r)) := by
    rw [hR2, hηβ, hP, hηβ]
    ring
  have e2 : (w - r * sig) * (w + r * sig + 2 * B) = 2 * sig *
      (kapIon u n Z T * (1 - η) ^ 3 - (12 * β * sig ^ 2 + 6 * β ^ 2 * sig ^ 5 + B * r)) := by
    rw [← e1, ← hwP]; ring
  refine ⟨(w + r * sig) * (2 * sig) / ((w + r * sig + 2 * B) * (24 * η * (1 - η) ^ 2)), by positivity, ?_⟩
  have e3 : (w + r * sig) * (2 * sig) / ((w + r * sig + 2 * B) * (24 * η * (1 - η) ^ 2)) *
      (kapIon u n Z T * (1 - η) ^ 3 - (12 * β * sig ^ 2 + 6 * β ^ 2 * sig ^ 5 + B * r)) =
      (w + r * sig) / ((w + r * sig + 2 * B) * (24 * η * (1 - η) ^ 2)) * (2 * sig *
      (kapIon u n Z T * (1 - η) ^ 3 - (12 * β * sig ^ 2 + 6 * β ^ 2 * sig ^ 5 + B * r))) := by ring
  rw [e3, ← e2]
  have : 0 < w + r * sig + 2 * B := by positivity
  field_simp
  ring

/-- Where the spheres do not fit, both functions are negative. -/
theorem g07h1_neg (hn : 0 < n) (hZ : 0 < Z) (hT : 0 < T) {sig : ℝ} (hs : 0 < sig) (hη : 1 < g07eta n sig) :
    g07h1 u n Z T sig < 0 ∧ diamFun u n Z T sig < 0 := by
  have hη0 := g07eta_pos hn hs
  have hk := kapIon_pos (u := u) hn hZ hT
  have h3 : (1 - g07eta n sig) ^ 3 < 0 := by
    have : 0 < (g07eta n sig - 1) ^ 3 := pow_pos (by linarith) 3
    have e : (1 - g07eta n sig) ^ 3 = -(g07eta n sig - 1) ^ 3 := by ring
    linarith
  constructor
  · unfold g07h1 g07h0
    simp only []
    rw [g07chi_eq hn hZ hT hs]
    generalize g07eta n sig = η at *
    set y := 2 * (1 - η) ^ 3 * (kapIon u n Z T * sig) / (1 + 2 * η) ^ 2 with hy
    have hy0 : y ≤ 0 := by
      rw [hy]
      apply div_nonpos_of_nonpos_of_nonneg _ (by positivity)
      have : 0 < kapIon u n Z T * sig := by positivity
      nlinarith
    have hs0 := sqrt_nonneg (1 + y)
    have hs1 : sqrt (1 + y) ≤ 1 := by
      rw [sqrt_le_left (by norm_num)]; linarith
    have hsq : (1 - sqrt (1 + y)) ^ 2 ≤ 1 := by nlinarith
    have h2 : 0 < (1 - η) ^ 2 := by
      have : 1 - η ≠ 0 := by linarith
      positivity
    have e : ((1 + 2 * η) / (1 - η) * (1 - sqrt (1 + y))) ^ 2 / (24 * η) =
        (1 + 2 * η) ^ 2 * (1 - sqrt (1 + y)) ^ 2 / (24 * η) / (1 - η) ^ 2 := by
      rw [mul_pow, div_pow]; ring
    rw [e, ← sub_div]
    apply div_neg_of_neg_of_pos _ h2
    have : (1 + 2 * η) ^ 2 * (1 - sqrt (1 + y)) ^ 2 / (24 * η) < 1 + η / 2 := by
      rw [div_lt_iff₀ (by positivity)]
      have : (1 + 2 * η) ^ 2 * (1 - sqrt (1 + y)) ^ 2 ≤ (1 + 2 * η) ^ 2 * 1 := mul_le_mul_of_nonneg_left hsq (by positivity)
      nlinarith
    linarith
  · unfold diamFun
    have : 0 < 12 * (π / 6 * n) * sig ^ 2 + 6 * (π / 6 * n) ^ 2 * sig ^ 5 +
      (1 + 2 * g07eta n sig) * sqrt (24 * (π / 6 * n) * sig + 12 * (π / 6 * n) ^ 2 * sig ^ 4) := by positivity
    nlinarith

theorem g07h1_sign (hn : 0 < n) (hZ : 0 < Z) (hT : 0 < T) {sig : ℝ} (hs : 0 < sig) (hη : g07eta n sig ≠ 1) :
    Real.sign (g07h1 u n Z T sig) = Real.sign (diamFun u n Z T sig) := by
  rcases lt_or_gt_of_ne hη with h | h
  · obtain ⟨p, hp, e⟩ := g07h1_eq (u := u) hn hZ hT hs h
    rw [e]
    rcases lt_trichotomy (diamFun u n Z T sig) 0 with h1 | h1 | h1
    · rw [sign_of_neg h1, sign_of_neg (mul_neg_of_pos_of_neg hp h1)]
    · rw [h1, mul_zero]
    · rw [sign_of_pos h1, sign_of_pos (mul_pos hp h1)]
  · obtain ⟨h1, h2⟩ := g07h1_neg (u := u) hn hZ hT hs h
    rw [sign_of_neg h1, sign_of_neg h2]

theorem diamFun_continuous : Continuous (diamFun u n Z T) := by
  unfold diamFun g07eta
  fun_prop

theorem diamFun_lt (hn : 0 < n) (hZ : 0 < Z) (hT : 0 < T) {s1 s2 : ℝ} (h1 : 0 ≤ s1) (h12 : s1 < s2) :
    diamFun u n Z T s2 < diamFun u n Z T s1 := by
  have hk := kapIon_pos (u := u) hn hZ hT
  have hη : g07eta n s1 < g07eta n s2 := by
    unfold g07eta
    have : s1 ^ 3 < s2 ^ 3 := pow_lt_pow_left₀ h12 h1 (by norm_num)
    have := pi_pos
    have : n * s1 ^ 3 < n * s2 ^ 3 := mul_lt_mul_of_pos_left ‹_› hn
    exact mul_lt_mul_of_pos_left this (by positivity)
  have hη1 : 0 ≤ g07eta n s1 := by unfold g07eta; positivity
  have hβ : 0 < π / 6 * n := by positivity
  unfold diamFun
  generalize π / 6 * n = β at *
  have a1 : (1 - g07eta n s2) ^ 3 < (1 - g07eta n s1) ^ 3 := by
    have : Odd 3 := by decide
    exact this.strictMono_pow (by linarith)
  have a2 : kapIon u n Z T * (1 - g07eta n s2) ^ 3 < kapIon u n Z T * (1 - g07eta n s1) ^ 3 :=
    mul_lt_mul_of_pos_left a1 hk
  have p2 : s1 ^ 2 ≤ s2 ^ 2 := pow_le_pow_left₀ h1 h12.le 2
  have p4 : s1 ^ 4 ≤ s2 ^ 4 := pow_le_pow_left₀ h1 h12.le 4
  have p5 : s1 ^ 5 ≤ s2 ^ 5 := pow_le_pow_left₀ h1 h12.le 5
  have a3 : sqrt (24 * β * s1 + 12 * β ^ 2 * s1 ^ 4) ≤ sqrt (24 * β * s2 + 12 * β ^ 2 * s2 ^ 4) := by
    apply sqrt_le_sqrt
    have : 24 * β * s1 ≤ 24 * β * s2 := mul_le_mul_of_nonneg_left h12.le (by positivity)
    have : 12 * β ^ 2 * s1 ^ 4 ≤ 12 * β ^ 2 * s2 ^ 4 := mul_le_mul_of_nonneg_left p4 (by positivity)
    linarith
  have a4 : (1 + 2 * g07eta n s1) * sqrt (24 * β * s1 + 12 * β ^ 2 * s1 ^ 4) ≤
      (1 + 2 * g07eta n s2) * sqrt (24 * β * s2 + 12 * β ^ 2 * s2 ^ 4) :=
    mul_le_mul (by linarith) a3 (sqrt_nonneg _) (by linarith)
  have a5 : 12 * β * s1 ^ 2 ≤ 12 * β * s2 ^ 2 := mul_le_mul_of_nonneg_left p2 (by positivity)
  have a6 : 6 * β ^ 2 * s1 ^ 5 ≤ 6 * β ^ 2 * s2 ^ 5 := mul_le_mul_of_nonneg_left p5 (by positivity)
  linarith

/-- C67: for every plasma there is exactly one diameter which solves the equation and for which the
spheres fit into the volume. -/
theorem diameter_unique (hn : 0 < n) (hZ : 0 < Z) (hT : 0 < T) :
    ∃! sig, 0 < sig ∧ g07eta n sig < 1 ∧ g07h1 u n Z T sig = 0 := by
  have hk := kapIon_pos (u := u) hn hZ hT
  have hβ : 0 < π / 6 * n := by positivity
  -- the diameter at which the spheres fill the volume
  set b := (6 / (π * n)) ^ (1 / 3 : ℝ) with hb
  have hb0 : 0 < b := by positivity
  have hb3 : b ^ 3 = 6 / (π * n) := by
    rw [hb, ← rpow_natCast, ← rpow_mul (by positivity)]
    norm_num
  have hηb : g07eta n b = 1 := by unfold g07eta; rw [hb3]; field_simp
  have hη_lt : ∀ s, 0 < s → s < b → g07eta n s < 1 := fun s hs hsb => by
    rw [← hηb]; unfold g07eta
    have : s ^ 3 < b ^ 3 := pow_lt_pow_left₀ hsb hs.le (by norm_num)
    have : n * s ^ 3 < n * b ^ 3 := mul_lt_mul_of_pos_left this hn
    exact mul_lt_mul_of_pos_left this (by positivity)
  have hF0 : 0 < diamFun u n Z T 0 := by
    unfold diamFun g07eta; simp; exact hk
  have hFb : diamFun u n Z T b < 0 := by
    unfold diamFun
    rw [hηb]
    have : 0 < 12 * (π / 6 * n) * b ^ 2 + 6 * (π / 6 * n) ^ 2 * b ^ 5 +
      (1 + 2 * 1) * sqrt (24 * (π / 6 * n) * b + 12 * (π / 6 * n) ^ 2 * b ^ 4) := by positivity
    linarith
  obtain ⟨r, hr, hFr⟩ := intermediate_value_Icc' hb0.le (diamFun_continuous (u := u) (n := n) (Z := Z) (T := T)).continuousOn
    (show (0 : ℝ) ∈ Icc (diamFun u n Z T b) (diamFun u n Z T 0) from ⟨hFb.le, hF0.le⟩)
  have hr0 : 0 < r := lt_of_le_of_ne hr.1 fun h => by rw [← h] at hFr; linarith
  have hrb : r < b := lt_of_le_of_ne hr.2 fun h => by rw [h] at hFr; linarith
  refine ⟨r, ⟨hr0, hη_lt r hr0 hrb, ?_⟩, ?_⟩
  · obtain ⟨p, -, e⟩ := g07h1_eq (u := u) hn hZ hT hr0 (hη_lt r hr0 hrb)
    rw [e, hFr, mul_zero]
  · rintro s ⟨hs0, hs1, hs2⟩
    obtain ⟨p, hp, e⟩ := g07h1_eq (u := u) hn hZ hT hs0 hs1
    rw [e] at hs2
    have hFs : diamFun u n Z T s = 0 := (mul_eq_zero.1 hs2).resolve_left hp.ne'
    rcases lt_trichotomy s r with h | h | h
    · have := diamFun_lt (u := u) hn hZ hT hs0.le h; linarith
    · exact h
    · have := diamFun_lt (u := u) hn hZ hT hr0.le h; linarith


/-! ### The bisection -/

/-- A bisection only sees the signs of the function at the points it visits. -/
theorem while_signs {f F : ℝ → ℝ} {o : Bisection.Options} {G : Set ℝ} (hG : ∀ x ∈ G, ∀ y ∈ G, (x + y) / 2 ∈ G)
    (hs : ∀ x ∈ G, Real.sign (f x) = Real.sign (F x)) {a b : ℝ} {s s' : Bisection.State}
    (h : Bisection.While f o s s') (hp : s.prev ∈ G) (hx : s.next ∈ G) (hi : Bisection.Inv F a b s) :
    s'.prev ∈ G ∧ s'.next ∈ G ∧ Bisection.Inv F a b s' := by
  induction h with
  | stop _ => exact ⟨hp, hx, hi⟩
  | @step s _ _ _ ih =>
    have hc := hG _ hp _ hx
    have hb : Bisection.body f s = Bisection.body F s := by
      simp only [Bisection.body, hs _ hc, hs _ hx]
    refine ih ?_ ?_ ?_
    · unfold Bisection.body
      simp only []
      split_ifs
      · exact hp
      · exact hx
    · exact hc
    · rw [hb]; exact Bisection.inv_body hi

/-- The points a bisection of the interval of the code can visit. -/
def visited (d : ℝ) : Set ℝ := {x | ∃ i j : ℕ, j ≤ 2 ^ i ∧ x = d * (1 / 1000 + 2099 / 1000 * (j / 2 ^ i))}

theorem visited_mid {d : ℝ} : ∀ x ∈ visited d, ∀ y ∈ visited d, (x + y) / 2 ∈ visited d := by
  rintro x ⟨i, j, hij, rfl⟩ y ⟨i', j', hij', rfl⟩
  refine ⟨i + i' + 1, j * 2 ^ i' + j' * 2 ^ i, ?_, ?_⟩
  · have h1 : j * 2 ^ i' ≤ 2 ^ i * 2 ^ i' := Nat.mul_le_mul_right _ hij
    have h2 : j' * 2 ^ i ≤ 2 ^ i' * 2 ^ i := Nat.mul_le_mul_right _ hij'
    rw [pow_succ, pow_add]
    linarith
  · push_cast
    rw [pow_succ, pow_add]
    field_simp
    ring

/-- The bisection never visits the diameter at which the spheres fill the volume. -/
theorem visited_ne {d x : ℝ} (hd : 0 < d) (hx : x ∈ visited d) : x ≠ 2 * d := by
  obtain ⟨i, j, -, rfl⟩ := hx
  intro h
  have h1 : (2099 : ℝ) * j = 1999 * 2 ^ i := by
    have h2 : d * (1 / 1000 + 2099 / 1000 * (j / 2 ^ i)) = d * 2 := by linarith
    have h3 := mul_left_cancel₀ hd.ne' h2
    field_simp at h3
    linarith
  have h4 : 2099 * j = 1999 * 2 ^ i := by exact_mod_cast h1
  have h5 : 2099 ∣ 1999 * 2 ^ i := ⟨j, h4.symm⟩
  have hp : Nat.Prime 2099 := by norm_num
  rcases hp.dvd_mul.1 h5 with h | h
  · norm_num at h
  · have := hp.dvd_of_dvd_pow h
    norm_num at this

theorem visited_bounds {d x : ℝ} (hd : 0 < d) (hx : x ∈ visited d) : d / 1000 ≤ x ∧ x ≤ 21 / 10 * d := by
  obtain ⟨i, j, hij, rfl⟩ := hx
  have h1 : (j : ℝ) / 2 ^ i ≤ 1 := by
    rw [div_le_one (by positivity)]
    exact_mod_cast hij
  have h0 : (0 : ℝ) ≤ j / 2 ^ i := by positivity
  constructor <;> nlinarith

theorem chsDist_cube (hn : 0 < n) (hZ : 0 < Z) : 0 < chsDist (Z * n) Z ∧ chsDist (Z * n) Z ^ 3 = 3 / (4 * π * n) := by
  have e : 3 / (4 * π) * Z / (Z * n) = 3 / (4 * π * n) := by field_simp
  unfold chsDist
  rw [e]
  refine ⟨by positivity, ?_⟩
  rw [← rpow_natCast, ← rpow_mul (by positivity)]
  norm_num

theorem g07eta_scaled (hn : 0 < n) (hZ : 0 < Z) (t : ℝ) : g07eta n (t * chsDist (Z * n) Z) = t ^ 3 / 8 := by
  unfold g07eta
  rw [mul_pow, (chsDist_cube hn hZ).2]
  field_simp
  ring

/-- The condition in units of the mean distance of the ions: only the coupling parameter enters. -/
theorem diamFun_scaled (hn : 0 < n) (hZ : 0 < Z) (hT : 0 < T) (t : ℝ) :
    diamFun u n Z T (t * chsDist (Z * n) Z) * chsDist (Z * n) Z =
      sqrt (3 * g07gamma u Z T (chsDist (Z * n) Z)) * (1 - t ^ 3 / 8) ^ 3 -
        (3 / 2 * t ^ 2 + 3 / 32 * t ^ 5 + (1 + t ^ 3 / 4) * sqrt (3 * t + 3 / 16 * t ^ 4)) := by
  have := u.eps0_pos; have := u.kB_pos; have := u.e_pos
  obtain ⟨hd, hd3⟩ := chsDist_cube hn hZ
  unfold diamFun
  rw [g07eta_scaled hn hZ]
  set d := chsDist (Z * n) Z
  have hβ : π / 6 * n = 1 / (8 * d ^ 3) := by rw [hd3]; field_simp; norm_num
  have h1 : kapIon u n Z T * d = sqrt (3 * g07gamma u Z T d) := by
    unfold kapIon g07gamma
    rw [← sqrt_sq hd.le, ← sqrt_mul (by positivity), sqrt_sq hd.le]
    congr 1
    have hn' : n = 3 / (4 * π * d ^ 3) := by rw [hd3]; field_simp
    rw [hn']
    field_simp
  rw [hβ]
  have h2 : sqrt (24 * (1 / (8 * d ^ 3)) * (t * d) + 12 * (1 / (8 * d ^ 3)) ^ 2 * (t * d) ^ 4) * d =
      sqrt (3 * t + 3 / 16 * t ^ 4) := by
    have e : 24 * (1 / (8 * d ^ 3)) * (t * d) + 12 * (1 / (8 * d ^ 3)) ^ 2 * (t * d) ^ 4 =
        (3 * t + 3 / 16 * t ^ 4) / d ^ 2 := by field_simp; ring
    rw [e, sqrt_div' _ (by positivity), sqrt_sq hd.le]
    field_simp
  have h3 : 12 * (1 / (8 * d ^ 3)) * (t * d) ^ 2 * d = 3 / 2 * t ^ 2 := by field_simp; ring
  have h4 : 6 * (1 / (8 * d ^ 3)) ^ 2 * (t * d) ^ 5 * d = 3 / 32 * t ^ 5 := by field_simp; ring
  rw [← h1, ← h2, ← h3, ← h4]
  ring

theorem visited_sign (hn : 0 < n) (hZ : 0 < Z) (hT : 0 < T) :
    ∀ x ∈ visited (chsDist (Z * n) Z), Real.sign (g07h1 u n Z T x) = Real.sign (diamFun u n Z T x) := by
  intro x hx
  obtain ⟨hd, -⟩ := chsDist_cube hn hZ
  have hb := (visited_bounds hd hx).1
  have hx0 : 0 < x := by linarith
  refine g07h1_sign hn hZ hT hx0 fun h1 => visited_ne hd hx ?_
  have e : x = x / chsDist (Z * n) Z * chsDist (Z * n) Z := by field_simp
  rw [e, g07eta_scaled hn hZ] at h1
  set t := x / chsDist (Z * n) Z
  have ht : 0 < t := by positivity
  have : t = 2 := by nlinarith [sq_nonneg (t + 2), sq_nonneg t]
  rw [e, this]

/-- The bisection stops with a small interval or with a small value of the function. -/
theorem diameter_stop {d sig : ℝ} {f F : ℝ → ℝ} {s : Bisection.State} (hd : 0 < d) (hd100 : d ≤ 10 ^ 100)
    (hi : Bisection.Inv F (1 / 1000 * d) (21 / 10 * d) s) (hs : s.next = sig)
    (hc : Bisection.condition f ⟨1 / 10 ^ 15, 10000, 0⟩ s = false) :
    |f sig| ≤ 1 / 10 ^ 15 ∨ |s.prev - s.next| ≤ 1 / 10 ^ 15 := by
  simp only [Bisection.condition, Bool.or_eq_false_iff, Bool.and_eq_false_iff, decide_eq_false_iff_not, not_lt] at hc
  rw [hs] at hc
  rcases hc.1 with (h | h) | h
  · right
    have hw := hi.width
    have e : |1 / 1000 * d - 21 / 10 * d| = 2099 / 1000 * d := by
      rw [abs_of_neg (by linarith)]; ring
    rw [e] at hw
    have h2 : (2 : ℝ) ^ 10000 ≤ 2 ^ s.count := pow_le_pow_right₀ (by norm_num) h
    have h3 : (10 : ℝ) ^ 116 ≤ 2 ^ 10000 :=
      calc (10 : ℝ) ^ 116 ≤ (2 ^ 4) ^ 116 := pow_le_pow_left₀ (by norm_num) (by norm_num) _
        _ = 2 ^ 464 := by rw [← pow_mul]
        _ ≤ 2 ^ 10000 := pow_le_pow_right₀ (by norm_num) (by norm_num)
    have h4 : |s.prev - s.next| * 10 ^ 116 ≤ |s.prev - s.next| * 2 ^ s.count :=
      mul_le_mul_of_nonneg_left (h3.trans h2) (abs_nonneg _)
    have h5 : |s.prev - s.next| * 10 ^ 116 ≤ 2099 / 1000 * 10 ^ 100 := by linarith
    have h6 : (2099 / 1000 * 10 ^ 100 : ℝ) ≤ 1 / 10 ^ 15 * 10 ^ 116 := by norm_num
    exact le_of_mul_le_mul_right (h5.trans h6) (by norm_num)
  · left; exact h
  · right; rw [hs]; exact h

/-- C67: with a coupling parameter of at least 1/100, the bisection returns the diameter which solves
the equation and for which the spheres fit into the volume.
(Partial: it fails for weak coupling, see `chs_diameter_weak`.) -/
theorem chs_diameter_partial (hn : 0 < n) (hZ : 0 < Z) (hT : 0 < T)
    (hΓ : 1 / 100 ≤ g07gamma u Z T (chsDist (Z * n) Z)) (hd100 : chsDist (Z * n) Z ≤ 10 ^ 100) {sig : ℝ}
    (h : ChsDiameter u n Z T (Z * n) sig) :
    ∃ r, 0 < r ∧ g07eta n r < 1 ∧ g07h1 u n Z T r = 0 ∧
      (|g07h1 u n Z T sig| ≤ 1 / 10 ^ 15 ∨ |sig - r| ≤ 1 / 10 ^ 15) := by
  obtain ⟨hd, -⟩ := chsDist_cube hn hZ
  have hsc := diamFun_scaled (u := u) hn hZ hT
  have hsg := visited_sign (u := u) hn hZ hT
  have hη := g07eta_scaled hn hZ
  set d := chsDist (Z * n) Z with hdd
  have ha : 1 / 1000 * d ∈ visited d := ⟨0, 0, by norm_num, by norm_num; ring⟩
  have hb : 21 / 10 * d ∈ visited d := ⟨0, 1, by norm_num, by norm_num; ring⟩
  have hFa : 0 < diamFun u n Z T (1 / 1000 * d) := by
    have e := hsc (1 / 1000)
    have h1 : (17 / 100 : ℝ) ≤ sqrt (3 * g07gamma u Z T d) := le_sqrt_of_sq_le (by norm_num; linarith)
    have h2 : sqrt (3 * (1 / 1000) + 3 / 16 * (1 / 1000) ^ 4) ≤ (6 / 100 : ℝ) := by
      rw [sqrt_le_left (by norm_num)]; norm_num
    have h3 : 0 < diamFun u n Z T (1 / 1000 * d) * d := by
      rw [e]
      have : (17 / 100 : ℝ) * (1 - (1 / 1000) ^ 3 / 8) ^ 3 ≤
          sqrt (3 * g07gamma u Z T d) * (1 - (1 / 1000) ^ 3 / 8) ^ 3 := mul_le_mul_of_nonneg_right h1 (by norm_num)
      have : (1 + (1 / 1000 : ℝ) ^ 3 / 4) * sqrt (3 * (1 / 1000) + 3 / 16 * (1 / 1000) ^ 4) ≤
          (1 + (1 / 1000 : ℝ) ^ 3 / 4) * (6 / 100) := mul_le_mul_of_nonneg_left h2 (by norm_num)
      norm_num at *
      linarith
    exact pos_of_mul_pos_left h3 hd.le
  have hηb : 1 < g07eta n (21 / 10 * d) := by rw [hη]; norm_num
  have hFb : diamFun u n Z T (21 / 10 * d) < 0 := (g07h1_neg hn hZ hT (by positivity) hηb).2
  obtain ⟨N, s, hw, hs, -⟩ := h
  obtain ⟨hp, hx, hi⟩ := while_signs visited_mid hsg hw ha hb (Bisection.inv_start (1 / 1000 * d) (21 / 10 * d))
  have hsign := hi.sign (mul_nonpos_of_nonneg_of_nonpos hFa.le hFb.le)
  -- a root of the continuous function between the two ends
  have hroot : ∃ r ∈ uIcc s.prev s.next, diamFun u n Z T r = 0 := by
    have h0 : (0 : ℝ) ∈ uIcc (diamFun u n Z T s.prev) (diamFun u n Z T s.next) := by
      rw [mem_uIcc]
      by_contra hh
      push Not at hh
      rcases le_or_gt (diamFun u n Z T s.prev) 0 with h1 | h1
      · have h2 := hh.1 h1
        have h3 : diamFun u n Z T s.prev < 0 := by
          refine lt_of_le_of_ne h1 fun h4 => ?_
          have := hh.2 h2.le
          linarith
        nlinarith
      · have h2 : 0 < diamFun u n Z T s.next := by
          by_contra h4
          have := hh.2 (not_lt.1 h4)
          linarith
        nlinarith
    obtain ⟨r, hr, hr0⟩ := intermediate_value_uIcc (diamFun_continuous (u := u) (n := n) (Z := Z) (T := T)).continuousOn h0
    exact ⟨r, hr, hr0⟩
  obtain ⟨r, hr, hr0⟩ := hroot
  have hmin : d / 1000 ≤ r := by
    have h1 := (visited_bounds hd hp).1
    have h2 := (visited_bounds hd hx).1
    rw [mem_uIcc] at hr
    rcases hr with h | h <;> linarith [h.1]
  have hr1 : 0 < r := by linarith
  have hηr : g07eta n r < 1 := by
    by_contra hh
    rcases lt_or_eq_of_le (not_lt.1 hh) with h1 | h1
    · have := (g07h1_neg (u := u) hn hZ hT hr1 h1).2
      linarith
    · have : diamFun u n Z T r < 0 := by
        unfold diamFun
        rw [← h1]
        have : 0 < 12 * (π / 6 * n) * r ^ 2 + 6 * (π / 6 * n) ^ 2 * r ^ 5 +
          (1 + 2 * 1) * sqrt (24 * (π / 6 * n) * r + 12 * (π / 6 * n) ^ 2 * r ^ 4) := by positivity
        linarith
      linarith
  obtain ⟨p, -, e⟩ := g07h1_eq (u := u) hn hZ hT hr1 hηr
  refine ⟨r, hr1, hηr, by rw [e, hr0, mul_zero], ?_⟩
  rcases diameter_stop hd hd100 hi hs (Bisection.while_final hw) with h1 | h1
  · exact Or.inl h1
  · right
    rw [← hs]
    refine le_trans ?_ h1
    rw [abs_sub_comm s.prev]
    exact abs_sub_right_of_mem_uIcc hr

/-- The function is well below zero in weakly coupled plasmas. -/
theorem g07h1_weak (hn : 0 < n) (hZ : 0 < Z) (hT : 0 < T)
    (hΓ : g07gamma u Z T (chsDist (Z * n) Z) ≤ 9 / 10000) {x : ℝ} (hx : x ∈ visited (chsDist (Z * n) Z)) :
    g07h1 u n Z T x ≤ -(1 / 10) := by
  have := u.eps0_pos; have := u.kB_pos; have := u.e_pos
  obtain ⟨hd, -⟩ := chsDist_cube hn hZ
  have hb := visited_bounds hd hx
  have hx2 := visited_ne hd hx
  have hx0 : 0 < x := by linarith [hb.1]
  have hη := g07eta_scaled hn hZ
  have hγ : g07gamma u Z T x ≤ 9 / 10 := by
    have e : g07gamma u Z T x * x = g07gamma u Z T (chsDist (Z * n) Z) * chsDist (Z * n) Z := by
      unfold g07gamma; field_simp
    have h1 : g07gamma u Z T x * x ≤ 9 / 10 * x := by
      rw [e]; nlinarith
    exact le_of_mul_le_mul_right h1 hx0
  set d := chsDist (Z * n) Z with hdd
  have ex : x = x / d * d := by field_simp
  have hη0 := g07eta_pos hn hx0
  have hγ0 : 0 < g07gamma u Z T x := by unfold g07gamma; positivity
  have hχ : g07chi u n Z T x ^ 2 = 24 * g07eta n x * g07gamma u Z T x := by
    unfold g07chi; exact sq_sqrt (by positivity)
  have hχ0 : 0 ≤ g07chi u n Z T x := sqrt_nonneg _
  have hη2 : g07eta n x ≤ 1158 / 1000 := by
    have ht : x / d ≤ 21 / 10 := by rw [div_le_iff₀ hd]; exact hb.2
    have ht0 : 0 ≤ x / d := by positivity
    rw [ex, hη]
    have : (x / d) ^ 3 ≤ (21 / 10) ^ 3 := pow_le_pow_left₀ ht0 ht 3
    norm_num at this ⊢
    linarith
  have hη1 : g07eta n x ≠ 1 := by
    intro h1
    rw [ex, hη] at h1
    have ht : 0 < x / d := by positivity
    have h2 : x / d = 2 := by nlinarith [sq_nonneg (x / d + 2), sq_nonneg (x / d)]
    apply hx2
    rw [ex, h2]
  unfold g07h1 g07h0
  simp only []
  generalize g07eta n x = η at *
  generalize g07chi u n Z T x = χ at *
  generalize g07gamma u Z T x = γ at *
  set y := 2 * (1 - η) ^ 3 * χ / (1 + 2 * η) ^ 2 with hy
  have h2 : 0 < (1 - η) ^ 2 := by
    have : 1 - η ≠ 0 := sub_ne_zero.2 (Ne.symm hη1)
    positivity
  have e : ((1 + 2 * η) / (1 - η) * (1 - sqrt (1 + y))) ^ 2 / (24 * η) =
      (1 + 2 * η) ^ 2 * (1 - sqrt (1 + y)) ^ 2 / (24 * η) / (1 - η) ^ 2 := by
    rw [mul_pow, div_pow]; ring
  rw [e, ← sub_div, div_le_iff₀ h2]
  have hs0 := sqrt_nonneg (1 + y)
  rcases lt_or_gt_of_ne hη1 with h | h
  · have h1η : 0 < 1 - η := by linarith
    have hy0 : 0 ≤ y := by positivity
    have hs1 : 1 ≤ sqrt (1 + y) := one_le_sqrt.2 (by linarith)
    have hs2 : sqrt (1 + y) ≤ 1 + y / 2 := by
      rw [sqrt_le_left (by positivity)]; nlinarith
    have hsq : (1 - sqrt (1 + y)) ^ 2 ≤ (y / 2) ^ 2 := by nlinarith
    have h3 : (1 + 2 * η) ^ 2 * (1 - sqrt (1 + y)) ^ 2 / (24 * η) ≤ (1 - η) ^ 6 * γ := by
      rw [div_le_iff₀ (by positivity)]
      have h4 : (1 + 2 * η) ^ 2 * (1 - sqrt (1 + y)) ^ 2 ≤ (1 + 2 * η) ^ 2 * (y / 2) ^ 2 :=
        mul_le_mul_of_nonneg_left hsq (by positivity)
      have h5 : (1 + 2 * η) ^ 2 * (y / 2) ^ 2 = (1 - η) ^ 6 * χ ^ 2 / (1 + 2 * η) ^ 2 := by
        rw [hy]; field_simp
      have h6 : (1 - η) ^ 6 * χ ^ 2 / (1 + 2 * η) ^ 2 ≤ (1 - η) ^ 6 * χ ^ 2 :=
        div_le_self (by positivity) (by nlinarith)
      rw [hχ] at h6
      rw [hχ] at h5
      exact (h4.trans_eq h5).trans (h6.trans_eq (by ring))
    have h7 : (1 - η) ^ 6 * γ ≤ 9 / 10 := by
      have : (1 - η) ^ 6 ≤ 1 := pow_le_one₀ h1η.le (by linarith)
      exact (mul_le_of_le_one_left hγ0.le this).trans hγ
    have h8 : (1 - η) ^ 2 ≤ 1 := pow_le_one₀ h1η.le (by linarith)
    linarith
  · have h1η : 0 < η - 1 := by linarith
    have hy0 : y ≤ 0 := by
      rw [hy]
      have e3 : 2 * (1 - η) ^ 3 * χ / (1 + 2 * η) ^ 2 = -(2 * (η - 1) ^ 3 * χ / (1 + 2 * η) ^ 2) := by ring
      rw [e3, neg_nonpos]
      positivity
    have hs1 : sqrt (1 + y) ≤ 1 := by
      rw [sqrt_le_left (by norm_num)]; linarith
    have hsq : (1 - sqrt (1 + y)) ^ 2 ≤ 1 := by nlinarith
    have h3 : (1 + 2 * η) ^ 2 * (1 - sqrt (1 + y)) ^ 2 / (24 * η) ≤ 1 / 2 + η / 2 := by
      rw [div_le_iff₀ (by positivity)]
      have : (1 + 2 * η) ^ 2 * (1 - sqrt (1 + y)) ^ 2 ≤ (1 + 2 * η) ^ 2 * 1 := mul_le_mul_of_nonneg_left hsq (by positivity)
      nlinarith
    have h8 : (1 - η) ^ 2 ≤ 1 := by nlinarith
    linarith

/-- C67: in weakly coupled plasmas the root lies below the interval, and the code returns the lower end
of the interval instead of a root. -/
theorem chs_diameter_weak (hn : 0 < n) (hZ : 0 < Z) (hT : 0 < T)
    (hΓ : g07gamma u Z T (chsDist (Z * n) Z) ≤ 9 / 10000) (hd100 : chsDist (Z * n) Z ≤ 10 ^ 100) {sig : ℝ}
    (h : ChsDiameter u n Z T (Z * n) sig) :
    |sig - chsDist (Z * n) Z / 1000| ≤ 1 / 10 ^ 15 ∧ g07h1 u n Z T sig ≤ -(1 / 10) := by
  obtain ⟨hd, -⟩ := chsDist_cube hn hZ
  have hsg := visited_sign (u := u) hn hZ hT
  have hwk := fun x hx => g07h1_weak (u := u) hn hZ hT hΓ (x := x) hx
  set d := chsDist (Z * n) Z with hdd
  have ha : 1 / 1000 * d ∈ visited d := ⟨0, 0, by norm_num, by norm_num; ring⟩
  have hb : 21 / 10 * d ∈ visited d := ⟨0, 1, by norm_num, by norm_num; ring⟩
  obtain ⟨N, s, hw, hs, -⟩ := h
  obtain ⟨hp, hx, hi⟩ := while_signs visited_mid hsg hw ha hb (Bisection.inv_start (1 / 1000 * d) (21 / 10 * d))
  have hprev : ∀ {s s' : Bisection.State}, Bisection.While (g07h1 u n Z T) ⟨1 / 10 ^ 15, 10000, 0⟩ s s' →
      s.prev ∈ visited d → s.next ∈ visited d → s'.prev = s.prev := by
    intro s s' h
    induction h with
    | stop _ => intros; rfl
    | @step s _ _ _ ih =>
      intro h1 h2
      have hc := visited_mid _ h1 _ h2
      have hb : Bisection.body (g07h1 u n Z T) s = ⟨s.prev, (s.prev + s.next) / 2, s.count + 1⟩ := by
        unfold Bisection.body
        simp only []
        rw [if_pos]
        rw [sign_of_neg (by linarith [hwk _ hc]), sign_of_neg (by linarith [hwk _ h2])]
      rw [hb] at ih
      exact ih h1 hc
  have hpe := hprev hw ha hb
  have hsig := hwk _ hx
  rw [hs] at hsig
  refine ⟨?_, hsig⟩
  rcases diameter_stop hd hd100 hi hs (Bisection.while_final hw) with h1 | h1
  · rw [abs_of_neg (by linarith)] at h1
    norm_num at h1
    linarith
  · rw [hpe, hs, abs_sub_comm] at h1
    have e : d / 1000 = 1 / 1000 * d := by ring
    rw [e]; exact h1


/-- The argument of the square root in the code is not negative at any diameter visited, as long as the
coupling parameter is at most 90000, so that the model and the code agree there. -/
theorem chs_arg_nonneg (hn : 0 < n) (hZ : 0 < Z) (hT : 0 < T)
    (hΓ : g07gamma u Z T (chsDist (Z * n) Z) ≤ 90000) {x : ℝ} (hx : x ∈ visited (chsDist (Z * n) Z)) :
    0 ≤ 1 + 2 * (1 - g07eta n x) ^ 3 * g07chi u n Z T x / (1 + 2 * g07eta n x) ^ 2 := by
  obtain ⟨hd, -⟩ := chsDist_cube hn hZ
  have hb := visited_bounds hd hx
  have hx0 : 0 < x := by linarith [hb.1]
  have hη := g07eta_scaled hn hZ
  have hk := kapIon_pos (u := u) hn hZ hT
  have hκ : kapIon u n Z T * chsDist (Z * n) Z = sqrt (3 * g07gamma u Z T (chsDist (Z * n) Z)) := by
    have h1 := diamFun_scaled (u := u) hn hZ hT 0
    unfold diamFun g07eta at h1
    simp at h1
    rw [h1]; norm_num
  rw [g07chi_eq hn hZ hT hx0]
  set d := chsDist (Z * n) Z with hdd
  have ex : x = x / d * d := by field_simp
  have hη0 := g07eta_pos hn hx0
  rcases le_or_gt (g07eta n x) 1 with h | h
  · have : 0 ≤ 1 - g07eta n x := by linarith
    positivity
  · have hη2 : g07eta n x ≤ 1158 / 1000 := by
      have ht : x / d ≤ 21 / 10 := by rw [div_le_iff₀ hd]; exact hb.2
      have ht0 : 0 ≤ x / d := by positivity
      rw [ex, hη]
      have : (x / d) ^ 3 ≤ (21 / 10) ^ 3 := pow_le_pow_left₀ ht0 ht 3
      norm_num at this ⊢
      linarith
    have hχ : kapIon u n Z T * x ≤ 520 * (21 / 10) := by
      have h1 : sqrt (3 * g07gamma u Z T d) ≤ 520 := by
        rw [sqrt_le_left (by norm_num)]; linarith
      have h2 : kapIon u n Z T * x ≤ kapIon u n Z T * (21 / 10 * d) := mul_le_mul_of_nonneg_left hb.2 hk.le
      rw [← hκ] at h1
      nlinarith
    have hχ0 : 0 < kapIon u n Z T * x := by positivity
    generalize kapIon u n Z T * x = χ at *
    generalize g07eta n x = η at *
    have h3 : (η - 1) ^ 3 ≤ (158 / 1000) ^ 3 := pow_le_pow_left₀ (by linarith) (by linarith) 3
    have h4 : 0 ≤ (η - 1) ^ 3 := pow_nonneg (by linarith) 3
    have h5 : 2 * (η - 1) ^ 3 * χ ≤ 9 := by
      have : (η - 1) ^ 3 * χ ≤ (158 / 1000) ^ 3 * (520 * (21 / 10)) := mul_le_mul h3 hχ hχ0.le (by norm_num)
      norm_num at this
      linarith
    have h6 : 9 ≤ (1 + 2 * η) ^ 2 := by nlinarith
    have e : 1 + 2 * (1 - η) ^ 3 * χ / (1 + 2 * η) ^ 2 = ((1 + 2 * η) ^ 2 - 2 * (η - 1) ^ 3 * χ) / (1 + 2 * η) ^ 2 := by
      field_simp
      ring
    rw [e]
    exact div_nonneg (by linarith) (by positivity)

/-- The bisection ends for every plasma. -/
theorem chsDiameter_exists (n Z T ne : ℝ) : ∃ sig, ChsDiameter u n Z T ne sig := by
  obtain ⟨s, hs⟩ := Bisection.while_total (f := g07h1 u n Z T) (o := ⟨1 / 10 ^ 15, 10000, 0⟩)
    ⟨1 / 1000 * chsDist ne Z, 21 / 10 * chsDist ne Z, 0⟩
  exact ⟨s.next, s.count, s, hs, rfl, rfl⟩

theorem chsDist_one : chsDist (1 * (3 / (4 * π))) 1 = 1 := by
  have hp : (0 : ℝ) < 3 / (4 * π) := by positivity
  unfold chsDist
  rw [show 3 / (4 * π) * 1 / (1 * (3 / (4 * π))) = (1 : ℝ) by field_simp, one_rpow]

/-- A plasma with coupling parameter 1. -/
example : ∃ sig r, ChsDiameter unitConsts (3 / (4 * π)) 1 (1 / (4 * π)) (1 * (3 / (4 * π))) sig ∧ 0 < r ∧
    g07eta (3 / (4 * π)) r < 1 ∧ g07h1 unitConsts (3 / (4 * π)) 1 (1 / (4 * π)) r = 0 ∧
    (|g07h1 unitConsts (3 / (4 * π)) 1 (1 / (4 * π)) sig| ≤ 1 / 10 ^ 15 ∨ |sig - r| ≤ 1 / 10 ^ 15) := by
  obtain ⟨sig, h⟩ := chsDiameter_exists (u := unitConsts) (3 / (4 * π)) 1 (1 / (4 * π)) (1 * (3 / (4 * π)))
  have hG : 1 / 100 ≤ g07gamma unitConsts 1 (1 / (4 * π)) (chsDist (1 * (3 / (4 * π))) 1) := by
    rw [chsDist_one]
    unfold g07gamma unitConsts
    have e : (1 : ℝ) ^ 2 * 1 ^ 2 / (4 * π * 1 * 1 * 1 * (1 / (4 * π))) = 1 := by field_simp
    simp only []
    rw [e]; norm_num
  obtain ⟨r, hr⟩ := chs_diameter_partial (by positivity) one_pos (by positivity) hG (by rw [chsDist_one]; norm_num) h
  exact ⟨sig, r, h, hr⟩

/-- A plasma with coupling parameter 1/2000. -/
example : ∃ sig, ChsDiameter unitConsts (3 / (4 * π)) 1 (2000 / (4 * π)) (1 * (3 / (4 * π))) sig ∧
    g07h1 unitConsts (3 / (4 * π)) 1 (2000 / (4 * π)) sig ≤ -(1 / 10) := by
  obtain ⟨sig, h⟩ := chsDiameter_exists (u := unitConsts) (3 / (4 * π)) 1 (2000 / (4 * π)) (1 * (3 / (4 * π)))
  have hG : g07gamma unitConsts 1 (2000 / (4 * π)) (chsDist (1 * (3 / (4 * π))) 1) ≤ 9 / 10000 := by
    rw [chsDist_one]
    unfold g07gamma unitConsts
    have e : (1 : ℝ) ^ 2 * 1 ^ 2 / (4 * π * 1 * 1 * 1 * (2000 / (4 * π))) = 1 / 2000 := by field_simp
    simp only []
    rw [e]; norm_num
  exact ⟨sig, h, (chs_diameter_weak (by positivity) one_pos (by positivity) hG (by rw [chsDist_one]; norm_num) h).2⟩

end

end Verif.Ssf
