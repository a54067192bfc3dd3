/-
Properties of the static structure factors of Arkhipov and Davletov.
-/
import Verif.Model.StaticSf
import Verif.Props.Setup
import Mathlib.Analysis.SpecialFunctions.Log.Basic
import Mathlib.Analysis.SpecialFunctions.Pow.Real
import Mathlib.Topology.Algebra.Order.Field
import Mathlib.Analysis.Real.Pi.Bounds
import Mathlib.Tactic.Positivity
import Mathlib.Tactic.FieldSimp
import Mathlib.Tactic.LinearCombination

set_option autoImplicit false

namespace Verif.Ssf

open Real Filter Topology Verif.Expt Verif.Resp

variable {u : Consts}

/-! ### The specification: a mixture of electrons and ions in the random phase approximation -/

/-- The plasma is physical. -/
structure Phys (Te Ti ne mi Zf : ℝ) : Prop where
  te : 0 < Te
  ti : 0 < Ti
  ne : 0 < ne
  mi : 0 < mi
  zf : 0 < Zf

/-- Square of the wave length `ħ / √(2 π μ k_B T)` of a pair of particles. -/
noncomputable def lam2 (u : Consts) (T m1 m2 : ℝ) : ℝ :=
  u.hbar ^ 2 * (m1 + m2) / (2 * π * m1 * m2 * u.kB * T)

/-- Fourier transform of the pseudopotential of two charges with the product `q2`. -/
noncomputable def pseudo (u : Consts) (k q2 l2 : ℝ) : ℝ := q2 / (u.eps0 * k ^ 2 * (1 + k ^ 2 * l2))

/-- Fourier transform of the exchange potential `k_B T ln 2 exp(- b r²)` of the electrons,
`b = 1 / (π ln 2 λ²)`. -/
noncomputable def exch (u : Consts) (k T : ℝ) : ℝ :=
  u.kB * T * log 2 * (π * (π * log 2 * lam2 u T u.me u.me)) ^ (3 / 2 : ℝ) *
    exp (-(k ^ 2 * (π * log 2 * lam2 u T u.me u.me) / 4))

/-- `n V / (k_B T)` of the electrons. -/
noncomputable def uEe (u : Consts) (k Te ne : ℝ) : ℝ :=
  ne / (u.kB * Te) * (pseudo u k (u.e ^ 2) (lam2 u Te u.me u.me) + exch u k Te)

/-- `n V / (k_B T)` of the ions. -/
noncomputable def uIi (u : Consts) (k Ti ne mi Zf : ℝ) : ℝ :=
  ne / Zf / (u.kB * Ti) * pseudo u k (Zf ^ 2 * u.e ^ 2) (lam2 u Ti mi mi)

/-- `n V / (k_B T)` of electrons and ions with one temperature. -/
noncomputable def uEi (u : Consts) (k T ne mi Zf : ℝ) : ℝ :=
  sqrt (ne / Zf * ne) / (u.kB * T) * pseudo u k (-Zf * u.e ^ 2) (lam2 u T u.me mi)

/-- The square of the coupling of electrons and ions of different temperatures. -/
noncomputable def uEi2 (u : Consts) (k Te Ti ne mi Zf : ℝ) : ℝ :=
  ne / Zf * ne / (u.kB * Te * (u.kB * Ti)) *
    pseudo u k (-Zf * u.e ^ 2) (lam2 u ((mi * Te + u.me * Ti) / (u.me + mi)) u.me mi) ^ 2

/-- The determinant of `1 + n V / (k_B T)`. -/
noncomputable def rpaDet (u : Consts) (k Te Ti ne mi Zf : ℝ) : ℝ :=
  (1 + uEe u k Te ne) * (1 + uIi u k Ti ne mi Zf) - uEi2 u k Te Ti ne mi Zf

section

variable {k Te Ti ne mi Zf : ℝ}

theorem lam2_pos {T m1 m2 : ℝ} (hT : 0 < T) (h1 : 0 < m1) (h2 : 0 < m2) : 0 < lam2 u T m1 m2 := by
  have := u.hbar_pos; have := u.kB_pos
  unfold lam2; positivity

theorem lambdaAD_sq {T m1 m2 : ℝ} (hT : 0 < T) (h1 : 0 < m1) (h2 : 0 < m2) :
    lambdaAD u T m1 m2 ^ 2 = lam2 u T m1 m2 := by
  have := u.hbar_pos; have := u.kB_pos
  unfold lambdaAD lam2
  rw [div_pow, sq_sqrt (by positivity)]
  field_simp

theorem kDAD_sq {T n Z : ℝ} (hT : 0 < T) (hn : 0 < n) (hZ : 0 < Z) :
    kDAD u T n Z ^ 2 = Z * n * u.e ^ 2 / (u.eps0 * u.kB * T) := by
  have := u.eps0_pos; have := u.kB_pos
  unfold kDAD
  rw [sq_sqrt (by positivity)]

theorem log_two_pos : 0 < log 2 := log_pos (by norm_num)

theorem aAD_eq (hT : 0 < Te) :
    aAD u Te (bAD (lambdaAD u Te u.me u.me)) =
      u.kB * Te * log 2 * (π * (π * log 2 * lam2 u Te u.me u.me)) ^ (3 / 2 : ℝ) * u.eps0 / u.e ^ 2 := by
  have hl := lam2_pos (u := u) hT u.me_pos u.me_pos
  have h2 := log_two_pos
  unfold aAD bAD
  rw [lambdaAD_sq hT u.me_pos u.me_pos]
  have hb : (1 / (lam2 u Te u.me u.me * π * log 2)) ^ (-3 / 2 : ℝ) =
      (π * log 2 * lam2 u Te u.me u.me) ^ (3 / 2 : ℝ) := by
    rw [one_div, inv_rpow (by positivity), ← rpow_neg (by positivity)]
    congr 1
    · ring
    · norm_num
  rw [hb, mul_rpow pi_pos.le (by positivity)]
  ring

theorem expAD_eq (hT : 0 < Te) (k : ℝ) :
    exp (-k ^ 2 / (4 * bAD (lambdaAD u Te u.me u.me))) =
      exp (-(k ^ 2 * (π * log 2 * lam2 u Te u.me u.me) / 4)) := by
  have hl := lam2_pos (u := u) hT u.me_pos u.me_pos
  have h2 := log_two_pos
  unfold bAD
  rw [lambdaAD_sq hT u.me_pos u.me_pos]
  congr 1
  field_simp

/-! ### Algebra -/

/-- The bracket common to the three potentials. -/
theorem delta_alg {x a c L M N A E : ℝ} (hx : x ≠ 0) (hL : 1 + x * L ≠ 0) (hM : 1 + x * M ≠ 0) (hN : 1 + x * N ≠ 0) :
    x ^ 2 + x * a / (1 + x * L) + x * c / (1 + x * M) +
      a * c * (1 / ((1 + x * L) * (1 + x * M)) - 1 / (1 + x * N) ^ 2) +
      A * x * a * (x + c / (1 + x * M)) * E =
    x ^ 2 * ((1 + (a / (x * (1 + x * L)) + a * A * E)) * (1 + c / (x * (1 + x * M))) -
      a * c / (x * (1 + x * N)) ^ 2) := by
  field_simp
  ring

theorem sii_alg {x a c L M N A E : ℝ} (hx : x ≠ 0) (hL : 1 + x * L ≠ 0) (hM : 1 + x * M ≠ 0) (hN : 1 + x * N ≠ 0)
    (hD : (1 + (a / (x * (1 + x * L)) + a * A * E)) * (1 + c / (x * (1 + x * M))) -
      a * c / (x * (1 + x * N)) ^ 2 ≠ 0) :
    1 - c / (x ^ 2 * ((1 + (a / (x * (1 + x * L)) + a * A * E)) * (1 + c / (x * (1 + x * M))) -
      a * c / (x * (1 + x * N)) ^ 2)) *
      (x / (1 + x * M) + a * (1 / ((1 + x * L) * (1 + x * M)) - 1 / (1 + x * N) ^ 2) +
        A * x * a / (1 + x * M) * E) =
    (1 + (a / (x * (1 + x * L)) + a * A * E)) /
      ((1 + (a / (x * (1 + x * L)) + a * A * E)) * (1 + c / (x * (1 + x * M))) -
      a * c / (x * (1 + x * N)) ^ 2) := by
  set D := (1 + (a / (x * (1 + x * L)) + a * A * E)) * (1 + c / (x * (1 + x * M))) -
      a * c / (x * (1 + x * N)) ^ 2 with hDdef
  have key : c * (x / (1 + x * M) + a * (1 / ((1 + x * L) * (1 + x * M)) - 1 / (1 + x * N) ^ 2) +
        A * x * a / (1 + x * M) * E) = x ^ 2 * (D - (1 + (a / (x * (1 + x * L)) + a * A * E))) := by
    rw [hDdef]; field_simp; ring
  rw [div_mul_eq_mul_div, key]
  field_simp
  ring

theorem see_alg {x a c L M N A E : ℝ} (hx : x ≠ 0) (hL : 1 + x * L ≠ 0) (hM : 1 + x * M ≠ 0) (hN : 1 + x * N ≠ 0)
    (hD : (1 + (a / (x * (1 + x * L)) + a * A * E)) * (1 + c / (x * (1 + x * M))) -
      a * c / (x * (1 + x * N)) ^ 2 ≠ 0) :
    1 - a / (x ^ 2 * ((1 + (a / (x * (1 + x * L)) + a * A * E)) * (1 + c / (x * (1 + x * M))) -
      a * c / (x * (1 + x * N)) ^ 2)) *
      (x / (1 + x * L) + c * (1 / ((1 + x * L) * (1 + x * M)) - 1 / (1 + x * N) ^ 2) +
        A * (x + c / (1 + x * M)) * x * E) =
    (1 + c / (x * (1 + x * M))) /
      ((1 + (a / (x * (1 + x * L)) + a * A * E)) * (1 + c / (x * (1 + x * M))) -
      a * c / (x * (1 + x * N)) ^ 2) := by
  set D := (1 + (a / (x * (1 + x * L)) + a * A * E)) * (1 + c / (x * (1 + x * M))) -
      a * c / (x * (1 + x * N)) ^ 2 with hDdef
  have key : a * (x / (1 + x * L) + c * (1 / ((1 + x * L) * (1 + x * M)) - 1 / (1 + x * N) ^ 2) +
        A * (x + c / (1 + x * M)) * x * E) = x ^ 2 * (D - (1 + c / (x * (1 + x * M)))) := by
    rw [hDdef]; field_simp; ring
  rw [div_mul_eq_mul_div, key]
  field_simp
  ring

/-! ### The structure factors -/

theorem uEe_eq (h : Phys Te Ti ne mi Zf) (k : ℝ) :
    uEe u k Te ne = kDAD u Te ne ^ 2 / (k ^ 2 * (1 + k ^ 2 * lambdaAD u Te u.me u.me ^ 2)) +
      kDAD u Te ne ^ 2 * aAD u Te (bAD (lambdaAD u Te u.me u.me)) *
        exp (-k ^ 2 / (4 * bAD (lambdaAD u Te u.me u.me))) := by
  have := u.eps0_pos; have := u.kB_pos; have := u.e_pos; have := h.te; have := h.ne
  rw [expAD_eq h.te, aAD_eq h.te, kDAD_sq h.te h.ne one_pos, lambdaAD_sq h.te u.me_pos u.me_pos]
  unfold uEe pseudo exch
  generalize (π * (π * log 2 * lam2 u Te u.me u.me)) ^ (3 / 2 : ℝ) = B
  generalize exp _ = E
  field_simp

theorem uIi_eq (h : Phys Te Ti ne mi Zf) (k : ℝ) :
    uIi u k Ti ne mi Zf = kDAD u Ti ne Zf ^ 2 / (k ^ 2 * (1 + k ^ 2 * lambdaAD u Ti mi mi ^ 2)) := by
  have := u.eps0_pos; have := u.kB_pos; have := u.e_pos; have := h.ti; have := h.ne; have := h.zf
  rw [kDAD_sq h.ti h.ne h.zf, lambdaAD_sq h.ti h.mi h.mi]
  unfold uIi pseudo
  field_simp

theorem tRs_pos (h : Phys Te Ti ne mi Zf) : 0 < tRsGreg Te Ti u.me mi := by
  have := u.me_pos; have := h.mi; have := h.te; have := h.ti
  unfold tRsGreg; positivity

theorem uEi2_eq (h : Phys Te Ti ne mi Zf) (k : ℝ) :
    uEi2 u k Te Ti ne mi Zf = kDAD u Te ne ^ 2 * kDAD u Ti ne Zf ^ 2 /
      (k ^ 2 * (1 + k ^ 2 * lambdaAD u (tRsGreg Te Ti u.me mi) u.me mi ^ 2)) ^ 2 := by
  have := u.eps0_pos; have := u.kB_pos; have := u.e_pos; have := h.ti; have := h.ne; have := h.zf; have := h.te
  rw [kDAD_sq h.ti h.ne h.zf, kDAD_sq h.te h.ne one_pos, lambdaAD_sq (tRs_pos h) u.me_pos h.mi]
  unfold uEi2 pseudo tRsGreg
  generalize lam2 u _ _ _ = l
  field_simp

theorem one_add_ne {k l : ℝ} : 1 + k ^ 2 * l ^ 2 ≠ 0 := by positivity

theorem deltaAD_eq (h : Phys Te Ti ne mi Zf) (hk : k ≠ 0) :
    deltaAD k (kDAD u Te ne) (kDAD u Ti ne Zf) (lambdaAD u Te u.me u.me) (lambdaAD u Ti mi mi)
      (lambdaAD u (tRsGreg Te Ti u.me mi) u.me mi) (bAD (lambdaAD u Te u.me u.me))
      (aAD u Te (bAD (lambdaAD u Te u.me u.me))) = (k ^ 2) ^ 2 * rpaDet u k Te Ti ne mi Zf := by
  unfold rpaDet deltaAD
  rw [uEe_eq h, uIi_eq h, uEi2_eq h, ← delta_alg (pow_ne_zero 2 hk) one_add_ne one_add_ne one_add_ne]
  ring

/-- The ion-ion structure factor, for any two temperatures. -/
theorem sIiAD_eq (h : Phys Te Ti ne mi Zf) (hk : k ≠ 0) (hD : rpaDet u k Te Ti ne mi Zf ≠ 0) :
    sIiAD u k Te Ti ne mi Zf = (1 + uEe u k Te ne) / rpaDet u k Te Ti ne mi Zf := by
  have he := u.eps0_pos; have hB := u.kB_pos; have hi := h.ti; have hn := h.ne; have hz := h.zf
  have hc := kDAD_sq (u := u) h.ti h.ne h.zf
  have hD' := hD
  unfold rpaDet at hD' ⊢
  rw [uEe_eq h, uIi_eq h, uEi2_eq h] at hD' ⊢
  rw [← sii_alg (pow_ne_zero 2 hk) one_add_ne one_add_ne one_add_ne hD']
  unfold sIiAD phiIi
  simp only []
  rw [deltaAD_eq h hk]
  unfold rpaDet
  rw [uEe_eq h, uIi_eq h, uEi2_eq h]
  generalize (1 + _) * (1 + _) - _ = D at hD' ⊢
  rw [← mul_assoc]
  congr 2
  rw [hc]
  have := pow_ne_zero 2 hk
  field_simp

/-- The electron-ion structure factor. -/
theorem sEiAD_eq (h : Phys Te Ti ne mi Zf) (hk : k ≠ 0) (hD : rpaDet u k Te Ti ne mi Zf ≠ 0) :
    sEiAD u k Te Ti ne mi Zf =
      sqrt (ne / Zf * ne) / (u.kB * tRsGreg Te Ti u.me mi) *
        (Zf * u.e ^ 2 / (u.eps0 * k ^ 2 * (1 + k ^ 2 * lam2 u (tRsGreg Te Ti u.me mi) u.me mi))) /
        rpaDet u k Te Ti ne mi Zf := by
  have he := u.eps0_pos; have hB := u.kB_pos; have hi := tRs_pos (u := u) h
  have hl := lam2_pos (u := u) hi u.me_pos h.mi
  unfold sEiAD phiEi
  simp only []
  rw [deltaAD_eq h hk, lambdaAD_sq hi u.me_pos h.mi]
  generalize rpaDet u k Te Ti ne mi Zf = D at hD ⊢
  generalize lam2 u _ _ _ = l at hl ⊢
  generalize tRsGreg _ _ _ _ = T at hi ⊢
  generalize sqrt _ = s
  field_simp

/-- The electron-electron structure factor, for any two temperatures: the last term is the addition of
Gregori et al. -/
theorem sEeAD_eq (h : Phys Te Ti ne mi Zf) (hk : k ≠ 0) (hD : rpaDet u k Te Ti ne mi Zf ≠ 0) :
    sEeAD u k Te Ti ne mi Zf = (1 + uIi u k Ti ne mi Zf) / rpaDet u k Te Ti ne mi Zf -
      (Te / Ti - 1) * (sEiAD u k Te Ti ne mi Zf ^ 2 / sIiAD u k Te Ti ne mi Zf) := by
  have he := u.eps0_pos; have hB := u.kB_pos; have hi := h.te; have hn := h.ne; have hz := h.zf
  have hc := kDAD_sq (u := u) h.te h.ne one_pos
  have first : 1 - ne / (u.kB * Te) * phiEe u k Te Ti ne mi Zf =
      (1 + uIi u k Ti ne mi Zf) / rpaDet u k Te Ti ne mi Zf := by
    have hD' := hD
    unfold rpaDet at hD' ⊢
    rw [uEe_eq h, uIi_eq h, uEi2_eq h] at hD' ⊢
    rw [← see_alg (pow_ne_zero 2 hk) one_add_ne one_add_ne one_add_ne hD']
    unfold phiEe
    simp only []
    rw [deltaAD_eq h hk]
    unfold rpaDet
    rw [uEe_eq h, uIi_eq h, uEi2_eq h]
    generalize (1 + _) * (1 + _) - _ = D at hD' ⊢
    rw [← mul_assoc]
    congr 2
    rw [hc]
    have := pow_ne_zero 2 hk
    field_simp
  unfold sEeAD
  simp only []
  rw [first]
  congr 1
  rw [sq_abs, div_pow, mul_pow, sq_sqrt hz.le]
  generalize sIiAD u k Te Ti ne mi Zf = S
  rcases eq_or_ne S 0 with rfl | hS
  · simp
  · field_simp

end

/-! ### Equilibrium -/

section

variable {k T ne mi Zf : ℝ}

theorem tRs_self (hm : 0 < mi) (T : ℝ) : tRsGreg T T u.me mi = T := by
  have := u.me_pos
  unfold tRsGreg
  field_simp
  ring

theorem tRs_self' (hm : 0 < mi) (T : ℝ) : (mi * T + u.me * T) / (u.me + mi) = T := tRs_self (u := u) hm T

theorem uEi2_self (h : Phys T T ne mi Zf) : uEi2 u k T T ne mi Zf = uEi u k T ne mi Zf ^ 2 := by
  have := h.ne; have := h.zf
  unfold uEi2 uEi
  rw [tRs_self' h.mi, mul_pow, div_pow, sq_sqrt (by positivity)]
  ring

theorem uIi_pos {Ti : ℝ} (hT : 0 < Ti) (hn : 0 < ne) (hm : 0 < mi) (hz : 0 < Zf) (hk : k ≠ 0) : 0 < uIi u k Ti ne mi Zf := by
  have := u.eps0_pos; have := u.kB_pos; have := u.e_pos
  have := lam2_pos (u := u) hT hm hm
  unfold uIi pseudo; positivity

theorem exch_pos (hT : 0 < T) : 0 < exch u k T := by
  have := u.kB_pos; have := log_two_pos; have := lam2_pos (u := u) hT u.me_pos u.me_pos
  unfold exch; positivity

theorem uEe_pos (hT : 0 < T) (hn : 0 < ne) (hk : k ≠ 0) : 0 < uEe u k T ne := by
  have := u.eps0_pos; have := u.kB_pos; have := u.e_pos
  have := lam2_pos (u := u) hT u.me_pos u.me_pos
  have := exch_pos (u := u) (k := k) hT
  unfold uEe pseudo; positivity

/-- In equilibrium the wave lengths of the pairs satisfy the inequality of the arithmetic and geometric
mean, so that the attraction of electrons and ions never outweighs the repulsions. -/
theorem uEi_sq_lt (h : Phys T T ne mi Zf) (hk : k ≠ 0) :
    uEi u k T ne mi Zf ^ 2 < uEe u k T ne * uIi u k T ne mi Zf := by
  have he := u.eps0_pos; have hB := u.kB_pos; have hee := u.e_pos; have hme := u.me_pos; have hh := u.hbar_pos
  obtain ⟨hT, -, hn, hm, hz⟩ := h
  have hi := uIi_pos (u := u) hT hn hm hz hk
  have hx := exch_pos (u := u) (k := k) hT
  have hL := lam2_pos (u := u) hT hme hme
  have hM := lam2_pos (u := u) hT hm hm
  have hN := lam2_pos (u := u) hT hme hm
  have hs : 2 * lam2 u T u.me mi = lam2 u T u.me u.me + lam2 u T mi mi := by
    unfold lam2; field_simp; ring
  have hk2 : 0 < k ^ 2 := by positivity
  have step : uEi u k T ne mi Zf ^ 2 ≤
      ne / (u.kB * T) * pseudo u k (u.e ^ 2) (lam2 u T u.me u.me) * uIi u k T ne mi Zf := by
    unfold uEi uIi pseudo
    rw [mul_pow, div_pow, sq_sqrt (by positivity), div_pow]
    generalize lam2 u T u.me u.me = L at *
    generalize lam2 u T mi mi = M at *
    generalize lam2 u T u.me mi = N at *
    have hN' : N = (L + M) / 2 := by linarith
    have e1 : ne / Zf * ne / (u.kB * T) ^ 2 * ((-Zf * u.e ^ 2) ^ 2 / (u.eps0 * k ^ 2 * (1 + k ^ 2 * N)) ^ 2) =
        ne ^ 2 * Zf * u.e ^ 4 / ((u.kB * T) ^ 2 * (u.eps0 * k ^ 2) ^ 2) / (1 + k ^ 2 * N) ^ 2 := by
      field_simp
    have e2 : ne / (u.kB * T) * (u.e ^ 2 / (u.eps0 * k ^ 2 * (1 + k ^ 2 * L))) *
        (ne / Zf / (u.kB * T) * (Zf ^ 2 * u.e ^ 2 / (u.eps0 * k ^ 2 * (1 + k ^ 2 * M)))) =
        ne ^ 2 * Zf * u.e ^ 4 / ((u.kB * T) ^ 2 * (u.eps0 * k ^ 2) ^ 2) / ((1 + k ^ 2 * L) * (1 + k ^ 2 * M)) := by
      field_simp
    rw [e1, e2]
    apply div_le_div_of_nonneg_left (by positivity) (by positivity)
    rw [hN']
    nlinarith [sq_nonneg (k ^ 2 * L - k ^ 2 * M)]
  refine step.trans_lt ?_
  apply mul_lt_mul_of_pos_right _ hi
  unfold uEe
  rw [mul_add]
  have : 0 < ne / (u.kB * T) * exch u k T := by positivity
  linarith

theorem rpaDet_gt (h : Phys T T ne mi Zf) (hk : k ≠ 0) :
    1 + uEe u k T ne + uIi u k T ne mi Zf < rpaDet u k T T ne mi Zf := by
  have := uEi_sq_lt (u := u) h hk
  unfold rpaDet
  rw [uEi2_self h]
  linarith

theorem rpaDet_pos (h : Phys T T ne mi Zf) (hk : k ≠ 0) : 0 < rpaDet u k T T ne mi Zf := by
  have h1 := uEe_pos (u := u) h.te h.ne hk
  have h2 := uIi_pos (u := u) h.te h.ne h.mi h.zf hk
  have := rpaDet_gt (u := u) h hk
  linarith

theorem sEiAD_self (h : Phys T T ne mi Zf) (hk : k ≠ 0) :
    sEiAD u k T T ne mi Zf = -uEi u k T ne mi Zf / rpaDet u k T T ne mi Zf := by
  rw [sEiAD_eq h hk (rpaDet_pos h hk).ne', tRs_self h.mi]
  congr 1
  unfold uEi pseudo
  ring

theorem sEeAD_self (h : Phys T T ne mi Zf) (hk : k ≠ 0) :
    sEeAD u k T T ne mi Zf = (1 + uIi u k T ne mi Zf) / rpaDet u k T T ne mi Zf := by
  rw [sEeAD_eq h hk (rpaDet_pos h hk).ne', div_self h.te.ne', sub_self, zero_mul, sub_zero]

/-- C34: in equilibrium the three structure factors are the inverse of the matrix `1 + n V / (k_B T)` of
the random phase approximation. -/
theorem sAD_inverse (h : Phys T T ne mi Zf) (hk : k ≠ 0) :
    sIiAD u k T T ne mi Zf * (1 + uIi u k T ne mi Zf) + sEiAD u k T T ne mi Zf * uEi u k T ne mi Zf = 1 ∧
      sIiAD u k T T ne mi Zf * uEi u k T ne mi Zf + sEiAD u k T T ne mi Zf * (1 + uEe u k T ne) = 0 ∧
      sEiAD u k T T ne mi Zf * (1 + uIi u k T ne mi Zf) + sEeAD u k T T ne mi Zf * uEi u k T ne mi Zf = 0 ∧
      sEiAD u k T T ne mi Zf * uEi u k T ne mi Zf + sEeAD u k T T ne mi Zf * (1 + uEe u k T ne) = 1 := by
  have hD := (rpaDet_pos (u := u) h hk).ne'
  rw [sEiAD_self h hk, sEeAD_self h hk, sIiAD_eq h hk hD]
  have hDd : rpaDet u k T T ne mi Zf =
      (1 + uEe u k T ne) * (1 + uIi u k T ne mi Zf) - uEi u k T ne mi Zf ^ 2 := by
    unfold rpaDet; rw [uEi2_self h]
  generalize rpaDet u k T T ne mi Zf = D at *
  refine ⟨?_, ?_, ?_, ?_⟩
  · field_simp; rw [hDd]; ring
  · field_simp; ring
  · field_simp; ring
  · field_simp; rw [hDd]; ring

/-- C34: in equilibrium the structure factors of electrons and ions lie between zero and one, electrons
gather around the ions, and the matrix of structure factors is positive definite. -/
theorem sAD_bounds (h : Phys T T ne mi Zf) (hk : k ≠ 0) :
    0 < sIiAD u k T T ne mi Zf ∧ sIiAD u k T T ne mi Zf < 1 ∧
      0 < sEeAD u k T T ne mi Zf ∧ sEeAD u k T T ne mi Zf < 1 ∧ 0 < sEiAD u k T T ne mi Zf ∧
      0 < sIiAD u k T T ne mi Zf * sEeAD u k T T ne mi Zf - sEiAD u k T T ne mi Zf ^ 2 := by
  have h1 := uEe_pos (u := u) h.te h.ne hk
  have h2 := uIi_pos (u := u) h.te h.ne h.mi h.zf hk
  have h3 := rpaDet_gt (u := u) h hk
  have hD := rpaDet_pos (u := u) h hk
  have hei : 0 < -uEi u k T ne mi Zf := by
    have he := u.eps0_pos; have hB := u.kB_pos; have hee := u.e_pos
    obtain ⟨hT, -, hn, hm, hz⟩ := h
    have hN := lam2_pos (u := u) hT u.me_pos hm
    have : -uEi u k T ne mi Zf = sqrt (ne / Zf * ne) / (u.kB * T) *
        (Zf * u.e ^ 2 / (u.eps0 * k ^ 2 * (1 + k ^ 2 * lam2 u T u.me mi))) := by
      unfold uEi pseudo; ring
    rw [this]
    positivity
  rw [sEiAD_self h hk, sEeAD_self h hk, sIiAD_eq h hk hD.ne']
  have hDd : rpaDet u k T T ne mi Zf =
      (1 + uEe u k T ne) * (1 + uIi u k T ne mi Zf) - uEi u k T ne mi Zf ^ 2 := by
    unfold rpaDet; rw [uEi2_self h]
  generalize rpaDet u k T T ne mi Zf = D at *
  refine ⟨by positivity, ?_, by positivity, ?_, by positivity, ?_⟩
  · rw [div_lt_one hD]; linarith
  · rw [div_lt_one hD]; linarith
  · have : (1 + uEe u k T ne) / D * ((1 + uIi u k T ne mi Zf) / D) - (-uEi u k T ne mi Zf / D) ^ 2 = 1 / D := by
      field_simp; rw [hDd]
    rw [this]; positivity

example : 0 < sIiAD unitConsts 2 1 1 3 5 (3 / 2) ∧ sIiAD unitConsts 2 1 1 3 5 (3 / 2) < 1 :=
  let h := sAD_bounds (u := unitConsts) (k := 2) (T := 1) (ne := 3) (mi := 5) (Zf := 3 / 2)
    ⟨by norm_num, by norm_num, by norm_num, by norm_num, by norm_num⟩ (by norm_num)
  ⟨h.1, h.2.1⟩

end

/-! ### Two temperatures -/

section

variable {k Te Ti ne mi Zf : ℝ}

/-- C34: with two temperatures the ion-ion structure factor lies between zero and one at all wave numbers
when the ions are not hotter than twice the electrons and their thermal wave length is shorter than the
screening length of the electrons. -/
theorem sIiAD_two_temperatures (h : Phys Te Ti ne mi Zf) (hk : k ≠ 0) (hT : Ti ≤ 2 * Te)
    (hl : ne * u.e ^ 2 / (u.eps0 * u.kB * Te) * (u.hbar ^ 2 / (π * mi * u.kB * Ti)) ≤ 1) :
    0 < sIiAD u k Te Ti ne mi Zf ∧ sIiAD u k Te Ti ne mi Zf < 1 := by
  have he := u.eps0_pos; have hB := u.kB_pos; have hee := u.e_pos; have hme := u.me_pos; have hh := u.hbar_pos
  have hte := h.te; have hti := h.ti; have hn := h.ne; have hm := h.mi; have hz := h.zf
  have hTei := tRs_pos (u := u) h
  have hk2 : 0 < k ^ 2 := by positivity
  have key : uEi2 u k Te Ti ne mi Zf < (1 + uEe u k Te ne) * uIi u k Ti ne mi Zf := by
    rw [uEi2_eq h, uEe_eq h, uIi_eq h]
    have hA : 0 < aAD u Te (bAD (lambdaAD u Te u.me u.me)) := by
      rw [aAD_eq hte]
      have := log_two_pos; have := lam2_pos (u := u) hte hme hme
      positivity
    have hE : 0 < exp (-k ^ 2 / (4 * bAD (lambdaAD u Te u.me u.me))) := exp_pos _
    generalize exp (-k ^ 2 / (4 * bAD (lambdaAD u Te u.me u.me))) = E at *
    generalize aAD u Te (bAD (lambdaAD u Te u.me u.me)) = A at *
    have ha : 0 < kDAD u Te ne ^ 2 := by rw [kDAD_sq hte hn one_pos]; positivity
    have hc : 0 < kDAD u Ti ne Zf ^ 2 := by rw [kDAD_sq hti hn hz]; positivity
    have haM : kDAD u Te ne ^ 2 * lambdaAD u Ti mi mi ^ 2 ≤ 1 := by
      rw [kDAD_sq hte hn one_pos, lambdaAD_sq hti hm hm]
      refine le_trans (le_of_eq ?_) hl
      unfold lam2
      field_simp
      ring
    have hLN : lambdaAD u Te u.me u.me ^ 2 ≤ 2 * lambdaAD u (tRsGreg Te Ti u.me mi) u.me mi ^ 2 := by
      rw [lambdaAD_sq hte hme hme, lambdaAD_sq hTei hme hm]
      unfold lam2 tRsGreg
      have e1 : u.hbar ^ 2 * (u.me + u.me) / (2 * π * u.me * u.me * u.kB * Te) =
          u.hbar ^ 2 / (π * u.me * u.kB) * (1 / Te) := by field_simp; ring
      have e2 : 2 * (u.hbar ^ 2 * (u.me + mi) / (2 * π * u.me * mi * u.kB * ((mi * Te + u.me * Ti) / (u.me + mi)))) =
          u.hbar ^ 2 / (π * u.me * u.kB) * ((u.me + mi) ^ 2 / (mi * (mi * Te + u.me * Ti))) := by
        field_simp
      rw [e1, e2]
      apply mul_le_mul_of_nonneg_left _ (by positivity)
      rw [div_le_div_iff₀ hte (by positivity)]
      nlinarith [mul_pos hme hm, mul_pos (mul_pos hme hme) hte, mul_le_mul_of_nonneg_left hT (mul_pos hme hm).le]
    have hM := sq_nonneg (lambdaAD u Ti mi mi)
    have hL := sq_nonneg (lambdaAD u Te u.me u.me)
    have hN := sq_nonneg (lambdaAD u (tRsGreg Te Ti u.me mi) u.me mi)
    generalize kDAD u Te ne ^ 2 = a at *
    generalize kDAD u Ti ne Zf ^ 2 = c at *
    generalize lambdaAD u Ti mi mi ^ 2 = M at *
    generalize lambdaAD u Te u.me u.me ^ 2 = L at *
    generalize lambdaAD u (tRsGreg Te Ti u.me mi) u.me mi ^ 2 = N at *
    generalize k ^ 2 = x at *
    have b1 : a * c / (x * (1 + x * N)) ^ 2 ≤ a * c / (x ^ 2 * (1 + x * L)) := by
      apply div_le_div_of_nonneg_left (by positivity) (by positivity)
      rw [mul_pow]
      apply mul_le_mul_of_nonneg_left _ (by positivity)
      nlinarith [mul_nonneg hk2.le hN, mul_nonneg hk2.le hL, mul_le_mul_of_nonneg_left hLN hk2.le,
        sq_nonneg (x * N)]
    have b2 : a * c / (x ^ 2 * (1 + x * L)) ≤ (1 + a / (x * (1 + x * L))) * (c / (x * (1 + x * M))) := by
      have : (1 + a / (x * (1 + x * L))) * (c / (x * (1 + x * M))) =
          c * (x * (1 + x * L) + a) / (x ^ 2 * (1 + x * L) * (1 + x * M)) := by
        field_simp
      rw [this, div_le_div_iff₀ (by positivity) (by positivity)]
      have e : c * (x * (1 + x * L) + a) * (x ^ 2 * (1 + x * L)) - a * c * (x ^ 2 * (1 + x * L) * (1 + x * M)) =
          c * x ^ 3 * (1 + x * L) * (1 - a * M) + c * x ^ 4 * (1 + x * L) * L := by ring
      have : 0 ≤ c * x ^ 3 * (1 + x * L) * (1 - a * M) := by
        have : 0 ≤ 1 - a * M := by linarith
        positivity
      have : 0 ≤ c * x ^ 4 * (1 + x * L) * L := by positivity
      linarith
    have b3 : (1 + a / (x * (1 + x * L))) * (c / (x * (1 + x * M))) <
        (1 + (a / (x * (1 + x * L)) + a * A * E)) * (c / (x * (1 + x * M))) := by
      apply mul_lt_mul_of_pos_right _ (by positivity)
      have : 0 < a * A * E := by positivity
      linarith
    linarith
  have hu := uEe_pos (u := u) (k := k) hte hn hk
  have hD : 1 + uEe u k Te ne < rpaDet u k Te Ti ne mi Zf := by
    unfold rpaDet; linarith
  have hD0 : 0 < rpaDet u k Te Ti ne mi Zf := by linarith
  rw [sIiAD_eq h hk hD0.ne']
  exact ⟨by positivity, by rw [div_lt_one hD0]; exact hD⟩

example : 0 < sIiAD unitConsts 2 3 1 1 5 (3 / 2) := by
  refine (sIiAD_two_temperatures (u := unitConsts) ⟨?_, ?_, ?_, ?_, ?_⟩ ?_ ?_ ?_).1 <;> norm_num
  simp only [unitConsts]
  have : (3 : ℝ) < π := pi_gt_three
  rw [div_mul_div_comm, div_le_one (by positivity)]
  nlinarith

end

/-! ### Limits -/

section

theorem det_small {x a c L M N A E : ℝ} (hx : x ≠ 0) (hL : 1 + x * L ≠ 0) (hM : 1 + x * M ≠ 0) (hN : 1 + x * N ≠ 0) :
    x * ((1 + (a / (x * (1 + x * L)) + a * A * E)) * (1 + c / (x * (1 + x * M))) - a * c / (x * (1 + x * N)) ^ 2) =
      x + a / (1 + x * L) + c / (1 + x * M) +
        a * c * ((2 * N - L - M) + x * (N ^ 2 - L * M)) / ((1 + x * L) * (1 + x * M) * (1 + x * N) ^ 2) +
        A * a * (x + c / (1 + x * M)) * E := by
  field_simp
  ring

theorem tendsto_sq_zero : Tendsto (fun k : ℝ => k ^ 2) (𝓝[≠] 0) (𝓝 0) := by
  have : Tendsto (fun k : ℝ => k ^ 2) (𝓝 0) (𝓝 0) := by
    have := (continuous_pow 2 (M := ℝ)).tendsto 0
    simpa using this
  exact this.mono_left nhdsWithin_le_nhds

theorem tendsto_at_sq {f g : ℝ → ℝ} {l : ℝ} (hc : ContinuousAt f 0) (hl : f 0 = l)
    (key : ∀ k ≠ 0, f (k ^ 2) = g k) : Tendsto g (𝓝[≠] 0) (𝓝 l) := by
  have h1 : Tendsto f (𝓝 0) (𝓝 l) := hl ▸ hc.tendsto
  refine Tendsto.congr' ?_ (h1.comp tendsto_sq_zero)
  filter_upwards [self_mem_nhdsWithin] with k hk
  exact key k hk

variable {Te Ti ne mi Zf : ℝ}

theorem tendsto_small_det (h : Phys Te Ti ne mi Zf) :
    Tendsto (fun k => k ^ 2 * rpaDet u k Te Ti ne mi Zf) (𝓝[≠] 0)
      (𝓝 (kDAD u Te ne ^ 2 + kDAD u Ti ne Zf ^ 2 + kDAD u Te ne ^ 2 * kDAD u Ti ne Zf ^ 2 *
        (2 * lam2 u (tRsGreg Te Ti u.me mi) u.me mi - lam2 u Te u.me u.me - lam2 u Ti mi mi +
          aAD u Te (bAD (lambdaAD u Te u.me u.me))))) := by
  have hE : ∀ k : ℝ, exp (-k ^ 2 / (4 * bAD (lambdaAD u Te u.me u.me))) =
      exp (k ^ 2 * (-1 / (4 * bAD (lambdaAD u Te u.me u.me)))) := fun k => by congr 1; ring
  rw [← lambdaAD_sq h.te u.me_pos u.me_pos, ← lambdaAD_sq h.ti h.mi h.mi, ← lambdaAD_sq (tRs_pos h) u.me_pos h.mi]
  have hk : ∀ k ≠ (0 : ℝ), _ = k ^ 2 * rpaDet u k Te Ti ne mi Zf := fun k hk => by
    unfold rpaDet
    rw [uEe_eq h, uIi_eq h, uEi2_eq h, det_small (pow_ne_zero 2 hk) one_add_ne one_add_ne one_add_ne, hE k]
  generalize lambdaAD u (tRsGreg Te Ti u.me mi) u.me mi ^ 2 = N at *
  generalize -1 / (4 * bAD (lambdaAD u Te u.me u.me)) = B at *
  generalize aAD u Te (bAD (lambdaAD u Te u.me u.me)) = A at *
  generalize lambdaAD u Te u.me u.me ^ 2 = L at *
  generalize lambdaAD u Ti mi mi ^ 2 = M at *
  generalize kDAD u Te ne ^ 2 = a at *
  generalize kDAD u Ti ne Zf ^ 2 = c at *
  have hc : ContinuousAt (fun x : ℝ => x + a / (1 + x * L) + c / (1 + x * M) +
        a * c * ((2 * N - L - M) + x * (N ^ 2 - L * M)) / ((1 + x * L) * (1 + x * M) * (1 + x * N) ^ 2) +
        A * a * (x + c / (1 + x * M)) * exp (x * B)) 0 := by
    have c1 : ∀ l : ℝ, ContinuousAt (fun x : ℝ => 1 + x * l) 0 := fun l => by fun_prop
    have d1 : ∀ l d : ℝ, ContinuousAt (fun x : ℝ => d / (1 + x * l)) 0 := fun l d =>
      continuousAt_const.div (c1 l) (by simp)
    refine ((((continuousAt_id.add (d1 L a)).add (d1 M c)).add ?_).add ?_)
    · refine ContinuousAt.div (by fun_prop) (by fun_prop) (by simp)
    · refine ContinuousAt.mul (ContinuousAt.mul continuousAt_const (continuousAt_id.add (d1 M c))) (by fun_prop)
  refine tendsto_at_sq hc ?_ hk
  simp
  ring

theorem tendsto_small_ee (h : Phys Te Ti ne mi Zf) :
    Tendsto (fun k => k ^ 2 * (1 + uEe u k Te ne)) (𝓝[≠] 0) (𝓝 (kDAD u Te ne ^ 2)) := by
  have hc : ContinuousAt (fun x : ℝ => x + kDAD u Te ne ^ 2 / (1 + x * lambdaAD u Te u.me u.me ^ 2) +
      x * (kDAD u Te ne ^ 2 * aAD u Te (bAD (lambdaAD u Te u.me u.me)) *
        exp (-x / (4 * bAD (lambdaAD u Te u.me u.me))))) 0 := by
    refine (continuousAt_id.add (continuousAt_const.div (by fun_prop) (by simp))).add (by fun_prop)
  refine tendsto_at_sq hc (by simp) fun k hk => ?_
  have h1 := one_add_ne (k := k) (l := lambdaAD u Te u.me u.me)
  rw [uEe_eq h]
  generalize exp _ = E
  field_simp
  ring

theorem tendsto_small_ii (h : Phys Te Ti ne mi Zf) :
    Tendsto (fun k => k ^ 2 * (1 + uIi u k Ti ne mi Zf)) (𝓝[≠] 0) (𝓝 (kDAD u Ti ne Zf ^ 2)) := by
  have hc : ContinuousAt (fun x : ℝ => x + kDAD u Ti ne Zf ^ 2 / (1 + x * lambdaAD u Ti mi mi ^ 2)) 0 :=
    continuousAt_id.add (continuousAt_const.div (by fun_prop) (by simp))
  refine tendsto_at_sq hc (by simp) fun k hk => ?_
  have h1 := one_add_ne (k := k) (l := lambdaAD u Ti mi mi)
  rw [uIi_eq h]
  field_simp

theorem aAD_pos (hT : 0 < Te) : 0 < aAD u Te (bAD (lambdaAD u Te u.me u.me)) := by
  rw [aAD_eq hT]
  have := log_two_pos; have := lam2_pos (u := u) hT u.me_pos u.me_pos
  have := u.eps0_pos; have := u.kB_pos; have := u.e_pos
  positivity

/-- C34: the compressibility limit.  For vanishing wave numbers the ion-ion structure factor tends to
`κ_e² / (κ_e² + κ_i² + A κ_e² κ_i²)` and the electron-electron structure factor to `Z` times this value:
the charges are neutral on large scales. -/
theorem sAD_small {T : ℝ} (h : Phys T T ne mi Zf) :
    ∃ S0, 0 < S0 ∧ S0 < 1 / (1 + Zf) ∧ Tendsto (fun k => sIiAD u k T T ne mi Zf) (𝓝[≠] 0) (𝓝 S0) ∧
      Tendsto (fun k => sEeAD u k T T ne mi Zf) (𝓝[≠] 0) (𝓝 (Zf * S0)) ∧
      Tendsto (fun k => sEiAD u k T T ne mi Zf) (𝓝[≠] 0) (𝓝 (sqrt Zf * S0)) := by
  have he := u.eps0_pos; have hB := u.kB_pos; have hee := u.e_pos; have hme := u.me_pos; have hh := u.hbar_pos
  have hT := h.te; have hn := h.ne; have hm := h.mi; have hz := h.zf
  have hA := aAD_pos (u := u) hT
  have ha : 0 < kDAD u T ne ^ 2 := by rw [kDAD_sq hT hn one_pos]; positivity
  have hc : kDAD u T ne Zf ^ 2 = Zf * kDAD u T ne ^ 2 := by
    rw [kDAD_sq hT hn hz, kDAD_sq hT hn one_pos]; ring
  have hs : 2 * lam2 u T u.me mi - lam2 u T u.me u.me - lam2 u T mi mi = 0 := by
    unfold lam2; field_simp; ring
  have hdet := tendsto_small_det (u := u) h
  rw [tRs_self hm, hs, zero_add, hc] at hdet
  set a := kDAD u T ne ^ 2 with hadef
  set A := aAD u T (bAD (lambdaAD u T u.me u.me)) with hAdef
  have hR : 0 < a + Zf * a + a * (Zf * a) * A := by positivity
  refine ⟨a / (a + Zf * a + a * (Zf * a) * A), by positivity, ?_, ?_, ?_, ?_⟩
  · rw [div_lt_div_iff₀ hR (by positivity)]
    have : 0 < a * (Zf * a) * A := by positivity
    linarith
  · refine Tendsto.congr' ?_ ((tendsto_small_ee (u := u) h).div hdet hR.ne')
    filter_upwards [self_mem_nhdsWithin] with k hk
    have hD := (rpaDet_pos (u := u) h hk).ne'
    rw [sIiAD_eq h hk hD]
    exact mul_div_mul_left _ _ (pow_ne_zero 2 hk)
  · have : Zf * (a / (a + Zf * a + a * (Zf * a) * A)) = Zf * a / (a + Zf * a + a * (Zf * a) * A) := by ring
    rw [this, ← hc]
    rw [← hc] at hdet hR
    refine Tendsto.congr' ?_ ((tendsto_small_ii (u := u) h).div hdet hR.ne')
    filter_upwards [self_mem_nhdsWithin] with k hk
    rw [sEeAD_self h hk]
    exact mul_div_mul_left _ _ (pow_ne_zero 2 hk)
  · have hu : Tendsto (fun k => k ^ 2 * -uEi u k T ne mi Zf) (𝓝[≠] 0) (𝓝 (sqrt Zf * a)) := by
      have hc : ContinuousAt (fun x : ℝ => sqrt Zf * a / (1 + x * lam2 u T u.me mi)) 0 :=
        continuousAt_const.div (by fun_prop) (by simp)
      refine tendsto_at_sq hc (by simp) fun k hk => ?_
      have hl := lam2_pos (u := u) hT hme hm
      have hsq : sqrt (ne / Zf * ne) = ne / sqrt Zf := by
        rw [show ne / Zf * ne = ne ^ 2 / Zf by ring, sqrt_div (by positivity), sqrt_sq hn.le]
      rw [hadef, kDAD_sq hT hn one_pos]
      unfold uEi pseudo
      rw [hsq]
      have hsz : 0 < sqrt Zf := sqrt_pos.2 hz
      have hsz2 : sqrt Zf ^ 2 = Zf := sq_sqrt hz.le
      generalize lam2 u T u.me mi = l at hl ⊢
      generalize sqrt Zf = z at hsz hsz2 ⊢
      rw [← hsz2]
      field_simp
    rw [← mul_div_assoc]
    refine Tendsto.congr' ?_ (hu.div hdet hR.ne')
    filter_upwards [self_mem_nhdsWithin] with k hk
    rw [sEiAD_self h hk]
    exact mul_div_mul_left _ _ (pow_ne_zero 2 hk)

/-- C34: the function does not return structure factors for all temperatures: sufficiently cold ions in
any plasma have a negative structure factor at all small wave numbers. -/
theorem sIiAD_cold_negative (hT : 0 < Te) (hn : 0 < ne) (hm : 0 < mi) (hz : 0 < Zf) :
    ∃ T0 > 0, ∀ Ti, 0 < Ti → Ti < T0 → ∀ᶠ k in 𝓝[≠] 0, sIiAD u k Te Ti ne mi Zf < 0 := by
  have he := u.eps0_pos; have hB := u.kB_pos; have hee := u.e_pos; have hme := u.me_pos; have hh := u.hbar_pos
  have hA := aAD_pos (u := u) hT
  have ha : 0 < kDAD u Te ne ^ 2 := by rw [kDAD_sq hT hn one_pos]; positivity
  set a := kDAD u Te ne ^ 2 with hadef
  set A := aAD u Te (bAD (lambdaAD u Te u.me u.me)) with hAdef
  set N0 := u.hbar ^ 2 * (u.me + mi) ^ 2 / (π * u.me * mi ^ 2 * u.kB * Te) with hN0
  have hN0p : 0 < N0 := by rw [hN0]; positivity
  set K := 1 + a * (N0 + A) with hK
  have hKp : 0 < K := by rw [hK]; positivity
  set M0 := u.hbar ^ 2 / (π * mi * u.kB) with hM0
  have hM0p : 0 < M0 := by rw [hM0]; positivity
  set c0 := Zf * ne * u.e ^ 2 / (u.eps0 * u.kB) with hc0
  have hc0p : 0 < c0 := by rw [hc0]; positivity
  refine ⟨min (a * M0 / (2 * K)) (c0 * K / a), lt_min (by positivity) (by positivity), fun Ti hTi hlt => ?_⟩
  have h : Phys Te Ti ne mi Zf := ⟨hT, hTi, hn, hm, hz⟩
  have h1 : Ti < a * M0 / (2 * K) := hlt.trans_le (min_le_left _ _)
  have h2 : Ti < c0 * K / a := hlt.trans_le (min_le_right _ _)
  have hdet := tendsto_small_det (u := u) h
  have hneg : kDAD u Te ne ^ 2 + kDAD u Ti ne Zf ^ 2 + kDAD u Te ne ^ 2 * kDAD u Ti ne Zf ^ 2 *
        (2 * lam2 u (tRsGreg Te Ti u.me mi) u.me mi - lam2 u Te u.me u.me - lam2 u Ti mi mi +
          aAD u Te (bAD (lambdaAD u Te u.me u.me))) < 0 := by
    have hM : lam2 u Ti mi mi = M0 / Ti := by rw [hM0]; unfold lam2; field_simp; ring
    have hc : kDAD u Ti ne Zf ^ 2 = c0 / Ti := by rw [kDAD_sq hTi hn hz, hc0]; field_simp
    have hN : 2 * lam2 u (tRsGreg Te Ti u.me mi) u.me mi ≤ N0 := by
      have e : 2 * lam2 u (tRsGreg Te Ti u.me mi) u.me mi =
          u.hbar ^ 2 * (u.me + mi) ^ 2 / (π * u.me * mi * u.kB * (mi * Te + u.me * Ti)) := by
        unfold lam2 tRsGreg; field_simp
      rw [e, hN0]
      apply div_le_div_of_nonneg_left (by positivity) (by positivity)
      have : π * u.me * mi * u.kB * (mi * Te + u.me * Ti) =
        π * u.me * mi ^ 2 * u.kB * Te + π * u.me * mi * u.kB * (u.me * Ti) := by ring
      rw [this]
      have : 0 < π * u.me * mi * u.kB * (u.me * Ti) := by positivity
      linarith
    have hL := lam2_pos (u := u) hT hme hme
    rw [hM, hc]
    have b1 : a + c0 / Ti + a * (c0 / Ti) * (2 * lam2 u (tRsGreg Te Ti u.me mi) u.me mi - lam2 u Te u.me u.me - M0 / Ti + A) ≤
        a + c0 / Ti * (K - a * M0 / Ti) := by
      have : a + c0 / Ti * (K - a * M0 / Ti) = a + c0 / Ti + a * (c0 / Ti) * (N0 - M0 / Ti + A) := by
        rw [hK]; ring
      rw [this]
      have : a * (c0 / Ti) * (2 * lam2 u (tRsGreg Te Ti u.me mi) u.me mi - lam2 u Te u.me u.me - M0 / Ti + A) ≤
          a * (c0 / Ti) * (N0 - M0 / Ti + A) := by
        apply mul_le_mul_of_nonneg_left _ (by positivity)
        linarith
      linarith
    have b2 : 2 * K < a * M0 / Ti := by
      rw [lt_div_iff₀ hTi]
      rw [lt_div_iff₀ (by positivity)] at h1
      linarith
    have b3 : a < c0 / Ti * K := by
      rw [lt_div_iff₀ ha] at h2
      rw [div_mul_eq_mul_div, lt_div_iff₀ hTi]
      linarith
    have b4 : c0 / Ti * (K - a * M0 / Ti) < c0 / Ti * (-K) := mul_lt_mul_of_pos_left (by linarith) (by positivity)
    have : c0 / Ti * (-K) = -(c0 / Ti * K) := by ring
    linarith
  have hev := hdet.eventually (gt_mem_nhds hneg)
  filter_upwards [hev, self_mem_nhdsWithin] with k hk (hk0 : k ≠ 0)
  have hk2 : 0 < k ^ 2 := by positivity
  have hD : rpaDet u k Te Ti ne mi Zf < 0 := by
    by_contra hc
    push Not at hc
    have := mul_nonneg hk2.le hc
    linarith
  rw [sIiAD_eq h hk0 hD.ne]
  exact div_neg_of_pos_of_neg (by linarith [uEe_pos (u := u) (k := k) hT hn hk0]) hD

/-- C34: for large wave numbers the ions are uncorrelated. -/
theorem sIiAD_large {T : ℝ} (h : Phys T T ne mi Zf) :
    Tendsto (fun k => sIiAD u k T T ne mi Zf) atTop (𝓝 1) := by
  have he := u.eps0_pos; have hB := u.kB_pos; have hee := u.e_pos
  have hT := h.te; have hn := h.ne; have hm := h.mi; have hz := h.zf
  have hM := lam2_pos (u := u) hT hm hm
  have hu : Tendsto (fun k : ℝ => ne / Zf / (u.kB * T) * (Zf ^ 2 * u.e ^ 2 / u.eps0) * (k ^ 2)⁻¹) atTop (𝓝 0) := by
    have : Tendsto (fun k : ℝ => (k ^ 2)⁻¹) atTop (𝓝 0) := tendsto_inv_atTop_zero.comp (tendsto_pow_atTop two_ne_zero)
    simpa using this.const_mul (ne / Zf / (u.kB * T) * (Zf ^ 2 * u.e ^ 2 / u.eps0))
  have lower : Tendsto (fun k : ℝ => 1 - ne / Zf / (u.kB * T) * (Zf ^ 2 * u.e ^ 2 / u.eps0) * (k ^ 2)⁻¹) atTop (𝓝 1) := by
    simpa using hu.const_sub 1
  refine tendsto_of_tendsto_of_tendsto_of_le_of_le' lower tendsto_const_nhds ?_ ?_
  · filter_upwards [eventually_gt_atTop 0] with k hk
    have hk0 := hk.ne'
    have h1 := uEe_pos (u := u) hT hn hk0
    have h2 := uIi_pos (u := u) hT hn hm hz hk0
    have hD := rpaDet_pos (u := u) h hk0
    have hle : uIi u k T ne mi Zf ≤ ne / Zf / (u.kB * T) * (Zf ^ 2 * u.e ^ 2 / u.eps0) * (k ^ 2)⁻¹ := by
      unfold uIi pseudo
      rw [mul_assoc (ne / Zf / (u.kB * T))]
      apply mul_le_mul_of_nonneg_left _ (by positivity)
      rw [← div_eq_mul_inv, div_div]
      apply div_le_div_of_nonneg_left (by positivity) (by positivity)
      have : 0 < u.eps0 * k ^ 2 * (k ^ 2 * lam2 u T mi mi) := by positivity
      linarith
    rw [sIiAD_eq h hk0 hD.ne']
    have : 1 / (1 + uIi u k T ne mi Zf) ≤ (1 + uEe u k T ne) / rpaDet u k T T ne mi Zf := by
      rw [div_le_div_iff₀ (by positivity) hD]
      unfold rpaDet
      rw [uEi2_self h]
      nlinarith [sq_nonneg (uEi u k T ne mi Zf)]
    refine le_trans ?_ this
    rw [le_div_iff₀ (by positivity)]
    nlinarith
  · filter_upwards [eventually_gt_atTop 0] with k hk
    exact (sAD_bounds (u := u) h hk.ne').2.1.le

example : ∃ T0 > 0, ∀ Ti, 0 < Ti → Ti < T0 → ∀ᶠ k in 𝓝[≠] 0, sIiAD unitConsts k 1 Ti 1 1 1 < 0 :=
  sIiAD_cold_negative one_pos one_pos one_pos one_pos

end

end Verif.Ssf
