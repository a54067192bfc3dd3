/-
Properties of the partial structure factors of mixtures and of the Rayleigh weight.
-/
import Verif.Props.Screening
import Verif.Props.Fermi
import Mathlib.Algebra.Order.Chebyshev

set_option autoImplicit false

namespace Verif.Ssf

open Real Filter Topology Verif.Expt Verif.Resp

variable {u : Consts} {m m' : ℕ}

/-- A mixture with positive densities, charges which are not negative and not all zero. -/
structure Mix.Phys (s : Mix m) : Prop where
  n : ∀ a, 0 < s.n a
  Z : ∀ a, 0 ≤ s.Z a
  charged : ∃ a, 0 < s.Z a

/-- Mean of a quantity over the ions. -/
noncomputable def Mix.mean (s : Mix m) (f : Fin m → ℝ) : ℝ := (∑ a, s.n a * f a) / ∑ a, s.n a

/-- The matrix is positive semidefinite. -/
def IsPsd (S : Fin m → Fin m → ℝ) : Prop := ∀ c : Fin m → ℝ, 0 ≤ ∑ a, ∑ b, c a * S a b * c b

namespace Mix

variable {s : Mix m}

theorem ntot_pos (h : s.Phys) : 0 < s.ntot := by
  obtain ⟨a, -⟩ := h.charged
  exact Finset.sum_pos (fun i _ => h.n i) ⟨a, Finset.mem_univ a⟩

theorem zf_eq (s : Mix m) : s.zf = s.mean s.Z := by unfold zf mean ntot; ring

theorem zf_pos (h : s.Phys) : 0 < s.zf := by
  have hn := ntot_pos h
  obtain ⟨a, ha⟩ := h.charged
  unfold zf
  have : 0 < ∑ i, s.n i * s.Z i :=
    Finset.sum_pos' (fun i _ => mul_nonneg (h.n i).le (h.Z i)) ⟨a, Finset.mem_univ a, mul_pos (h.n a) ha⟩
  positivity

theorem x_pos (h : s.Phys) (a : Fin m) : 0 < s.x a := div_pos (h.n a) (ntot_pos h)

theorem sqrt_n (h : s.Phys) (a b : Fin m) : sqrt (s.n a * s.n b) / s.ntot = sqrt (s.x a) * sqrt (s.x b) := by
  have hn := ntot_pos h
  have e : ∀ a, s.n a = s.ntot * s.x a := fun a => by
    unfold x; change s.n a = s.ntot * (s.n a / s.ntot); field_simp
  have hx := x_pos h
  rw [e a, e b, show s.ntot * s.x a * (s.ntot * s.x b) = s.ntot ^ 2 * (s.x a * s.x b) by ring,
    sqrt_mul (by positivity), sqrt_sq hn.le, sqrt_mul (hx a).le]
  field_simp

theorem sAb_eq (h : s.Phys) (S : ℝ) (a b : Fin m) :
    s.sAb S a b = (if a = b then 1 else 0) +
      (sqrt (s.x a) * s.Z a / s.zf) * (sqrt (s.x b) * s.Z b / s.zf) * (S - 1) := by
  have hz := zf_pos h
  unfold sAb
  rw [sqrt_n h]
  field_simp

/-- C36: partial structure factors are symmetric. -/
theorem sAb_symm (s : Mix m) (S : ℝ) (a b : Fin m) : s.sAb S a b = s.sAb S b a := by
  unfold sAb
  rw [mul_comm (s.n a), mul_comm (s.Z a)]
  congr 2
  exact propext eq_comm

theorem quad_eq (h : s.Phys) (S : ℝ) (c : Fin m → ℝ) :
    ∑ a, ∑ b, c a * s.sAb S a b * c b =
      ∑ a, c a ^ 2 + (∑ a, c a * (sqrt (s.x a) * s.Z a / s.zf)) ^ 2 * (S - 1) := by
  simp only [sAb_eq h]
  have e' : ∀ a b, c a * ((if a = b then 1 else 0) +
      (sqrt (s.x a) * s.Z a / s.zf) * (sqrt (s.x b) * s.Z b / s.zf) * (S - 1)) * c b =
      (if a = b then c a * c b else 0) +
        (c a * (sqrt (s.x a) * s.Z a / s.zf)) * (c b * (sqrt (s.x b) * s.Z b / s.zf)) * (S - 1) := fun a b => by
    split_ifs <;> ring
  simp only [e', Finset.sum_add_distrib, Finset.sum_ite_eq, Finset.mem_univ, if_true]
  rw [sq, Finset.sum_mul_sum, Finset.sum_mul]
  congr 1
  · exact Finset.sum_congr rfl fun a _ => (sq _).symm
  · exact Finset.sum_congr rfl fun a _ => by rw [Finset.sum_mul]

theorem sum_v_sq (h : s.Phys) :
    ∑ a, (sqrt (s.x a) * s.Z a / s.zf) ^ 2 = s.mean (fun a => s.Z a ^ 2) / s.zf ^ 2 := by
  have e : ∀ a, (sqrt (s.x a) * s.Z a / s.zf) ^ 2 = s.n a * s.Z a ^ 2 / s.ntot / s.zf ^ 2 := fun a => by
    rw [div_pow, mul_pow, sq_sqrt (x_pos h a).le]
    unfold x; change s.n a / s.ntot * _ / _ = _; ring
  simp only [e]
  rw [← Finset.sum_div, ← Finset.sum_div]
  rfl

theorem meanSq_pos (h : s.Phys) : 0 < s.mean fun a => s.Z a ^ 2 := by
  obtain ⟨a, ha⟩ := h.charged
  refine div_pos (Finset.sum_pos' (fun i _ => mul_nonneg (h.n i).le (sq_nonneg _)) ⟨a, Finset.mem_univ a, ?_⟩) (ntot_pos h)
  have := h.n a
  positivity

/-- The mean of the squares is at least the square of the mean. -/
theorem zf_sq_le (h : s.Phys) : s.zf ^ 2 ≤ s.mean fun a => s.Z a ^ 2 := by
  have hn := ntot_pos h
  have hcs := Finset.sum_mul_sq_le_sq_mul_sq Finset.univ (fun a => sqrt (s.n a)) (fun a => sqrt (s.n a) * s.Z a)
  have e1 : ∀ a, sqrt (s.n a) * (sqrt (s.n a) * s.Z a) = s.n a * s.Z a := fun a => by
    rw [← mul_assoc, mul_self_sqrt (h.n a).le]
  have e2 : ∀ a, sqrt (s.n a) ^ 2 = s.n a := fun a => sq_sqrt (h.n a).le
  have e3 : ∀ a, (sqrt (s.n a) * s.Z a) ^ 2 = s.n a * s.Z a ^ 2 := fun a => by rw [mul_pow, e2]
  simp only [e1, e2, e3] at hcs
  rw [zf_eq]
  unfold mean
  unfold ntot at hn
  simp only []
  generalize ∑ a, s.n a = N at *
  generalize ∑ a, s.n a * s.Z a ^ 2 = W at *
  rw [div_pow, div_le_div_iff₀ (pow_pos hn 2) hn]
  nlinarith

/-- C36: the matrix of partial structure factors is positive semidefinite exactly when the averaged
structure factor is at least `1 - ⟨Z⟩² / ⟨Z²⟩`. -/
theorem sAb_psd_iff (h : s.Phys) (S : ℝ) :
    IsPsd (s.sAb S) ↔ 1 - s.zf ^ 2 / s.mean (fun a => s.Z a ^ 2) ≤ S := by
  have hz := zf_pos h
  have hm := meanSq_pos h
  have hv := sum_v_sq h
  set w := s.mean (fun a => s.Z a ^ 2) / s.zf ^ 2 with hw
  have hw0 : 0 < w := by positivity
  have hwi : s.zf ^ 2 / s.mean (fun a => s.Z a ^ 2) = 1 / w := by rw [hw]; field_simp
  rw [hwi]
  constructor
  · intro hp
    have := hp fun a => sqrt (s.x a) * s.Z a / s.zf
    rw [quad_eq h] at this
    have e : ∑ a, (sqrt (s.x a) * s.Z a / s.zf) * (sqrt (s.x a) * s.Z a / s.zf) = w := by
      rw [← hv]; exact Finset.sum_congr rfl fun a _ => (sq _).symm
    rw [e, hv] at this
    have h2 : 0 ≤ w * (1 + w * (S - 1)) := by linarith
    have h3 : 0 ≤ 1 + w * (S - 1) := nonneg_of_mul_nonneg_right h2 hw0
    have h4 : -1 ≤ (S - 1) * w := by linarith
    have := (div_le_iff₀ hw0).2 h4
    rw [neg_div] at this
    linarith
  · intro hS c
    rw [quad_eq h]
    have hcs := Finset.sum_mul_sq_le_sq_mul_sq Finset.univ c fun a => sqrt (s.x a) * s.Z a / s.zf
    rw [hv] at hcs
    have hc0 : 0 ≤ ∑ a, c a ^ 2 := Finset.sum_nonneg fun a _ => sq_nonneg _
    have hq := sq_nonneg (∑ a, c a * (sqrt (s.x a) * s.Z a / s.zf))
    generalize (∑ a, c a * (sqrt (s.x a) * s.Z a / s.zf)) ^ 2 = q at *
    generalize ∑ a, c a ^ 2 = C at *
    have hS' : -1 / w ≤ S - 1 := by rw [neg_div]; linarith
    rw [div_le_iff₀ hw0] at hS'
    rcases le_total 0 (S - 1) with h1 | h1
    · positivity
    · have : C * w * (S - 1) ≤ q * (S - 1) := mul_le_mul_of_nonpos_right hcs h1
      nlinarith

/-- C36: with equal charges every nonnegative averaged structure factor gives a positive semidefinite
matrix.
(Partial: equal charges; it fails for mixtures, see `sAb_psd_iff` and `arkhipov_negative`.) -/
theorem sAb_psd_equal_partial (h : s.Phys) (heq : ∀ a b, s.Z a = s.Z b) {S : ℝ} (hS : 0 ≤ S) : IsPsd (s.sAb S) := by
  rw [sAb_psd_iff h]
  have hn := ntot_pos h
  obtain ⟨a, ha⟩ := h.charged
  have hzf : s.zf = s.Z a := by
    rw [zf_eq]; unfold mean
    rw [Finset.sum_congr rfl fun i _ => by rw [heq i a], ← Finset.sum_mul]
    change s.ntot * _ / s.ntot = _
    field_simp
  have hms : s.mean (fun a => s.Z a ^ 2) = s.Z a ^ 2 := by
    unfold mean
    simp only []
    rw [Finset.sum_congr rfl fun i _ => by rw [heq i a], ← Finset.sum_mul]
    change s.ntot * _ / s.ntot = _
    field_simp
  rw [hzf, hms, div_self (by positivity)]
  linarith

/-- C35: the Rayleigh weight of the averaged models. -/
theorem rayleigh_eq (h : s.Phys) (f q : Fin m → ℝ) (S : ℝ) :
    s.rayleigh f q (s.sAb S) =
      s.mean (fun a => (f a + q a) ^ 2) + (s.mean fun a => (f a + q a) * s.Z a) ^ 2 / s.zf ^ 2 * (S - 1) := by
  have hn := ntot_pos h
  have hz := zf_pos h
  have e : s.rayleigh f q (s.sAb S) =
      ∑ a, ∑ b, (sqrt (s.x a) * (f a + q a)) * s.sAb S a b * (sqrt (s.x b) * (f b + q b)) := by
    unfold rayleigh
    refine Finset.sum_congr rfl fun a _ => Finset.sum_congr rfl fun b _ => ?_
    rw [sqrt_mul (x_pos h a).le]
    ring
  rw [e, quad_eq h]
  have hx : ∀ a, sqrt (s.x a) ^ 2 = s.n a / s.ntot := fun a => sq_sqrt (x_pos h a).le
  congr 1
  · unfold mean
    rw [Finset.sum_div]
    refine Finset.sum_congr rfl fun a _ => ?_
    rw [mul_pow, hx]
    change _ = _ / s.ntot
    ring
  · congr 1
    rw [← div_pow]
    congr 1
    unfold mean
    rw [Finset.sum_div, Finset.sum_div]
    refine Finset.sum_congr rfl fun a _ => ?_
    have := hx a
    have e2 : sqrt (s.x a) * (f a + q a) * (sqrt (s.x a) * s.Z a / s.zf) =
        sqrt (s.x a) ^ 2 * ((f a + q a) * s.Z a) / s.zf := by ring
    rw [e2, this]
    change _ = _ / s.ntot / _
    ring

/-- C35: one species. -/
theorem rayleigh_single (s : Mix 1) (h : s.Phys) (f q : Fin 1 → ℝ) (S : ℝ) :
    s.rayleigh f q (s.sAb S) = (f 0 + q 0) ^ 2 * S := by
  rw [rayleigh_eq h]
  have hn := h.n 0
  have hz : s.zf = s.Z 0 := by
    rw [zf_eq]; simp [mean]; field_simp
  have hz0 := zf_pos h
  rw [hz] at hz0 ⊢
  simp only [mean, Finset.univ_unique, Fin.default_eq_zero, Finset.sum_singleton]
  field_simp
  ring

/-- C35: a positive semidefinite matrix gives a nonnegative Rayleigh weight. -/
theorem rayleigh_nonneg (h : s.Phys) (f q : Fin m → ℝ) {S : Fin m → Fin m → ℝ} (hS : IsPsd S) :
    0 ≤ s.rayleigh f q S := by
  have := hS fun a => sqrt (s.x a) * (f a + q a)
  refine this.trans_eq (Finset.sum_congr rfl fun a _ => Finset.sum_congr rfl fun b _ => ?_)
  rw [sqrt_mul (x_pos h a).le]
  ring

/-! ### Splitting a species into copies -/

/-- `s'` describes the plasma `s`, but some species are listed several times, with a part of the density
each: `g` tells of which species an entry is a copy. -/
structure Refines (s' : Mix m') (s : Mix m) (g : Fin m' → Fin m) : Prop where
  n : ∀ a, s.n a = ∑ i ∈ Finset.univ.filter fun i => g i = a, s'.n i
  Z : ∀ i, s'.Z i = s.Z (g i)
  mass : ∀ i, s'.mass i = s.mass (g i)
  Ti : ∀ i, s'.Ti i = s.Ti (g i)
  Te : s'.Te = s.Te
  ne : s'.ne = s.ne

section

variable {s' : Mix m'} {g : Fin m' → Fin m}

theorem Refines.sum (h : Refines s' s g) (f : Fin m → ℝ) : ∑ i, s'.n i * f (g i) = ∑ a, s.n a * f a := by
  rw [← Finset.sum_fiberwise Finset.univ g]
  refine Finset.sum_congr rfl fun a _ => ?_
  rw [h.n a, Finset.sum_mul]
  refine Finset.sum_congr rfl fun i hi => ?_
  rw [(Finset.mem_filter.1 hi).2]

theorem Refines.ntot (h : Refines s' s g) : s'.ntot = s.ntot := by
  have := h.sum fun _ => 1
  simpa [Mix.ntot] using this

theorem Refines.zf (h : Refines s' s g) : s'.zf = s.zf := by
  unfold Mix.zf
  rw [h.ntot, ← h.sum]
  simp only [h.Z]

theorem Refines.mbar (h : Refines s' s g) : s'.mbar = s.mbar := by
  unfold Mix.mbar
  rw [h.ntot, ← h.sum]
  simp only [h.mass]

theorem Refines.tiEff (h : Refines s' s g) (TD : Fin m → ℝ) : s'.tiEff (TD ∘ g) = s.tiEff TD := by
  unfold Mix.tiEff
  rw [h.ntot, ← h.sum]
  simp only [h.Ti, Function.comp]

/-- C35: the effective temperature of the ions lies between the smallest and the largest of the values
`sqrt (Ti ^ 2 + 3 / (2 π ^ 2) TD ^ 2)` of the species, and is this value if they all agree. -/
theorem tiEff_between (hs : s.Phys) (TD : Fin m → ℝ) {lo hi : ℝ}
    (h : ∀ a, lo ≤ sqrt (s.Ti a ^ 2 + 3 / (2 * π ^ 2) * TD a ^ 2) ∧ sqrt (s.Ti a ^ 2 + 3 / (2 * π ^ 2) * TD a ^ 2) ≤ hi) :
    lo ≤ s.tiEff TD ∧ s.tiEff TD ≤ hi := by
  have hN : 0 < s.ntot := ntot_pos hs
  have e : s.tiEff TD = (∑ a, s.n a * sqrt (s.Ti a ^ 2 + 3 / (2 * π ^ 2) * TD a ^ 2)) / s.ntot := by
    unfold Mix.tiEff tIEffGreg
    ring
  rw [e, le_div_iff₀ hN, div_le_iff₀ hN]
  unfold Mix.ntot
  rw [Finset.mul_sum, Finset.mul_sum]
  exact ⟨Finset.sum_le_sum fun a _ => by nlinarith [hs.n a, (h a).1],
    Finset.sum_le_sum fun a _ => by nlinarith [hs.n a, (h a).2]⟩

theorem Refines.mean (h : Refines s' s g) (f : Fin m → ℝ) : (s'.mean fun i => f (g i)) = s.mean f := by
  unfold Mix.mean
  rw [h.sum]
  congr 1
  exact h.ntot

theorem Refines.rayleigh_sAb (h : Refines s' s g) (hs : s.Phys) (hs' : s'.Phys) (f q : Fin m → ℝ) (S : ℝ) :
    s'.rayleigh (f ∘ g) (q ∘ g) (s'.sAb S) = s.rayleigh f q (s.sAb S) := by
  rw [rayleigh_eq hs, rayleigh_eq hs', h.zf, ← h.mean, ← h.mean]
  simp only [h.Z, Function.comp]

/-- C35: listing a species several times does not change the Rayleigh weight of the models of Arkhipov and
Gregori.  (Partial: it fails for the charged hard sphere models, see `nChs_split`.) -/
theorem Refines.rayleigh_partial (h : Refines s' s g) (hs : s.Phys) (hs' : s'.Phys) (f q TD : Fin m → ℝ) (k : ℝ) :
    s'.rayleigh (f ∘ g) (q ∘ g) (s'.arkhipov u k) = s.rayleigh f q (s.arkhipov u k) ∧
      s'.rayleigh (f ∘ g) (q ∘ g) (s'.gregori2003 u k) = s.rayleigh f q (s.gregori2003 u k) ∧
      s'.rayleigh (f ∘ g) (q ∘ g) (s'.gregori2006 u (TD ∘ g) k) = s.rayleigh f q (s.gregori2006 u TD k) := by
  refine ⟨?_, ?_, ?_⟩
  · unfold arkhipov
    rw [h.Te, h.ne, h.mbar, h.zf]
    exact h.rayleigh_sAb hs hs' f q _
  · unfold gregori2003
    rw [h.Te, h.ne, h.mbar, h.zf]
    exact h.rayleigh_sAb hs hs' f q _
  · unfold gregori2006
    rw [h.Te, h.ne, h.mbar, h.zf, h.tiEff]
    exact h.rayleigh_sAb hs hs' f q _

end

/-- C35: the density of the charged hard sphere model is less than the density of the ions as soon as
there are two entries, … -/
theorem nChs_lt (hn : ∀ a, 0 < s.n a) (hm : 2 ≤ m) : s.nChs < s.ntot := by
  have : Nonempty (Fin m) := ⟨⟨0, by omega⟩⟩
  have hN : 0 < s.ntot := Finset.sum_pos (fun i _ => hn i) Finset.univ_nonempty
  unfold nChs
  rw [one_div, inv_mul_lt_iff₀ hN]
  unfold ntot at *
  rw [Finset.sum_mul]
  have hlt : ∀ a, s.n a < ∑ b, s.n b := fun a => by
    obtain ⟨b, hb⟩ : ∃ b : Fin m, b ≠ a := by
      by_cases ha : a.1 = 0
      · exact ⟨⟨1, by omega⟩, fun h => by have := congrArg Fin.val h; simp at this; omega⟩
      · exact ⟨⟨0, by omega⟩, fun h => by have := congrArg Fin.val h; simp at this; omega⟩
    have := Finset.add_le_sum (f := s.n) (s := Finset.univ) (fun i _ => (hn i).le) (Finset.mem_univ a) (Finset.mem_univ b) hb.symm
    linarith [hn b]
  refine Finset.sum_lt_sum_of_nonempty Finset.univ_nonempty fun a _ => ?_
  rw [sq]
  exact mul_lt_mul_of_pos_left (hlt a) (hn a)

/-- … and it depends on how the plasma is written down: two halves of one species have half the
density. -/
theorem nChs_split (n Z mass Ti Te ne : ℝ) (hn : 0 < n) :
    let s : Mix 1 := ⟨fun _ => n, fun _ => Z, fun _ => mass, fun _ => Ti, Te, ne⟩
    let s' : Mix 2 := ⟨fun _ => n / 2, fun _ => Z, fun _ => mass, fun _ => Ti, Te, ne⟩
    Refines s' s (fun _ => 0) ∧ s.nChs = n ∧ s'.nChs = n / 2 := by
  refine ⟨⟨fun a => ?_, fun _ => rfl, fun _ => rfl, fun _ => rfl, rfl, rfl⟩, ?_, ?_⟩
  · simp [Fin.eq_zero a]; ring
  · simp [nChs, ntot]; field_simp
  · simp [nChs, ntot]; field_simp

/-! ### Mixtures with different charges -/

/-- C36: the averaged structure factor tends to a value below `1 / (1 + Z)` for long waves, so that the
structure factor of a highly charged component becomes negative. -/
theorem arkhipov_negative (h : s.Phys) (hT : 0 < s.Te) (hn : 0 < s.ne) (hm : 0 < s.mbar) (a : Fin m)
    (ha : s.zf * (1 + s.zf) ≤ s.x a * s.Z a ^ 2) : ∀ᶠ k in 𝓝[≠] 0, s.arkhipov u k a a < 0 := by
  have hz := zf_pos h
  obtain ⟨S0, h0, h1, hlim, -⟩ := sAD_small (u := u) (T := s.Te) (ne := s.ne) (mi := s.mbar) (Zf := s.zf) ⟨hT, hT, hn, hm, hz⟩
  filter_upwards [hlim.eventually (gt_mem_nhds h1)] with k hk
  unfold arkhipov
  rw [sAb_eq h, if_pos rfl]
  have e : sqrt (s.x a) * s.Z a / s.zf * (sqrt (s.x a) * s.Z a / s.zf) = s.x a * s.Z a ^ 2 / s.zf ^ 2 := by
    have := mul_self_sqrt (x_pos h a).le
    rw [show sqrt (s.x a) * s.Z a / s.zf * (sqrt (s.x a) * s.Z a / s.zf) =
      (sqrt (s.x a) * sqrt (s.x a)) * s.Z a ^ 2 / s.zf ^ 2 by ring, this]
  rw [e]
  have hv : (1 + s.zf) / s.zf ≤ s.x a * s.Z a ^ 2 / s.zf ^ 2 := by
    rw [div_le_div_iff₀ hz (by positivity)]
    nlinarith
  have hS : sIiAD u k s.Te s.Te s.ne s.mbar s.zf - 1 < -(s.zf / (1 + s.zf)) := by
    have : 1 / (1 + s.zf) = 1 - s.zf / (1 + s.zf) := by field_simp; ring
    linarith
  have h3 : (1 + s.zf) / s.zf * (s.zf / (1 + s.zf)) = 1 := by field_simp
  have hp : 0 < s.zf / (1 + s.zf) := by positivity
  have hq : 0 < (1 + s.zf) / s.zf := by positivity
  nlinarith [mul_le_mul_of_nonneg_right hv hp.le]

/-- C35: in a fully ionized mixture (no form factors) with the screening charges of Gregori et al. the
Rayleigh weight becomes negative for long waves if the charges are too different. -/
theorem rayleigh_negative (h : s.Phys) (hT : 0 < s.Te) (hn : 0 < s.ne) (hmass : ∀ a, 0 < s.mass a)
    (ha : s.zf * (1 + s.zf) ≤ s.mean fun a => s.Z a ^ 2) (hpos : ∀ a, 0 < s.Z a) :
    ∀ᶠ k in 𝓝[>] 0, s.rayleigh (fun _ => 0)
      (fun a => gregori2004Screening u k (s.mass a) s.ne s.Te (s.Z a)) (s.arkhipov u k) < 0 := by
  have hz := zf_pos h
  have hN := ntot_pos h
  have hm : 0 < s.mbar := by
    unfold mbar
    obtain ⟨a, -⟩ := h.charged
    have : 0 < ∑ i, s.n i * s.mass i := Finset.sum_pos (fun i _ => mul_pos (h.n i) (hmass i)) ⟨a, Finset.mem_univ a⟩
    positivity
  obtain ⟨S0, h0, h1, hlim, -⟩ := sAD_small (u := u) (T := s.Te) (ne := s.ne) (mi := s.mbar) (Zf := s.zf) ⟨hT, hT, hn, hm, hz⟩
  have hlim' : Tendsto (fun k => sIiAD u k s.Te s.Te s.ne s.mbar s.zf) (𝓝[>] 0) (𝓝 S0) :=
    hlim.mono_left (nhdsWithin_mono _ fun x hx => ne_of_gt hx)
  have hq : ∀ a, Tendsto (fun k => gregori2004Screening u k (s.mass a) s.ne s.Te (s.Z a)) (𝓝[>] 0) (𝓝 (s.Z a)) :=
    fun a => (gregori2004_spec_partial (u := u) ⟨hT, hT, hn, hmass a, hpos a⟩).2
  have hW : Tendsto (fun k => s.rayleigh (fun _ => 0)
      (fun a => gregori2004Screening u k (s.mass a) s.ne s.Te (s.Z a)) (s.arkhipov u k)) (𝓝[>] 0)
      (𝓝 (s.mean (fun a => (0 + s.Z a) ^ 2) + (s.mean fun a => (0 + s.Z a) * s.Z a) ^ 2 / s.zf ^ 2 * (S0 - 1))) := by
    unfold arkhipov
    simp only [rayleigh_eq h]
    unfold mean
    refine Tendsto.add (Tendsto.div_const (tendsto_finsetSum _ fun a _ => ?_) _)
      (Tendsto.mul (Tendsto.div_const (Tendsto.pow (Tendsto.div_const (tendsto_finsetSum _ fun a _ => ?_) _) 2) _)
        (hlim'.sub_const 1))
    · exact (((hq a).const_add 0).pow 2).const_mul _
    · exact (((hq a).const_add 0).mul_const _).const_mul _
  have hneg : s.mean (fun a => (0 + s.Z a) ^ 2) + (s.mean fun a => (0 + s.Z a) * s.Z a) ^ 2 / s.zf ^ 2 * (S0 - 1) < 0 := by
    simp only [zero_add, ← sq]
    have hms := meanSq_pos h
    generalize s.mean (fun a => s.Z a ^ 2) = w at *
    generalize s.zf = z at *
    have hS : S0 - 1 < -(z / (1 + z)) := by
      have : 1 / (1 + z) = 1 - z / (1 + z) := by field_simp; ring
      linarith
    have h5 : w ^ 2 / z ^ 2 * (S0 - 1) < w ^ 2 / z ^ 2 * -(z / (1 + z)) := mul_lt_mul_of_pos_left hS (by positivity)
    have h6 : w ^ 2 / z ^ 2 * (z / (1 + z)) = w * (w / (z * (1 + z))) := by field_simp
    have h7 : 1 ≤ w / (z * (1 + z)) := by rw [le_div_iff₀ (by positivity)]; linarith
    nlinarith [mul_le_mul_of_nonneg_left h7 hms.le]
  exact hW.eventually (gt_mem_nhds hneg)

/-- Fully ionized plastic, CH. -/
noncomputable def plastic : Mix 2 :=
  ⟨fun _ => 1, ![6, 1], ![12, 1], fun _ => 1, 1, 7⟩

theorem plastic_phys : plastic.Phys :=
  ⟨fun _ => by simp [plastic], fun a => by fin_cases a <;> simp [plastic], 0, by simp [plastic]⟩

theorem plastic_zf : plastic.zf = 7 / 2 := by
  simp [plastic, zf, ntot, Fin.sum_univ_two]; norm_num

example : ∀ᶠ k in 𝓝[≠] 0, plastic.arkhipov unitConsts k 0 0 < 0 := by
  refine arkhipov_negative plastic_phys (by simp [plastic]) (by simp [plastic]) ?_ 0 ?_
  · simp [plastic, mbar, ntot, Fin.sum_univ_two]; norm_num
  · rw [plastic_zf]; simp [plastic, x]; norm_num

example : ∀ᶠ k in 𝓝[>] 0, plastic.rayleigh (fun _ => 0)
    (fun a => gregori2004Screening unitConsts k (plastic.mass a) plastic.ne plastic.Te (plastic.Z a))
    (plastic.arkhipov unitConsts k) < 0 := by
  refine rayleigh_negative plastic_phys (by simp [plastic]) (by simp [plastic]) ?_ ?_ ?_
  · intro a; fin_cases a <;> simp [plastic]
  · rw [plastic_zf]; simp [plastic, mean, Fin.sum_univ_two]; norm_num
  · intro a; fin_cases a <;> simp [plastic]

example : ¬ IsPsd (plastic.sAb 0) ∧ IsPsd (plastic.sAb (1 / 2)) := by
  have e : plastic.zf ^ 2 / plastic.mean (fun a => plastic.Z a ^ 2) = 49 / 74 := by
    rw [plastic_zf]; simp [plastic, mean, Fin.sum_univ_two]; norm_num
  rw [sAb_psd_iff plastic_phys, sAb_psd_iff plastic_phys, e]
  norm_num

/-- C36: with equal charges the models of Arkhipov and Gregori give positive semidefinite matrices and
a Rayleigh weight which is not negative. -/
theorem arkhipov_psd (h : s.Phys) (heq : ∀ a b, s.Z a = s.Z b) (hT : 0 < s.Te) (hn : 0 < s.ne) (hm : 0 < s.mbar)
    {k : ℝ} (hk : k ≠ 0) :
    IsPsd (s.arkhipov u k) ∧ IsPsd (s.gregori2003 u k) ∧
      ∀ f q, 0 ≤ s.rayleigh f q (s.arkhipov u k) ∧ 0 ≤ s.rayleigh f q (s.gregori2003 u k) := by
  have hz := zf_pos h
  have hT' : 0 < tCfGreg u s.Te s.ne := lt_of_lt_of_le (abs_pos.2 hT.ne') (tCfGreg_ge_partial u s.Te s.ne).1
  have h1 : IsPsd (s.arkhipov u k) := sAb_psd_equal_partial h heq (sAD_bounds (u := u) ⟨hT, hT, hn, hm, hz⟩ hk).1.le
  have h2 : IsPsd (s.gregori2003 u k) := sAb_psd_equal_partial h heq (sAD_bounds (u := u) ⟨hT', hT', hn, hm, hz⟩ hk).1.le
  exact ⟨h1, h2, fun f q => ⟨rayleigh_nonneg h f q h1, rayleigh_nonneg h f q h2⟩⟩

/-- C35, C36: for short waves the ions scatter independently. -/
theorem arkhipov_large (h : s.Phys) (hT : 0 < s.Te) (hn : 0 < s.ne) (hm : 0 < s.mbar) (f q : Fin m → ℝ) (a b : Fin m) :
    Tendsto (fun k => s.arkhipov u k a b) atTop (𝓝 (if a = b then 1 else 0)) ∧
      Tendsto (fun k => s.rayleigh f q (s.arkhipov u k)) atTop (𝓝 (s.mean fun a => (f a + q a) ^ 2)) := by
  have hz := zf_pos h
  have hl := sIiAD_large (u := u) (T := s.Te) (ne := s.ne) (mi := s.mbar) (Zf := s.zf) ⟨hT, hT, hn, hm, hz⟩
  constructor
  · unfold arkhipov
    simp only [sAb_eq h]
    have := ((hl.sub_const 1).const_mul ((sqrt (s.x a) * s.Z a / s.zf) * (sqrt (s.x b) * s.Z b / s.zf))).const_add
      (if a = b then (1 : ℝ) else 0)
    simpa using this
  · unfold arkhipov
    simp only [rayleigh_eq h]
    have := ((hl.sub_const 1).const_mul ((s.mean fun a => (f a + q a) * s.Z a) ^ 2 / s.zf ^ 2)).const_add
      (s.mean fun a => (f a + q a) ^ 2)
    simpa using this

end Mix

end Verif.Ssf
