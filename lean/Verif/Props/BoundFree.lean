/-
C102: the bound-free models as a whole.
-/
import Verif.Model.BoundFree
import Verif.Props.BoundMore
import Verif.Props.Interp
import Verif.Props.Setup

set_option autoImplicit false

namespace Verif.BoundFree

open Real Verif.Expt Verif.Bound

variable (u : Consts)

/-! ### Effective charges -/

theorem getD_screening (o : ℕ) (ho : o < 10) (Z : ℝ) : (Interp.paulingScreening Z).getD o 0 =
    Interp.interp (Interp.paulingTable.getD o ([], [])).1.length (Interp.arr (Interp.paulingTable.getD o ([], [])).1)
      (Interp.arr (Interp.paulingTable.getD o ([], [])).2) Z := by
  have hlen : o < Interp.paulingTable.length := ho
  unfold Interp.paulingScreening Interp.interpL
  simp [List.getD_eq_getElem?_getD, List.getElem?_eq_getElem hlen]

/-- Below the first node the screening constant is the first one of the table. -/
theorem screening_below (o : ℕ) (ho : o < 10) (Z : ℝ) (h : Z < Interp.arr (Interp.paulingTable.getD o ([], [])).1 0) :
    (Interp.paulingScreening Z).getD o 0 = Interp.arr (Interp.paulingTable.getD o ([], [])).2 0 := by
  rw [getD_screening o ho]
  unfold Interp.interp Interp.interpLR
  have h2 : ¬ Interp.arr (Interp.paulingTable.getD o ([], [])).1 ((Interp.paulingTable.getD o ([], [])).1.length - 1) < Z := by
    interval_cases o <;> simp [Interp.paulingTable, Interp.arr] at h ⊢ <;> linarith
  rw [if_neg h2, if_pos h]

/-- The 4s orbital, in spite of its disordered table. -/
theorem screening_4s (Z : ℝ) (h0 : 19 ≤ Z) (h1 : Z ≤ 36) : (Interp.paulingScreening Z).getD 6 0 < Z := by
  have a1 : ¬ (71 : ℝ) < Z := by linarith
  have a2 : ¬ Z < 19 := by linarith
  have a3 : Z < 38 := by linarith
  rcases lt_or_ge Z 30 with h | h
  · rcases lt_or_ge Z 20 with h' | h'
    · simp [Interp.paulingScreening, Interp.paulingTable, Interp.interpL, Interp.interp, Interp.interpLR,
        Interp.searchsorted, Interp.clog_nine, Interp.bstep, Interp.arr, Interp.segment, a1, a2, a3, h, h']
      norm_num
      linarith
    · have h'' := not_lt.2 h'
      simp [Interp.paulingScreening, Interp.paulingTable, Interp.interpL, Interp.interp, Interp.interpLR,
        Interp.searchsorted, Interp.clog_nine, Interp.bstep, Interp.arr, Interp.segment, a1, a2, a3, h, h'']
      norm_num
      linarith
  · have b1 : ¬ Z < 30 := by linarith
    have b2 : ¬ Z < 26 := by linarith
    simp [Interp.paulingScreening, Interp.paulingTable, Interp.interpL, Interp.interp, Interp.interpLR,
      Interp.searchsorted, Interp.clog_nine, Interp.bstep, Interp.arr, Interp.segment, a1, a2, a3, b1, b2]
    norm_num
    linarith

theorem screening_lt (o : ℕ) (ho : o < 10) (Z : ℝ) (h1 : Z ≤ 36)
    (h : Interp.arr (Interp.paulingTable.getD o ([], [])).1 0 ≤ Z) : (Interp.paulingScreening Z).getD o 0 < Z := by
  by_cases h6 : o = 6
  · subst h6
    exact screening_4s Z (by simpa [Interp.paulingTable, Interp.arr] using h) h1
  · exact ((Interp.pauling_below_charge o ho).2 Z h6 h).2

/-- C102: the charge seen by the electrons of an orbital that is occupied is positive, for every element of the table
and every (also fractional) number of bound electrons. -/
theorem effectiveCharge_pos (ZA : ℕ) {Zcore : ℝ} (h1 : Zcore ≤ 36) (hZ : Zcore ≤ ZA) (o : Fin 10)
    (hp : population Zcore o ≠ 0) : 0 < effectiveCharge ZA Zcore o := by
  have key : (Interp.paulingScreening Zcore).getD o 0 < Zcore := by
    rcases le_or_gt (Interp.arr (Interp.paulingTable.getD o ([], [])).1 0) Zcore with h | h
    · exact screening_lt o o.isLt Zcore h1 h
    · rw [screening_below o o.isLt Zcore h]
      unfold population at hp
      rw [Interp.distribution_eq] at hp
      by_contra hcon
      apply hp
      fin_cases o <;> simp [Interp.paulingTable, Interp.arr] at h hcon ⊢ <;>
        (rw [min_eq_left (by linarith), min_eq_left (by linarith)]; ring)
  unfold effectiveCharge
  linarith

/-- C102: no orbital sees a vanishing charge (for which its profile would not be a number), occupied or not. -/
theorem effectiveCharge_ne_zero {ZA : ℕ} (hA : 1 ≤ ZA) (hA' : ZA ≤ 36) {Zcore : ℝ} (hZ : Zcore ≤ ZA) (o : Fin 10) :
    effectiveCharge ZA Zcore o ≠ 0 := by
  have hA'' : (ZA : ℝ) ≤ 36 := by exact_mod_cast hA'
  rcases le_or_gt (Interp.arr (Interp.paulingTable.getD o ([], [])).1 0) Zcore with h | h
  · have := screening_lt o o.isLt Zcore (hZ.trans hA'') h
    unfold effectiveCharge
    intro h0
    linarith
  · unfold effectiveCharge
    rw [screening_below o o.isLt Zcore h]
    intro h0
    have e : (ZA : ℝ) = Interp.arr (Interp.paulingTable.getD o ([], [])).2 0 := by linarith
    have hm : Interp.arr (Interp.paulingTable.getD o ([], [])).2 0 * 20 =
        ((![0, 25, 50, 132, 174, 294, 268, 488, 636, 860] o : ℕ) : ℝ) := by
      clear e h0 h
      fin_cases o <;> norm_num [Interp.paulingTable, Interp.arr]
    rw [← e] at hm
    have hn : ZA * 20 = ![0, 25, 50, 132, 174, 294, 268, 488, 636, 860] o := by exact_mod_cast hm
    clear e h0 h hm
    fin_cases o <;> simp at hn <;> omega

/-! ### Edges -/

theorem shifted_nonneg (ipd : ℝ) (E : Fin 10 → ℝ) (o : Fin 10) : 0 ≤ shifted ipd E o := by
  unfold shifted
  split
  · exact le_refl 0
  · linarith

/-- No edge factor, no intensity. -/
theorem bfState_dark (omega k rk : ℝ) (pop Zeff ff edge : Fin 10 → ℝ) (Zcore : ℝ) (h : ∀ o, pop o ≠ 0 → edge o = 0) :
    bfState u omega k rk pop Zeff ff edge Zcore = 0 := by
  unfold bfState
  split
  · rfl
  · rw [Finset.sum_eq_zero, zero_mul]
    intro o _
    by_cases hp : pop o = 0
    · simp [impulseApprox, hp]
    · simp [h o hp]

theorem heav_neg {x : ℝ} (h : x < 0) : heav x = 0 := if_pos h

/-- A mixture of dark charge states is dark. -/
theorem bfMix_dark (state : ℝ → ℝ) (ZA charge : ℝ) (h : ∀ q : ℤ, q = ⌊charge⌋ ∨ q = ⌈charge⌉ → state q = 0) :
    bfMix state ZA charge = 0 := by
  have h0 := h ⌊charge⌋ (Or.inl rfl)
  have h1 := h ⌈charge⌉ (Or.inr rfl)
  unfold bfMix
  split
  · next hc => rw [hc]; exact h0
  · simp only [h0, h1]
    split <;> ring

theorem bfTotal_dark (ions : List Ion) (st : Ion → ℝ → ℝ) (m : ℝ)
    (h : ∀ i ∈ ions, bfMix (st i) (i.ZA : ℝ) i.charge = 0) :
    bfTotal (ions.map fun i => (i.x, (i.ZA : ℝ), i.charge, st i)) m = 0 := by
  unfold bfTotal
  rw [List.map_map, List.sum_eq_zero, zero_div]
  intro y hy
  obtain ⟨i, hi, rfl⟩ := List.mem_map.1 hy
  simp [h i hi]

/-- The models in which electrons cannot gain energy from bound states. -/
def Edge.oneSided : Edge → Prop
  | .nonNegative | .heaviside => True
  | .noEdge | .fermi => False

theorem oneSided_dark {e : Edge} (he : e.oneSided) (T : ℝ) {loss E : ℝ} (hl : loss < 0) (hE : 0 ≤ E) :
    e.evaluate u T loss E = 0 := by
  cases e with
  | noEdge => exact he.elim
  | fermi => exact he.elim
  | nonNegative => exact heav_neg hl
  | heaviside => exact heav_neg (by linarith)

/-- C102: with the edges `NonNegative` and `Heaviside` the scattering by bound electrons never adds energy to the photon,
however large the depression of the ionization potential is, for both models and all charges. -/
theorem no_gain {e : Edge} (he : e.oneSided) (Te rk : ℝ) (ions : List Ion) (k0 k : ℝ) {shift : ℝ} (hs : 0 < shift) :
    impulse u e Te rk ions k0 shift k = 0 ∧ coldImpulse u e Te rk ions k0 shift k = 0 := by
  constructor
  · unfold impulse
    exact bfTotal_dark ions (fun i => chargeState u e Te rk k0 (-shift) k i) _ fun i _ => bfMix_dark _ _ _ fun q _ =>
      bfState_dark u _ _ _ _ _ _ _ _ fun o _ => oneSided_dark u he Te (by linarith) (shifted_nonneg _ _ _)
  · unfold coldImpulse
    rw [List.sum_eq_zero, zero_div]
    intro y hy
    obtain ⟨i, _, rfl⟩ := List.mem_map.1 hy
    have : coldIon u e Te rk k0 (-shift) k i = 0 :=
      bfState_dark u _ _ _ _ _ _ _ _ fun o _ => oneSided_dark u he Te (by linarith) (shifted_nonneg _ _ _)
    simp [this]

/-- C102, the threshold: with the edge `Heaviside`, a photon that loses less energy than it takes to remove any electron
of any charge state present is not scattered by bound electrons. -/
theorem threshold (Te rk : ℝ) (ions : List Ion) (k0 k shift : ℝ)
    (h : ∀ i ∈ ions, ∀ q : ℤ, q = ⌊i.charge⌋ ∨ q = ⌈i.charge⌉ → ∀ o, population (i.ZA - q) o ≠ 0 →
      -shift < i.table q o + i.ipd) :
    impulse u .heaviside Te rk ions k0 shift k = 0 := by
  unfold impulse
  refine bfTotal_dark ions (fun i => chargeState u .heaviside Te rk k0 (-shift) k i) _ fun i hi =>
    bfMix_dark _ _ _ fun q hq => bfState_dark u _ _ _ _ _ _ _ _ fun o ho => ?_
  refine heav_neg ?_
  have := h i hi q hq o ho
  unfold shifted
  split <;> linarith

/-- The same with the edges of the cold element. -/
theorem cold_threshold (Te rk : ℝ) (ions : List Ion) (k0 k shift : ℝ)
    (h : ∀ i ∈ ions, ∀ o, population (i.ZA - i.charge) o ≠ 0 → -shift < i.cold o + i.ipd) :
    coldImpulse u .heaviside Te rk ions k0 shift k = 0 := by
  unfold coldImpulse
  rw [List.sum_eq_zero, zero_div]
  intro y hy
  obtain ⟨i, hi, rfl⟩ := List.mem_map.1 hy
  have : coldIon u .heaviside Te rk k0 (-shift) k i = 0 := by
    refine bfState_dark u _ _ _ _ _ _ _ _ fun o ho => heav_neg ?_
    have := h i hi o ho
    unfold shifted
    split <;> linarith
  simp [this]

/-- C102: an electron whose level has been lowered into the continuum still counts as bound: the depression of the
ionization potential moves its edge to zero and no further, and its scattering is the same as with an edge at zero. -/
theorem unbound_still_scatters {ipd : ℝ} {E : Fin 10 → ℝ} {o : Fin 10} (h : E o + ipd ≤ 0) (T : ℝ) {loss : ℝ}
    (hl : 0 < loss) : Edge.evaluate u T loss (shifted ipd E o) .heaviside = 1 := by
  have e : shifted ipd E o = 0 := by
    unfold shifted
    split
    · rfl
    · linarith
  rw [e]
  unfold Edge.evaluate edgeHeaviside heav
  rw [if_neg (by linarith), if_neg (by linarith)]

/-! ### The limits of the charge -/

/-- C102: a plasma of bare nuclei has no bound-free scattering. -/
theorem fully_ionised (e : Edge) (Te rk : ℝ) (ions : List Ion) (h : ∀ i ∈ ions, i.charge = i.ZA) (k0 shift k : ℝ) :
    impulse u e Te rk ions k0 shift k = 0 ∧ coldImpulse u e Te rk ions k0 shift k = 0 := by
  constructor
  · unfold impulse
    refine bfTotal_dark ions (fun i => chargeState u e Te rk k0 (-shift) k i) _ fun i hi => bfMix_dark _ _ _ fun q hq => ?_
    have hz : (i.ZA : ℝ) - q = 0 := by
      rw [h i hi] at hq
      simp only [Int.floor_natCast, Int.ceil_natCast, or_self] at hq
      rw [hq]
      simp
    unfold chargeState
    simp only [hz]
    exact bfState_bare u _ _ _ _ _ _ _
  · unfold coldImpulse
    rw [List.sum_eq_zero, zero_div]
    intro y hy
    obtain ⟨i, hi, rfl⟩ := List.mem_map.1 hy
    have hz : (i.ZA : ℝ) - i.charge = 0 := by rw [h i hi]; ring
    unfold coldIon
    simp only [hz, bfState_bare, zero_mul]

/-- C102: for integer charges the two models differ only in the binding energies. -/
theorem models_agree_integer (e : Edge) (Te rk : ℝ) (ions : List Ion) (k0 shift k : ℝ)
    (h : ∀ i ∈ ions, (∃ q : ℤ, i.charge = q) ∧ i.table i.charge = i.cold) :
    impulse u e Te rk ions k0 shift k = coldImpulse u e Te rk ions k0 shift k := by
  unfold impulse coldImpulse bfTotal
  rw [List.map_map]
  congr 2
  refine List.map_congr_left fun i hi => ?_
  obtain ⟨⟨q, hq⟩, ht⟩ := h i hi
  simp only [Function.comp_apply]
  congr 1
  unfold bfMix
  rw [if_pos (by rw [hq]; simp)]
  unfold chargeState coldIon
  rw [ht]

theorem population_hydrogen {x : ℝ} (h0 : 0 ≤ x) (h1 : x ≤ 1) (o : Fin 10) :
    population x o = if o = 0 then x else 0 := by
  unfold population
  rw [Interp.distribution_eq]
  rw [min_eq_right h0, min_eq_left (by linarith : x ≤ 2), min_eq_left (by linarith : x ≤ 4),
    min_eq_left (by linarith : x ≤ 10), min_eq_left (by linarith : x ≤ 12), min_eq_left (by linarith : x ≤ 18),
    min_eq_left (by linarith : x ≤ 20), min_eq_left (by linarith : x ≤ 30), min_eq_left (by linarith : x ≤ 36)]
  fin_cases o <;> simp

theorem effectiveCharge_hydrogen {x : ℝ} (h1 : x ≤ 1) : effectiveCharge 1 x 0 = 1 := by
  have := pauling_first x
  rw [min_eq_left (by linarith : x ≤ 2), min_eq_left h1] at this
  unfold effectiveCharge
  unfold Interp.arr at this
  simp only [Fin.val_zero, Nat.cast_one]
  rw [this]
  ring

theorem bfState_hydrogen (omega k rk : ℝ) (ff edge : Fin 10 → ℝ) {x : ℝ} (h0 : 0 < x) (h1 : x ≤ 1) :
    bfState u omega k rk (population x) (effectiveCharge 1 x) ff edge x =
      x * ((if rk < 0 then 1 - ff 0 ^ 2 else rk) * impulseApprox u 0 omega k 1 1 * edge 0) := by
  have hx := h0.ne'
  have hrk : rkOf rk (population x) ff x = if rk < 0 then 1 - ff 0 ^ 2 else rk := by
    unfold rkOf rkAuto
    rw [if_neg hx, Finset.sum_eq_single 0]
    · rw [population_hydrogen h0.le h1, if_pos rfl, mul_div_cancel_left₀ _ hx]
    · intro o _ ho
      rw [population_hydrogen h0.le h1, if_neg ho, zero_mul]
    · simp
  unfold bfState
  rw [if_neg hx, Finset.sum_eq_single 0]
  · rw [hrk, effectiveCharge_hydrogen h1, population_hydrogen h0.le h1, if_pos rfl]
    have : impulseApprox u 0 omega k x 1 = x * impulseApprox u 0 omega k 1 1 := by
      unfold impulseApprox
      ring
    rw [this]
    field_simp
  · intro o _ ho
    rw [population_hydrogen h0.le h1, if_neg ho]
    simp [impulseApprox]
  · simp

/-- C102: for hydrogen the two models agree at every charge. -/
theorem models_agree_hydrogen (e : Edge) (Te rk : ℝ) (ions : List Ion) (k0 shift k : ℝ)
    (h : ∀ i ∈ ions, i.ZA = 1 ∧ 0 ≤ i.charge ∧ i.charge ≤ 1 ∧ i.table 0 = i.cold) :
    impulse u e Te rk ions k0 shift k = coldImpulse u e Te rk ions k0 shift k := by
  unfold impulse coldImpulse bfTotal
  rw [List.map_map]
  congr 2
  refine List.map_congr_left fun i hi => ?_
  obtain ⟨hZ, h0, h1, ht⟩ := h i hi
  simp only [Function.comp_apply]
  congr 1
  rcases h1.eq_or_lt with h1 | h1
  · unfold bfMix
    rw [if_pos (by rw [h1]; simp)]
    unfold chargeState coldIon
    rw [hZ, h1]
    simp [bfState_bare]
  have hf : (⌊i.charge⌋ : ℝ) = 0 := by
    have : ⌊i.charge⌋ = 0 := Int.floor_eq_iff.2 ⟨by simpa using h0, by simpa using h1⟩
    rw [this]; simp
  have hst : chargeState u e Te rk k0 (-shift) k i 0 =
      (if rk < 0 then 1 - i.ff k0 0 ^ 2 else rk) * impulseApprox u 0 (-shift / u.hbar) k 1 1 *
        e.evaluate u Te (-shift) (shifted i.ipd i.cold 0) := by
    unfold chargeState
    rw [hZ, ht, Nat.cast_one, sub_zero, bfState_hydrogen u _ _ _ _ _ one_pos le_rfl, one_mul]
  have hcold : coldIon u e Te rk k0 (-shift) k i = (1 - i.charge) * chargeState u e Te rk k0 (-shift) k i 0 := by
    rw [hst]
    unfold coldIon
    rw [hZ, Nat.cast_one, bfState_hydrogen u _ _ _ _ _ (by linarith) (by linarith)]
  unfold bfMix
  rw [hcold, hf]
  split
  · next hc => rw [hc]; ring
  · next hc =>
    have hpos : 0 < i.charge := lt_of_le_of_ne h0 (Ne.symm hc)
    have hce : ⌈i.charge⌉ = 1 := Int.ceil_eq_iff.2 ⟨by push_cast; linarith, by push_cast; linarith⟩
    simp only [hce, hZ, Nat.cast_one, Int.cast_one, le_refl, if_true]

/-! ### Spectra -/

/-- C102: both models work channel by channel, so that the results on the free-bound scattering (C26), the convolution and
the whole spectrum (C101) hold for them. -/
theorem evaluateRaw_channels (cold : Bool) (e : Edge) (Te ne rk : ℝ) (ions : List Ion) (s : Setup) :
    evaluateRaw u cold e Te ne rk ions s =
      boundFreeRaw u (bif cold then coldImpulse u e Te rk ions else impulse u e Te rk ions) s ne := by
  cases cold <;> rfl

/-- C102: bound-free and free-bound scattering together.  With the edges `NonNegative` and `Heaviside` a channel with energy
loss contains only bound-free scattering; a channel with energy gain only the mirror image of it, with the Boltzmann
factor of the gain. -/
theorem one_process_per_channel {e : Edge} (he : e.oneSided) (cold : Bool) (Te ne rk : ℝ) (ions : List Ion) (s : Setup)
    (n : ℕ) (hn : n < s.measured.length) :
    let f := bif cold then coldImpulse u e Te rk ions else impulse u e Te rk ions
    let w := s.measured.getD n 0 - s.energy
    let both := (evaluateRaw u cold e Te ne rk ions s).getD n 0 + (freeBoundRaw u f s ne Te).getD n 0
    (w < 0 → both = f (s.k u) w ((s.dispersionK u ne).getD n 0)) ∧
      (0 < w → both = f (s.k u) (-w) ((s.dispersionK u ne).getD n 0) * exp (-w / (u.kB * Te))) := by
  intro f w both
  have hdark : ∀ k0 shift k, 0 < shift → f k0 shift k = 0 := fun k0 shift k h => by
    cases cold
    · exact (no_gain u he Te rk ions k0 k h).1
    · exact (no_gain u he Te rk ions k0 k h).2
  have hb : both = f (s.k u) w ((s.dispersionK u ne).getD n 0) +
      f (s.k u) (-w) ((s.dispersionK u ne).getD n 0) * exp (-w / (u.kB * Te)) := by
    simp only [both, w]
    rw [evaluateRaw_channels, boundFree_entry u _ s ne n hn, freeBound_entry u _ s ne Te n hn]
  refine ⟨fun h => ?_, fun h => ?_⟩
  · rw [hb, hdark _ (-w) _ (by linarith)]
    ring
  · rw [hb, hdark _ w _ h]
    ring

/-! ### Sum rule -/

theorem loss_omega (omega : ℝ) : -(-(u.hbar * omega)) / u.hbar = omega := by
  have := u.hbar_pos
  field_simp

/-- C102: without edges, the bound-free intensity integrated over all frequencies is `r_k` times the fraction of the
electrons which is bound, also for fractional charges; the effective charges are those of the code.  (Partial: for elements
with at most twelve electrons, see C24, with `r_k` chosen by the user, and at a fixed wave number.) -/
theorem sum_rule_partial (Te : ℝ) {rk : ℝ} (hr : 0 ≤ rk) (ions : List Ion) (k0 : ℝ) {k : ℝ} (hk : 0 < k)
    (h : ∀ i ∈ ions, i.ZA ≤ 12 ∧ 0 ≤ i.charge ∧ i.charge ≤ i.ZA) :
    ∫ omega, impulse u .noEdge Te rk ions k0 (-(u.hbar * omega)) k =
      rk * ((ions.map fun i => i.x * ((i.ZA : ℝ) - i.charge)).sum / (ions.map fun i => (i.ZA : ℝ) * i.x).sum) := by
  have key : ∀ i ∈ ions, ∀ q : ℤ, 0 ≤ q → q ≤ i.ZA → ∀ o : Fin 10,
      (Interp.electronDistribution (i.ZA - q)).getD o 0 ≠ 0 → 0 < effectiveCharge i.ZA (i.ZA - q) o := by
    intro i hi q hq0 hq o ho
    have hq0' : (0 : ℝ) ≤ q := by exact_mod_cast hq0
    have h12 : (i.ZA : ℝ) ≤ 12 := by exact_mod_cast (h i hi).1
    exact effectiveCharge_pos i.ZA (by linarith) (by linarith) o ho
  have := bound_sum_rule_partial u ions (fun i => i.x) (fun i => i.charge) (fun i => i.ZA)
    (fun i q => effectiveCharge i.ZA (i.ZA - q)) (fun i _ => i.ff k0) hk hr key (fun i hi => (h i hi).1)
    (fun i hi => (h i hi).2.1) (fun i hi => (h i hi).2.2)
  have e : (ions.map fun i => (i.ZA : ℝ) * i.x) = ions.map fun i => i.x * (i.ZA : ℝ) :=
    List.map_congr_left fun i _ => mul_comm _ _
  rw [e, ← this]
  congr 1
  funext omega
  unfold impulse chargeState population
  simp only [loss_omega, e]
  rfl

/-- C102: the same sum rule for the model with cold edges. -/
theorem cold_sum_rule_partial (Te : ℝ) {rk : ℝ} (hr : 0 ≤ rk) (ions : List Ion) (k0 : ℝ) {k : ℝ} (hk : 0 < k)
    (h : ∀ i ∈ ions, i.ZA ≤ 12 ∧ 0 ≤ i.charge ∧ i.charge ≤ i.ZA) :
    ∫ omega, coldImpulse u .noEdge Te rk ions k0 (-(u.hbar * omega)) k =
      rk * ((ions.map fun i => i.x * ((i.ZA : ℝ) - i.charge)).sum / (ions.map fun i => (i.ZA : ℝ) * i.x).sum) := by
  have hone : ∀ i ∈ ions, MeasureTheory.Integrable (fun omega => coldIon u .noEdge Te rk k0 (-(-(u.hbar * omega))) k i) ∧
      ∫ omega, coldIon u .noEdge Te rk k0 (-(-(u.hbar * omega))) k i = rk * (i.ZA - i.charge) := by
    intro i hi
    obtain ⟨h12, h0, h1⟩ := h i hi
    have h12' : (i.ZA : ℝ) ≤ 12 := by exact_mod_cast h12
    unfold coldIon Edge.evaluate edgeNone
    simp only [loss_omega]
    by_cases hz : (i.ZA : ℝ) - i.charge = 0
    · simp [hz, bfState_bare]
    · obtain ⟨a, b⟩ := bfState_norm u (population (i.ZA - i.charge)) (effectiveCharge i.ZA (i.ZA - i.charge)) (i.ff k0) hk hr
        (fun o ho => effectiveCharge_pos i.ZA (by linarith) (by linarith) o ho) hz
      refine ⟨a, b.trans ?_⟩
      unfold population
      rw [pop_norm_partial (by linarith) (by linarith)]
  have hl : ∀ l : List Ion, (∀ i ∈ l, i ∈ ions) →
      MeasureTheory.Integrable (fun omega => (l.map fun i => coldIon u .noEdge Te rk k0 (-(-(u.hbar * omega))) k i * i.x).sum) ∧
      ∫ omega, (l.map fun i => coldIon u .noEdge Te rk k0 (-(-(u.hbar * omega))) k i * i.x).sum =
        rk * (l.map fun i => i.x * ((i.ZA : ℝ) - i.charge)).sum := by
    intro l
    induction l with
    | nil => intro _; simp
    | cons i l ih =>
      intro hm
      obtain ⟨a1, a2⟩ := ih fun j hj => hm j (List.mem_cons_of_mem _ hj)
      obtain ⟨b1, b2⟩ := hone i (hm i List.mem_cons_self)
      simp only [List.map_cons, List.sum_cons]
      refine ⟨(b1.mul_const _).add a1, ?_⟩
      rw [MeasureTheory.integral_add (b1.mul_const _) a1, MeasureTheory.integral_mul_const, b2, a2]
      ring
  unfold coldImpulse
  rw [MeasureTheory.integral_div, (hl ions fun _ h => h).2]
  ring

/-! ### The factor which the code chooses -/

/-- What is left for inelastic scattering by the bound electrons of an ion: their number less the elastic intensity of
independent electrons. -/
noncomputable def incoherent (Zcore : ℝ) (ff : Fin 10 → ℝ) : ℝ :=
  Zcore - ∑ o, population Zcore o * ff o ^ 2

/-- One charge state: with the factor chosen by the code (a negative setting), elastic scattering by independent electrons and
inelastic scattering add up to the number of electrons. -/
theorem bfState_auto_norm {k rk Zcore : ℝ} (hr : rk < 0) (Zeff ff : Fin 10 → ℝ) (hk : 0 < k)
    (hZ : ∀ o, population Zcore o ≠ 0 → 0 < Zeff o) (h0 : 0 ≤ Zcore) (h12 : Zcore ≤ 12) :
    MeasureTheory.Integrable (fun omega => bfState u omega k rk (population Zcore) Zeff ff (fun _ => 1) Zcore) ∧
      ∫ omega, bfState u omega k rk (population Zcore) Zeff ff (fun _ => 1) Zcore = incoherent Zcore ff := by
  by_cases hc : Zcore = 0
  · subst hc
    have hp : ∀ o, population 0 o = 0 := by
      intro o
      unfold population
      rw [Interp.distribution_eq]
      fin_cases o <;> simp
    simp [bfState, incoherent, hp]
  · obtain ⟨a, b⟩ := bfState_norm u (rk := 1) (population Zcore) Zeff ff hk zero_le_one hZ hc
    have hn := pop_norm_partial h0 h12
    have e : ∀ omega, bfState u omega k rk (population Zcore) Zeff ff (fun _ => 1) Zcore =
        (1 - (∑ o, population Zcore o * ff o ^ 2) / Zcore) *
          bfState u omega k 1 (population Zcore) Zeff ff (fun _ => 1) Zcore := by
      intro omega
      unfold bfState rkOf rkAuto
      rw [if_neg hc, if_neg hc, if_pos hr, if_neg hc, if_neg (by norm_num)]
      rw [← mul_assoc, Finset.mul_sum]
      congr 1
      refine Finset.sum_congr rfl fun o _ => ?_
      ring
    simp_rw [e]
    refine ⟨a.const_mul _, ?_⟩
    rw [MeasureTheory.integral_const_mul, b]
    have : ∑ o, population Zcore o * norms o = Zcore := hn
    rw [this, incoherent]
    field_simp

theorem noEdge_one (T loss E : ℝ) : Edge.noEdge.evaluate u T loss E = 1 := rfl

/-- C102: with the factor chosen by the code and cold edges, the inelastic intensity is the number of bound electrons less the
elastic intensity of independent electrons, on average over the ions. -/
theorem cold_sum_rule_auto_partial (Te : ℝ) {rk : ℝ} (hr : rk < 0) (ions : List Ion) (k0 : ℝ) {k : ℝ} (hk : 0 < k)
    (h : ∀ i ∈ ions, i.ZA ≤ 12 ∧ 0 ≤ i.charge ∧ i.charge ≤ i.ZA) :
    ∫ omega, coldImpulse u .noEdge Te rk ions k0 (-(u.hbar * omega)) k =
      (ions.map fun i => i.x * incoherent (i.ZA - i.charge) (i.ff k0)).sum / (ions.map fun i => (i.ZA : ℝ) * i.x).sum := by
  have hone : ∀ i ∈ ions, MeasureTheory.Integrable (fun omega => coldIon u .noEdge Te rk k0 (-(-(u.hbar * omega))) k i) ∧
      ∫ omega, coldIon u .noEdge Te rk k0 (-(-(u.hbar * omega))) k i = incoherent (i.ZA - i.charge) (i.ff k0) := by
    intro i hi
    obtain ⟨h12, h0, h1⟩ := h i hi
    have h12' : (i.ZA : ℝ) ≤ 12 := by exact_mod_cast h12
    unfold coldIon
    simp only [loss_omega, noEdge_one]
    exact bfState_auto_norm u hr _ _ hk (fun o ho => effectiveCharge_pos i.ZA (by linarith) (by linarith) o ho)
      (by linarith) (by linarith)
  have hl : ∀ l : List Ion, (∀ i ∈ l, i ∈ ions) →
      MeasureTheory.Integrable (fun omega => (l.map fun i => coldIon u .noEdge Te rk k0 (-(-(u.hbar * omega))) k i * i.x).sum) ∧
      ∫ omega, (l.map fun i => coldIon u .noEdge Te rk k0 (-(-(u.hbar * omega))) k i * i.x).sum =
        (l.map fun i => i.x * incoherent (i.ZA - i.charge) (i.ff k0)).sum := by
    intro l
    induction l with
    | nil => intro _; simp
    | cons i l ih =>
      intro hm
      obtain ⟨a1, a2⟩ := ih fun j hj => hm j (List.mem_cons_of_mem _ hj)
      obtain ⟨b1, b2⟩ := hone i (hm i List.mem_cons_self)
      simp only [List.map_cons, List.sum_cons]
      refine ⟨(b1.mul_const _).add a1, ?_⟩
      rw [MeasureTheory.integral_add (b1.mul_const _) a1, MeasureTheory.integral_mul_const, b2, a2]
      ring
  unfold coldImpulse
  rw [MeasureTheory.integral_div, (hl ions fun _ h => h).2]

/-- C102: the same for the model with charge states, of which the two next to the mean charge are present. -/
theorem sum_rule_auto_partial (Te : ℝ) {rk : ℝ} (hr : rk < 0) (ions : List Ion) (k0 : ℝ) {k : ℝ} (hk : 0 < k)
    (h : ∀ i ∈ ions, i.ZA ≤ 12 ∧ 0 ≤ i.charge ∧ i.charge ≤ i.ZA) :
    ∫ omega, impulse u .noEdge Te rk ions k0 (-(u.hbar * omega)) k =
      (ions.map fun i => i.x * ((1 - Int.fract i.charge) * incoherent (i.ZA - ⌊i.charge⌋) (i.ff k0) +
        Int.fract i.charge * incoherent (i.ZA - (⌊i.charge⌋ + 1 : ℤ)) (i.ff k0))).sum /
          (ions.map fun i => (i.ZA : ℝ) * i.x).sum := by
  have hst : ∀ i ∈ ions, ∀ q : ℤ, 0 ≤ q → q ≤ i.ZA →
      MeasureTheory.Integrable (fun omega => chargeState u .noEdge Te rk k0 (-(-(u.hbar * omega))) k i q) ∧
      ∫ omega, chargeState u .noEdge Te rk k0 (-(-(u.hbar * omega))) k i q = incoherent (i.ZA - q) (i.ff k0) := by
    intro i hi q hq0 hq
    have h12' : (i.ZA : ℝ) ≤ 12 := by exact_mod_cast (h i hi).1
    have hq0' : (0 : ℝ) ≤ q := by exact_mod_cast hq0
    have hq' : (q : ℝ) ≤ i.ZA := by exact_mod_cast hq
    unfold chargeState
    simp only [loss_omega, noEdge_one]
    exact bfState_auto_norm u hr _ _ hk (fun o ho => effectiveCharge_pos i.ZA (by linarith) (by linarith) o ho)
      (by linarith) (by linarith)
  have hone : ∀ i ∈ ions, MeasureTheory.Integrable (fun omega => bfMix (chargeState u .noEdge Te rk k0 (-(-(u.hbar * omega))) k i) i.ZA i.charge) ∧
      ∫ omega, bfMix (chargeState u .noEdge Te rk k0 (-(-(u.hbar * omega))) k i) i.ZA i.charge =
        (1 - Int.fract i.charge) * incoherent (i.ZA - ⌊i.charge⌋) (i.ff k0) +
          Int.fract i.charge * incoherent (i.ZA - (⌊i.charge⌋ + 1 : ℤ)) (i.ff k0) := by
    intro i hi
    obtain ⟨_, h0, h1⟩ := h i hi
    have hf : IsMixture (1 - Int.fract i.charge) (Int.fract i.charge) ⌊i.charge⌋ (⌊i.charge⌋ + 1) i.charge :=
      ⟨by linarith [Int.fract_lt_one i.charge], Int.fract_nonneg i.charge, by ring,
        by linear_combination Int.floor_add_fract i.charge, ⟨_, rfl⟩, rfl⟩
    have hbare : ∀ omega, chargeState u .noEdge Te rk k0 (-(-(u.hbar * omega))) k i i.ZA = 0 := by
      intro omega
      simp [chargeState, bfState]
    have e : ∀ omega, bfMix (chargeState u .noEdge Te rk k0 (-(-(u.hbar * omega))) k i) i.ZA i.charge =
        (1 - Int.fract i.charge) * chargeState u .noEdge Te rk k0 (-(-(u.hbar * omega))) k i ⌊i.charge⌋ +
          Int.fract i.charge * chargeState u .noEdge Te rk k0 (-(-(u.hbar * omega))) k i (⌊i.charge⌋ + 1 : ℤ) := by
      intro omega
      have := bfMix_mixture (chargeState u .noEdge Te rk k0 (-(-(u.hbar * omega))) k i) i.ZA h1 (hbare omega) hf
      rw [this]
      push_cast
      rfl
    have hfl : ⌊i.charge⌋ ≤ (i.ZA : ℤ) := by
      have := Int.floor_le_floor h1; simpa using this
    have hf0 : 0 ≤ ⌊i.charge⌋ := Int.floor_nonneg.2 h0
    obtain ⟨i1, n1⟩ := hst i hi ⌊i.charge⌋ hf0 hfl
    simp_rw [e]
    by_cases hz : Int.fract i.charge = 0
    · rw [hz]
      simp only [sub_zero, one_mul, zero_mul, add_zero]
      exact ⟨i1, n1⟩
    · have hlt : ⌊i.charge⌋ + 1 ≤ (i.ZA : ℤ) := by
        have h3 : (⌊i.charge⌋ : ℝ) < i.ZA := by
          have := Int.floor_add_fract i.charge
          have h4 : 0 < Int.fract i.charge := lt_of_le_of_ne (Int.fract_nonneg _) (Ne.symm hz)
          linarith
        have : ⌊i.charge⌋ < (i.ZA : ℤ) := by exact_mod_cast h3
        omega
      obtain ⟨i2, n2⟩ := hst i hi (⌊i.charge⌋ + 1) (by omega) hlt
      refine ⟨(i1.const_mul _).add (i2.const_mul _), ?_⟩
      rw [MeasureTheory.integral_add (i1.const_mul _) (i2.const_mul _), MeasureTheory.integral_const_mul,
        MeasureTheory.integral_const_mul, n1, n2]
  have hl : ∀ l : List Ion, (∀ i ∈ l, i ∈ ions) →
      MeasureTheory.Integrable (fun omega => (l.map fun i =>
        bfMix (chargeState u .noEdge Te rk k0 (-(-(u.hbar * omega))) k i) i.ZA i.charge * i.x).sum) ∧
      ∫ omega, (l.map fun i => bfMix (chargeState u .noEdge Te rk k0 (-(-(u.hbar * omega))) k i) i.ZA i.charge * i.x).sum =
        (l.map fun i => i.x * ((1 - Int.fract i.charge) * incoherent (i.ZA - ⌊i.charge⌋) (i.ff k0) +
          Int.fract i.charge * incoherent (i.ZA - (⌊i.charge⌋ + 1 : ℤ)) (i.ff k0))).sum := by
    intro l
    induction l with
    | nil => intro _; simp
    | cons i l ih =>
      intro hm
      obtain ⟨a1, a2⟩ := ih fun j hj => hm j (List.mem_cons_of_mem _ hj)
      obtain ⟨b1, b2⟩ := hone i (hm i List.mem_cons_self)
      simp only [List.map_cons, List.sum_cons]
      refine ⟨(b1.mul_const _).add a1, ?_⟩
      rw [MeasureTheory.integral_add (b1.mul_const _) a1, MeasureTheory.integral_mul_const, b2, a2]
      ring
  unfold impulse bfTotal
  simp only [List.map_map, Function.comp_def]
  rw [MeasureTheory.integral_div, (hl ions fun _ h => h).2]

/-! ### Examples -/

/-- Carbon with a charge of 7/2 in atomic units; the depression removes the L shell. -/
noncomputable def exampleCarbon : Ion where
  x := 1 / 2
  ZA := 6
  charge := 7 / 2
  table := fun q o => if o = 0 then 11 + q else if o ≤ 2 then 1 else 0
  cold := fun o => if o = 0 then 11 else if o ≤ 2 then 1 else 0
  ipd := -2
  ff := fun _ _ => 1 / 2

/-- Half ionised hydrogen. -/
noncomputable def exampleHydrogen : Ion where
  x := 1 / 2
  ZA := 1
  charge := 1 / 2
  table := fun _ o => if o = 0 then 1 / 2 else 0
  cold := fun o => if o = 0 then 1 / 2 else 0
  ipd := -1 / 4
  ff := fun _ _ => 1 / 2

/-- Three of seven electrons are bound. -/
example : ∫ omega, impulse unitConsts .noEdge 1 (3 / 4) [exampleCarbon, exampleHydrogen] 1 (-(unitConsts.hbar * omega)) 1 =
    3 / 4 * (3 / 7) := by
  rw [sum_rule_partial unitConsts 1 (by norm_num) _ 1 one_pos]
  · simp [exampleCarbon, exampleHydrogen]
    norm_num
  · intro i hi
    simp only [List.mem_cons, List.not_mem_nil, or_false] at hi
    rcases hi with rfl | rfl
    · simp only [exampleCarbon]; norm_num
    · simp only [exampleHydrogen]; norm_num

/-- With a form factor of 1/2, three quarters of the half electron scatter inelastically. -/
example : ∫ omega, impulse unitConsts .noEdge 1 (-1) [exampleHydrogen] 1 (-(unitConsts.hbar * omega)) 1 = 3 / 8 := by
  rw [sum_rule_auto_partial unitConsts 1 (by norm_num) _ 1 one_pos]
  · have hf : ⌊(1 / 2 : ℝ)⌋ = 0 := by norm_num
    have hr : Int.fract (1 / 2 : ℝ) = 1 / 2 := by rw [Int.fract, hf]; norm_num
    have h1 : incoherent 1 (fun _ => 1 / 2) = 3 / 4 := by
      simp only [incoherent, population_hydrogen zero_le_one le_rfl]
      simp
      norm_num
    have h0 : incoherent 0 (fun _ => 1 / 2) = 0 := by
      simp only [incoherent, population_hydrogen le_rfl zero_le_one]
      simp
    simp only [exampleHydrogen, List.map_cons, List.map_nil, List.sum_cons, List.sum_nil, hr, hf]
    norm_num [h1, h0]
  · intro i hi
    simp only [List.mem_cons, List.not_mem_nil, or_false] at hi
    subst hi
    simp only [exampleHydrogen]; norm_num

/-- Below its threshold at 1/4, hydrogen does not scatter by bound electrons. -/
example : impulse unitConsts .heaviside 1 (-1) [exampleHydrogen] 1 (-1 / 5) 1 = 0 := by
  refine threshold unitConsts 1 (-1) _ 1 1 _ fun i hi q hq o ho => ?_
  simp only [List.mem_cons, List.not_mem_nil, or_false] at hi
  subst hi
  have hf : ⌊(1 / 2 : ℝ)⌋ = 0 := by norm_num
  have hc : ⌈(1 / 2 : ℝ)⌉ = 1 := by norm_num
  have hq' : q = 0 ∨ q = 1 := by
    simpa only [exampleHydrogen, hf, hc] using hq
  have h01 : (0 : ℝ) ≤ 1 - q ∧ (1 : ℝ) - q ≤ 1 := by rcases hq' with rfl | rfl <;> norm_num
  have := population_hydrogen h01.1 h01.2 o
  simp only [exampleHydrogen, Nat.cast_one] at ho ⊢
  rw [this] at ho
  have h0 : o = 0 := by
    by_contra h
    exact ho (if_neg h)
  subst h0
  norm_num

example : impulse unitConsts .fermi 1 (-1) [exampleHydrogen] 1 (-3) 2 = coldImpulse unitConsts .fermi 1 (-1) [exampleHydrogen] 1 (-3) 2 :=
  models_agree_hydrogen unitConsts .fermi 1 (-1) _ 1 (-3) 2 (by simp [exampleHydrogen]; norm_num)

example : exampleCarbon.table 2 1 + exampleCarbon.ipd ≤ 0 := by
  simp [exampleCarbon]

example : population (6 - 7 / 2) 1 ≠ 0 ∧ effectiveCharge 6 (6 - 7 / 2) 9 < 0 := by
  constructor
  · unfold population
    rw [Interp.distribution_eq]
    norm_num
  · unfold effectiveCharge
    rw [screening_below _ (by norm_num) _ (by simp [Interp.paulingTable, Interp.arr]; norm_num)]
    simp [Interp.paulingTable, Interp.arr]
    norm_num

end Verif.BoundFree
