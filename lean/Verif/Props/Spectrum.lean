/-
Property C101: the spectrum returned by `probe`.
-/
import Verif.Model.Spectrum
import Verif.Props.Convolution
import Verif.Props.FreeFree

set_option autoImplicit false

namespace Verif.Spectrum

open Real Verif.Expt

variable (u : Consts)

/-- Specification: the spectrum of the model before the convolution has one entry per channel, on every axis, and does not
depend on the instrument nor on the correction of the frequency redistribution. -/
def Part.Proper : Part → Prop
  | .neglect => True
  | .ionic W _ => ∀ (s : Setup) (g : ℝ → ℝ) (f : ℝ), W { s with instrument := g, frc := f } = W s
  | .scattering raw _ => (∀ s, (raw s).length = s.measured.length) ∧
      ∀ (s : Setup) (g : ℝ → ℝ) (f : ℝ), raw { s with instrument := g, frc := f } = raw s

def Parts.Proper (p : Parts) : Prop := p.ionic.Proper ∧ p.freeFree.Proper ∧ p.boundFree.Proper ∧ p.freeBound.Proper

theorem rawSpectrum_length {raw : Setup → List ℝ} (h : ∀ s, (raw s).length = s.measured.length) (m : Option ℕ) (s : Setup) :
    (rawSpectrum raw m s).length = s.measured.length := by
  cases m with
  | none => exact h s
  | some m => simp [rawSpectrum]

theorem convolve_length (S : List ℝ) (s : Setup) : (convolve u S s).length = S.length := by simp [convolve, convolveSame]

theorem evaluate_length {a : Part} (ha : a.Proper) (s : Setup) : (a.evaluate u s).length = s.measured.length := by
  cases a with
  | neglect => simp [Part.evaluate]
  | ionic W Z => simp [Part.evaluate, Setup.frequencyRedistribution]
  | scattering raw m =>
    simp [Part.evaluate, Expt.evaluate, convolve_length, rawSpectrum_length ha.1, Setup.frequencyRedistribution]

theorem plus_length {a b : List ℝ} (h : a.length = b.length) : (plus a b).length = a.length := by simp [plus, h]

theorem plus_getD {a b : List ℝ} (h : a.length = b.length) (i : ℕ) : (plus a b).getD i 0 = a.getD i 0 + b.getD i 0 := by
  rcases Nat.lt_or_ge i a.length with hi | hi
  · rw [List.getD_eq_getElem _ _ (by rw [plus_length h]; exact hi), List.getD_eq_getElem _ _ hi, List.getD_eq_getElem _ _ (h ▸ hi)]
    simp [plus]
  · rw [List.getD_eq_default _ _ (by rw [plus_length h]; exact hi), List.getD_eq_default _ _ hi, List.getD_eq_default _ _ (h ▸ hi)]
    simp

/-- C101: the spectrum has one entry per channel. -/
theorem probe_length {p : Parts} (hp : p.Proper) (s : Setup) : (probe u p s).length = s.measured.length := by
  obtain ⟨h1, h2, h3, h4⟩ := hp
  have e1 := evaluate_length u h1 s
  have e2 := evaluate_length u h2 s
  have e3 := evaluate_length u h3 s
  have e4 := evaluate_length u h4 s
  have l1 := plus_length (e1.trans e2.symm)
  have l2 := plus_length (l1.trans (e1.trans e3.symm))
  have l3 := plus_length (l2.trans (l1.trans (e1.trans e4.symm)))
  unfold probe
  rw [l3, l2, l1, e1]

/-- C101: channel by channel, the spectrum is the sum of the four contributions. -/
theorem probe_sum {p : Parts} (hp : p.Proper) (s : Setup) (i : ℕ) :
    (probe u p s).getD i 0 = (p.ionic.evaluate u s).getD i 0 + (p.freeFree.evaluate u s).getD i 0 +
      (p.boundFree.evaluate u s).getD i 0 + (p.freeBound.evaluate u s).getD i 0 := by
  obtain ⟨h1, h2, h3, h4⟩ := hp
  have e1 := evaluate_length u h1 s
  have e2 := evaluate_length u h2 s
  have e3 := evaluate_length u h3 s
  have e4 := evaluate_length u h4 s
  have l1 := plus_length (e1.trans e2.symm)
  have l2 := plus_length (l1.trans (e1.trans e3.symm))
  unfold probe
  rw [plus_getD (l2.trans (l1.trans (e1.trans e4.symm))), plus_getD (l1.trans (e1.trans e3.symm)), plus_getD (e1.trans e2.symm)]

theorem neglect_getD (s : Setup) (i : ℕ) : (Part.neglect.evaluate u s).getD i 0 = 0 := by
  rcases Nat.lt_or_ge i s.measured.length with hi | hi
  · rw [List.getD_eq_getElem _ _ (by simpa [Part.evaluate] using hi)]
    simp [Part.evaluate]
  · rw [List.getD_eq_default _ _ (by simpa [Part.evaluate] using hi)]

/-- C101: `Neglect` in place of the free-free model takes away exactly this contribution and leaves the others; with
`Neglect` in all four places the spectrum vanishes. -/
theorem probe_neglect {p : Parts} (hp : p.Proper) (s : Setup) (i : ℕ) :
    (probe u { p with freeFree := .neglect } s).getD i 0 = (probe u p s).getD i 0 - (p.freeFree.evaluate u s).getD i 0 ∧
    (probe u { p with boundFree := .neglect } s).getD i 0 = (probe u p s).getD i 0 - (p.boundFree.evaluate u s).getD i 0 ∧
    (probe u { p with freeBound := .neglect } s).getD i 0 = (probe u p s).getD i 0 - (p.freeBound.evaluate u s).getD i 0 ∧
    (probe u { p with ionic := .neglect } s).getD i 0 = (probe u p s).getD i 0 - (p.ionic.evaluate u s).getD i 0 ∧
    (probe u ⟨.neglect, .neglect, .neglect, .neglect⟩ s).getD i 0 = 0 := by
  obtain ⟨h1, h2, h3, h4⟩ := hp
  have t : Part.neglect.Proper := trivial
  refine ⟨?_, ?_, ?_, ?_, ?_⟩
  · rw [probe_sum u (p := { p with freeFree := .neglect }) ⟨h1, t, h3, h4⟩, probe_sum u ⟨h1, h2, h3, h4⟩, neglect_getD]; ring
  · rw [probe_sum u (p := { p with boundFree := .neglect }) ⟨h1, h2, t, h4⟩, probe_sum u ⟨h1, h2, h3, h4⟩, neglect_getD]; ring
  · rw [probe_sum u (p := { p with freeBound := .neglect }) ⟨h1, h2, h3, t⟩, probe_sum u ⟨h1, h2, h3, h4⟩, neglect_getD]; ring
  · rw [probe_sum u (p := { p with ionic := .neglect }) ⟨t, h2, h3, h4⟩, probe_sum u ⟨h1, h2, h3, h4⟩, neglect_getD]; ring
  · rw [probe_sum u (p := ⟨.neglect, .neglect, .neglect, .neglect⟩) ⟨t, t, t, t⟩, neglect_getD]; ring

/-! ### One channel -/

theorem frc_getD (s : Setup) {i : ℕ} (hi : i < s.measured.length) :
    s.frequencyRedistribution.getD i 0 = (s.measured.getD i 0 / s.energy) ^ s.frc := by
  rw [List.getD_eq_getElem _ _ (by simpa [Setup.frequencyRedistribution] using hi), List.getD_eq_getElem _ _ hi]
  simp [Setup.frequencyRedistribution]

theorem scattering_getD {raw : Setup → List ℝ} (h : ∀ s, (raw s).length = s.measured.length) (m : Option ℕ) (s : Setup) {i : ℕ}
    (hi : i < s.measured.length) :
    ((Part.scattering raw m).evaluate u s).getD i 0 =
      (convolve u (rawSpectrum raw m s) s).getD i 0 * (s.measured.getD i 0 / s.energy) ^ s.frc := by
  have hl : (convolve u (rawSpectrum raw m s) s).length = s.measured.length := by rw [convolve_length, rawSpectrum_length h]
  rw [← frc_getD s hi]
  unfold Part.evaluate Expt.evaluate
  rw [List.getD_eq_getElem _ _ (by simp [hl, Setup.frequencyRedistribution, hi]), List.getD_eq_getElem _ _ (by rw [hl]; exact hi),
    List.getD_eq_getElem _ _ (by simpa [Setup.frequencyRedistribution] using hi)]
  simp

theorem ionic_getD (W : Setup → ℝ) (Z : ℝ) (s : Setup) {i : ℕ} (hi : i < s.measured.length) :
    ((Part.ionic W Z).evaluate u s).getD i 0 =
      W s / Z * s.instrument ((s.measured.getD i 0 - s.energy) / u.hbar) * (s.measured.getD i 0 / s.energy) ^ s.frc := by
  rw [← frc_getD s hi]
  unfold Part.evaluate
  rw [List.getD_eq_getElem _ _ (by simp [Setup.frequencyRedistribution, hi]), List.getD_eq_getElem _ _ hi,
    List.getD_eq_getElem _ _ (by simpa [Setup.frequencyRedistribution] using hi)]
  simp only [List.getElem_zipWith, Ssf.ionFeature]
  ring

/-- C101: the elastic peak is what a scattering model gives which has the Rayleigh weight in the channel at the energy of
the probe: the same shape, height and correction, in all channels up to half the axis away. -/
theorem ionic_is_line (W : Setup → ℝ) (Z : ℝ) {s : Setup} {d : ℝ} (hd : 0 < d) (h : Equidistant s.measured d) (hn : 2 ≤ s.measured.length)
    {raw : Setup → List ℝ} (hraw : ∀ s, (raw s).length = s.measured.length) {c : ℕ} (hc : c < s.measured.length)
    (hE : s.measured.getD c 0 = s.energy) (hline : ∀ j, (raw s).getD j 0 = if j = c then W s / Z / (d / u.hbar) else 0) {i : ℕ}
    (hi : i < s.measured.length) (hw : InWindow s.measured.length i c) :
    ((Part.ionic W Z).evaluate u s).getD i 0 = ((Part.scattering raw none).evaluate u s).getD i 0 := by
  have hb := u.hbar_pos
  rw [ionic_getD u W Z s hi, scattering_getD u hraw none s hi]
  have := convolve_line u s (raw s) d _ c hd h hn (hraw s) (by rw [hraw]; exact hc) hline i (by rw [hraw]; exact hi)
    (by rw [hraw]; exact hw)
  simp only [rawSpectrum]
  rw [this, hE]
  field_simp

/-! ### Linearity in the instrument, and the correction -/

theorem proper_raw {raw : Setup → List ℝ} {m : Option ℕ} (h : (Part.scattering raw m).Proper) (s : Setup) (g : ℝ → ℝ) (f : ℝ) :
    rawSpectrum raw m { s with instrument := g, frc := f } = rawSpectrum raw m s := by
  cases m with
  | none => exact h.2 s g f
  | some m =>
    have e : raw (lowRes { s with instrument := g, frc := f } m) = raw (lowRes s m) :=
      h.2 (lowRes s m) g 0
    have e' : (lowRes { s with instrument := g, frc := f } m).measured = (lowRes s m).measured := rfl
    simp only [rawSpectrum, e, e']

/-- One contribution, channel by channel, on an ascending axis: an expression linear in the instrument, times the correction. -/
theorem part_formula {a : Part} (ha : a.Proper) {s : Setup} {d : ℝ} (hd : 0 < d) (h : Equidistant s.measured d)
    (hn : 2 ≤ s.measured.length) {i : ℕ} (hi : i < s.measured.length) :
    ∃ (A : ℝ) (w : ℕ → ℝ), ∀ (g : ℝ → ℝ) (f : ℝ),
      (a.evaluate u { s with instrument := g, frc := f }).getD i 0 =
        (A * g ((s.measured.getD i 0 - s.energy) / u.hbar) +
          ∑ j ∈ Finset.range s.measured.length, w j * g ((s.measured.getD i 0 - s.measured.getD j 0) / u.hbar)) *
        (s.measured.getD i 0 / s.energy) ^ f := by
  cases a with
  | neglect =>
    refine ⟨0, fun _ => 0, fun g f => ?_⟩
    rw [neglect_getD]
    simp
  | ionic W Z =>
    refine ⟨W s / Z, fun _ => 0, fun g f => ?_⟩
    rw [ionic_getD u W Z { s with instrument := g, frc := f } hi, ha s g f]
    simp
  | scattering raw m =>
    refine ⟨0, fun j => if InWindow s.measured.length i j then (rawSpectrum raw m s).getD j 0 * (d / u.hbar) else 0, fun g f => ?_⟩
    have hl := rawSpectrum_length ha.1 m s
    rw [scattering_getD u ha.1 m { s with instrument := g, frc := f } hi, proper_raw ha,
      convolve_formula u { s with instrument := g, frc := f } (rawSpectrum raw m s) d hd h hn hl i (by rw [hl]; exact hi), hl]
    congr 1
    rw [zero_mul, zero_add]
    refine Finset.sum_congr rfl fun j _ => ?_
    by_cases hw : InWindow s.measured.length i j
    · simp only [if_pos hw]
      ring
    · simp only [if_neg hw, zero_mul]

theorem probe_formula {p : Parts} (hp : p.Proper) {s : Setup} {d : ℝ} (hd : 0 < d) (h : Equidistant s.measured d)
    (hn : 2 ≤ s.measured.length) {i : ℕ} (hi : i < s.measured.length) :
    ∃ (A : ℝ) (w : ℕ → ℝ), ∀ (g : ℝ → ℝ) (f : ℝ),
      (probe u p { s with instrument := g, frc := f }).getD i 0 =
        (A * g ((s.measured.getD i 0 - s.energy) / u.hbar) +
          ∑ j ∈ Finset.range s.measured.length, w j * g ((s.measured.getD i 0 - s.measured.getD j 0) / u.hbar)) *
        (s.measured.getD i 0 / s.energy) ^ f := by
  obtain ⟨A1, w1, e1⟩ := part_formula u hp.1 hd h hn hi
  obtain ⟨A2, w2, e2⟩ := part_formula u hp.2.1 hd h hn hi
  obtain ⟨A3, w3, e3⟩ := part_formula u hp.2.2.1 hd h hn hi
  obtain ⟨A4, w4, e4⟩ := part_formula u hp.2.2.2 hd h hn hi
  refine ⟨A1 + A2 + A3 + A4, fun j => w1 j + w2 j + w3 j + w4 j, fun g f => ?_⟩
  rw [probe_sum u hp, e1, e2, e3, e4]
  simp only [add_mul, Finset.sum_add_distrib]
  ring

/-- C101: the spectrum is linear in the instrument function, so sources add. -/
theorem probe_instrument_linear {p : Parts} (hp : p.Proper) {s : Setup} {d : ℝ} (hd : 0 < d) (h : Equidistant s.measured d)
    (hn : 2 ≤ s.measured.length) (g1 g2 : ℝ → ℝ) (a b : ℝ) {i : ℕ} (hi : i < s.measured.length) :
    (probe u p { s with instrument := fun x => a * g1 x + b * g2 x }).getD i 0 =
      a * (probe u p { s with instrument := g1 }).getD i 0 + b * (probe u p { s with instrument := g2 }).getD i 0 := by
  obtain ⟨A, w, e⟩ := probe_formula u hp hd h hn hi
  have e1 := e (fun x => a * g1 x + b * g2 x) s.frc
  have e2 := e g1 s.frc
  have e3 := e g2 s.frc
  rw [e1, e2, e3]
  have : ∀ x : ℕ → ℝ, ∑ j ∈ Finset.range s.measured.length, w j * (a * g1 (x j) + b * g2 (x j)) =
      a * ∑ j ∈ Finset.range s.measured.length, w j * g1 (x j) + b * ∑ j ∈ Finset.range s.measured.length, w j * g2 (x j) := by
    intro x
    rw [Finset.mul_sum, Finset.mul_sum, ← Finset.sum_add_distrib]
    exact Finset.sum_congr rfl fun j _ => by ring
  rw [this fun j => (s.measured.getD i 0 - s.measured.getD j 0) / u.hbar]
  ring

/-- C101: the correction of the frequency redistribution is one common factor of all contributions. -/
theorem probe_redistribution {p : Parts} (hp : p.Proper) {s : Setup} {d : ℝ} (hd : 0 < d) (h : Equidistant s.measured d)
    (hn : 2 ≤ s.measured.length) {i : ℕ} (hi : i < s.measured.length) :
    (probe u p s).getD i 0 = (probe u p { s with frc := 0 }).getD i 0 * (s.measured.getD i 0 / s.energy) ^ s.frc := by
  obtain ⟨A, w, e⟩ := probe_formula u hp hd h hn hi
  have e1 := e s.instrument s.frc
  have e2 := e s.instrument 0
  simp only [rpow_zero, mul_one] at e1 e2
  rw [e1, e2]

/-! ### Sign -/

/-- Specification: no negative spectrum before the convolution, and no negative Rayleigh weight. -/
def Part.Nonneg (s : Setup) : Part → Prop
  | .neglect => True
  | .ionic W Z => 0 ≤ W s ∧ 0 < Z
  | .scattering raw m => ∀ j, 0 ≤ (rawSpectrum raw m s).getD j 0

theorem part_nonneg {a : Part} (ha : a.Proper) {s : Setup} (hs : a.Nonneg s) {d : ℝ} (hd : 0 < d) (h : Equidistant s.measured d)
    (hn : 2 ≤ s.measured.length) (hg : ∀ x, 0 ≤ s.instrument x) {i : ℕ} (hi : i < s.measured.length)
    (hE : 0 ≤ s.measured.getD i 0 / s.energy) : 0 ≤ (a.evaluate u s).getD i 0 := by
  cases a with
  | neglect => rw [neglect_getD]
  | ionic W Z =>
    rw [ionic_getD u W Z s hi]
    exact mul_nonneg (mul_nonneg (div_nonneg hs.1 hs.2.le) (hg _)) (rpow_nonneg hE _)
  | scattering raw m =>
    have hl := rawSpectrum_length ha.1 m s
    rw [scattering_getD u ha.1 m s hi]
    exact mul_nonneg (convolve_nonneg u s _ d hd h hn hl hg hs i (by rw [hl]; exact hi)) (rpow_nonneg hE _)

/-- C101: no negative contribution gives no negative spectrum, for all instruments without negative values. -/
theorem probe_nonneg {p : Parts} (hp : p.Proper) {s : Setup} (h1 : p.ionic.Nonneg s) (h2 : p.freeFree.Nonneg s)
    (h3 : p.boundFree.Nonneg s) (h4 : p.freeBound.Nonneg s) {d : ℝ} (hd : 0 < d) (h : Equidistant s.measured d)
    (hn : 2 ≤ s.measured.length) (hg : ∀ x, 0 ≤ s.instrument x) {i : ℕ} (hi : i < s.measured.length)
    (hE : 0 ≤ s.measured.getD i 0 / s.energy) : 0 ≤ (probe u p s).getD i 0 := by
  rw [probe_sum u hp]
  have a1 := part_nonneg u hp.1 h1 hd h hn hg hi hE
  have a2 := part_nonneg u hp.2.1 h2 hd h hn hg hi hE
  have a3 := part_nonneg u hp.2.2.1 h3 hd h hn hg hi hE
  have a4 := part_nonneg u hp.2.2.2 h4 hd h hn hg hi hE
  linarith

/-! ### Detailed balance of all inelastic scattering -/

/-- C101: free-free, bound-free and free-bound scattering together obey detailed balance between all channels with opposite
shifts, for all free-free models and all bound-free models that work channel by channel.  (Partial: before the convolution
and without the correction of the wave number, as in C26 and C100.) -/
theorem inelastic_balance_partial {m : ℕ} (st : FreeFree.State m) {s : Setup} (hs : s.correctK = false) (hT : 0 < st.Te)
    {md : FreeFree.Model} (hmd : md.Valid) (hax : ∀ r, md = .bornMerminFull r → FreeFree.EvenAxis s) (f : ℝ → ℝ → ℝ → ℝ) {i j : ℕ}
    (hi : i < s.measured.length) (hj : j < s.measured.length)
    (hij : s.measured.getD j 0 - s.energy = -(s.measured.getD i 0 - s.energy)) (h0 : s.measured.getD i 0 ≠ s.energy) {y z : ℝ}
    (hy : (FreeFree.evaluateRaw u st s md).getD i none = some y) (hz : (FreeFree.evaluateRaw u st s md).getD j none = some z) :
    y + (boundFreeRaw u f s st.ne).getD i 0 + (freeBoundRaw u f s st.ne st.Te).getD i 0 =
      exp (-(s.measured.getD i 0 - s.energy) / (u.kB * st.Te)) *
        (z + (boundFreeRaw u f s st.ne).getD j 0 + (freeBoundRaw u f s st.ne st.Te).getD j 0) := by
  have hb := bound_detailed_balance_no_dispersion u f s st.ne st.Te i j hs hi hj hij
  have hentry : ∀ n (hn : n < s.measured.length), (FreeFree.evaluateRaw u st s md).getD n none =
      FreeFree.rawAt u st s md (s.measured.getD n 0) := by
    intro n hn
    rw [List.getD_eq_getElem _ _ (by simpa [FreeFree.evaluateRaw] using hn), List.getD_eq_getElem _ _ hn]
    simp [FreeFree.evaluateRaw]
  rw [hentry i hi] at hy
  rw [hentry j hj] at hz
  have hff := FreeFree.raw_balance_partial u st hs hT hmd hax (d := s.measured.getD i 0 - s.energy) (sub_ne_zero.2 h0)
    (by rw [add_sub_cancel]; exact hy) (by rw [show s.energy - (s.measured.getD i 0 - s.energy) = s.measured.getD j 0 by linarith]; exact hz)
  rw [add_assoc, hb, hff]
  ring

/-! ### Channels without a value -/

theorem sumO_none (l : List (Option ℝ)) : sumO l = none ↔ none ∈ l := by
  induction l with
  | nil => simp [sumO]
  | cons a l ih =>
    cases a with
    | none => simp [sumO]
    | some x => simp [sumO, ih]

theorem sumO_some (l : List ℝ) : sumO (l.map some) = some l.sum := by
  induction l with
  | nil => rfl
  | cons a l ih => simp [sumO, ih]

/-- C101: with a value in every channel the spectrum is the one of the other theorems. -/
theorem evaluateO_some (raw : Setup → List ℝ) (s : Setup) :
    evaluateO u ((raw s).map some) s = ((Part.scattering raw none).evaluate u s).map some := by
  have hb : ∀ b : List ℝ, convolveSameO ((raw s).map some) b = (convolveSame (raw s) b).map some := by
    intro b
    unfold convolveSameO convolveSame
    rw [List.map_map, List.length_map]
    refine List.map_congr_left fun i _ => ?_
    simp only [Function.comp]
    rw [← sumO_some, List.map_map]
    congr 1
    refine List.map_congr_left fun j hj => ?_
    have hj' : j < (raw s).length := List.mem_range.1 hj
    simp only [Function.comp]
    have hg : ((raw s).map some).getD j none = some ((raw s).getD j 0) := by
      rw [List.getD_eq_getElem _ _ (by simpa using hj'), List.getD_eq_getElem _ _ hj', List.getElem_map]
    rw [hg]
    by_cases h1 : j ≤ i + ((raw s).length - 1) / 2
    · by_cases h2 : i + ((raw s).length - 1) / 2 - j < b.length
      · rw [if_pos ⟨h1, h2⟩, if_pos h1]
        rfl
      · rw [if_neg fun h => h2 h.2, if_pos h1, List.getD_eq_default b _ (not_lt.1 h2), mul_zero]
    · rw [if_neg fun h => h1 h.1, if_neg h1]
  unfold evaluateO Part.evaluate Expt.evaluate convolve rawSpectrum
  rw [hb, List.map_zipWith, List.zipWith_map_left, List.zipWith_map_left]
  rfl

/-- C101: which channels of the convolved spectrum have no value: those at most half an axis away from a channel without. -/
theorem evaluateO_none (S : List (Option ℝ)) (s : Setup) (hS : S.length = s.measured.length) {i : ℕ} (hi : i < s.measured.length) :
    (evaluateO u S s).getD i (some 0) = none ↔ ∃ j, j < s.measured.length ∧ InWindow s.measured.length i j ∧ S.getD j none = none := by
  have hg : (convGrid u s).length = s.measured.length := by simp [convGrid]
  have hlen : (evaluateO u S s).length = s.measured.length := by simp [evaluateO, convolveSameO, hS, Setup.frequencyRedistribution]
  rw [List.getD_eq_getElem _ _ (by rw [hlen]; exact hi)]
  simp only [evaluateO, List.getElem_zipWith, Option.map_eq_none_iff, convolveSameO, List.getElem_map, List.getElem_range, sumO_none,
    List.mem_map, List.mem_range, hS, List.length_map, hg]
  constructor
  · rintro ⟨j, hj, he⟩
    split_ifs at he with hc
    exact ⟨j, hj, (inWindow_iff _ i j (by omega)).2 ⟨hc.1, by omega⟩, Option.map_eq_none_iff.1 he⟩
  · rintro ⟨j, hj, hw, he⟩
    obtain ⟨h1, h2⟩ := (inWindow_iff _ i j (by omega)).1 hw
    refine ⟨j, hj, ?_⟩
    rw [if_pos ⟨h1, by omega⟩, he]
    rfl

/-- C101 does not hold for axes with the energy of the probe in the middle: with all free-free models but `RPA_DandreaFit`
the free-free spectrum has no value in any channel. -/
theorem centred_axis_nan {m : ℕ} (st : FreeFree.State m) (s : Setup) {md : FreeFree.Model} (hmd : md ≠ .dandrea)
    (hZ : ∑ a, st.Zfree a ≠ 0) (hE : s.measured.getD ((s.measured.length - 1) / 2) 0 = s.energy) {i : ℕ} (hi : i < s.measured.length) :
    (evaluateO u (FreeFree.evaluateRaw u st s md) s).getD i (some 0) = none := by
  refine (evaluateO_none u _ s (by simp [FreeFree.evaluateRaw]) hi).2 ⟨(s.measured.length - 1) / 2, by omega, ?_, ?_⟩
  · rw [inWindow_iff _ _ _ (by omega)]
    omega
  · have hc : (s.measured.length - 1) / 2 < s.measured.length := by omega
    rw [List.getD_eq_getElem _ _ hc] at hE
    rw [List.getD_eq_getElem _ _ (by simpa [FreeFree.evaluateRaw] using hc)]
    simp only [FreeFree.evaluateRaw, List.getElem_map, hE]
    cases md <;> first | exact absurd rfl hmd | simp [FreeFree.rawAt, hZ, FreeFree.see]

/-! ### Cases that meet the hypotheses -/

noncomputable def exampleParts : Parts :=
  ⟨.ionic (fun _ => 2) 3, .scattering (fun s => s.measured.map fun _ => 1) none, .neglect, .scattering (fun s => s.measured.map fun _ => 1) (some 2)⟩

example : exampleParts.Proper := by
  refine ⟨fun _ _ _ => rfl, ⟨fun s => by simp, fun _ _ _ => rfl⟩, trivial, ⟨fun s => by simp, fun _ _ _ => rfl⟩⟩

example (g : ℝ → ℝ) : Equidistant (mkSetup 1 10 [9, 10, 11] g).measured 1 := by
  intro i hi
  have h3 : i + 1 < 3 := by simpa [mkSetup] using hi
  have h2 : i < 2 := by omega
  interval_cases i <;> norm_num [mkSetup]

example {i : ℕ} (hi : i < 3) : (evaluateO u (FreeFree.evaluateRaw u FreeFree.exampleState FreeFree.exampleSetup .rpa)
    FreeFree.exampleSetup).getD i (some 0) = none :=
  centred_axis_nan u _ _ (by simp) (by norm_num [FreeFree.exampleState, Fin.sum_univ_two]) (by norm_num [FreeFree.exampleSetup])
    (by simpa [FreeFree.exampleSetup] using hi)

end Verif.Spectrum
