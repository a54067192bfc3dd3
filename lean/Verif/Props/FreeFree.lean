/-
Property C100: spectrum and susceptibility of the free-free models.
-/
import Verif.Model.FreeFree
import Verif.Props.Mermin
import Verif.Props.Spectral
import Verif.Props.Setup

set_option autoImplicit false

namespace Verif.FreeFree

open Real Verif.Expt Verif.Resp Verif.Interp ComplexConjugate

variable {m : ℕ} (u : Consts)

/-- The wave numbers of the channels are those of the setup, see C16. -/
theorem kAt_dispersionK (p : Setup) (ne : ℝ) : p.measured.map (kAt u p ne) = p.dispersionK u ne := rfl

theorem kAt_const {p : Setup} (h : p.correctK = false) (ne E : ℝ) : kAt u p ne E = p.k u := by
  simp [kAt, h]

/-! ### Which channels have a value? -/

/-- C100: without free electrons there is no scattering, in any channel. -/
theorem no_electrons (s : State m) (p : Setup) (md : Model) (h : ∑ a, s.Zfree a = 0) :
    evaluateRaw u s p md = p.measured.map fun _ => some 0 := by
  unfold evaluateRaw
  refine List.map_congr_left fun E _ => ?_
  simp [rawAt, h]

/-- C100 does not hold in full: for all models but `RPA_DandreaFit` a channel at the energy of the probe has no value. -/
theorem no_value_at_probe (s : State m) (p : Setup) {md : Model} (hmd : md ≠ .dandrea) (h : ∑ a, s.Zfree a ≠ 0)
    (hp : p.energy ∈ p.measured) : none ∈ evaluateRaw u s p md := by
  unfold evaluateRaw
  refine List.mem_map.2 ⟨p.energy, hp, ?_⟩
  cases md <;> first | exact absurd rfl hmd | simp [rawAt, h, see]

/-- C100: all other channels have one, up to the recoil energy in Salpeter's approximation. -/
theorem value_elsewhere (s : State m) (p : Setup) (md : Model) {E : ℝ} (hE : E ≠ p.energy)
    (hr : md = .salpeter → |E - p.energy| ≠ kinEnergy u (kAt u p s.ne E)) : (rawAt u s p md E).isSome := by
  have hE' : E - p.energy ≠ 0 := sub_ne_zero.2 hE
  by_cases hz : ∑ a, s.Zfree a = 0
  · simp [rawAt, hz]
  · cases md with
    | salpeter => simp [rawAt, hz, see, hE', hr rfl]
    | _ => simp [rawAt, hz, see, hE']

/-- C100: `RPA_DandreaFit` has a value in every channel. -/
theorem dandrea_value (s : State m) (p : Setup) : ∀ y ∈ evaluateRaw u s p .dandrea, y.isSome := by
  intro y hy
  obtain ⟨E, -, rfl⟩ := List.mem_map.1 hy
  by_cases hz : ∑ a, s.Zfree a = 0
  · simp [rawAt, hz]
  · by_cases hE : E - p.energy = 0 <;> simp [rawAt, hz, see, hE]

/-! ### The weight of the free electrons -/

/-- C100: the spectrum is that of one free electron times the share of the free electrons. -/
theorem raw_weight (s : State m) (p : Setup) (md : Model) {E y : ℝ} (h : ∑ a, s.Zfree a ≠ 0) (hy : see u s p E md = some y) :
    rawAt u s p md E = some (y * (s.meanZfree / s.meanZA)) := by
  simp [rawAt, h, hy, mul_div_assoc]

/-- C100: this share is between zero and one, and one exactly if all ions are fully ionized. -/
theorem weight_bounds (s : State m) (hx : ∀ a, 0 ≤ s.x a) (h0 : ∀ a, 0 ≤ s.Zfree a) (h1 : ∀ a, s.Zfree a ≤ s.ZA a)
    (hA : 0 < s.meanZA) :
    0 ≤ s.meanZfree / s.meanZA ∧ s.meanZfree / s.meanZA ≤ 1 ∧
      (s.meanZfree / s.meanZA = 1 ↔ ∀ a, 0 < s.x a → s.Zfree a = s.ZA a) := by
  have hle : ∀ a, s.Zfree a * s.x a ≤ s.ZA a * s.x a := fun a => mul_le_mul_of_nonneg_right (h1 a) (hx a)
  refine ⟨div_nonneg (Finset.sum_nonneg fun a _ => mul_nonneg (h0 a) (hx a)) hA.le,
    (div_le_one hA).2 (Finset.sum_le_sum fun a _ => hle a), ?_⟩
  rw [div_eq_one_iff_eq hA.ne']
  constructor
  · intro h a ha
    by_contra hne
    have : s.meanZfree < s.meanZA := Finset.sum_lt_sum (fun a _ => hle a)
      ⟨a, Finset.mem_univ a, mul_lt_mul_of_pos_right (lt_of_le_of_ne (h1 a) hne) ha⟩
    linarith
  · intro h
    refine Finset.sum_congr rfl fun a _ => ?_
    rcases (hx a).lt_or_eq with ha | ha
    · rw [h a ha]
    · rw [← ha, mul_zero, mul_zero]

/-! ### Detailed balance -/

/-- Specification: options with which the collision frequencies are interpolated between points in order. -/
def Model.Valid : Model → Prop
  | .bornMermin o | .bornMerminFit o | .bornMerminFortmann o => 0 < o.Emin ∧ o.Emin < o.Emax ∧ 0 < o.N
  | _ => True

/-- Specification: the axis extends equally far to both sides of the energy of the probe. -/
def EvenAxis (p : Setup) : Prop :=
  ∃ hi, 0 < hi ∧ (p.measured.map fun y => y - p.energy).foldl min ((p.measured.map fun y => y - p.energy).headD 0) = -hi ∧
    (p.measured.map fun y => y - p.energy).foldl max ((p.measured.map fun y => y - p.energy).headD 0) = hi

/-- C100: detailed balance of the spectrum as it is returned, for all models, states and energies.  (Partial: without the
correction of the wave number, which differs from channel to channel; `BornMermin_Full` needs an axis that extends
equally far to both sides.) -/
theorem raw_balance_partial (s : State m) {p : Setup} (hp : p.correctK = false) (hT : 0 < s.Te) {md : Model} (hmd : md.Valid)
    (hax : ∀ r, md = .bornMerminFull r → EvenAxis p) {d y z : ℝ} (hd : d ≠ 0) (hy : rawAt u s p md (p.energy + d) = some y)
    (hz : rawAt u s p md (p.energy - d) = some z) : y = exp (-d / (u.kB * s.Te)) * z := by
  by_cases h0 : ∑ a, s.Zfree a = 0
  · simp only [rawAt, h0, if_true, Option.map_some, Option.some.injEq, zero_div] at hy hz
    rw [← hy, ← hz, mul_zero]
  have e1 : p.energy + d - p.energy = d := by ring
  have e2 : p.energy - d - p.energy = -d := by ring
  have hd' : -d ≠ 0 := neg_ne_zero.2 hd
  have key : ∀ a b : ℝ, see u s p (p.energy + d) md = some a → see u s p (p.energy - d) md = some b →
      a = exp (-d / (u.kB * s.Te)) * b := by
    intro a b ha hb
    cases md with
    | salpeter =>
      simp only [see, e1, e2, kAt_const u hp, hd, hd', false_or] at ha hb
      split_ifs at ha hb
      rw [← Option.some.inj ha, ← Option.some.inj hb]
      exact s0eeSalpeter_balance u _ _ _ hT hd
    | rpa =>
      simp only [see, e1, e2, kAt_const u hp, if_neg hd, if_neg hd'] at ha hb
      rw [← Option.some.inj ha, ← Option.some.inj hb]
      exact s0eeRPANoDamping_balance u _ _ _ _ hT hd _
    | dandrea =>
      simp only [see, e1, e2, kAt_const u hp, if_neg hd, if_neg hd'] at ha hb
      rw [← Option.some.inj ha, ← Option.some.inj hb]
      exact s0eeDandrea_balance u _ _ _ _ hT hd
    | bornMerminFull r =>
      simp only [see, e1, e2, kAt_const u hp, if_neg hd, if_neg hd'] at ha hb
      rw [← Option.some.inj ha, ← Option.some.inj hb]
      obtain ⟨hi, h1, h2, h3⟩ := hax r rfl
      exact s0eeBMA_balance_symmetric u (bornArgs s ⟨0, 0, 0, r⟩) hT _ _ h1 h2 h3 hd
    | bornMermin o =>
      simp only [see, e1, e2, kAt_const u hp, if_neg hd, if_neg hd'] at ha hb
      rw [← Option.some.inj ha, ← Option.some.inj hb]
      exact s0eeBMAInterp_balance_partial u (bornArgs s o) hmd hT _ _ hd
    | bornMerminFit o =>
      simp only [see, e1, e2, kAt_const u hp, if_neg hd, if_neg hd'] at ha hb
      rw [← Option.some.inj ha, ← Option.some.inj hb]
      exact s0eeBMAFit_balance u _ (bornArgs s o) hmd hT _ _ hd
    | bornMerminFortmann o =>
      simp only [see, e1, e2, kAt_const u hp, if_neg hd, if_neg hd'] at ha hb
      rw [← Option.some.inj ha, ← Option.some.inj hb]
      exact s0eeBMAFortmann_balance u _ (bornArgs s o) hmd hT _ _ hd
  simp only [rawAt, if_neg h0, Option.map_map, Option.map_eq_some_iff, Function.comp] at hy hz
  obtain ⟨a, ha, rfl⟩ := hy
  obtain ⟨b, hb, rfl⟩ := hz
  rw [key a b ha hb]
  ring

/-! ### Sign -/

/-- C100: the spectrum is positive in every channel that has a value, for the three models without collisions. -/
theorem raw_pos (s : State m) {p : Setup} {md : Model} (hmd : md = .salpeter ∨ md = .rpa ∨ md = .dandrea) (hT : 0 < s.Te) (hn : 0 < s.ne)
    (hZ : 0 < s.meanZfree) (hZ0 : ∑ a, s.Zfree a ≠ 0) (hA : 0 < s.meanZA) {E y : ℝ} (hk : 0 < kAt u p s.ne E) (hk0 : 0 < p.k u)
    (hy : rawAt u s p md E = some y) : 0 < y := by
  simp only [rawAt, if_neg hZ0, Option.map_map, Option.map_eq_some_iff, Function.comp] at hy
  obtain ⟨a, ha, rfl⟩ := hy
  refine div_pos (mul_pos ?_ hZ) hA
  rcases hmd with rfl | rfl | rfl
  · simp only [see] at ha
    split_ifs at ha with h
    push Not at h
    rw [← Option.some.inj ha]
    refine s0eeSalpeter_pos_partial u hk hT hn h.1 (fun e => h.2 ?_) (fun e => h.2 ?_) _
    · rw [e, abs_of_nonneg]
      have := u.hbar_pos; have := u.me_pos
      unfold kinEnergy
      positivity
    · rw [e, abs_neg, abs_of_nonneg]
      have := u.hbar_pos; have := u.me_pos
      unfold kinEnergy
      positivity
  · simp only [see] at ha
    split_ifs at ha with h
    rw [← Option.some.inj ha]
    exact s0eeRPANoDamping_pos u hk hT hn h _ _ _
  · have hw : 0 < dandreaWindow u s.ne := by
      have := u.hbar_pos; have := u.me_pos; have := u.e_pos; have := u.eps0_pos
      have : 0 < plasmaFrequency u s.ne := sqrt_pos.2 (by positivity)
      unfold dandreaWindow
      positivity
    simp only [see] at ha
    split_ifs at ha with h
    · rw [← Option.some.inj ha]
      have h1 := s0eeDandrea_pos u danFits hk0 hT hn (neg_ne_zero.2 hw.ne') (s.lfc (p.k u))
      have h2 := s0eeDandrea_pos u danFits hk0 hT hn hw.ne' (s.lfc (p.k u))
      linarith
    · rw [← Option.some.inj ha]
      exact s0eeDandrea_pos u danFits hk hT hn h _

/-! ### The channel at the energy of the probe -/

/-- C100: the value which `RPA_DandreaFit` fills in is between the spectra of one electron close to zero on both sides. -/
theorem dandrea_centre (s : State m) (p : Setup) (hT : 0 < s.Te) (hn : 0 < s.ne) (hk : 0 < p.k u) :
    ∃ y, see u s p p.energy .dandrea = some y ∧
      s0eeDandrea u danFits (p.k u) s.Te s.ne (dandreaWindow u s.ne) (s.lfc (p.k u)) < y ∧
      y < s0eeDandrea u danFits (p.k u) s.Te s.ne (-dandreaWindow u s.ne) (s.lfc (p.k u)) := by
  have hw : 0 < dandreaWindow u s.ne := by
    have := u.hbar_pos; have := u.me_pos; have := u.e_pos; have := u.eps0_pos
    have : 0 < plasmaFrequency u s.ne := sqrt_pos.2 (by positivity)
    unfold dandreaWindow
    positivity
  refine ⟨(s0eeDandrea u danFits (p.k u) s.Te s.ne (-dandreaWindow u s.ne) (s.lfc (p.k u)) +
    s0eeDandrea u danFits (p.k u) s.Te s.ne (dandreaWindow u s.ne) (s.lfc (p.k u))) / 2, by simp only [see, sub_self, if_true], ?_⟩
  have h1 := s0eeDandrea_balance u danFits (p.k u) s.ne (s.lfc (p.k u)) hT hw.ne'
  have h2 := s0eeDandrea_pos u danFits hk hT hn (neg_ne_zero.2 hw.ne') (s.lfc (p.k u))
  have h3 : exp (-dandreaWindow u s.ne / (u.kB * s.Te)) < 1 := by
    rw [Real.exp_lt_one_iff]
    have := u.kB_pos
    exact div_neg_of_neg_of_pos (by linarith) (by positivity)
  have h4 : s0eeDandrea u danFits (p.k u) s.Te s.ne (dandreaWindow u s.ne) (s.lfc (p.k u)) <
      s0eeDandrea u danFits (p.k u) s.Te s.ne (-dandreaWindow u s.ne) (s.lfc (p.k u)) := by
    rw [h1]
    nlinarith
  constructor <;> linarith

/-- C100: the value which `RPA_DandreaFit` fills in is the mean of the spectrum of one electron at two energies which are a
millionth of the plasma frequency away from zero; by detailed balance it follows from that at the negative one. -/
theorem dandrea_centre_value (s : State m) (p : Setup) (hT : 0 < s.Te) (hn : 0 < s.ne) :
    see u s p p.energy .dandrea = some (s0eeDandrea u danFits (p.k u) s.Te s.ne
        (-(u.hbar * plasmaFrequency u s.ne / 10 ^ 6)) (s.lfc (p.k u)) *
      ((1 + exp (-(u.hbar * plasmaFrequency u s.ne / 10 ^ 6) / (u.kB * s.Te))) / 2)) := by
  have e : dandreaWindow u s.ne = u.hbar * plasmaFrequency u s.ne / 10 ^ 6 := by
    unfold dandreaWindow
    ring
  have hw : 0 < dandreaWindow u s.ne := by
    have := u.hbar_pos; have := u.me_pos; have := u.e_pos; have := u.eps0_pos
    have : 0 < plasmaFrequency u s.ne := sqrt_pos.2 (by positivity)
    unfold dandreaWindow
    positivity
  have h1 := s0eeDandrea_balance u danFits (p.k u) s.ne (s.lfc (p.k u)) hT hw.ne'
  rw [← e]
  simp only [see, sub_self, if_true]
  rw [h1]
  congr 1
  ring

/-- C100: the collisions in the models with collisions are those with all ions: if the density of the free electrons is
made up of the charges of the ions with the total density `N`, each collision frequency is `N` times that of one ion in the
same electron gas. -/
theorem collisions_with_all_ions (s : State m) (o : Opts) {N : ℝ} (hne : s.ne = ∑ a, s.Zfree a * (s.x a * N)) (h0 : s.ne ≠ 0)
    (eps : ℝ → ℝ → ℂ) (V S : ℝ → ℝ) (E : ℝ) :
    bornNu u eps V S (bornArgs s o).Zf E = (N : ℂ) * bornNu u eps V S s.ne E := by
  have e : s.ne = (∑ a, s.Zfree a * s.x a) * N := by
    rw [hne, Finset.sum_mul]
    exact Finset.sum_congr rfl fun a _ => by ring
  have hN : N ≠ 0 := fun h => h0 (by rw [e, h, mul_zero])
  have hz : (∑ a, s.Zfree a * s.x a) ≠ 0 := fun h => h0 (by rw [e, h, zero_mul])
  have hp : bornPref u (bornArgs s o).Zf = N * bornPref u s.ne := by
    unfold bornPref bornArgs State.meanZfree
    simp only
    rw [e]
    generalize (∑ a, s.Zfree a * s.x a) = z at *
    have := u.hbar_pos.ne'; have := u.me_pos.ne'; have := u.e_pos.ne'; have := u.eps0_pos.ne'
    field_simp
  apply Complex.ext <;> simp [bornNu, hp] <;> ring

example : (∃ s : State 2, s.ne = ∑ a, s.Zfree a * (s.x a * 3) ∧ s.ne ≠ 0 ∧ s.Zfree 0 ≠ s.Zfree 1) :=
  ⟨{ Zfree := ![1, 2], x := fun _ => 1 / 2, ZA := ![1, 2], ne := 9 / 2, Te := 1, mu := 0, S := fun _ => 1, V := fun _ => 1,
     lfc := fun _ => 0 }, by simp [Fin.sum_univ_two]; norm_num, by norm_num, by simp⟩

/-- C100 does not hold with the correction of the wave number: the value at the energy of the probe belongs to the wave
number in vacuum, that of the other channels to the one in the plasma, which is smaller at the same energy. -/
theorem centre_wavenumber {p : Setup} (hp : p.correctK = true) {ne : ℝ} (hn : 0 < ne) (hE : 0 < p.energy)
    (_hw : plasmaFrequency u ne ≤ p.energy / u.hbar) (h0 : 0 < p.angle) (h1 : p.angle < 2 * π) :
    kAt u p ne p.energy = p.k u * sqrt (1 - plasmaFrequency u ne ^ 2 / (p.energy / u.hbar) ^ 2) ∧ kAt u p ne p.energy < p.k u := by
  have hh := u.hbar_pos; have hc := u.c_pos; have := u.me_pos; have := u.e_pos; have := u.eps0_pos
  have hpl : 0 < plasmaFrequency u ne := sqrt_pos.2 (by positivity)
  have hs : 0 < sin (p.angle / 2) := sin_pos_of_pos_of_lt_pi (by linarith) (by linarith)
  have hk := k_eq u p hE.ne'
  have e : kAt u p ne p.energy = p.k u * sqrt (1 - plasmaFrequency u ne ^ 2 / (p.energy / u.hbar) ^ 2) := by
    unfold kAt
    rw [if_pos hp, transfer_elastic _ _ (by unfold photonK; positivity) h0.le h1.le, hk]
    unfold photonK
    ring
  refine ⟨e, ?_⟩
  have hkpos : 0 < p.k u := by rw [hk]; positivity
  have hlt : sqrt (1 - plasmaFrequency u ne ^ 2 / (p.energy / u.hbar) ^ 2) < 1 := by
    rw [sqrt_lt' one_pos]
    have : 0 < plasmaFrequency u ne ^ 2 / (p.energy / u.hbar) ^ 2 := by positivity
    linarith
  rw [e]
  nlinarith

/-! ### Susceptibility -/

theorem interp_window {E0 : ℝ} (h : 0 < E0) (a b : ℝ) {E : ℝ} (hE : |E| ≤ E0) :
    interpL [-E0, E0] [a, b] E = a + (E + E0) / (2 * E0) * (b - a) := by
  obtain ⟨h1, h2⟩ := abs_le.1 hE
  have hinc : Increasing 2 (arr [-E0, E0]) := by
    intro i hi
    have : i = 0 := by omega
    subst this
    simp [arr]
    linarith
  have key := interp_between_nodes 2 (arr [-E0, E0]) (arr [a, b]) hinc 0 (by norm_num) ((E + E0) / (2 * E0))
    (div_nonneg (by linarith) (by linarith)) ((div_le_one (by linarith)).2 (by linarith))
  have e : (1 - (E + E0) / (2 * E0)) * arr [-E0, E0] 0 + (E + E0) / (2 * E0) * arr [-E0, E0] (0 + 1) = E := by
    simp [arr]
    field_simp
    ring
  rw [e] at key
  unfold interpL
  rw [show ([-E0, E0] : List ℝ).length = 2 from rfl, key]
  simp [arr]
  ring

/-- C100: at the borders of the window the susceptibility does not jump. -/
theorem smooth_border {E0 : ℝ} (h : 0 < E0) (chi : ℝ → ℂ) : smooth E0 chi chi E0 = chi E0 ∧ smooth E0 chi chi (-E0) = chi (-E0) := by
  have e1 : ¬ E0 < |E0| := by rw [abs_of_pos h]; exact lt_irrefl _
  have e2 : ¬ E0 < |-E0| := by rw [abs_neg, abs_of_pos h]; exact lt_irrefl _
  constructor
  · unfold smooth
    rw [if_neg e1, interp_window h _ _ (not_lt.1 e1), interp_window h _ _ (not_lt.1 e1)]
    have : (E0 + E0) / (2 * E0) = 1 := by field_simp; ring
    apply Complex.ext <;> simp [this]
  · unfold smooth
    rw [if_neg e2, interp_window h _ _ (not_lt.1 e2), interp_window h _ _ (not_lt.1 e2)]
    apply Complex.ext <;> simp

/-- C100: inside of the window the real part is constant and the imaginary part proportional to the energy, for the
response of a real system. -/
theorem smooth_inside {E0 : ℝ} (h : 0 < E0) {border : ℝ → ℂ} (hb : border (-E0) = conj (border E0)) (chi : ℝ → ℂ) {E : ℝ} (hE : |E| ≤ E0) :
    smooth E0 border chi E = ⟨(border E0).re, E / E0 * (border E0).im⟩ := by
  unfold smooth
  rw [if_neg (not_lt.2 hE), interp_window h _ _ hE, interp_window h _ _ hE, hb]
  apply Complex.ext
  · simp
  · simp
    field_simp
    ring

theorem smooth_hermitian {E0 : ℝ} (h : 0 < E0) {border chi : ℝ → ℂ} (hb : border (-E0) = conj (border E0)) (hc : Hermitian chi) :
    Hermitian (smooth E0 border chi) := by
  intro E
  rcases lt_or_ge E0 |E| with hE | hE
  · unfold smooth
    rw [if_pos (by rwa [abs_neg]), if_pos hE]
    exact hc E
  · rw [smooth_inside h hb chi hE, smooth_inside h hb chi (by rwa [abs_neg])]
    apply Complex.ext
    · simp
    · simp
      ring

theorem chiOf_conj (s : State m) (p : Setup) (eps : ℂ) : chiOf u s p (conj eps) = conj (chiOf u s p eps) := by
  unfold chiOf
  rw [noninteractingFromEps_conj, xiLfc_conj]

theorem epsBMAFull_hermitian (b : BornArgs) (k : ℝ) {Es : List ℝ} {hi : ℝ} (hpos : 0 < hi) (hlo : Es.foldl min (Es.headD 0) = -hi)
    (hhi : Es.foldl max (Es.headD 0) = hi) : Hermitian (epsBMAFull u b k Es) := by
  intro x
  have hnu := fullNu_hermitian (nu := bornNu u (bornEpsRPA u b.mu b.T) b.V b.S b.Zf)
    (bornNu_hermitian u (fun q => epsRPANoDamping_hermitian u q b.mu b.T true) b.V b.S b.Zf) hpos hlo hhi
  simp only [epsBMAFull]
  rw [hnu x, dampedEnergy_reflect, epsDamped_reflect, neg_div]
  exact merminFull_reflect _ _ _ (epsRPANoDamping_static_real u k b.mu b.T true)

/-- C100: the susceptibility of every model is that of a real system, for all states, setups and energies; the window
around zero does not change this.  (For `BornMermin_Full` the array of energies has to extend equally far to both
sides.) -/
theorem susceptibility_hermitian (s : State m) (p : Setup) (hn : 0 < s.ne) {md : Model} (hmd : md.Valid) (Es : List ℝ)
    (hax : ∀ r, md = .bornMerminFull r → ∃ hi, 0 < hi ∧ Es.foldl min (Es.headD 0) = -hi ∧ Es.foldl max (Es.headD 0) = hi) :
    Hermitian fun E => susceptibility u s p Es E md := by
  have hpl : 0 < u.hbar * plasmaFrequency u s.ne := by
    have := u.hbar_pos; have := u.me_pos; have := u.e_pos; have := u.eps0_pos
    exact mul_pos u.hbar_pos (sqrt_pos.2 (by positivity))
  cases md with
  | salpeter =>
    intro E
    simp only [susceptibility]
    rw [epsSalpeter_hermitian u _ _ _ E, chiOf_conj]
  | rpa =>
    intro E
    simp only [susceptibility]
    rw [← chiOf_conj]
    exact congrArg _ (epsRPANoDamping_hermitian u _ _ _ _ E)
  | dandrea =>
    intro E
    simp only [susceptibility]
    rw [← xiLfc_conj]
    exact congrArg (fun z => xiLfc z _ _) (xiDandrea_hermitian u _ _ _ _ E)
  | bornMerminFull r =>
    obtain ⟨hi, h1, h2, h3⟩ := hax r rfl
    have h0 : 0 < 1 / 10000 * u.hbar * plasmaFrequency u s.ne := by nlinarith
    simp only [susceptibility]
    refine smooth_hermitian h0 ?_ fun E => ?_
    · rw [← chiOf_conj]
      congr 1
      refine epsBMAFull_hermitian u _ _ h0 ?_ ?_ _
      · simp only [List.headD_cons, List.foldl_cons, List.foldl_nil, min_self]
        exact min_eq_left (by linarith)
      · simp only [List.headD_cons, List.foldl_cons, List.foldl_nil, max_self]
        exact max_eq_right (by linarith)
    · rw [← chiOf_conj, epsBMAFull_hermitian u _ _ h1 h2 h3 E]
  | bornMermin o =>
    simp only [susceptibility]
    have hc : Hermitian fun y => chiOf u s p (epsBMAInterp u (bornArgs s o) (p.k u) y) := fun E => by
      simp only
      rw [← chiOf_conj, epsBMAInterp_hermitian u (bornArgs s o) hmd _ E]
    exact smooth_hermitian (by nlinarith) (hc _) hc
  | bornMerminFit o =>
    simp only [susceptibility]
    have hc : Hermitian fun y => chiOf u s p (epsBMAFit u danFits (bornArgs s o) (p.k u) y) := fun E => by
      simp only
      rw [← chiOf_conj, epsBMAFit_hermitian u danFits (bornArgs s o) hmd _ E]
    exact smooth_hermitian (by nlinarith) (hc _) hc
  | bornMerminFortmann o =>
    exact xiBMAFortmann_hermitian u danFits (bornArgs s o) hmd _ _

/-- C100: the static susceptibility is real. -/
theorem susceptibility_static_real (s : State m) (p : Setup) (hn : 0 < s.ne) {md : Model} (hmd : md.Valid) (Es : List ℝ)
    (hax : ∀ r, md = .bornMerminFull r → ∃ hi, 0 < hi ∧ Es.foldl min (Es.headD 0) = -hi ∧ Es.foldl max (Es.headD 0) = hi) :
    (susceptibility u s p Es 0 md).im = 0 := by
  have h := susceptibility_hermitian u s p hn hmd Es hax 0
  simp only [neg_zero] at h
  have := congrArg Complex.im h
  rw [Complex.conj_im] at this
  linarith

theorem chiOf_im {s : State m} {p : Setup} (hk : p.k u ≠ 0) {eps : ℂ} {E : ℝ} (h : 0 < eps.im * E) : (chiOf u s p eps).im * E < 0 := by
  have hV := vee_pos u hk
  have him := noninteractingFromEps_im u eps (p.k u)
  unfold chiOf
  rcases pos_and_pos_or_neg_and_neg_of_mul_pos h with ⟨h1, h2⟩ | ⟨h1, h2⟩
  · refine mul_neg_of_neg_of_pos (xiLfc_im_sign _ _ ?_) h2
    rw [him]
    exact div_neg_of_neg_of_pos (by linarith) hV
  · refine mul_neg_of_pos_of_neg (xiLfc_im_pos _ _ ?_) h2
    rw [him]
    exact div_pos (by linarith) hV

/-- C100: the window keeps the sign of the dissipation. -/
theorem smooth_im {E0 : ℝ} (h : 0 < E0) {border chi : ℝ → ℂ} (hb : border (-E0) = conj (border E0)) {E : ℝ} (hE : E ≠ 0)
    (h1 : (border E0).im < 0) (h2 : E0 < |E| → (chi E).im * E < 0) : (smooth E0 border chi E).im * E < 0 := by
  rcases lt_or_ge E0 |E| with hw | hw
  · unfold smooth
    rw [if_pos hw]
    exact h2 hw
  · rw [smooth_inside h hb chi hw]
    have : E / E0 * (border E0).im * E = E ^ 2 / E0 * (border E0).im := by ring
    rw [this]
    have : 0 < E ^ 2 := by positivity
    exact mul_neg_of_pos_of_neg (by positivity) h1

/-- C100: the plasma absorbs energy, at all energies, for the models without collisions. -/
theorem susceptibility_passive (s : State m) (p : Setup) (hk : 0 < p.k u) (hT : 0 < s.Te) (Es : List ℝ) {E : ℝ} (hE : E ≠ 0) :
    (susceptibility u s p Es E .rpa).im * E < 0 :=
  chiOf_im u hk.ne' (imagRPANoDamping_sign u s.mu hk hT hE)

/-- C100: also in the Born-Mermin approximation, inside and outside of the window, where the collisions damp. -/
theorem susceptibility_bornMermin_passive (s : State m) (p : Setup) (hk : 0 < p.k u) (hT : 0 < s.Te) (hn : 0 < s.ne) {o : Opts}
    (ho : (Model.bornMermin o).Valid) (Es : List ℝ) {E : ℝ} (hE : E ≠ 0)
    (hnu : ∀ y, 1 / 10000 * u.hbar * plasmaFrequency u s.ne ≤ |y| → 0 < (nuInterp u (bornArgs s o) y).re ∧
      (o.rewrite = true → y ≠ u.hbar * (nuInterp u (bornArgs s o) y).im)) :
    (susceptibility u s p Es E (.bornMermin o)).im * E < 0 := by
  have hpl : 0 < 1 / 10000 * u.hbar * plasmaFrequency u s.ne := by
    have := u.hbar_pos; have := u.me_pos; have := u.e_pos; have := u.eps0_pos
    have : 0 < plasmaFrequency u s.ne := sqrt_pos.2 (by positivity)
    positivity
  have key : ∀ y, y ≠ 0 → 1 / 10000 * u.hbar * plasmaFrequency u s.ne ≤ |y| →
      (chiOf u s p (epsBMAInterp u (bornArgs s o) (p.k u) y)).im * y < 0 := by
    intro y hy hle
    apply chiOf_im u hk.ne'
    simp only [epsBMAInterp, merminInterp_eq_merminFit]
    rw [epsRPANoDamping_static_sub]
    exact mermin_dissipative u (bornArgs s o).rewrite hk hT hy (bornArgs s o).mu (hnu y hle).1 (hnu y hle).2 le_rfl
  have hc : Hermitian fun y => chiOf u s p (epsBMAInterp u (bornArgs s o) (p.k u) y) := fun E => by
    simp only
    rw [← chiOf_conj, epsBMAInterp_hermitian u (bornArgs s o) ho _ E]
  simp only [susceptibility]
  refine smooth_im hpl (hc _) hE ?_ fun h => key E hE h.le
  have := key _ hpl.ne' (le_abs_self _)
  exact neg_of_mul_neg_left this hpl.le

/-- C100: spectrum and susceptibility belong together by the fluctuation dissipation theorem, in every channel with a
value, outside of the window around zero in the Born-Mermin approximation and without the correction of the wave
number. -/
theorem spectrum_of_susceptibility (s : State m) {p : Setup} (hp : p.correctK = false) {md : Model} {d y : ℝ} (hd : d ≠ 0)
    (hwin : 1 / 100 * u.hbar * plasmaFrequency u s.ne < |d|) (hy : see u s p (p.energy + d) md = some y) :
    y = s0eeSusceptibility u (p.k u) s.Te s.ne (-d)
      (susceptibility u s p (p.measured.map fun z => -(z - p.energy)) (-d) md) := by
  have e1 : p.energy + d - p.energy = d := by ring
  have hpl : 0 ≤ u.hbar * plasmaFrequency u s.ne := mul_nonneg u.hbar_pos.le (sqrt_nonneg _)
  have hw1 : 1 / 100 * u.hbar * plasmaFrequency u s.ne < |-d| := by rwa [abs_neg]
  have hw2 : 1 / 10000 * u.hbar * plasmaFrequency u s.ne < |-d| := by rw [abs_neg]; nlinarith
  cases md with
  | salpeter =>
    simp only [see, e1, kAt_const u hp, hd, false_or] at hy
    split_ifs at hy
    rw [← Option.some.inj hy, s0eeSalpeter_eq]
    rfl
  | rpa =>
    simp only [see, e1, kAt_const u hp, if_neg hd] at hy
    rw [← Option.some.inj hy]
    rfl
  | dandrea =>
    simp only [see, e1, kAt_const u hp, if_neg hd] at hy
    rw [← Option.some.inj hy]
    simp only [s0eeDandrea, susceptibility, vee_eq]
  | bornMerminFull r =>
    simp only [see, e1, kAt_const u hp, if_neg hd] at hy
    rw [← Option.some.inj hy]
    simp only [s0eeBMA, susceptibility, smooth, if_pos hw2, chiOf, vee_eq, List.map_map]
    rfl
  | bornMermin o =>
    simp only [see, e1, kAt_const u hp, if_neg hd] at hy
    rw [← Option.some.inj hy]
    simp only [s0eeBMAInterp, susceptibility, smooth, if_pos hw2, chiOf, vee_eq]
    rfl
  | bornMerminFit o =>
    simp only [see, e1, kAt_const u hp, if_neg hd] at hy
    rw [← Option.some.inj hy]
    simp only [s0eeBMAFit, susceptibility, smooth, if_pos hw1, chiOf, vee_eq]
    rfl
  | bornMerminFortmann o =>
    simp only [see, e1, kAt_const u hp, if_neg hd] at hy
    rw [← Option.some.inj hy]
    rfl

/-! ### Cases that meet the hypotheses -/

/-- Two species, four and one free electrons per ion. -/
noncomputable def exampleState : State 2 := ⟨![4, 1], ![1 / 3, 2 / 3], ![6, 1], 2, 1, 1, fun _ => 1, fun _ => -1, fun _ => 1 / 2⟩

/-- Three channels, one of them at the energy of the probe. -/
noncomputable def exampleSetup : Setup := ⟨π / 2, 10, [9, 10, 11], fun _ => 0, false, 0⟩

example : EvenAxis exampleSetup := by
  refine ⟨1, one_pos, ?_, ?_⟩ <;> norm_num [exampleSetup]

example : none ∈ evaluateRaw u exampleState exampleSetup .rpa :=
  no_value_at_probe u _ _ (by simp) (by norm_num [exampleState, Fin.sum_univ_two]) (by norm_num [exampleSetup])

example : exampleState.meanZfree / exampleState.meanZA = 3 / 4 := by
  norm_num [exampleState, State.meanZfree, State.meanZA, Fin.sum_univ_two]

example : ∃ y z, rawAt u exampleState exampleSetup .rpa 11 = some y ∧ rawAt u exampleState exampleSetup .rpa 9 = some z ∧
    y = exp (-1 / (u.kB * 1)) * z := by
  have h1 := value_elsewhere u exampleState exampleSetup .rpa (E := 11) (by norm_num [exampleSetup]) (by simp)
  have h2 := value_elsewhere u exampleState exampleSetup .rpa (E := 9) (by norm_num [exampleSetup]) (by simp)
  obtain ⟨y, hy⟩ := Option.isSome_iff_exists.1 h1
  obtain ⟨z, hz⟩ := Option.isSome_iff_exists.1 h2
  refine ⟨y, z, hy, hz, ?_⟩
  refine raw_balance_partial u exampleState (p := exampleSetup) rfl (by norm_num [exampleState]) (md := .rpa) trivial (by simp) (d := 1)
    one_ne_zero ?_ ?_
  · rw [← hy]; norm_num [exampleSetup]
  · rw [← hz]; norm_num [exampleSetup]

end Verif.FreeFree
