/-
Property C99: the ionization potential depression for all charge states.
-/
import Verif.Model.IpdStates
import Verif.Props.Ipd

set_option autoImplicit false

namespace Verif.Ipd

open Real Verif.Expt

variable (u : Consts) (mu : ℝ → ℝ → ℝ) {n : ℕ}

/-! ### Lists of stages -/

theorem stages_some {s : IpdState n} {entry : Fin n → ℕ → Option ℝ} {L : Fin n → List ℝ} (h : stages s entry = some L) :
    (∀ j q, q < s.Z j → (entry j q).isSome) ∧ (∀ j, (L j).length = s.Z j) ∧
      ∀ j q, q < s.Z j → some ((L j).getD q 0) = entry j q := by
  unfold stages at h
  split_ifs at h with hs
  have := Option.some.inj h
  subst this
  refine ⟨hs, fun j => by simp, fun j q hq => ?_⟩
  have h1 := hs j q hq
  rw [List.getD_eq_getElem _ _ (by simpa using hq)]
  simp only [List.getElem_map, List.getElem_range]
  cases he : entry j q with
  | none => rw [he] at h1; simp at h1
  | some x => rfl

theorem stages_defined (s : IpdState n) (f : Fin n → ℕ → ℝ) :
    stages s (fun j q => some (f j q)) = some fun j => (List.range (s.Z j)).map (f j) := by
  unfold stages
  rw [if_pos (by simp)]
  rfl

theorem stages_none {s : IpdState n} {entry : Fin n → ℕ → Option ℝ} {j : Fin n} {q : ℕ} (hq : q < s.Z j) (h : entry j q = none) :
    stages s entry = none := by
  unfold stages
  rw [if_neg]
  intro hs
  have := hs j q hq
  rw [h] at this
  simp at this

/-- The sum of the results of the members, entry by entry. -/
theorem foldl_zipWith_length (rest : List (List ℝ)) (out : List ℝ) (N : ℕ) (h0 : out.length = N) (h : ∀ r ∈ rest, r.length = N) :
    (rest.foldl (fun o r => List.zipWith (· + ·) o r) out).length = N ∧
      ∀ q, (rest.foldl (fun o r => List.zipWith (· + ·) o r) out).getD q 0 = out.getD q 0 + (rest.map fun r => r.getD q 0).sum := by
  induction rest generalizing out with
  | nil => simp [h0]
  | cons r rest ih =>
    have hr := h r List.mem_cons_self
    have hlen : (List.zipWith (· + ·) out r).length = N := by simp [h0, hr]
    obtain ⟨h1, h2⟩ := ih _ hlen fun r' hr' => h r' (List.mem_cons_of_mem _ hr')
    refine ⟨h1, fun q => ?_⟩
    rw [List.foldl_cons, h2, List.map_cons, List.sum_cons, ← add_assoc]
    congr 1
    rcases Nat.lt_or_ge q N with hq | hq
    · rw [List.getD_eq_getElem _ _ (by omega), List.getD_eq_getElem _ _ (by omega), List.getD_eq_getElem _ _ (by omega)]
      simp
    · rw [List.getD_eq_default _ _ (by omega), List.getD_eq_default _ _ (by omega), List.getD_eq_default _ _ (by omega)]
      simp

/-! ### Lengths -/

mutual

/-- C99: one list for each species, with an entry for each charge state from neutral to hydrogen-like. -/
theorem all_length (s : IpdState n) (pop : Option (List ℝ)) : ∀ (m : IpdModel n) {L : Fin n → List ℝ},
    m.all u mu s pop = some L → ∀ j, (L j).length = s.Z j
  | .neglect _, L, h => by rw [IpdModel.all] at h; exact (stages_some h).2.1
  | .constant _, L, h => by rw [IpdModel.all] at h; exact (stages_some h).2.1
  | .debyeHueckel _, L, h => by rw [IpdModel.all] at h; exact (stages_some h).2.1
  | .preston _ _, L, h => by rw [IpdModel.all] at h; exact (stages_some h).2.1
  | .stewartPyatt _, L, h => by rw [IpdModel.all] at h; exact (stages_some h).2.1
  | .ionSphere _, L, h => by rw [IpdModel.all] at h; exact (stages_some h).2.1
  | .eckerKroell _ _, L, h => by rw [IpdModel.all] at h; exact (stages_some h).2.1
  | .pauli, L, h => by rw [IpdModel.all] at h; exact (stages_some h).2.1
  | .sum l, L, h => by
    rw [IpdModel.all] at h
    intro j
    cases hl : IpdModel.allList u mu s pop l with
    | none => rw [hl] at h; simp at h
    | some Ls =>
      rw [hl] at h
      have hlen := allList_length s pop l hl
      cases Ls with
      | nil => simp at h
      | cons out rest =>
        have := Option.some.inj h
        subst this
        have := (foldl_zipWith_length (rest.map fun r => r j) (out j) (s.Z j) (hlen out List.mem_cons_self j) (by
          intro r hr
          obtain ⟨r', hr', rfl⟩ := List.mem_map.1 hr
          exact hlen r' (List.mem_cons_of_mem _ hr') j)).1
        rw [List.foldl_map] at this
        exact this

theorem allList_length (s : IpdState n) (pop : Option (List ℝ)) : ∀ (l : List (IpdModel n)) {Ls : List (Fin n → List ℝ)},
    IpdModel.allList u mu s pop l = some Ls → ∀ L ∈ Ls, ∀ j, (L j).length = s.Z j
  | [], Ls, h => by
    rw [IpdModel.allList] at h
    rw [← Option.some.inj h]
    simp
  | m :: l, Ls, h => by
    rw [IpdModel.allList] at h
    cases hm : m.all u mu s pop with
    | none => rw [hm] at h; simp at h
    | some v =>
      cases hl : IpdModel.allList u mu s pop l with
      | none => rw [hm, hl] at h; simp at h
      | some vs =>
        rw [hm, hl] at h
        rw [← Option.some.inj h]
        intro L hL j
        rcases List.mem_cons.1 hL with rfl | hL
        · exact all_length s pop m hm j
        · exact allList_length s pop l hl L hL j

end

/-! ### Sums -/

theorem allList_some (s : IpdState n) (pop : Option (List ℝ)) (l : List (IpdModel n)) (Ls : List (Fin n → List ℝ)) :
    IpdModel.allList u mu s pop l = some Ls ↔ List.Forall₂ (fun m L => m.all u mu s pop = some L) l Ls := by
  induction l generalizing Ls with
  | nil =>
    rw [IpdModel.allList, List.forall₂_nil_left_iff, Option.some.injEq]
    exact eq_comm
  | cons m l ih =>
    rw [IpdModel.allList, List.forall₂_cons_left_iff]
    constructor
    · intro h
      cases hm : m.all u mu s pop with
      | none => rw [hm] at h; simp at h
      | some v =>
        cases hl : IpdModel.allList u mu s pop l with
        | none => rw [hm, hl] at h; simp at h
        | some vs =>
          rw [hm, hl] at h
          exact ⟨v, vs, rfl, (ih vs).1 hl, (Option.some.inj h).symm⟩
    · rintro ⟨v, vs, hm, hl, rfl⟩
      rw [hm, (ih vs).2 hl]

/-- C99: the depressions of a sum are the sums of the depressions of its members, for every species and every charge
state; they exist if and only if there is a member and all members have them. -/
theorem sum_all (s : IpdState n) (pop : Option (List ℝ)) (l : List (IpdModel n)) (L : Fin n → List ℝ) :
    (IpdModel.sum l).all u mu s pop = some L ↔
      l ≠ [] ∧ ∃ Ls : List (Fin n → List ℝ), List.Forall₂ (fun m L => m.all u mu s pop = some L) l Ls ∧
        ∀ j, (L j).length = s.Z j ∧ ∀ q < s.Z j, (L j).getD q 0 = (Ls.map fun M => (M j).getD q 0).sum := by
  constructor
  · intro h
    have hlenL := all_length u mu s pop _ h
    rw [IpdModel.all] at h
    cases hl : IpdModel.allList u mu s pop l with
    | none => rw [hl] at h; simp at h
    | some Ls =>
      rw [hl] at h
      cases Ls with
      | nil => simp at h
      | cons out rest =>
        have hlen := allList_length u mu s pop l hl
        refine ⟨?_, out :: rest, (allList_some u mu s pop l _).1 hl, fun j => ⟨hlenL j, fun q hq => ?_⟩⟩
        · rintro rfl
          rw [IpdModel.allList] at hl
          simp at hl
        · have := Option.some.inj h
          subst this
          have := (foldl_zipWith_length (rest.map fun r => r j) (out j) (s.Z j) (hlen out List.mem_cons_self j) (by
            intro r hr
            obtain ⟨r', hr', rfl⟩ := List.mem_map.1 hr
            exact hlen r' (List.mem_cons_of_mem _ hr') j)).2 q
          rw [List.foldl_map, List.map_map] at this
          rw [List.map_cons, List.sum_cons]
          exact this
  · rintro ⟨hne, Ls, hf, hL⟩
    have hl := (allList_some u mu s pop l Ls).2 hf
    rw [IpdModel.all, hl]
    cases Ls with
    | nil =>
      cases l with
      | nil => exact absurd rfl hne
      | cons => cases hf
    | cons out rest =>
      have hlen := allList_length u mu s pop l hl
      simp only
      congr 1
      funext j
      obtain ⟨h1, h2⟩ := foldl_zipWith_length (rest.map fun r => r j) (out j) (s.Z j) (hlen out List.mem_cons_self j) (by
        intro r hr
        obtain ⟨r', hr', rfl⟩ := List.mem_map.1 hr
        exact hlen r' (List.mem_cons_of_mem _ hr') j)
      rw [List.foldl_map] at h1 h2
      refine List.ext_getElem (h1.trans (hL j).1.symm) fun q hq1 hq2 => ?_
      have hq : q < s.Z j := by rw [← (hL j).1]; exact hq2
      have e1 := h2 q
      have e2 := (hL j).2 q hq
      rw [List.getD_eq_getElem _ _ hq1] at e1
      rw [List.getD_eq_getElem _ _ hq2] at e2
      rw [e1, e2, List.map_map, List.map_cons, List.sum_cons]
      rfl

theorem add_at (a b : Val n) (j : Fin n) : (a.add b).at j = a.at j + b.at j := by
  cases a <;> cases b <;> rfl

/-- C99: `evaluate` of a sum is the sum as well. -/
theorem sum_evaluate (s : IpdState n) (l : List (IpdModel n)) {v : Val n} (h : (IpdModel.sum l).evaluate u mu s = some v) :
    ∃ vs : List (Val n), List.Forall₂ (fun m w => m.evaluate u mu s = some w) l vs ∧ ∀ j, v.at j = (vs.map fun w => w.at j).sum := by
  rw [IpdModel.evaluate] at h
  have key : ∀ (l : List (IpdModel n)) (out v : Val n), IpdModel.evaluateSum u mu s out l = some v →
      ∃ vs : List (Val n), List.Forall₂ (fun m w => m.evaluate u mu s = some w) l vs ∧
        ∀ j, v.at j = out.at j + (vs.map fun w => w.at j).sum := by
    intro l
    induction l with
    | nil =>
      intro out v h
      rw [IpdModel.evaluateSum] at h
      rw [← Option.some.inj h]
      exact ⟨[], List.Forall₂.nil, fun j => by simp⟩
    | cons m l ih =>
      intro out v h
      rw [IpdModel.evaluateSum] at h
      cases hm : m.evaluate u mu s with
      | none => rw [hm] at h; simp at h
      | some w =>
        rw [hm] at h
        obtain ⟨vs, h1, h2⟩ := ih _ _ h
        refine ⟨w :: vs, List.Forall₂.cons hm h1, fun j => ?_⟩
        rw [h2, add_at, List.map_cons, List.sum_cons, add_assoc]
  obtain ⟨vs, h1, h2⟩ := key l _ v h
  refine ⟨vs, h1, fun j => ?_⟩
  rw [h2]
  simp [Val.at]

/-! ### Agreement with `evaluate` -/

theorem getD_of_stages {s : IpdState n} {entry : Fin n → ℕ → Option ℝ} {L : Fin n → List ℝ} (h : stages s entry = some L)
    {j : Fin n} {q : ℕ} (hq : q < s.Z j) {x : ℝ} (hx : entry j q = some x) : (L j).getD q 0 = x := by
  have := (stages_some h).2.2 j q hq
  rw [hx] at this
  exact Option.some.inj this

mutual

/-- C99: for a species whose mean charge is the integer `q`, `evaluate` returns the entry of this charge state, for
every model and every sum of models for which both exist. -/
theorem all_agrees (s : IpdState n) {j : Fin n} {q : ℕ} (hq : q < s.Z j) (hz : s.Zfree j = q) : ∀ (m : IpdModel n) {v : Val n}
    {L : Fin n → List ℝ}, m.evaluate u mu s = some v → m.all u mu s none = some L → v.at j = (L j).getD q 0
  | .neglect key, v, L, hv, hL => by
    rw [IpdModel.evaluate] at hv
    rw [IpdModel.all] at hL
    split_ifs at hv
    rw [← Option.some.inj hv, getD_of_stages hL hq rfl]
    rfl
  | .constant w, v, L, hv, hL => by
    rw [IpdModel.evaluate] at hv
    rw [IpdModel.all] at hL
    rw [← Option.some.inj hv]
    cases w with
    | scalar x =>
      have := (stages_some hL).1 j q hq
      simp [Val.index] at this
    | array w => rw [getD_of_stages hL hq rfl]; rfl
  | .debyeHueckel arb, v, L, hv, hL => by
    rw [IpdModel.evaluate] at hv
    rw [IpdModel.all] at hL
    rw [← Option.some.inj hv, getD_of_stages hL hq rfl, ← hz]
    rfl
  | .preston arb c, v, L, hv, hL => by
    rw [IpdModel.evaluate] at hv
    rw [IpdModel.all] at hL
    rw [← Option.some.inj hv, getD_of_stages hL hq rfl, ← hz]
    rfl
  | .stewartPyatt arb, v, L, hv, hL => by
    rw [IpdModel.evaluate] at hv
    rw [IpdModel.all] at hL
    rw [← Option.some.inj hv, getD_of_stages hL hq rfl, ← hz]
    rfl
  | .ionSphere C, v, L, hv, hL => by
    rw [IpdModel.evaluate] at hv
    rw [IpdModel.all] at hL
    rw [← Option.some.inj hv, getD_of_stages hL hq rfl, ← hz]
    rfl
  | .eckerKroell arb C, v, L, hv, hL => by
    rw [IpdModel.all] at hL
    have := (stages_some hL).1 j q hq
    simp [eckerKroellCall] at this
  | .pauli, v, L, hv, hL => by
    rw [IpdModel.evaluate] at hv
    rw [IpdModel.all] at hL
    rw [← Option.some.inj hv, getD_of_stages hL hq rfl]
    rfl
  | .sum l, v, L, hv, hL => by
    obtain ⟨vs, h1, h2⟩ := sum_evaluate u mu s l hv
    obtain ⟨-, Ls, h3, h4⟩ := (sum_all u mu s none l L).1 hL
    rw [h2, (h4 j).2 q hq]
    rw [allList_agrees s hq hz l h1 h3]

theorem allList_agrees (s : IpdState n) {j : Fin n} {q : ℕ} (hq : q < s.Z j) (hz : s.Zfree j = q) : ∀ (l : List (IpdModel n))
    {vs : List (Val n)} {Ls : List (Fin n → List ℝ)}, List.Forall₂ (fun m w => m.evaluate u mu s = some w) l vs →
    List.Forall₂ (fun m L => m.all u mu s none = some L) l Ls → (vs.map fun w => w.at j) = Ls.map fun M => (M j).getD q 0
  | [], _, _, h1, h2 => by cases h1; cases h2; rfl
  | m :: l, _, _, h1, h2 => by
    cases h1 with
    | cons a1 a2 =>
      cases h2 with
      | cons b1 b2 =>
        rw [List.map_cons, List.map_cons, all_agrees s hq hz m a1 b1, allList_agrees s hq hz l a2 b2]

end

/-! ### Dependence on the charge state -/

/-- Specification: the depression grows with the charge state, for species `j`. -/
def GrowsWithCharge (s : IpdState n) (L : Fin n → List ℝ) (j : Fin n) : Prop :=
  ∀ q q', q < q' → q' < s.Z j → (L j).getD q' 0 < (L j).getD q 0 ∧ (L j).getD q 0 < 0

theorem clipZ_cast_lt {q q' : ℕ} (h : q < q') : clipZ (q : ℝ) < clipZ (q' : ℝ) := by
  unfold clipZ
  have h1 : (q : ℝ) + 1 ≤ q' := by exact_mod_cast h
  have h0 : (0 : ℝ) ≤ q := Nat.cast_nonneg q
  have h2 : max (q' : ℝ) (1 / 1000000) = q' := max_eq_left (by linarith)
  rw [h2]
  exact max_lt (by linarith) (by linarith)

/-- C99: Debye-Hückel. -/
theorem debyeHueckel_grows {s : IpdState n} {arb : Option (ℝ → ℝ → ℝ)} (hni : ∀ i, 0 ≤ s.ni i) {j : Fin n} (hT : 0 < s.Ti j)
    (he : 0 < kappaESq u arb s.ne s.Te) (pop : Option (List ℝ)) {L : Fin n → List ℝ}
    (hL : (IpdModel.debyeHueckel arb).all u mu s pop = some L) : GrowsWithCharge s L j := by
  intro q q' h hq'
  rw [IpdModel.all] at hL
  rw [getD_of_stages hL hq' rfl, getD_of_stages hL (h.trans hq') rfl]
  refine ⟨?_, debyeHueckel_neg u (Nat.cast_nonneg q) s.Zfree j hni hT he⟩
  have hk := kappaD_pos u s.Zfree hni hT he
  unfold debyeHueckel
  have h0 := u.e_pos
  have h1 := u.eps0_pos
  have hpi := pi_pos
  have h2 : (q : ℝ) < q' := by exact_mod_cast h
  refine mul_lt_mul_of_pos_left ?_ hk
  apply div_lt_div_of_pos_right _ (by positivity)
  apply mul_lt_mul_of_pos_right _ (by positivity)
  linarith

/-- C99: ion sphere. -/
theorem ionSphere_grows {s : IpdState n} (hn : 0 < s.ne) (pop : Option (List ℝ)) {L : Fin n → List ℝ}
    (hL : (IpdModel.ionSphere none).all u mu s pop = some L) (j : Fin n) : GrowsWithCharge s L j := by
  intro q q' h hq'
  rw [IpdModel.all] at hL
  rw [getD_of_stages hL hq' rfl, getD_of_stages hL (h.trans hq') rfl]
  refine ⟨?_, ionSphere_neg u _ s.Zfree hn j⟩
  unfold ionSphere
  simp only
  have h0 := u.e_pos
  have h1 := u.eps0_pos
  have hpi := pi_pos
  have h2 := clipZ_cast_lt h
  have h3 := clipZ_pos (s.Zfree j)
  have hR : 0 < (3 * clipZ (s.Zfree j) / (4 * π * s.ne)) ^ (1 / 3 : ℝ) := by positivity
  simp only [Option.getD_none]
  generalize (3 * clipZ (s.Zfree j) / (4 * π * s.ne)) ^ (1 / 3 : ℝ) = R at hR
  apply div_lt_div_of_pos_right _ (by positivity)
  apply neg_lt_neg
  have : 0 < u.e ^ 2 := by positivity
  nlinarith

/-- C99: Stewart-Pyatt. -/
theorem stewartPyatt_grows {s : IpdState n} {arb : Option (ℝ → ℝ → ℝ)} (hni : ∀ i, 0 ≤ s.ni i) (hN : 0 < ∑ i, s.ni i) {j : Fin n}
    (hT : 0 < s.Ti j) (he : 0 < kappaESq u arb s.ne s.Te) (pop : Option (List ℝ)) {L : Fin n → List ℝ}
    (hL : (IpdModel.stewartPyatt arb).all u mu s pop = some L) : GrowsWithCharge s L j := by
  intro q q' h hq'
  rw [IpdModel.all] at hL
  rw [getD_of_stages hL hq' rfl, getD_of_stages hL (h.trans hq') rfl]
  have hneg := stewartPyatt_neg u (q : ℝ) s.Zfree (Ti := s.Ti) j hni hN hT he
  refine ⟨?_, hneg⟩
  have h2 := clipZ_cast_lt h
  have h3 := clipZ_pos (q : ℝ)
  -- the depression is proportional to the charge plus one
  have e : stewartPyatt u arb (q' : ℝ) s.Zfree s.ni s.Ti s.ne s.Te j * (clipZ (q : ℝ) + 1) =
      stewartPyatt u arb (q : ℝ) s.Zfree s.ni s.Ti s.ne s.Te j * (clipZ (q' : ℝ) + 1) := by
    unfold stewartPyatt
    simp only
    ring
  nlinarith

/-- C99: Stewart-Pyatt in the form of Preston, with or without the correction of Crowley and for any populations with
a positive effective charge. -/
theorem preston_grows {s : IpdState n} {arb : Option (ℝ → ℝ → ℝ)} (hni : ∀ i, 0 ≤ s.ni i) {j : Fin n} (hT : 0 < s.Ti j)
    (he : 0 < kappaESq u arb s.ne s.Te) (crowley : Bool) (pop : Option (List ℝ)) (hp : 0 < (prestonZ pop s.ni s.ne).2)
    {L : Fin n → List ℝ} (hL : (IpdModel.preston arb crowley).all u mu s pop = some L) : GrowsWithCharge s L j := by
  intro q q' h hq'
  rw [IpdModel.all] at hL
  rw [getD_of_stages hL hq' rfl, getD_of_stages hL (h.trans hq') rfl]
  have hk := kappaD_pos u (prestonZ pop s.ni s.ne).1 hni hT he
  have hc : 0 < (prestonZ pop s.ni s.ne).2 + (if crowley then (0 : ℝ) else 1) := by split_ifs <;> linarith
  have h0 := u.e_pos
  have h1 := u.eps0_pos
  have h2 := u.kB_pos
  have hpi := pi_pos
  have hq0 : (0 : ℝ) ≤ q := Nat.cast_nonneg q
  have hqq : (q : ℝ) < q' := by exact_mod_cast h
  unfold preston
  simp only
  generalize kappaD u arb (prestonZ pop s.ni s.ne).1 s.ni s.ne s.Te (s.Ti j) = k at hk
  generalize (prestonZ pop s.ni s.ne).2 + (if crowley then (0 : ℝ) else 1) = c at hc
  generalize s.Ti j = T at hT
  have hden : 0 < 4 * u.eps0 * π * (1 / k) * u.kB * T := by positivity
  have hA : 0 < 3 * c * ((q : ℝ) + 1) * u.e ^ 2 / (4 * u.eps0 * π * (1 / k) * u.kB * T) := by positivity
  have hB : 3 * c * ((q : ℝ) + 1) * u.e ^ 2 / (4 * u.eps0 * π * (1 / k) * u.kB * T) <
      3 * c * ((q' : ℝ) + 1) * u.e ^ 2 / (4 * u.eps0 * π * (1 / k) * u.kB * T) := by
    apply div_lt_div_of_pos_right _ hden
    apply mul_lt_mul_of_pos_right _ (by positivity)
    apply mul_lt_mul_of_pos_left _ (by positivity)
    linarith
  generalize 3 * c * ((q : ℝ) + 1) * u.e ^ 2 / (4 * u.eps0 * π * (1 / k) * u.kB * T) = A at hA hB
  generalize 3 * c * ((q' : ℝ) + 1) * u.e ^ 2 / (4 * u.eps0 * π * (1 / k) * u.kB * T) = B at hB
  have hneg : -(1 * u.kB * T) / (2 * c) < 0 := by
    apply div_neg_of_neg_of_pos _ (by positivity)
    have : 0 < u.kB * T := by positivity
    linarith
  have hp1 : (1 : ℝ) < (1 + A) ^ (2 / 3 : ℝ) := one_lt_rpow (by linarith) (by norm_num)
  have hp2 : (1 + A) ^ (2 / 3 : ℝ) < (1 + B) ^ (2 / 3 : ℝ) := rpow_lt_rpow (by linarith) (by linarith) (by norm_num)
  exact ⟨mul_lt_mul_of_neg_left (by linarith) hneg, mul_neg_of_neg_of_pos hneg (by linarith)⟩

/-- C99 does not hold for Pauli blocking: every charge state has the value of the mean charge. -/
theorem pauli_flat (s : IpdState n) (pop : Option (List ℝ)) :
    (IpdModel.pauli : IpdModel n).all u mu s pop =
      some fun j => List.replicate (s.Z j) (pauliBlocking u (s.Zfree j) (mu s.Te s.ne) s.Te) := by
  rw [IpdModel.all, stages_defined]
  congr 1
  funext j
  rw [List.map_const', List.length_range]

/-- C99 does not hold for Ecker-Kröll: there is no result, for any plasma with an atom in it, although `evaluate` has
one. -/
theorem eckerKroell_raises (s : IpdState n) {j : Fin n} (hZ : 0 < s.Z j) (arb : Option (ℝ → ℝ → ℝ)) (C : Option ℝ) (pop : Option (List ℝ)) :
    (IpdModel.eckerKroell arb C).all u mu s pop = none ∧ ∃ v, (IpdModel.eckerKroell arb C).evaluate u mu s = some v := by
  rw [IpdModel.all, IpdModel.evaluate]
  exact ⟨stages_none hZ rfl, _, rfl⟩

/-- C99 does not hold for a constant without a shape, which `evaluate` returns. -/
theorem constant_raises (s : IpdState n) {j : Fin n} (hZ : 0 < s.Z j) (x : ℝ) (pop : Option (List ℝ)) :
    (IpdModel.constant (.scalar x)).all u mu s pop = none ∧ (IpdModel.constant (.scalar x)).evaluate u mu s = some (.scalar x) := by
  rw [IpdModel.all, IpdModel.evaluate]
  exact ⟨stages_none hZ rfl, rfl⟩

/-- C99 does not hold for `Neglect` as a member of a sum: the sum of the charge states exists, `evaluate` raises. -/
theorem neglect_in_sum (s : IpdState n) (l l' : List (IpdModel n)) :
    (IpdModel.sum (l ++ .neglect "" :: l')).evaluate u mu s = none := by
  rw [IpdModel.evaluate]
  have key : ∀ (l : List (IpdModel n)) (out : Val n), IpdModel.evaluateSum u mu s out (l ++ .neglect "" :: l') = none := by
    intro l
    induction l with
    | nil =>
      intro out
      rw [List.nil_append, IpdModel.evaluateSum, IpdModel.evaluate]
      simp
    | cons m l ih =>
      intro out
      rw [List.cons_append, IpdModel.evaluateSum]
      cases m.evaluate u mu s with
      | none => rfl
      | some v => exact ih _
  exact key l _

/-! ### A case that meets the hypotheses -/

/-- Carbon and hydrogen. -/
noncomputable def exampleIpd : IpdState 2 := ⟨![6, 1], ![4, 0], ![1, 2], ![3, 3], 4, 3⟩

example : ∃ L, (IpdModel.sum [.debyeHueckel none, .ionSphere none, .neglect ""]).all u mu exampleIpd none = some L ∧
    (L 0).length = 6 ∧ (L 1).length = 1 := by
  have h : ∃ L, (IpdModel.sum [.debyeHueckel none, .ionSphere none, .neglect ""]).all u mu exampleIpd none = some L := by
    simp only [IpdModel.all, IpdModel.allList, stages_defined]
    exact ⟨_, rfl⟩
  obtain ⟨L, hL⟩ := h
  exact ⟨L, hL, all_length u mu _ _ _ hL 0, all_length u mu _ _ _ hL 1⟩

example : ∃ L, (IpdModel.debyeHueckel none).all u mu exampleIpd none = some L ∧ GrowsWithCharge exampleIpd L 0 := by
  have h : ∃ L, (IpdModel.debyeHueckel none : IpdModel 2).all u mu exampleIpd none = some L := by
    simp only [IpdModel.all, stages_defined]
    exact ⟨_, rfl⟩
  obtain ⟨L, hL⟩ := h
  refine ⟨L, hL, debyeHueckel_grows u mu (fun i => ?_) (by norm_num [exampleIpd]) (kappaESq_pos u (by norm_num [exampleIpd]) (by norm_num [exampleIpd])) none hL⟩
  fin_cases i <;> norm_num [exampleIpd]

/-- Carbon with the mean charge four: the entry of this charge state is the value of `evaluate`. -/
example : ∃ v L, (IpdModel.sum [.stewartPyatt none, .ionSphere none]).evaluate u mu exampleIpd = some v ∧
    (IpdModel.sum [.stewartPyatt none, .ionSphere none]).all u mu exampleIpd none = some L ∧ v.at 0 = (L 0).getD 4 0 := by
  have h : ∃ L, (IpdModel.sum [.stewartPyatt none, .ionSphere none]).all u mu exampleIpd none = some L := by
    simp only [IpdModel.all, IpdModel.allList, stages_defined]
    exact ⟨_, rfl⟩
  have h' : ∃ v, (IpdModel.sum [.stewartPyatt none, .ionSphere none]).evaluate u mu exampleIpd = some v := by
    simp only [IpdModel.evaluate, IpdModel.evaluateSum]
    exact ⟨_, rfl⟩
  obtain ⟨L, hL⟩ := h
  obtain ⟨v, hv⟩ := h'
  exact ⟨v, L, hv, hL, all_agrees u mu exampleIpd (by norm_num [exampleIpd]) (by norm_num [exampleIpd]) _ hv hL⟩

end Verif.Ipd
