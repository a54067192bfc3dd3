/-
Properties C01, C02, C03, C04, C06, C47, C48 of the registry of models.

Histories are arbitrary lists of user operations; nothing is bounded.
-/
import Verif.Lemmas.Registry

set_option autoImplicit false

namespace Verif.Registry

/-! ### C01: only admissible models are ever stored -/

/-- C01.  After any history, whatever is stored under a key admits that key. -/
theorem stored_models_admissible (n : Nat) (ops : List Op) (k : Key) (r : Ref)
    (h : (run n ops).dict k = some r) : k ∈ allowedKeys ((run n ops).heap r).cls :=
  ((ready_run n ops).inv k r h).2

/-- C01.  In every reachable state an assignment raises exactly when the class of the model does
not admit the key; the exception is then a `KeyError` for this key (in particular the chain of
nested defaults never exhausts the call stack). -/
theorem assign_raises_iff (n : Nat) (ops : List Op) (k : Key) (r : Ref)
    (hr : r < (run n ops).next) (e : Err) :
    (∃ s', assign (run n ops) k r = .error (e, s')) ↔
      k ∉ allowedKeys ((run n ops).heap r).cls ∧ e = .key k := by
  constructor
  · rintro ⟨s', h⟩
    by_cases ha : k ∈ allowedKeys ((run n ops).heap r).cls
    · obtain ⟨s'', h', _⟩ := assign_ok (ready_run n ops).inv hr ha
      rw [h'] at h; cases h
    · rw [assign_not_allowed ha] at h
      cases h
      exact ⟨ha, rfl⟩
  · rintro ⟨ha, rfl⟩
    exact ⟨_, assign_not_allowed ha⟩

/-- C01.  A rejected assignment leaves the whole state as it was: the exception is raised before
anything is changed. -/
theorem rejected_assignment_changes_nothing (n : Nat) (ops : List Op) (k : Key) (r : Ref)
    (e : Err) (s' : State) (hr : r < (run n ops).next)
    (h : assign (run n ops) k r = .error (e, s')) : s' = run n ops := by
  have ha := ((assign_raises_iff n ops k r hr e).1 ⟨s', h⟩).1
  rw [assign_not_allowed ha] at h
  cases h
  rfl

/-- C01.  An accepted assignment stores exactly the given object under the given key. -/
theorem accepted_assignment_stores (n : Nat) (ops : List Op) (k : Key) (r : Ref) (s' : State)
    (hr : r < (run n ops).next) (h : assign (run n ops) k r = .ok s') :
    s'.dict k = some r ∧ (s'.heap r).cls = ((run n ops).heap r).cls := by
  by_cases ha : k ∈ allowedKeys ((run n ops).heap r).cls
  · obtain ⟨s'', h', d⟩ := assign_ok (ready_run n ops).inv hr ha
    rw [h'] at h; cases h
    exact ⟨d.here, (d.ext.obj r hr).1⟩
  · rw [assign_not_allowed ha] at h; cases h

/-- The hypotheses of the theorems above are met by a history with nested defaults: setting
`BornMermin` on a one-ion state also stores a structure factor model, an ionic model and a
potential. -/
example :
    let s := run 1 [.new .BornMermin .off [] [], .set .freeFree 3]
    (s.dict .freeFree = some 3 ∧ (s.dict .bmSii).isSome ∧ (s.dict .ionic).isSome ∧
      (s.dict .iiPot).isSome ∧ s.next = 11) := by decide

/-- ... and a rejected assignment exists: an IPD model as ionic scattering. -/
example : 3 < (run 1 [.new .ConstantIPD .off [] []]).next ∧
    Key.ionic ∉ allowedKeys ((run 1 [.new .ConstantIPD .off [] []]).heap 3).cls := by decide

/-! ### C02: keys are never lost -/

/-- C02.  A key that is filled after some history is filled after every longer history. -/
theorem keys_never_lost (n : Nat) (ops more : List Op) (k : Key)
    (h : ((run n ops).dict k).isSome) : ((run n (ops ++ more)).dict k).isSome := by
  have r := ready_run n ops
  have e := (inv_closed_foldl more r.inv r.closed).2.2
  have : run n (ops ++ more) = more.foldl step (run n ops) := by simp [run]
  rw [this]
  exact e.keys k h

/-- C02.  The slots filled by the constructor answer after every history. -/
theorem constructor_keys_present (n : Nat) (ops : List Op) :
    ((run n ops).dict .screeningLength).isSome ∧ ((run n ops).dict .eeLfc).isSome ∧
      ((run n ops).dict .freeBound).isSome := by
  have r := (ready_run n ops).init
  exact ⟨r _ (by decide), r _ (by decide), r _ (by decide)⟩

/-- C02.  The class and the constructor arguments of an object never change. -/
theorem objects_keep_class_and_parameters (n : Nat) (ops more : List Op) (r : Ref)
    (h : r < (run n ops).next) :
    ((run n (ops ++ more)).heap r).cls = ((run n ops).heap r).cls ∧
    ((run n (ops ++ more)).heap r).stat = ((run n ops).heap r).stat ∧
    ((run n (ops ++ more)).heap r).dyn = ((run n ops).heap r).dyn := by
  have rd := ready_run n ops
  have e := (inv_closed_foldl more rd.inv rd.closed).2.2
  have : run n (ops ++ more) = more.foldl step (run n ops) := by simp [run]
  rw [this]
  exact e.obj r h

example : ((run 2 [.new .RPA .off [] [], .set .freeFree 3]).dict .chemPot).isSome := by decide

/-! ### C03: everything a model reads at evaluation time is present -/

/-- C03.  After any history, evaluating any filled slot never raises `KeyError`, and the chain of
models that evaluate each other is never circular (seven levels of the call stack suffice). -/
theorem evaluation_never_misses_a_model (n : Nat) (ops : List Op) (k : Key) (depth : Nat)
    (hk : ((run n ops).dict k).isSome) (hd : 7 ≤ depth) :
    (∀ k', evalKey (run n ops) depth k .eval ≠ .error (.key k')) ∧
      evalKey (run n ops) depth k .eval ≠ .error .recursion := by
  obtain ⟨r, hr⟩ := Option.isSome_iff_exists.1 hk
  have key : ∀ e, evalKey (run n ops) depth k .eval = .error e → ∃ k', e = .attr k' := by
    intro e he
    obtain ⟨k', _, h, _⟩ := evalKey_error (ready_run n ops) depth k .eval r
      (lt_of_le_of_lt (evalRank_le _ _) hd) hr rfl e he
    exact ⟨k', h⟩
  constructor
  · intro k' h
    obtain ⟨_, h'⟩ := key _ h
    cases h'
  · intro h
    obtain ⟨_, h'⟩ := key _ h
    cases h'

/-- C03.  Evaluating a filled slot succeeds, as far as the registry is concerned, unless the user
chose `Neglect` for the ionic or the free-free scattering. -/
theorem evaluation_succeeds_without_neglect (n : Nat) (ops : List Op) (k : Key) (depth : Nat)
    (hk : ((run n ops).dict k).isSome) (hd : 7 ≤ depth)
    (hion : slotCls (run n ops) .ionic ≠ some .Neglect)
    (hff : slotCls (run n ops) .freeFree ≠ some .Neglect) :
    evalKey (run n ops) depth k .eval = .ok () := by
  obtain ⟨r, hr⟩ := Option.isSome_iff_exists.1 hk
  cases h : evalKey (run n ops) depth k .eval with
  | ok u => rfl
  | error e =>
    obtain ⟨k', r', _, h1, h2, h3⟩ := evalKey_error (ready_run n ops) depth k .eval r
      (lt_of_le_of_lt (evalRank_le _ _) hd) hr rfl e h
    rcases h3 with rfl | rfl
    · exact absurd (by simp [slotCls, h1, h2]) hion
    · exact absurd (by simp [slotCls, h1, h2]) hff

/-- A history that meets all hypotheses, with a chain of nested evaluations
(ionic → screening → free-free → BM S_ii → ...). -/
example :
    let s := run 1 [.new .BornMermin .off [] [], .new .LinearResponseScreening .off [] [],
      .set .screening 4, .set .freeFree 3]
    (s.dict .ionic).isSome ∧ slotCls s .screening = some .LinearResponseScreening ∧
    slotCls s .freeFree = some .BornMermin ∧ slotCls s .ionic ≠ some .Neglect ∧
    slotCls s .freeFree ≠ some .Neglect := by decide

/-! ### C48: a state with all four contributions set can be probed -/

/-- C48 (the part that holds).  If the three slots that the constructor leaves empty have been
filled, and neither the ionic nor the free-free scattering is neglected, `probe` finds every model
and every method it needs. -/
theorem probe_succeeds_partial (n : Nat) (ops : List Op)
    (hi : (slotCls (run n ops) .ionic).isSome) (hf : (slotCls (run n ops) .freeFree).isSome)
    (hb : (slotCls (run n ops) .boundFree).isSome)
    (hion : slotCls (run n ops) .ionic ≠ some .Neglect)
    (hff : slotCls (run n ops) .freeFree ≠ some .Neglect) : probe (run n ops) = .ok () := by
  have ok : ∀ k, ((run n ops).dict k).isSome →
      evalKey (run n ops) stackDepth k .eval = .ok () := fun k hk =>
    evaluation_succeeds_without_neglect n ops k stackDepth hk (by decide) hion hff
  simp only [slotCls, Option.isSome_map] at hi hf hb
  simp [probe, evalAll, ok _ hi, ok _ hf, ok _ hb, ok _ (constructor_keys_present n ops).2.2]

example :
    let s := run 2 [.new .RPA .off [] [], .set .freeFree 3, .new .SchumacherImpulse .off [] [],
      .set .boundFree 5, .new .ArkhipovIonFeat .off [] [], .set .ionic 9]
    (slotCls s .ionic).isSome ∧ (slotCls s .freeFree).isSome ∧ (slotCls s .boundFree).isSome ∧
    slotCls s .ionic ≠ some .Neglect ∧ slotCls s .freeFree ≠ some .Neglect := by decide

/-- C48 is false in general.  Neglecting the ionic scattering and choosing `BornMermin` for the
free-free scattering of a one-ion plasma gives a state on which every slot is filled but `probe`
raises `AttributeError`: `BornMermin` selects `Sum_Sii`, which asks the ionic model for `S_ii`,
and `Neglect` has none. -/
theorem probe_can_fail :
    ∃ (n : Nat) (ops : List Op), (slotCls (run n ops) .ionic).isSome ∧
      (slotCls (run n ops) .freeFree).isSome ∧ (slotCls (run n ops) .boundFree).isSome ∧
      probe (run n ops) = .error (.attr .ionic) :=
  ⟨1, [.new .Neglect .off [] [], .set .ionic 3, .new .Neglect .off [] [], .set .boundFree 4,
    .new .BornMermin .off [] [], .set .freeFree 5], by decide⟩

/-- C48.  The same happens with the free-free scattering: neglecting it after
`LinearResponseScreening` was chosen removes the susceptibility that the screening needs. -/
theorem probe_can_fail_free_free :
    ∃ (n : Nat) (ops : List Op), (slotCls (run n ops) .ionic).isSome ∧
      (slotCls (run n ops) .freeFree).isSome ∧ (slotCls (run n ops) .boundFree).isSome ∧
      probe (run n ops) = .error (.attr .freeFree) :=
  ⟨1, [.new .LinearResponseScreening .off [] [], .set .screening 3,
    .new .ArkhipovIonFeat .off [] [], .set .ionic 6, .new .Neglect .off [] [], .set .boundFree 8,
    .new .Neglect .off [] [], .set .freeFree 9], by decide⟩

/-! ### C04: setting a model never replaces another choice -/

/-- C04 (the part that holds).  An accepted assignment keeps every other filled slot as it was,
unless the assigned model is a `LinearResponseScreening`, which replaces the free-free model. -/
theorem assignment_keeps_other_slots_partial (n : Nat) (ops : List Op) (k : Key) (r : Ref)
    (s' : State) (hr : r < (run n ops).next) (h : assign (run n ops) k r = .ok s')
    (k' : Key) (r' : Ref) (hne : k' ≠ k) (hk' : (run n ops).dict k' = some r')
    (hcls : ((run n ops).heap r).cls = .LinearResponseScreening → k' ≠ .freeFree) :
    s'.dict k' = some r' := by
  by_cases ha : k ∈ allowedKeys ((run n ops).heap r).cls
  · obtain ⟨s'', h', d⟩ := assign_ok (ready_run n ops).inv hr ha
    rw [h'] at h; cases h
    exact d.kept k' r' hne hcls hk'
  · rw [assign_not_allowed ha] at h; cases h

/-- C04.  What happens to the objects: an accepted assignment changes no class and no parameter of
any existing object, no `model_key` but that of the assigned object, and `include_electrons` at
most of objects stored as potentials. -/
theorem assignment_keeps_objects (n : Nat) (ops : List Op) (k : Key) (r : Ref) (s' : State)
    (hr : r < (run n ops).next) (h : assign (run n ops) k r = .ok s') (r' : Ref)
    (hr' : r' < (run n ops).next) (hne : r' ≠ r)
    (hpot : ∀ p ∈ [Key.iiPot, .eiPot, .eePot], (run n ops).dict p ≠ some r') :
    s'.heap r' = (run n ops).heap r' := by
  by_cases ha : k ∈ allowedKeys ((run n ops).heap r).cls
  · obtain ⟨s'', h', d⟩ := assign_ok (ready_run n ops).inv hr ha
    rw [h'] at h; cases h
    obtain ⟨h1, h2, h3⟩ := d.ext.obj r' hr'
    have h4 := d.other_mkey r' hr' hne
    have h5 : (s'.heap r').inc = ((run n ops).heap r').inc := by
      rcases d.inc r' hr' with h5 | ⟨p, hp, hd⟩
      · exact h5
      · exact absurd hd (hpot p hp)
    cases hx : s'.heap r'
    cases hy : (run n ops).heap r'
    simp_all
  · rw [assign_not_allowed ha] at h; cases h

example :
    let s := run 2 [.new .RPA .off [] [], .set .freeFree 3,
      .new .LinearResponseScreeningGericke2010 .off [] []]
    5 < s.next ∧ (s.heap 5).cls ≠ .LinearResponseScreening ∧ s.dict .freeFree = some 3 ∧
      (assign s .screening 5).isOk = true := by decide

/-- C04 is false in general: assigning a `LinearResponseScreening` under "screening" silently
replaces the free-free model that the user had chosen. -/
theorem assignment_can_replace_other_slot :
    ∃ (n : Nat) (ops : List Op) (k k' : Key) (r : Ref) (s' : State), k' ≠ k ∧
      assign (run n ops) k r = .ok s' ∧ slotCls (run n ops) k' = some .RPA ∧
      slotCls s' k' = some .RPA_DandreaFit := by
  refine ⟨1, [.new .RPA .off [] [], .set .freeFree 3, .new .LinearResponseScreening .off [] []],
    .screening, .freeFree, 5, _, by decide, rfl, by decide, by decide⟩

/-! ### C06: one object under two keys -/

/-- C06 (the part that holds).  Assigning a *different* object never changes what a `Neglect`
object evaluates to. -/
theorem distinct_objects_keep_role_partial (n : Nat) (ops : List Op) (k : Key) (r r' : Ref)
    (hr : r < (run n ops).next) (hr' : r' < (run n ops).next) (hne : r' ≠ r) (s' : State)
    (h : assign (run n ops) k r = .ok s') :
    (s'.heap r').modelKey = ((run n ops).heap r').modelKey ∧
    neglectShape (s'.heap r') = neglectShape ((run n ops).heap r') := by
  by_cases ha : k ∈ allowedKeys ((run n ops).heap r).cls
  · obtain ⟨s'', h', d⟩ := assign_ok (ready_run n ops).inv hr ha
    rw [h'] at h; cases h
    have := d.other_mkey r' hr' hne
    exact ⟨this, by simp [neglectShape, this]⟩
  · rw [assign_not_allowed ha] at h; cases h

example : 3 < (run 1 [.new .Neglect .off [] [], .new .Neglect .off [] [], .set .ionic 3]).next ∧
    4 < (run 1 [.new .Neglect .off [] [], .new .Neglect .off [] [], .set .ionic 3]).next ∧
    (assign (run 1 [.new .Neglect .off [] [], .new .Neglect .off [] [], .set .ionic 3])
      .ipd 4).isOk = true := by decide

/-- C06 is false: one `Neglect` object used for the free-free scattering and then also as "ipd"
stays stored under both keys, but under "free-free scattering" it now returns one energy per ion
instead of a spectrum. -/
theorem shared_object_loses_role :
    ∃ (n : Nat) (ops : List Op) (r : Ref) (s' : State),
      (run n ops).dict .freeFree = some r ∧ neglectShape ((run n ops).heap r) = .spectrum ∧
      assign (run n ops) .ipd r = .ok s' ∧
      s'.dict .freeFree = some r ∧ neglectShape (s'.heap r) = .perIon :=
  ⟨1, [.new .Neglect .off [] [], .set .freeFree 3], 3, _, by decide, by decide, rfl, by decide,
    by decide⟩

/-! ### C47: the order of assignments -/

/-- C47 (the part that holds).  Two assignments of different objects under different keys commute
completely (same slots, same objects, same electron treatment), provided every model they want as
a default is already chosen, neither is `LinearResponseScreening`, the second model does not
touch potentials, and the first does not touch the potential that the second one replaces. -/
theorem assignments_commute_partial (n : Nat) (ops : List Op) (k₁ k₂ : Key) (r₁ r₂ : Ref)
    (hk : k₁ ≠ k₂) (hr : r₁ ≠ r₂)
    (h₁ : r₁ < (run n ops).next) (h₂ : r₂ < (run n ops).next)
    (a₁ : k₁ ∈ allowedKeys ((run n ops).heap r₁).cls)
    (a₂ : k₂ ∈ allowedKeys ((run n ops).heap r₂).cls)
    (c₁ : ((run n ops).heap r₁).cls ≠ .LinearResponseScreening)
    (c₂ : ((run n ops).heap r₂).cls ≠ .LinearResponseScreening)
    (d₁ : ∀ k ∈ actKeys (prepareActs n ((run n ops).heap r₁).cls), ((run n ops).dict k).isSome)
    (d₂ : ∀ k ∈ actKeys (prepareActs n ((run n ops).heap r₂).cls), ((run n ops).dict k).isSome)
    (q₂ : incKeys (prepareActs n ((run n ops).heap r₂).cls) = [])
    (q₁ : k₂ ∉ incKeys (prepareActs n ((run n ops).heap r₁).cls)) :
    ∃ s₁ s₂ s, assign (run n ops) k₁ r₁ = .ok s₁ ∧ assign s₁ k₂ r₂ = .ok s ∧
      assign (run n ops) k₂ r₂ = .ok s₂ ∧ assign s₂ k₁ r₁ = .ok s :=
  commute (run_nIons n ops) (ready_run n ops).inv hk hr h₁ h₂ a₁ a₂ c₁ c₂ d₁ d₂ q₂ q₁

example :
    let s := run 1 [.new .PaulingFormFactors .off [] [], .set .formFactors 3,
      .new .Gregori2004Screening .off [] [], .set .screening 4,
      .new .KelbgPotential .spinAveraged [] [], .set .iiPot 5,
      .new .SommerfeldChemPotential .off [] [], .set .chemPot 6,
      .new .OnePotentialHNCIonFeat .off [] [], .new .RPA .off [] []]
    7 < s.next ∧ 8 < s.next ∧ Key.ionic ∈ allowedKeys (s.heap 7).cls ∧
    Key.freeFree ∈ allowedKeys (s.heap 8).cls ∧
    (∀ k ∈ actKeys (prepareActs 1 (s.heap 7).cls), (s.dict k).isSome) ∧
    (∀ k ∈ actKeys (prepareActs 1 (s.heap 8).cls), (s.dict k).isSome) ∧
    incKeys (prepareActs 1 (s.heap 8).cls) = [] ∧
    Key.freeFree ∉ incKeys (prepareActs 1 (s.heap 7).cls) := by decide

/-- C47 is false in general: with every slot chosen explicitly beforehand, assigning
`ThreePotentialHNCIonFeat` and `AverageAtom_Sii` in the two possible orders ends with the same
objects in all slots, but the ion-ion potential includes the electrons in one case only. -/
theorem assignment_order_matters :
    ∃ (n : Nat) (pre : List Op) (a b : Op),
      (∀ k, (run n (pre ++ [a, b])).dict k = (run n (pre ++ [b, a])).dict k) ∧
      slotInc (run n (pre ++ [a, b])) .iiPot = some .off ∧
      slotInc (run n (pre ++ [b, a])) .iiPot = some .spinAveraged := by
  refine ⟨1, [.new .PaulingFormFactors .off [] [], .set .formFactors 3,
    .new .CoulombPotential .off [] [], .set .iiPot 4,
    .new .CoulombPotential .off [] [], .set .eiPot 5,
    .new .KelbgPotential .off [] [], .set .eePot 6,
    .new .FixedSii .off [] [], .new .Gregori2004Screening .off [] [], .set .screening 8,
    .set .ionic 7,
    .new .ThreePotentialHNCIonFeat .off [] [], .new .AverageAtom_Sii .off [] []],
    .set .ionic 9, .set .bmSii 10, ?_, by decide, by decide⟩
  intro k
  cases k <;> first | decide | rfl

theorem runActs_append (set : State → Key → Ref → Except (Err × State) State) (l : List Act) : ∀ (acts : List Act) (s s' : State),
    runActs set s (acts ++ l) = .ok s' → ∃ s1, runActs set s acts = .ok s1 ∧ runActs set s1 l = .ok s' := by
  intro acts
  induction acts with
  | nil => intro s s' h; exact ⟨s, rfl, h⟩
  | cons a acts ih =>
    intro s s' h
    cases a with
    | default k c =>
      simp only [List.cons_append, runActs] at h ⊢
      cases hd : s.dict k with
      | some _ => rw [hd] at h; exact ih _ _ h
      | none =>
        rw [hd] at h
        simp only at h ⊢
        cases hs : set (alloc s { cls := c }) k s.next with
        | ok s2 => rw [hs] at h; exact ih _ _ h
        | error e => rw [hs] at h; cases h
    | force k c =>
      simp only [List.cons_append, runActs] at h ⊢
      cases hs : set (alloc s { cls := c }) k s.next with
      | ok s2 => rw [hs] at h; exact ih _ _ h
      | error e => rw [hs] at h; cases h
    | setInc k v =>
      simp only [List.cons_append, runActs] at h ⊢
      cases hd : s.dict k with
      | some _ => rw [hd] at h; exact ih _ _ h
      | none => rw [hd] at h; cases h

/-- A setting of `include_electrons` survives later settings to the same value and the storing of a model
under another key. -/
theorem slotInc_setInclude {s : State} {k : Key} {v : Inc} (p : Ref) (h : slotInc s k = some v) :
    slotInc (setInclude s p v) k = some v := by
  unfold slotInc setInclude at *
  cases hd : s.dict k with
  | none => rw [hd] at h; cases h
  | some q =>
    rw [hd] at h
    simp only [Option.map_some, Option.some.injEq] at h ⊢
    by_cases hq : q = p
    · subst hq; simp
    · simp [Function.update_of_ne hq, h]

theorem slotInc_here {s : State} {k : Key} {p : Ref} (v : Inc) (h : s.dict k = some p) :
    slotInc (setInclude s p v) k = some v := by
  simp [slotInc, setInclude, h]

theorem slotInc_store {s : State} {k k' : Key} (r : Ref) (hk : k ≠ k') : slotInc (store s k' r) k = slotInc s k := by
  unfold slotInc store
  simp only [Function.update_of_ne hk]
  cases hd : s.dict k with
  | none => rfl
  | some q =>
    simp only [Option.map_some, Option.some.injEq]
    by_cases hq : q = r
    · subst hq; simp
    · simp [Function.update_of_ne hq]

/-- C47: after an accepted assignment of one of the models which work with pair potentials, the potentials
treat the electrons as this model needs it, whatever was set before: the scheme with one potential excludes
the electrons, the scheme with three potentials and the screening models include them. -/
theorem electron_treatment (s s' : State) (k : Key) (r : Ref) (h : assign s k r = .ok s') :
    ((s.heap r).cls = .OnePotentialHNCIonFeat → slotInc s' .iiPot = some .off) ∧
    ((s.heap r).cls = .ThreePotentialHNCIonFeat → slotInc s' .iiPot = some .spinAveraged ∧
      slotInc s' .eiPot = some .spinAveraged ∧ slotInc s' .eePot = some .spinAveraged) ∧
    ((s.heap r).cls = .LinearResponseScreeningGericke2010 ∨ (s.heap r).cls = .FiniteWavelengthScreening →
      slotInc s' .eiPot = some .spinAveraged) := by
  have key : k ∈ allowedKeys (s.heap r).cls ∧ ∃ s1, runActs (setItem 99) s (prepareActs s.nIons (s.heap r).cls) = .ok s1 ∧
      s' = store s1 k r := by
    unfold assign stackDepth at h
    rw [show (100 : Nat) = 99 + 1 from rfl, setItem] at h
    split_ifs at h with hk
    refine ⟨hk, ?_⟩
    cases hr : runActs (setItem 99) s (prepareActs s.nIons (s.heap r).cls) with
    | ok s1 => rw [hr] at h; cases h; exact ⟨s1, rfl, rfl⟩
    | error e => rw [hr] at h; cases h
  obtain ⟨hk, s1, h1, rfl⟩ := key
  -- one statement at the end
  have last : ∀ (acts : List Act) (k' : Key) (v : Inc), runActs (setItem 99) s (acts ++ [.setInc k' v]) = .ok s1 →
      slotInc s1 k' = some v := by
    intro acts k' v hh
    obtain ⟨s2, -, h2⟩ := runActs_append _ _ _ _ _ hh
    simp only [runActs] at h2
    cases hd : s2.dict k' with
    | none => rw [hd] at h2; cases h2
    | some q => rw [hd] at h2; cases h2; exact slotInc_here v hd
  refine ⟨fun hc => ?_, fun hc => ?_, fun hc => ?_⟩
  · rw [hc] at h1 hk
    have hne : Key.iiPot ≠ k := by rintro rfl; simp [allowedKeys] at hk
    rw [slotInc_store r hne]
    exact last [.default .formFactors .PaulingFormFactors, .default .screening .Gregori2004Screening,
       .default .iiPot .DebyeHueckelPotential] _ _ h1
  · rw [hc] at h1 hk
    have hne : Key.iiPot ≠ k ∧ Key.eiPot ≠ k ∧ Key.eePot ≠ k := by
      refine ⟨?_, ?_, ?_⟩ <;> (rintro rfl; simp [allowedKeys] at hk)
    rw [slotInc_store r hne.1, slotInc_store r hne.2.1, slotInc_store r hne.2.2]
    obtain ⟨s2, -, h2⟩ := runActs_append _ [.setInc .iiPot .spinAveraged, .setInc .eiPot .spinAveraged,
       .setInc .eePot .spinAveraged] [.default .formFactors .PaulingFormFactors, .default .iiPot .CoulombPotential,
       .default .eiPot .CoulombPotential, .default .eePot .KelbgPotential] _ _ h1
    simp only [runActs] at h2
    cases hd : s2.dict .iiPot with
    | none => rw [hd] at h2; cases h2
    | some a =>
      rw [hd] at h2
      simp only at h2
      have ha := slotInc_here Inc.spinAveraged hd
      cases hd2 : (setInclude s2 a .spinAveraged).dict .eiPot with
      | none => rw [hd2] at h2; cases h2
      | some b =>
        rw [hd2] at h2
        simp only at h2
        have hb := slotInc_here Inc.spinAveraged hd2
        cases hd3 : (setInclude (setInclude s2 a .spinAveraged) b .spinAveraged).dict .eePot with
        | none => rw [hd3] at h2; cases h2
        | some c =>
          rw [hd3] at h2
          cases h2
          exact ⟨slotInc_setInclude c (slotInc_setInclude b ha), slotInc_setInclude c hb, slotInc_here _ hd3⟩
  · have hne : Key.eiPot ≠ k := by
      rintro rfl
      rcases hc with hc | hc <;> · rw [hc] at hk; simp [allowedKeys] at hk
    rw [slotInc_store r hne]
    rcases hc with hc | hc <;>
    · rw [hc] at h1
      exact last [.default .eiPot .CoulombPotential] _ _ h1

/-- A potential with electrons, used by the scheme with one potential. -/
example : slotInc (run 1 [.new .CoulombPotential .spinAveraged [] [], .set .iiPot 3,
    .new .OnePotentialHNCIonFeat .off [] []]) .iiPot = some .spinAveraged ∧
    slotInc (run 1 [.new .CoulombPotential .spinAveraged [] [], .set .iiPot 3,
    .new .OnePotentialHNCIonFeat .off [] [], .set .ionic 4]) .iiPot = some .off := by decide

end Verif.Registry
