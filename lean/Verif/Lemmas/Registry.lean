/- Helper lemmas about the registry model. -/
import Verif.Model.Registry
import Mathlib.Tactic.Linarith

set_option autoImplicit false

namespace Verif.Registry

/-- Nesting depth of the defaults that a class pulls in. -/
def prepRank : Cls → Nat
  | .BornMermin_Full | .BornMermin | .BornMermin_Fit | .BornMermin_Fortmann => 4
  | .Sum_Sii | .AverageAtom_Sii => 3
  | .DetailedBalance => 2
  | .ArkhipovIonFeat | .Gregori2003IonFeat | .Gregori2006IonFeat | .CHSIonFeat | .FixedSii
  | .OnePotentialHNCIonFeat | .ThreePotentialHNCIonFeat | .PeakCollection
  | .DebyeWallerSolid => 2
  | .SchumacherImpulse | .SchumacherImpulseColdEdges | .SchumacherImpulseFitRk => 1
  | .RPA | .FormFactorLowering | .LinearResponseScreeningGericke2010 | .GregoriCHSScreening
  | .FiniteWavelengthScreening | .LinearResponseScreening => 1
  | _ => 0

/-- Statements that are fine to run for a class of rank `R` once `present` is set. -/
def wfActs (R : Nat) : List Key → List Act → Bool
  | _, [] => true
  | present, .default k c :: rest =>
      decide (prepRank c < R) && decide (k ∈ allowedKeys c) &&
        decide (c ≠ .LinearResponseScreening) && wfActs R (k :: present) rest
  | present, .force k c :: rest =>
      decide (prepRank c < R) && decide (k ∈ allowedKeys c) &&
        decide (c ≠ .LinearResponseScreening) && decide (k = .freeFree) &&
        wfActs R (k :: present) rest
  | present, .setInc k _ :: rest =>
      decide (k ∈ present) && decide (k ∈ [Key.iiPot, .eiPot, .eePot]) && wfActs R present rest

def hasForce : List Act → Bool
  | [] => false
  | .force _ _ :: _ => true
  | _ :: rest => hasForce rest

theorem wf_prepare (n : Nat) (c : Cls) : wfActs (prepRank c) [] (prepareActs n c) = true := by
  by_cases h : n = 1 <;> cases c <;> simp only [prepareActs, h, if_true, if_false] <;> decide

theorem hasForce_prepare (n : Nat) (c : Cls) :
    hasForce (prepareActs n c) = true → c = .LinearResponseScreening := by
  by_cases h : n = 1 <;> cases c <;> simp only [prepareActs, h, if_true, if_false] <;> decide

theorem prepRank_le (c : Cls) : prepRank c ≤ 4 := by cases c <;> decide

/-- Every stored address was handed out, and its class admits the key. -/
def Inv (s : State) : Prop :=
  ∀ k r, s.dict k = some r → r < s.next ∧ k ∈ allowedKeys (s.heap r).cls

/-- `s'` arises from `s` without losing keys or changing what old objects are. -/
structure Ext (s s' : State) : Prop where
  nIons : s'.nIons = s.nIons
  next : s.next ≤ s'.next
  obj : ∀ r, r < s.next → (s'.heap r).cls = (s.heap r).cls ∧ (s'.heap r).stat = (s.heap r).stat ∧
    (s'.heap r).dyn = (s.heap r).dyn
  keys : ∀ k, (s.dict k).isSome → (s'.dict k).isSome

theorem Ext.refl (s : State) : Ext s s := ⟨rfl, le_refl _, fun _ _ => ⟨rfl, rfl, rfl⟩, fun _ h => h⟩

theorem Ext.trans {a b c : State} (h : Ext a b) (g : Ext b c) : Ext a c where
  nIons := g.nIons.trans h.nIons
  next := h.next.trans g.next
  obj r hr := by
    have h1 := h.obj r hr
    have h2 := g.obj r (lt_of_lt_of_le hr h.next)
    exact ⟨h2.1.trans h1.1, h2.2.1.trans h1.2.1, h2.2.2.trans h1.2.2⟩
  keys k hk := g.keys k (h.keys k hk)

theorem ext_alloc (s : State) (o : Obj) : Ext s (alloc s o) where
  nIons := rfl
  next := Nat.le_succ _
  obj r hr := by
    have : r ≠ s.next := Nat.ne_of_lt hr
    simp [alloc, Function.update, this]
  keys _ h := h

theorem inv_alloc {s : State} (h : Inv s) (o : Obj) : Inv (alloc s o) := by
  intro k r hk
  have := h k r hk
  refine ⟨Nat.lt_succ_of_lt this.1, ?_⟩
  have hr : r ≠ s.next := Nat.ne_of_lt this.1
  simpa [alloc, Function.update, hr] using this.2

theorem inv_setInclude {s : State} (h : Inv s) (r : Ref) (v : Inc) : Inv (setInclude s r v) := by
  intro k r' hk
  have := h k r' hk
  refine ⟨this.1, ?_⟩
  by_cases e : r' = r
  · subst e; simpa [setInclude] using this.2
  · simpa [setInclude, Function.update, e] using this.2

theorem ext_setInclude (s : State) (r : Ref) (v : Inc) : Ext s (setInclude s r v) where
  nIons := rfl
  next := le_refl _
  obj r' _ := by
    by_cases e : r' = r
    · subst e; simp [setInclude]
    · simp [setInclude, Function.update, e]
  keys _ h := h

theorem inv_store {s : State} (h : Inv s) {k : Key} {r : Ref} (hr : r < s.next)
    (ha : k ∈ allowedKeys (s.heap r).cls) : Inv (store s k r) := by
  intro k' r' hk
  have cls_eq : ∀ x, ((store s k r).heap x).cls = (s.heap x).cls := by
    intro x
    by_cases e : x = r
    · subst e; simp [store]
    · simp [store, Function.update, e]
  rw [cls_eq]
  by_cases e : k' = k
  · subst e
    simp [store] at hk
    subst hk
    exact ⟨hr, ha⟩
  · have : s.dict k' = some r' := by simpa [store, Function.update, e] using hk
    exact h k' r' this

theorem ext_store (s : State) (k : Key) (r : Ref) : Ext s (store s k r) where
  nIons := rfl
  next := le_refl _
  obj x _ := by
    by_cases e : x = r
    · subst e; simp [store]
    · simp [store, Function.update, e]
  keys k' h := by
    by_cases e : k' = k
    · subst e; simp [store]
    · simpa [store, Function.update, e] using h

/-- Keys that `PlasmaState.__init__` sets. -/
def initKeys : List Key := [.screeningLength, .eeLfc, .freeBound]

/-- Everything a stored model reads is stored, or is set by `__init__`. -/
def Closed (s : State) : Prop :=
  ∀ k r, s.dict k = some r → ∀ m, ∀ q ∈ reads (s.heap r).cls m,
    (s.dict q.1).isSome ∨ q.1 ∈ initKeys

/-- Everything a class reads is set by its `prepare` or by `__init__`. -/
theorem reads_prepared (n : Nat) (c : Cls) (m : Method) :
    ∀ q ∈ reads c m, q.1 ∈ actKeys (prepareActs n c) ∨ q.1 ∈ initKeys := by
  by_cases h : n = 1 <;> cases c <;> cases m <;>
    simp only [prepareActs, h, if_true, if_false] <;> decide

/-- What a successful assignment establishes. -/
structure Done (s : State) (k : Key) (r : Ref) (s' : State) : Prop where
  inv : Inv s'
  ext : Ext s s'
  here : s'.dict k = some r
  mkey : (s'.heap r).modelKey = some k
  other_mkey : ∀ r', r' < s.next → r' ≠ r → (s'.heap r').modelKey = (s.heap r').modelKey
  kept : ∀ k' r', k' ≠ k → ((s.heap r).cls = .LinearResponseScreening → k' ≠ .freeFree) →
    s.dict k' = some r' → s'.dict k' = some r'
  defaults : ∀ k' ∈ actKeys (prepareActs s.nIons (s.heap r).cls), (s'.dict k').isSome
  inc : ∀ r', r' < s.next → (s'.heap r').inc = (s.heap r').inc ∨
    ∃ k' ∈ [Key.iiPot, .eiPot, .eePot], s.dict k' = some r'
  old : ∀ k' r', r' < s.next → s'.dict k' = some r' → s.dict k' = some r' ∨ (k' = k ∧ r' = r)
  closed : Closed s → Closed s'

/-- What running statements establishes. -/
structure Ran (s : State) (force : Bool) (acts : List Act) (s' : State) : Prop where
  inv : Inv s'
  ext : Ext s s'
  other_mkey : ∀ r', r' < s.next → (s'.heap r').modelKey = (s.heap r').modelKey
  kept : ∀ k' r', (force = true → k' ≠ .freeFree) → s.dict k' = some r' → s'.dict k' = some r'
  defaults : ∀ k' ∈ actKeys acts, (s'.dict k').isSome
  inc : ∀ r', r' < s.next → (s'.heap r').inc = (s.heap r').inc ∨
    ∃ k' ∈ [Key.iiPot, .eiPot, .eePot], s.dict k' = some r'
  old : ∀ k' r', r' < s.next → s'.dict k' = some r' → s.dict k' = some r'
  closed : Closed s → Closed s'

theorem closed_alloc {s : State} (hi : Inv s) (h : Closed s) (o : Obj) : Closed (alloc s o) := by
  intro k r hk m q hq
  have hr : r ≠ s.next := Nat.ne_of_lt (hi k r hk).1
  exact h k r hk m q (by simpa [alloc, Function.update, hr] using hq)

theorem closed_setInclude {s : State} (h : Closed s) (r : Ref) (v : Inc) :
    Closed (setInclude s r v) := by
  intro k r' hk m q hq
  refine h k r' hk m q ?_
  by_cases e : r' = r
  · subst e; simpa [setInclude] using hq
  · simpa [setInclude, Function.update, e] using hq

theorem runActs_ok (set : State → Key → Ref → Except (Err × State) State) (R : Nat)
    (hset : ∀ s k r, Inv s → r < s.next → prepRank (s.heap r).cls < R →
      k ∈ allowedKeys (s.heap r).cls → ∃ s', set s k r = .ok s' ∧ Done s k r s') :
    ∀ (acts : List Act) (s : State) (present : List Key), Inv s →
      (∀ k ∈ present, (s.dict k).isSome) → wfActs R present acts = true →
      ∃ s', runActs set s acts = .ok s' ∧ Ran s (hasForce acts) acts s' := by
  intro acts
  induction acts with
  | nil =>
    intro s present hi _ _
    exact ⟨s, rfl, hi, Ext.refl s, fun _ _ => rfl, fun _ _ _ h => h, by simp [actKeys],
      fun _ _ => Or.inl rfl, fun _ _ _ h => h, id⟩
  | cons a rest ih =>
    intro s present hi hp hw
    -- the nested assignment of a fresh object
    have fresh : ∀ (k : Key) (c : Cls), prepRank c < R → k ∈ allowedKeys c →
        c ≠ .LinearResponseScreening →
        ∃ s1, set (alloc s { cls := c }) k s.next = .ok s1 ∧ Inv s1 ∧ Ext s s1 ∧
          (s1.dict k).isSome ∧
          (∀ r', r' < s.next → (s1.heap r').modelKey = (s.heap r').modelKey) ∧
          (∀ k' r', k' ≠ k → s.dict k' = some r' → s1.dict k' = some r') ∧
          (∀ r', r' < s.next → (s1.heap r').inc = (s.heap r').inc ∨
            ∃ k' ∈ [Key.iiPot, .eiPot, .eePot], s.dict k' = some r') ∧
          (∀ k' r', r' < s.next → s1.dict k' = some r' → s.dict k' = some r') ∧
          (Closed s → Closed s1) := by
      intro k c hr ha hl
      have hc : ((alloc s { cls := c }).heap s.next).cls = c := by simp [alloc]
      obtain ⟨s1, h1, d⟩ := hset (alloc s { cls := c }) k s.next (inv_alloc hi _)
        (Nat.lt_succ_self _) (by rw [hc]; exact hr) (by rw [hc]; exact ha)
      refine ⟨s1, h1, d.inv, (ext_alloc s _).trans d.ext, by rw [d.here]; rfl, ?_, ?_, ?_, ?_,
        fun h => d.closed (closed_alloc hi h _)⟩
      · intro r' hr'
        have hne : r' ≠ s.next := Nat.ne_of_lt hr'
        have := d.other_mkey r' (Nat.lt_succ_of_lt hr') hne
        rw [this]
        simp [alloc, Function.update, hne]
      · intro k' r' hk hd
        exact d.kept k' r' hk (fun h => absurd (hc ▸ h) hl) hd
      · intro r' hr'
        have hne : r' ≠ s.next := Nat.ne_of_lt hr'
        rcases d.inc r' (Nat.lt_succ_of_lt hr') with h | h
        · left; rw [h]; simp [alloc, Function.update, hne]
        · right; exact h
      · intro k' r' hr' hd
        rcases d.old k' r' (Nat.lt_succ_of_lt hr') hd with h | h
        · exact h
        · exact absurd h.2 (Nat.ne_of_lt hr')
    -- a nested assignment followed by the rest
    have nested : ∀ (k : Key) (c : Cls) (force : Bool), prepRank c < R → k ∈ allowedKeys c →
        c ≠ .LinearResponseScreening → wfActs R (k :: present) rest = true →
        (s.dict k = none ∨ (force = true ∧ k = .freeFree)) →
        (hasForce rest = true → force = true) →
        ∃ s1 s', set (alloc s { cls := c }) k s.next = .ok s1 ∧ runActs set s1 rest = .ok s' ∧
          Ran s force (.default k c :: rest) s' := by
      intro k c force hr ha hl hrest hd hfo
      obtain ⟨s1, h1, i1, e1, p1, m1, k1, c1, o1, cl1⟩ := fresh k c hr ha hl
      obtain ⟨s', h, d⟩ := ih s1 (k :: present) i1
        (by intro x hx; rcases List.mem_cons.1 hx with rfl | hx
            · exact p1
            · exact e1.keys _ (hp x hx)) hrest
      refine ⟨s1, s', h1, h, d.inv, e1.trans d.ext, ?_, ?_, ?_, ?_, ?_, fun x => d.closed (cl1 x)⟩
      · intro r' hr'
        rw [d.other_mkey r' (lt_of_lt_of_le hr' e1.next), m1 r' hr']
      · intro k' r' hf hk'
        have hne : k' ≠ k := by
          rintro rfl
          rcases hd with hd | ⟨hd, he⟩
          · rw [hd] at hk'; cases hk'
          · exact hf hd he
        exact d.kept k' r' (fun x => hf (hfo x)) (k1 k' r' hne hk')
      · intro k' hk'
        rcases List.mem_cons.1 hk' with rfl | hk'
        · exact d.ext.keys _ p1
        · exact d.defaults _ hk'
      · intro r' hr'
        rcases d.inc r' (lt_of_lt_of_le hr' e1.next) with h2 | ⟨k', hk', hd'⟩
        · rw [h2]; exact c1 r' hr'
        · exact Or.inr ⟨k', hk', o1 k' r' hr' hd'⟩
      · intro k' r' hr' hk'
        exact o1 k' r' hr' (d.old k' r' (lt_of_lt_of_le hr' e1.next) hk')
    cases a with
    | default k c =>
      simp only [wfActs, Bool.and_eq_true, decide_eq_true_eq] at hw
      obtain ⟨⟨⟨hr, ha⟩, hl⟩, hrest⟩ := hw
      cases hd : s.dict k with
      | some r0 =>
        obtain ⟨s', h, d⟩ := ih s (k :: present) hi
          (by intro x hx; rcases List.mem_cons.1 hx with rfl | hx
              · rw [hd]; rfl
              · exact hp x hx) hrest
        refine ⟨s', by simp [runActs, hd, h], d.inv, d.ext, d.other_mkey, d.kept, ?_, d.inc,
          d.old, d.closed⟩
        intro k' hk'
        rcases List.mem_cons.1 hk' with rfl | hk'
        · exact d.ext.keys _ (by rw [hd]; rfl)
        · exact d.defaults _ hk'
      | none =>
        obtain ⟨s1, s', h1, h, d⟩ := nested k c (hasForce rest) hr ha hl hrest (Or.inl hd) id
        exact ⟨s', by simp [runActs, hd, h1, h], d⟩
    | force k c =>
      simp only [wfActs, Bool.and_eq_true, decide_eq_true_eq] at hw
      obtain ⟨⟨⟨⟨hr, ha⟩, hl⟩, hk⟩, hrest⟩ := hw
      obtain ⟨s1, s', h1, h, d⟩ := nested k c true hr ha hl hrest (Or.inr ⟨rfl, hk⟩) (fun _ => rfl)
      exact ⟨s', by simp [runActs, h1, h], d.inv, d.ext, d.other_mkey, d.kept, d.defaults, d.inc,
        d.old, d.closed⟩
    | setInc k v =>
      simp only [wfActs, Bool.and_eq_true, decide_eq_true_eq] at hw
      obtain ⟨⟨hk, hpot⟩, hrest⟩ := hw
      obtain ⟨r, hr⟩ := Option.isSome_iff_exists.1 (hp k hk)
      obtain ⟨s', h, d⟩ := ih (setInclude s r v) present (inv_setInclude hi r v) hp hrest
      refine ⟨s', by simp [runActs, hr, h], d.inv, (ext_setInclude s r v).trans d.ext, ?_, d.kept,
        d.defaults, ?_, d.old, fun x => d.closed (closed_setInclude x r v)⟩
      · intro r' hr'
        rw [d.other_mkey r' hr']
        by_cases e : r' = r
        · subst e; simp [setInclude]
        · simp [setInclude, Function.update, e]
      · intro r' hr'
        by_cases e : r' = r
        · subst e; exact Or.inr ⟨k, hpot, hr⟩
        · rcases d.inc r' hr' with h | h
          · left; rw [h]; simp [setInclude, Function.update, e]
          · exact Or.inr h

theorem setItem_ok : ∀ (R : Nat) (depth : Nat) (s : State) (k : Key) (r : Ref), R < depth →
    Inv s → r < s.next → prepRank (s.heap r).cls ≤ R → k ∈ allowedKeys (s.heap r).cls →
    ∃ s', setItem depth s k r = .ok s' ∧ Done s k r s' := by
  intro R
  induction R using Nat.strong_induction_on with
  | _ R ih =>
    intro depth s k r hd hi hr hrank ha
    obtain ⟨depth, rfl⟩ : ∃ d, depth = d + 1 := ⟨depth - 1, by omega⟩
    have hset : ∀ s' k' r', Inv s' → r' < s'.next →
        prepRank (s'.heap r').cls < prepRank (s.heap r).cls →
        k' ∈ allowedKeys (s'.heap r').cls →
        ∃ s'', setItem depth s' k' r' = .ok s'' ∧ Done s' k' r' s'' := by
      intro s' k' r' hi' hr' hlt ha'
      exact ih (prepRank (s'.heap r').cls) (by omega) depth s' k' r' (by omega) hi' hr' le_rfl ha'
    obtain ⟨s1, h1, d⟩ := runActs_ok (setItem depth) _ hset
      (prepareActs s.nIons (s.heap r).cls) s [] hi (by simp) (wf_prepare _ _)
    have hr1 : r < s1.next := lt_of_lt_of_le hr d.ext.next
    have ha1 : k ∈ allowedKeys (s1.heap r).cls := by rw [(d.ext.obj r hr).1]; exact ha
    refine ⟨store s1 k r, by simp [setItem, ha, h1], inv_store d.inv hr1 ha1,
      d.ext.trans (ext_store s1 k r), by simp [store], by simp [store], ?_, ?_, ?_, ?_, ?_, ?_⟩
    · intro r' hr' hne
      rw [← d.other_mkey r' hr']
      simp [store, Function.update, hne]
    · intro k' r' hk' hf hd'
      have : s1.dict k' = some r' := d.kept k' r' (fun h => hf (hasForce_prepare _ _ h)) hd'
      simpa [store, Function.update, hk'] using this
    · intro k' hk'
      exact (ext_store s1 k r).keys k' (d.defaults k' hk')
    · intro r' hr'
      have e : ((store s1 k r).heap r').inc = (s1.heap r').inc := by
        by_cases e : r' = r
        · subst e; simp [store]
        · simp [store, Function.update, e]
      rw [e]; exact d.inc r' hr'
    · intro k' r' hr' hk'
      by_cases e : k' = k
      · subst e
        right
        simp [store] at hk'
        exact ⟨rfl, hk'.symm⟩
      · left
        exact d.old k' r' hr' (by simpa [store, Function.update, e] using hk')
    · intro hc k' r' hk' m q hq
      have hc1 := d.closed hc
      have cls_eq : ((store s1 k r).heap r').cls = (s1.heap r').cls := by
        by_cases e : r' = r
        · subst e; simp [store]
        · simp [store, Function.update, e]
      rw [cls_eq] at hq
      by_cases e : k' = k
      · subst e
        simp [store] at hk'
        subst hk'
        rw [(d.ext.obj r hr).1] at hq
        rcases reads_prepared s.nIons (s.heap r).cls m q hq with h | h
        · left; exact (ext_store s1 k' r).keys _ (d.defaults _ h)
        · exact Or.inr h
      · rcases hc1 k' r' (by simpa [store, Function.update, e] using hk') m q hq with h | h
        · left; exact (ext_store s1 k r).keys _ h
        · exact Or.inr h

theorem assign_ok {s : State} (hi : Inv s) {k : Key} {r : Ref} (hr : r < s.next)
    (ha : k ∈ allowedKeys (s.heap r).cls) : ∃ s', assign s k r = .ok s' ∧ Done s k r s' :=
  setItem_ok 4 stackDepth s k r (by decide) hi hr (prepRank_le _) ha

theorem assign_not_allowed {s : State} {k : Key} {r : Ref}
    (ha : k ∉ allowedKeys (s.heap r).cls) : assign s k r = .error (.key k, s) := by
  simp [assign, stackDepth, setItem, ha]

/-- Height of an entry point in the call graph of evaluations. -/
def evalRank : Key → Method → Nat
  | .iiPot, _ | .eiPot, _ | .eePot, _ | .bmV, _ | .formFactors, _ => 1
  | .ionic, .eval => 6
  | .ionic, _ => 2
  | .bmSii, _ => 3
  | .freeFree, _ => 4
  | .screening, _ => 5
  | .boundFree, _ => 5
  | .freeBound, _ => 6
  | _, _ => 0

theorem evalRank_lt (c : Cls) (m : Method) :
    ∀ k ∈ allowedKeys c, ∀ q ∈ reads c m, evalRank q.1 q.2 < evalRank k m := by
  cases c <;> cases m <;> decide

theorem evalRank_le (k : Key) (m : Method) : evalRank k m ≤ 6 := by
  cases k <;> cases m <;> simp [evalRank]

/-- Reads only call entry points that exist on every admissible class except `Neglect`. -/
theorem reads_method (c : Cls) (m : Method) (c' : Cls) :
    ∀ q ∈ reads c m, q.1 ∈ allowedKeys c' → hasMethod c' q.2 = true ∨
      (c' = .Neglect ∧ (q = (.ionic, .sii) ∨ q = (.freeFree, .susc))) := by
  have h1 : ∀ q ∈ reads c m, q.2 = .eval ∨ q = (.ionic, .sii) ∨ q = (.freeFree, .susc) := by
    cases c <;> cases m <;> decide
  intro q hq ha
  rcases h1 q hq with h | h | h
  · left; rw [h]; rfl
  · subst h; revert ha; cases c' <;> decide
  · subst h; revert ha; cases c' <;> decide

/-- A state as it is between two user operations. -/
structure Ready (s : State) : Prop where
  inv : Inv s
  closed : Closed s
  init : ∀ k ∈ initKeys, (s.dict k).isSome

theorem inv_closed_step {s : State} (hi : Inv s) (hc : Closed s) (o : Op) :
    Inv (step s o) ∧ Closed (step s o) ∧ Ext s (step s o) := by
  cases o with
  | new c inc stat dyn => exact ⟨inv_alloc hi _, closed_alloc hi hc _, ext_alloc s _⟩
  | setInc r v =>
    by_cases h : r < s.next
    · simp only [step, h, if_true]
      exact ⟨inv_setInclude hi r v, closed_setInclude hc r v, ext_setInclude s r v⟩
    · simp only [step, h, if_false]; exact ⟨hi, hc, Ext.refl s⟩
  | set k r =>
    by_cases h : r < s.next
    · by_cases ha : k ∈ allowedKeys (s.heap r).cls
      · obtain ⟨s', h', d⟩ := assign_ok hi h ha
        simp only [step, h, if_true, h']
        exact ⟨d.inv, d.closed hc, d.ext⟩
      · simp only [step, h, if_true, assign_not_allowed ha]
        exact ⟨hi, hc, Ext.refl s⟩
    · simp only [step, h, if_false]; exact ⟨hi, hc, Ext.refl s⟩

theorem inv_closed_foldl (ops : List Op) : ∀ {s : State}, Inv s → Closed s →
    Inv (ops.foldl step s) ∧ Closed (ops.foldl step s) ∧ Ext s (ops.foldl step s) := by
  induction ops with
  | nil => intro s hi hc; exact ⟨hi, hc, Ext.refl s⟩
  | cons o ops ih =>
    intro s hi hc
    obtain ⟨i1, c1, e1⟩ := inv_closed_step hi hc o
    obtain ⟨i2, c2, e2⟩ := ih i1 c1
    exact ⟨i2, c2, e1.trans e2⟩

theorem inv_bare (n : Nat) : Inv (bare n) := by intro k r h; simp [bare] at h

theorem closed_bare (n : Nat) : Closed (bare n) := by intro k r h; simp [bare] at h

theorem ready_init (n : Nat) : Ready (init n) where
  inv := (inv_closed_foldl _ (inv_bare n) (closed_bare n)).1
  closed := (inv_closed_foldl _ (inv_bare n) (closed_bare n)).2.1
  init := by
    intro k hk
    simp only [initKeys, List.mem_cons, List.not_mem_nil, or_false] at hk
    rcases hk with rfl | rfl | rfl <;> rfl

theorem ready_run (n : Nat) (ops : List Op) : Ready (run n ops) := by
  have r := ready_init n
  obtain ⟨i, c, e⟩ := inv_closed_foldl ops r.inv r.closed
  exact ⟨i, c, fun k hk => e.keys k (r.init k hk)⟩

theorem Ready.reads {s : State} (h : Ready s) {k : Key} {r : Ref} (hk : s.dict k = some r)
    (m : Method) : ∀ q ∈ reads (s.heap r).cls m, (s.dict q.1).isSome := by
  intro q hq
  rcases h.closed k r hk m q hq with h1 | h1
  · exact h1
  · exact h.init _ h1

theorem evalAll_error {ev : Key → Method → Except Err Unit} {e : Err} :
    ∀ {l : List (Key × Method)}, evalAll ev l = .error e → ∃ q ∈ l, ev q.1 q.2 = .error e := by
  intro l
  induction l with
  | nil => intro h; cases h
  | cons q l ih =>
    intro h
    obtain ⟨k, m⟩ := q
    simp only [evalAll] at h
    cases hev : ev k m with
    | ok u => 
      rw [hev] at h
      obtain ⟨q, hq, he⟩ := ih h
      exact ⟨q, List.mem_cons_of_mem _ hq, he⟩
    | error e' =>
      rw [hev] at h
      cases h
      exact ⟨(k, m), List.mem_cons_self, hev⟩

/-- The only registry error an evaluation can end in is a missing method of `Neglect`. -/
theorem evalKey_error {s : State} (h : Ready s) : ∀ (depth : Nat) (k : Key) (m : Method) (r : Ref),
    evalRank k m < depth → s.dict k = some r → hasMethod (s.heap r).cls m = true →
    ∀ e, evalKey s depth k m = .error e → ∃ k' r', e = .attr k' ∧ s.dict k' = some r' ∧
      (s.heap r').cls = .Neglect ∧ (k' = .ionic ∨ k' = .freeFree) := by
  intro depth
  induction depth with
  | zero => intro k m r hd; omega
  | succ depth ih =>
    intro k m r hd hk hm e he
    simp only [evalKey, hk, hm, if_true] at he
    obtain ⟨q, hq, he⟩ := evalAll_error he
    obtain ⟨r', hr'⟩ := Option.isSome_iff_exists.1 (h.reads hk m q hq)
    have hlt := evalRank_lt _ m k (h.inv k r hk).2 q hq
    rcases reads_method _ m (s.heap r').cls q hq (h.inv _ _ hr').2 with hm' | ⟨hN, hq'⟩
    · exact ih q.1 q.2 r' (by omega) hr' hm' e he
    · obtain ⟨depth, rfl⟩ : ∃ d, depth = d + 1 := ⟨depth - 1, by omega⟩
      have : hasMethod (s.heap r').cls q.2 = false := by
        rw [hN]; rcases hq' with rfl | rfl <;> rfl
      simp only [evalKey, hr', this] at he
      cases he
      exact ⟨q.1, r', rfl, hr', hN, by rcases hq' with rfl | rfl <;> simp⟩

/-- Effect of statements whose defaults are all present. -/
def incs (s : State) : List Act → State
  | [] => s
  | .setInc k v :: rest =>
      match s.dict k with
      | some r => incs (setInclude s r v) rest
      | none => incs s rest
  | _ :: rest => incs s rest

theorem runActs_quiet (set : State → Key → Ref → Except (Err × State) State) (R : Nat) :
    ∀ (acts : List Act) (s : State) (present : List Key), hasForce acts = false →
      (∀ k ∈ actKeys acts, (s.dict k).isSome) → (∀ k ∈ present, (s.dict k).isSome) →
      wfActs R present acts = true → runActs set s acts = .ok (incs s acts) := by
  intro acts
  induction acts with
  | nil => intro s _ _ _ _ _; rfl
  | cons a rest ih =>
    intro s present hf hd hp hw
    cases a with
    | default k c =>
      simp only [wfActs, Bool.and_eq_true] at hw
      obtain ⟨r, hr⟩ := Option.isSome_iff_exists.1 (hd k (by simp [actKeys]))
      simp only [runActs, hr, incs]
      exact ih s (k :: present) hf (fun x hx => hd x (by simp [actKeys, hx]))
        (by intro x hx; rcases List.mem_cons.1 hx with rfl | hx
            · rw [hr]; rfl
            · exact hp x hx) hw.2
    | force k c => simp [hasForce] at hf
    | setInc k v =>
      simp only [wfActs, Bool.and_eq_true, decide_eq_true_eq] at hw
      obtain ⟨r, hr⟩ := Option.isSome_iff_exists.1 (hp k hw.1.1)
      simp only [runActs, hr, incs]
      exact ih (setInclude s r v) present hf hd hp hw.2

theorem setInclude_store (s : State) (k : Key) (r x : Ref) (v : Inc) :
    setInclude (store s k r) x v = store (setInclude s x v) k r := by
  simp only [setInclude, store]
  congr 1
  funext y
  by_cases h1 : y = x <;> by_cases h2 : y = r <;> by_cases h3 : x = r <;>
    simp_all [Function.update]

theorem incs_store (k : Key) (r : Ref) : ∀ (acts : List Act) (s : State), k ∉ incKeys acts →
    incs (store s k r) acts = store (incs s acts) k r := by
  intro acts
  induction acts with
  | nil => intro s _; rfl
  | cons a rest ih =>
    intro s hk
    cases a with
    | default k' c => exact ih s hk
    | force k' c => exact ih s hk
    | setInc k' v =>
      simp only [incKeys, List.mem_cons, not_or] at hk
      have : (store s k r).dict k' = s.dict k' := by
        simp [store, Function.update, Ne.symm hk.1]
      simp only [incs, this]
      cases s.dict k' with
      | none => exact ih s hk.2
      | some r' =>
        simp only
        rw [setInclude_store]
        exact ih _ hk.2

theorem incs_fields (acts : List Act) : ∀ (s : State),
    (incs s acts).dict = s.dict ∧ (incs s acts).nIons = s.nIons ∧
      ∀ r, ((incs s acts).heap r).cls = (s.heap r).cls := by
  induction acts with
  | nil => intro s; exact ⟨rfl, rfl, fun _ => rfl⟩
  | cons a rest ih =>
    intro s
    cases a with
    | default k' c => exact ih s
    | force k' c => exact ih s
    | setInc k' v =>
      simp only [incs]
      cases s.dict k' with
      | none => exact ih s
      | some r' =>
        obtain ⟨h1, h2, h3⟩ := ih (setInclude s r' v)
        refine ⟨h1, h2, fun r => ?_⟩
        rw [h3]
        by_cases e : r = r'
        · subst e; simp [setInclude]
        · simp [setInclude, Function.update, e]

theorem incs_of_incKeys_nil : ∀ (acts : List Act) (s : State), incKeys acts = [] →
    incs s acts = s := by
  intro acts
  induction acts with
  | nil => intro s _; rfl
  | cons a rest ih =>
    intro s h
    cases a with
    | default k' c => exact ih s h
    | force k' c => exact ih s h
    | setInc k' v => simp [incKeys] at h

theorem store_comm (s : State) {k₁ k₂ : Key} {r₁ r₂ : Ref} (hk : k₁ ≠ k₂) (hr : r₁ ≠ r₂) :
    store (store s k₁ r₁) k₂ r₂ = store (store s k₂ r₂) k₁ r₁ := by
  simp only [store]
  congr 1
  · funext y
    by_cases h1 : y = r₁ <;> by_cases h2 : y = r₂ <;> simp_all [Function.update]
  · funext y
    by_cases h1 : y = k₁ <;> by_cases h2 : y = k₂ <;> simp_all [Function.update]

theorem assign_quiet {s : State} {k : Key} {r : Ref} (ha : k ∈ allowedKeys (s.heap r).cls)
    (hc : (s.heap r).cls ≠ .LinearResponseScreening)
    (hd : ∀ k ∈ actKeys (prepareActs s.nIons (s.heap r).cls), (s.dict k).isSome) :
    assign s k r = .ok (store (incs s (prepareActs s.nIons (s.heap r).cls)) k r) := by
  have hf : hasForce (prepareActs s.nIons (s.heap r).cls) = false := by
    cases h : hasForce (prepareActs s.nIons (s.heap r).cls) with
    | false => rfl
    | true => exact absurd (hasForce_prepare _ _ h) hc
  have := runActs_quiet (setItem 99) _ (prepareActs s.nIons (s.heap r).cls) s [] hf hd (by simp)
    (wf_prepare _ _)
  change setItem (99 + 1) s k r = _
  rw [setItem, if_pos ha, this]

theorem commute {n : Nat} {s : State} (hn : s.nIons = n) (_ : Inv s) {k₁ k₂ : Key} {r₁ r₂ : Ref}
    (hk : k₁ ≠ k₂) (hr : r₁ ≠ r₂) (_ : r₁ < s.next) (_ : r₂ < s.next)
    (a₁ : k₁ ∈ allowedKeys (s.heap r₁).cls) (a₂ : k₂ ∈ allowedKeys (s.heap r₂).cls)
    (c₁ : (s.heap r₁).cls ≠ .LinearResponseScreening)
    (c₂ : (s.heap r₂).cls ≠ .LinearResponseScreening)
    (d₁ : ∀ k ∈ actKeys (prepareActs n (s.heap r₁).cls), (s.dict k).isSome)
    (d₂ : ∀ k ∈ actKeys (prepareActs n (s.heap r₂).cls), (s.dict k).isSome)
    (q₂ : incKeys (prepareActs n (s.heap r₂).cls) = [])
    (q₁ : k₂ ∉ incKeys (prepareActs n (s.heap r₁).cls)) :
    ∃ s₁ s₂ s', assign s k₁ r₁ = .ok s₁ ∧ assign s₁ k₂ r₂ = .ok s' ∧
      assign s k₂ r₂ = .ok s₂ ∧ assign s₂ k₁ r₁ = .ok s' := by
  subst hn
  set A₁ := prepareActs s.nIons (s.heap r₁).cls with hA₁
  set A₂ := prepareActs s.nIons (s.heap r₂).cls with hA₂
  have store_cls : ∀ (t : State) k r x, ((store t k r).heap x).cls = (t.heap x).cls := by
    intro t k r x
    by_cases e : x = r
    · subst e; simp [store]
    · simp [store, Function.update, e]
  have e₁ := assign_quiet a₁ c₁ d₁
  have e₂ := assign_quiet a₂ c₂ d₂
  rw [← hA₁] at e₁
  rw [← hA₂, incs_of_incKeys_nil _ _ q₂] at e₂
  obtain ⟨f1, f2, f3⟩ := incs_fields A₁ s
  -- second assignment after the first
  have cls2 : ((store (incs s A₁) k₁ r₁).heap r₂).cls = (s.heap r₂).cls := by
    rw [store_cls, f3]
  have e₁₂ : assign (store (incs s A₁) k₁ r₁) k₂ r₂ =
      .ok (store (store (incs s A₁) k₁ r₁) k₂ r₂) := by
    have h := assign_quiet (s := store (incs s A₁) k₁ r₁) (k := k₂) (r := r₂)
      (by rw [cls2]; exact a₂) (by rw [cls2]; exact c₂)
      (by
        intro k hk'
        rw [cls2] at hk'
        apply (ext_store (incs s A₁) k₁ r₁).keys
        rw [f1]
        apply d₂
        simpa [store, f2, hA₂] using hk')
    rw [cls2] at h
    have : (store (incs s A₁) k₁ r₁).nIons = s.nIons := by simp [store, f2]
    rw [this, ← hA₂, incs_of_incKeys_nil _ _ q₂] at h
    exact h
  have cls1 : ((store s k₂ r₂).heap r₁).cls = (s.heap r₁).cls := store_cls _ _ _ _
  have e₂₁ : assign (store s k₂ r₂) k₁ r₁ = .ok (store (store (incs s A₁) k₂ r₂) k₁ r₁) := by
    have h := assign_quiet (s := store s k₂ r₂) (k := k₁) (r := r₁)
      (by rw [cls1]; exact a₁) (by rw [cls1]; exact c₁)
      (by
        intro k hk'
        rw [cls1] at hk'
        apply (ext_store s k₂ r₂).keys
        apply d₁
        simpa [store, hA₁] using hk')
    rw [cls1] at h
    have : (store s k₂ r₂).nIons = s.nIons := rfl
    rw [this, ← hA₁, incs_store _ _ _ _ q₁] at h
    exact h
  exact ⟨_, _, _, e₁, e₁₂, e₂, by rw [e₂₁, store_comm _ hk hr]⟩

theorem run_nIons (n : Nat) (ops : List Op) : (run n ops).nIons = n := by
  have h := (inv_closed_foldl ops (ready_init n).inv (ready_init n).closed).2.2.nIons
  have h0 : (init n).nIons = n :=
    (inv_closed_foldl _ (inv_bare n) (closed_bare n)).2.2.nIons
  exact h.trans h0

end Verif.Registry
