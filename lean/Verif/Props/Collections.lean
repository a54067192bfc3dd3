/-
Property C96: the lists of available models contain exactly what was asked for, and all of it can be attached to
a state.
-/
import Verif.Model.Collections
import Verif.Props.Registry
import Mathlib.Data.List.Dedup

set_option autoImplicit false

namespace Verif.Collections

open Verif.Registry Verif.Tree

variable {α β : Type}

/-- `d[k]` of a dictionary of lists; the empty list if the key is missing. -/
def dictAt (d : List (Key × List β)) (k : Key) : List β :=
  ((d.find? fun q => decide (q.1 = k)).map fun q => q.2).getD []

/-- C96: the private names are exactly those which begin with an underscore. -/
theorem isPrivate_iff (name : String) : isPrivate name = true ↔ ∃ rest : String, name = "_" ++ rest := by
  unfold isPrivate
  constructor
  · intro h
    cases hl : name.toList with
    | nil => simp [hl] at h
    | cons c l =>
      rw [hl] at h
      simp only [List.head?_cons, beq_iff_eq, Option.some.injEq] at h
      refine ⟨String.ofList l, String.toList_injective ?_⟩
      rw [hl, h]
      simp
  · rintro ⟨rest, rfl⟩
    rw [String.toList_append]
    rfl

/-- What the documentation asks of an attribute to be listed under `k`: a concrete class with a public name
which admits the key. -/
def Offers (e : Entry α) (k : Key) : Prop :=
  e.isAbstract = false ∧ isPrivate e.name = false ∧ ∃ ks, e.keys = some ks ∧ k ∈ ks

instance (e : Entry α) (k : Key) : Decidable (Offers e k) := by
  unfold Offers
  cases h : e.keys with
  | none => exact isFalse (by rintro ⟨_, _, ks, h', _⟩; cases h')
  | some ks =>
    exact decidable_of_iff (e.isAbstract = false ∧ isPrivate e.name = false ∧ k ∈ ks)
      (by constructor
          · rintro ⟨a, b, c⟩; exact ⟨a, b, ks, rfl, c⟩
          · rintro ⟨a, b, ks', h', c⟩; cases h'; exact ⟨a, b, c⟩)

theorem dictAt_append (d : List (Key × List β)) (k k' : Key) (x : β) :
    dictAt (append d k x) k' = if k = k' then dictAt d k' ++ [x] else dictAt d k' := by
  induction d with
  | nil => by_cases h : k = k' <;> simp [append, dictAt, h]
  | cons q d ih =>
    obtain ⟨k₀, l⟩ := q
    by_cases h0 : k₀ = k
    · subst h0
      by_cases h : k₀ = k' <;> simp [append, dictAt, h]
    · by_cases h1 : k₀ = k'
      · subst h1
        have : k ≠ k₀ := fun h => h0 h.symm
        simp [append, dictAt, h0, this]
      · have e1 : dictAt (append ((k₀, l) :: d) k x) k' = dictAt (append d k x) k' := by
          simp [append, h0, dictAt, h1]
        have e2 : dictAt ((k₀, l) :: d) k' = dictAt d k' := by simp [dictAt, h1]
        rw [e1, e2, ih]

theorem keys_append (d : List (Key × List β)) (k k' : Key) (x : β) :
    k' ∈ (append d k x).map Prod.fst ↔ k' ∈ d.map Prod.fst ∨ k' = k := by
  induction d with
  | nil => simp [append]
  | cons q d ih =>
    obtain ⟨k₀, l⟩ := q
    by_cases h0 : k₀ = k
    · subst h0; simp [append]; tauto
    · simp only [append, h0, if_false, List.map_cons, List.mem_cons, ih]; tauto

theorem nodup_append (d : List (Key × List β)) (k : Key) (x : β) (h : (d.map Prod.fst).Nodup) :
    ((append d k x).map Prod.fst).Nodup := by
  induction d with
  | nil => simp [append]
  | cons q d ih =>
    obtain ⟨k₀, l⟩ := q
    rw [List.map_cons, List.nodup_cons] at h
    by_cases h0 : k₀ = k
    · subst h0
      simpa [append] using h
    · simp only [append, h0, if_false, List.map_cons, List.nodup_cons]
      refine ⟨fun hm => ?_, ih h.2⟩
      rcases (keys_append d k k₀ x).1 hm with h' | h'
      · exact h.1 h'
      · exact h0 h'

/-- All the ways in which the dictionary is changed keep a property. -/
theorem addEntry_induct (P : List (Key × List β) → Prop) (f : Entry α → β) (e : Entry α)
    (hP : ∀ d k, P d → P (append d k (f e))) (d : List (Key × List β)) (hd : P d) : P (addEntry f d e) := by
  unfold addEntry
  split
  · rename_i ks hk
    split
    · clear hk
      induction ks generalizing d with
      | nil => exact hd
      | cons k ks ih => exact ih _ (hP d k hd)
    · exact hd
  · exact hd

theorem getAll_induct (P : List (Key × List β) → Prop) (M : Modules α) (f : Entry α → β) (types : List String)
    (h0 : P []) (hP : ∀ d k e, P d → P (append d k (f e))) : P (getAllModels M f types) := by
  unfold getAllModels
  have key : ∀ (ms : List (List (Entry α))) (d : List (Key × List β)), P d →
      P (ms.foldl (fun d m => m.foldl (addEntry f) d) d) := by
    intro ms
    induction ms with
    | nil => exact fun d hd => hd
    | cons m ms ih =>
      intro d hd
      refine ih _ ?_
      clear ih
      induction m generalizing d with
      | nil => exact hd
      | cons e m ih => exact ih _ (addEntry_induct P f e (fun d k h => hP d k e h) d hd)
  exact key _ _ h0

theorem nodup_keys (M : Modules α) (f : Entry α → β) (types : List String) :
    ((getAllModels M f types).map Prod.fst).Nodup :=
  getAll_induct (fun d => (d.map Prod.fst).Nodup) M f types (by simp) fun d k e h => nodup_append d k (f e) h

theorem dictAt_fold (ks : List Key) (d : List (Key × List β)) (k : Key) (x : β) :
    dictAt (ks.foldl (fun d k' => append d k' x) d) k =
      dictAt d k ++ List.replicate (ks.count k) x := by
  induction ks generalizing d with
  | nil => simp
  | cons k' ks ih =>
    rw [List.foldl_cons, ih, dictAt_append, List.count_cons]
    by_cases h : k' = k
    · subst h
      simp [List.replicate_succ]
    · simp [h]

theorem dictAt_addEntry (f : Entry α → β) (d : List (Key × List β)) (e : Entry α) (k : Key)
    (hn : ∀ ks, e.keys = some ks → ks.Nodup) :
    dictAt (addEntry f d e) k = dictAt d k ++ ([e].filter fun e => decide (Offers e k)).map f := by
  unfold addEntry
  split
  · rename_i ks hk
    have hof : Offers e k ↔ e.isAbstract = false ∧ isPrivate e.name = false ∧ k ∈ ks := by
      unfold Offers
      simp [hk]
    split
    · rename_i hc
      simp only [Bool.and_eq_true, Bool.not_eq_true'] at hc
      rw [dictAt_fold]
      by_cases hm : k ∈ ks
      · have : Offers e k := hof.2 ⟨hc.1, hc.2, hm⟩
        simp [this, List.count_eq_one_of_mem (hn ks hk) hm]
      · have : ¬ Offers e k := fun h => hm (hof.1 h).2.2
        simp [this, List.count_eq_zero_of_not_mem hm]
    · rename_i hc
      have : ¬ Offers e k := fun h => hc (by simp [h.1, h.2.1])
      simp [this]
  · rename_i hk
    have : ¬ Offers e k := by rintro ⟨_, _, ks, h, _⟩; rw [hk] at h; cases h
    simp [this]

/-- C96.  Under each key `get_all_models` lists the concrete public classes of the requested modules which
admit the key, each one once, in the order of the modules: for every content of the two modules, provided that no
class names a key twice. -/
theorem getAllModels_spec (M : Modules α) (f : Entry α → β) (types : List String)
    (hn : ∀ e ∈ M.models ++ M.potentials, ∀ ks, e.keys = some ks → ks.Nodup) (k : Key) :
    dictAt (getAllModels M f types) k =
      ((((if "models" ∈ types then M.models else []) ++ if "hnc_potentials" ∈ types then M.potentials else []).filter
        fun e => decide (Offers e k)).map f) := by
  have inner : ∀ (m : List (Entry α)) (d : List (Key × List β)),
      (∀ e ∈ m, ∀ ks, e.keys = some ks → ks.Nodup) →
      dictAt (m.foldl (addEntry f) d) k = dictAt d k ++ (m.filter fun e => decide (Offers e k)).map f := by
    intro m
    induction m with
    | nil => intro d _; simp
    | cons e m ih =>
      intro d h
      rw [List.foldl_cons, ih _ fun e' he' => h e' (List.mem_cons_of_mem _ he'),
        dictAt_addEntry f d e k (h e List.mem_cons_self), List.append_assoc, ← List.map_append,
        ← List.filter_append, List.singleton_append]
  have h1 : ∀ e ∈ M.models, ∀ ks, e.keys = some ks → ks.Nodup := fun e he => hn e (List.mem_append_left _ he)
  have h2 : ∀ e ∈ M.potentials, ∀ ks, e.keys = some ks → ks.Nodup := fun e he => hn e (List.mem_append_right _ he)
  have h0 : dictAt ([] : List (Key × List β)) k = [] := rfl
  unfold getAllModels considered
  by_cases a : "models" ∈ types <;> by_cases b : "hnc_potentials" ∈ types
  · simp only [a, b, if_true, List.singleton_append, List.foldl_cons, List.foldl_nil, inner _ _ h2, inner _ _ h1,
      h0, List.nil_append, List.filter_append, List.map_append]
  · simp only [a, b, if_true, if_false, List.append_nil, List.foldl_cons, List.foldl_nil, inner _ _ h1, h0,
      List.nil_append]
  · simp only [a, b, if_true, if_false, List.nil_append, List.foldl_cons, List.foldl_nil, inner _ _ h2, h0]
  · simp [a, b, h0]

/-- C96.  A key is in the dictionary exactly if a class is listed under it. -/
theorem getAllModels_keys (M : Modules α) (f : Entry α → β) (types : List String) (k : Key) :
    k ∈ (getAllModels M f types).map Prod.fst ↔ dictAt (getAllModels M f types) k ≠ [] := by
  refine getAll_induct (fun d => k ∈ d.map Prod.fst ↔ dictAt d k ≠ []) M f types (by simp [dictAt]) ?_
  intro d k' e ih
  rw [keys_append, dictAt_append, ih]
  by_cases h : k' = k
  · simp [h]
  · have h' : k ≠ k' := fun h'' => h h''.symm
    simp [h, h']

theorem mem_values (d : List (Key × List β)) (h : (d.map Prod.fst).Nodup) (x : β) :
    x ∈ (d.flatMap fun q => q.2) ↔ ∃ k, x ∈ dictAt d k := by
  induction d with
  | nil => simp [dictAt]
  | cons q d ih =>
    obtain ⟨k₀, l⟩ := q
    rw [List.map_cons, List.nodup_cons] at h
    rw [List.flatMap_cons, List.mem_append, ih h.2]
    have at0 : dictAt ((k₀, l) :: d) k₀ = l := by simp [dictAt]
    have at1 : ∀ k, k ≠ k₀ → dictAt ((k₀, l) :: d) k = dictAt d k := by
      intro k hk
      have : ¬ k₀ = k := fun h => hk h.symm
      simp [dictAt, this]
    have none0 : dictAt d k₀ = [] := by
      have : d.find? (fun q => decide (q.1 = k₀)) = none := by
        rw [List.find?_eq_none]
        intro q hq hk
        exact h.1 (List.mem_map.2 ⟨q, hq, by simpa using hk⟩)
      simp [dictAt, this]
    constructor
    · rintro (hx | ⟨k, hx⟩)
      · exact ⟨k₀, by rwa [at0]⟩
      · refine ⟨k, ?_⟩
        rw [at1 k]
        · exact hx
        · rintro rfl
          rw [none0] at hx
          cases hx
    · rintro ⟨k, hx⟩
      by_cases hk : k = k₀
      · subst hk
        rw [at0] at hx
        exact Or.inl hx
      · rw [at1 k hk] at hx
        exact Or.inr ⟨k, hx⟩

variable [DecidableEq α]

/-- C96.  What `get_all_models_list` returns: the classes of both modules, each one once. -/
theorem getAllModelsList_spec (M : Modules α) (types : List String) (namesOnly : Bool)
    (hn : ∀ e ∈ M.models ++ M.potentials, ∀ ks, e.keys = some ks → ks.Nodup) :
    (getAllModelsList M types namesOnly).Nodup ∧ ∀ x, x ∈ getAllModelsList M types namesOnly ↔
      ∃ e ∈ M.models ++ M.potentials, (∃ k, Offers e k) ∧ x = .cls e.obj := by
  refine ⟨List.nodup_dedup _, fun x => ?_⟩
  unfold getAllModelsList
  rw [List.mem_dedup, mem_values _ (nodup_keys M _ _)]
  simp only [getAllModels_spec M _ _ hn, List.mem_map, List.mem_filter, decide_eq_true_eq]
  constructor
  · rintro ⟨k, e, ⟨he, ho⟩, rfl⟩
    exact ⟨e, by simpa using he, ⟨k, ho⟩, rfl⟩
  · rintro ⟨e, he, ⟨k, ho⟩, rfl⟩
    exact ⟨k, e, ⟨by simpa using he, ho⟩, rfl⟩

/-- C96.  The answer does not depend on what was asked for. -/
theorem getAllModelsList_ignores (M : Modules α) (types types' : List String) (n n' : Bool) :
    getAllModelsList M types n = getAllModelsList M types' n' := rfl

omit [DecidableEq α] in
theorem foldl_filter {γ : Type} (M : List (IEntry α)) (p : IEntry α → Bool) (g : IEntry α → γ) (l : List γ) :
    M.foldl (fun l e => if p e then l ++ [g e] else l) l = l ++ (M.filter p).map g := by
  induction M generalizing l with
  | nil => simp
  | cons e M ih =>
    rw [List.foldl_cons, ih]
    by_cases h : p e <;> simp [h]

omit [DecidableEq α] in
/-- C96.  `get_all_instrument_functions` lists the concrete public instrument functions. -/
theorem getAllInstrumentFunctions_spec (M : List (IEntry α)) (namesOnly : Bool) :
    getAllInstrumentFunctions M namesOnly =
      (M.filter fun e => decide (e.isAbstract = false ∧ e.isSub = true ∧ isPrivate e.name = false)).map
        fun e => if namesOnly then Item.name e.name else Item.cls e.obj := by
  unfold getAllInstrumentFunctions
  rw [foldl_filter M (fun e => !e.isAbstract && e.isSub && !isPrivate e.name)
    (fun e => bif namesOnly then Item.name e.name else Item.cls e.obj) [], List.nil_append]
  have : (fun e : IEntry α => !e.isAbstract && e.isSub && !isPrivate e.name) =
      fun e => decide (e.isAbstract = false ∧ e.isSub = true ∧ isPrivate e.name = false) := by
    funext e
    cases e.isAbstract <;> cases e.isSub <;> cases isPrivate e.name <;> rfl
  rw [this]
  cases namesOnly <;> rfl

/-! ### The modules of the repository -/

theorem repo_nodup : ∀ e ∈ repo.models ++ repo.potentials, ∀ ks, e.keys = some ks → ks.Nodup := by
  have h : (repo.models ++ repo.potentials).all (fun e => match e.keys with
      | some ks => decide ks.Nodup
      | none => true) = true := by decide +kernel
  intro e he ks hk
  have := List.all_eq_true.1 h e he
  rw [hk] at this
  simpa using this

theorem repo_offers_concrete (c : Cls) : entry c ∈ repo.models ++ repo.potentials := by
  cases c <;> decide +kernel

theorem repo_entries : ∀ e ∈ repo.models ++ repo.potentials, e.isAbstract = false →
    ∃ c, e = entry c := by
  have h : (repo.models ++ repo.potentials).all (fun e => e.isAbstract || match e.obj with
      | .concrete c => decide (e.name = className c ∧ e.isAbstract = false ∧ e.keys = some (allowedKeys c))
      | _ => false) = true := by decide +kernel
  intro e he ha
  have h' := List.all_eq_true.1 h e he
  rw [ha, Bool.false_or] at h'
  obtain ⟨n, o, a, ks⟩ := e
  cases o with
  | concrete c =>
    simp only [decide_eq_true_eq] at h' ha
    obtain ⟨rfl, -, rfl⟩ := h'
    subst ha
    exact ⟨c, rfl⟩
  | _ => simp at h'

theorem repo_public (c : Cls) : isPrivate (className c) = false := by
  cases c <;> decide +kernel

/-- C96.  With the classes of the repository and both types, a class is listed under a key exactly if it admits
the key. -/
theorem repo_listed (c : Cls) (k : Key) :
    Item.cls (PyClass.concrete c) ∈ dictAt (getAllModels repo (item false) ["models", "hnc_potentials"]) k ↔
      k ∈ allowedKeys c := by
  rw [getAllModels_spec repo _ _ repo_nodup]
  simp only [List.mem_map, List.mem_filter, decide_eq_true_eq]
  constructor
  · rintro ⟨e, ⟨he, ho⟩, hx⟩
    obtain ⟨c', rfl⟩ := repo_entries e (by simpa using he) ho.1
    obtain ⟨_, _, ks, hk, hm⟩ := ho
    have hc : c' = c := by simpa [item, entry] using hx
    subst hc
    have hks : allowedKeys c' = ks := by simpa [entry] using hk
    rwa [hks]
  · intro hm
    refine ⟨entry c, ⟨by simpa using repo_offers_concrete c, rfl, repo_public c, _, rfl, hm⟩, rfl⟩

/-- C96.  Every class listed under a key can be attached to every state under this key: no history of
assignments makes it raise. -/
theorem listed_assignable (n : Nat) (ops : List Op) (c : Cls) (k : Key) (inc : Inc) (stat dyn : List Nat)
    (h : Item.cls (PyClass.concrete c) ∈ dictAt (getAllModels repo (item false) ["models", "hnc_potentials"]) k) :
    ∃ s', assign (run n (ops ++ [.new c inc stat dyn])) k (run n ops).next = .ok s' ∧
      s'.dict k = some (run n ops).next := by
  have hm := (repo_listed c k).1 h
  set s := run n (ops ++ [.new c inc stat dyn]) with hs
  have e : s = alloc (run n ops) { cls := c, inc, stat, dyn } := by
    rw [hs]; unfold run; rw [List.foldl_append]; rfl
  have hr : (run n ops).next < s.next := by rw [e]; exact Nat.lt_succ_self _
  have hc : (s.heap (run n ops).next).cls = c := by rw [e]; simp [alloc]
  cases hA : assign s k (run n ops).next with
  | ok s' => exact ⟨s', rfl, (accepted_assignment_stores n _ k _ s' hr hA).1⟩
  | error q =>
    obtain ⟨er, s'⟩ := q
    have := ((assign_raises_iff n _ k _ hr er).1 ⟨s', hA⟩).1
    rw [← hs, hc] at this
    exact absurd hm this

/-- C96.  There is a class for every key that a class of the repository names. -/
theorem repo_keys (k : Key) (hk : ∀ s, k ≠ .other s) :
    ∃ c, Item.cls (PyClass.concrete c) ∈ dictAt (getAllModels repo (item false) ["models", "hnc_potentials"]) k := by
  simp only [repo_listed]
  cases k with
  | other s => exact absurd rfl (hk s)
  | ionic => exact ⟨.FixedSii, by decide⟩
  | freeFree => exact ⟨.RPA, by decide⟩
  | boundFree => exact ⟨.SchumacherImpulse, by decide⟩
  | freeBound => exact ⟨.DetailedBalance, by decide⟩
  | ipd => exact ⟨.Neglect, by decide⟩
  | formFactors => exact ⟨.PaulingFormFactors, by decide⟩
  | screening => exact ⟨.Gregori2004Screening, by decide⟩
  | screeningLength => exact ⟨.DebyeHueckelScreeningLength, by decide⟩
  | eeLfc => exact ⟨.LFCConstant, by decide⟩
  | chemPot => exact ⟨.IchimaruChemPotential, by decide⟩
  | debyeTemp => exact ⟨.BohmStaver, by decide⟩
  | bmSii => exact ⟨.Sum_Sii, by decide⟩
  | bmV => exact ⟨.DebyeHueckel_BM_V, by decide⟩
  | bfEdge => exact ⟨.Heaviside, by decide⟩
  | iiPot => exact ⟨.CoulombPotential, by decide⟩
  | eiPot => exact ⟨.CoulombPotential, by decide⟩
  | eePot => exact ⟨.CoulombPotential, by decide⟩

/-- C96.  With the classes of the repository `get_all_models_list` returns all concrete classes, whatever the
arguments are. -/
theorem repo_list (types : List String) (namesOnly : Bool) (x : Item PyClass) :
    x ∈ getAllModelsList repo types namesOnly ↔ ∃ c : Cls, x = .cls (.concrete c) := by
  rw [(getAllModelsList_spec repo types namesOnly repo_nodup).2]
  constructor
  · rintro ⟨e, he, ⟨k, ho⟩, rfl⟩
    obtain ⟨c, rfl⟩ := repo_entries e he ho.1
    exact ⟨c, rfl⟩
  · rintro ⟨c, rfl⟩
    have hne : ∃ k, k ∈ allowedKeys c := by
      cases c <;> exact ⟨_, List.mem_cons_self⟩
    obtain ⟨k, hk⟩ := hne
    exact ⟨entry c, repo_offers_concrete c, ⟨k, rfl, repo_public c, _, rfl, hk⟩, rfl⟩

/-- C96 fails for `get_all_models_list`: the list of the potentials contains models, and the list of the names
contains no name. -/
theorem list_wrong :
    Item.cls (PyClass.concrete .RPA) ∈ getAllModelsList repo ["hnc_potentials"] false ∧
      (∀ k, Item.cls (PyClass.concrete .RPA) ∉ dictAt (getAllModels repo (item false) ["hnc_potentials"]) k) ∧
      ∀ s, Item.name s ∉ getAllModelsList repo ["models", "hnc_potentials"] true := by
  refine ⟨(repo_list _ _ _).2 ⟨.RPA, rfl⟩, fun k h => ?_, fun s h => ?_⟩
  · rw [getAllModels_spec repo _ _ repo_nodup] at h
    simp only [List.mem_map, List.mem_filter] at h
    obtain ⟨e, ⟨he, _⟩, hx⟩ := h
    have hp : e ∈ repoPotentials := by simpa [repo] using he
    have : repoPotentials.all (fun e => decide (e.obj ≠ .concrete .RPA)) = true := by decide +kernel
    have h' := List.all_eq_true.1 this e hp
    have hx' : e.obj = .concrete .RPA := by simpa [item] using hx
    simp [hx'] at h'
  · obtain ⟨c, hc⟩ := (repo_list _ _ _).1 h
    cases hc

theorem className_injective (c c' : Cls) (h : className c = className c') : c = c' := by
  have key : ∀ a ∈ allCls, ∀ b ∈ allCls, className a = className b → a = b := by
    have : (allCls.map className).Nodup := by decide +kernel
    intro a ha b hb
    exact fun e => List.inj_on_of_nodup_map this ha hb e
  have mem : ∀ c, c ∈ allCls := by intro c; cases c <;> decide +kernel
  exact key c (mem c) c' (mem c') h

/-- C96.  Nevertheless the decoder finds every class under its name, in the table of the models and in that of
the potentials; a class given by the user comes first. -/
theorem decoder_finds (types : List String) (c : Cls) :
    decoderLookup [] types (className c) = some (.concrete c) := by
  unfold decoderLookup
  simp only [List.reverse_nil, List.find?_nil]
  set l := ((getAllModelsList repo types false).filterMap fun i => match i with
    | .cls c => some c
    | .name _ => none).reverse with hl
  have mem : ∀ p, p ∈ l ↔ ∃ c : Cls, p = .concrete c := by
    intro p
    rw [hl, List.mem_reverse, List.mem_filterMap]
    constructor
    · rintro ⟨x, hx, hp⟩
      obtain ⟨c, rfl⟩ := (repo_list _ _ _).1 hx
      exact ⟨c, by simpa using hp.symm⟩
    · rintro ⟨c, rfl⟩
      exact ⟨_, (repo_list _ _ _).2 ⟨c, rfl⟩, rfl⟩
  cases hf : l.find? (fun p => p.name == className c) with
  | none =>
    rw [List.find?_eq_none] at hf
    exact absurd (by simp [PyClass.name]) (hf _ ((mem _).2 ⟨c, rfl⟩))
  | some p =>
    have hp := List.mem_of_find?_eq_some hf
    obtain ⟨c', rfl⟩ := (mem p).1 hp
    have hn := List.find?_some hf
    simp only [PyClass.name, beq_iff_eq] at hn
    rw [className_injective c' c hn]

/-- ... so that a name is unknown to the decoder exactly if it is none of a concrete class. -/
theorem decoder_unknown (types : List String) (n : String) :
    decoderLookup [] types n = none ↔ ∀ c, className c ≠ n := by
  constructor
  · rintro h c rfl
    rw [decoder_finds] at h
    cases h
  · intro h
    cases hd : decoderLookup [] types n with
    | none => rfl
    | some p =>
      exfalso
      unfold decoderLookup at hd
      simp only [List.reverse_nil, List.find?_nil] at hd
      have hp := List.mem_of_find?_eq_some hd
      have hn := List.find?_some hd
      rw [List.mem_reverse, List.mem_filterMap] at hp
      obtain ⟨x, hx, hp⟩ := hp
      obtain ⟨c, rfl⟩ := (repo_list _ _ _).1 hx
      have : p = .concrete c := by simpa using hp.symm
      subst this
      exact h c (by simpa [PyClass.name] using hn)

/-- The hypotheses are met: under one key, in the order of the modules; the abstract class is left out. -/
example : dictAt (getAllModels repo (item true) ["models", "hnc_potentials"]) .bfEdge =
    [.name "Fermi", .name "Heaviside", .name "NoEdge", .name "NonNegative"] := by decide +kernel

/-- C96.  A mapping that is given in addition replaces the class of its name, the last one if there are several, and
leaves all other names as they are. -/
theorem decoder_additional (additional : List (String × PyClass)) (types : List String) (n n' : String) (c : PyClass) :
    decoderLookup (additional ++ [(n, c)]) types n = some c ∧
      (n' ≠ n → decoderLookup (additional ++ [(n, c)]) types n' = decoderLookup additional types n') := by
  constructor
  · simp [decoderLookup]
  · intro h
    have : (n == n') = false := by simpa using fun e => h e.symm
    simp [decoderLookup, this]

example : decoderLookup [("RPA", .Model)] [] "RPA" = some .Model ∧ decoderLookup [("RPA", .Model)] [] "Neglect" = some (.concrete .Neglect) :=
  ⟨(decoder_additional [] [] "RPA" "Neglect" .Model).1,
    ((decoder_additional [] [] "RPA" "Neglect" .Model).2 (by decide)).trans (decoder_finds [] .Neglect)⟩

end Verif.Collections
