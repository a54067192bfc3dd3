/-
Helper lemmas for `Verif.Props.Tree`: trees of any size.
-/
import Verif.Lemmas.Tree
import Mathlib.Data.List.Forall2

set_option autoImplicit false

namespace Verif.Tree

open Verif.Registry (Cls)

mutual

/-- A value all of whose objects have exactly the attributes that the constructor of their class
sets, and whose classes satisfy `ok`. -/
def Made {α : Type} (ok : TCls → Prop) : Val α → Prop
  | .none => True
  | .atom _ => True
  | .tuple vs => MadeAll ok vs
  | .list vs => MadeAll ok vs
  | .dict _ keys vs => keys.length = vs.length ∧ MadeAll ok vs
  | .obj c names vs =>
      ok c ∧ names = ctorAttrs c ∧ vs.length = (ctorAttrs c).length ∧ MadeAll ok vs

/-- Each value of a list. -/
def MadeAll {α : Type} (ok : TCls → Prop) : List (Val α) → Prop
  | [] => True
  | v :: vs => Made ok v ∧ MadeAll ok vs

end

theorem madeAll_iff {α : Type} (ok : TCls → Prop) (vs : List (Val α)) :
    MadeAll ok vs ↔ ∀ v ∈ vs, Made ok v := by
  induction vs with
  | nil => simp [MadeAll]
  | cons v vs ih => simp [MadeAll, ih]

/-- What the round trip through leaves and tree definition should do for `v`. -/
def RoundTrips {α : Type} (v : Val α) : Prop :=
  ∃ ls d, flat v = some (ls, d) ∧ ∀ rest, unflat d (ls ++ rest) = some (v, rest)

theorem gather_roundTrips {α : Type} (vs : List (Val α)) (h : ∀ v ∈ vs, RoundTrips v) :
    ∃ ls ds, gather (vs.map flat) = some (ls, ds) ∧
      ∀ rest, unflatAll ds (ls ++ rest) = some (vs, rest) := by
  induction vs with
  | nil => exact ⟨[], [], rfl, fun _ => rfl⟩
  | cons v vs ih =>
    obtain ⟨ls, d, hf, hu⟩ := h v (List.mem_cons_self ..)
    obtain ⟨ls', ds, hf', hu'⟩ := ih fun w hw => h w (List.mem_cons_of_mem _ hw)
    refine ⟨ls ++ ls', d :: ds, ?_, fun rest => ?_⟩
    · rw [List.map_cons, hf, gather, hf']
    · simp only [unflatAll, List.append_assoc, hu, hu']

mutual

theorem roundTrips {α : Type} {ok : TCls → Prop} (hok : ¬ ok (.model .IonSphereIPD)) :
    (v : Val α) → Made ok v → RoundTrips v
  | .none, _ => ⟨[], .none, rfl, fun _ => rfl⟩
  | .atom a, _ => ⟨[a], .leaf, rfl, fun _ => rfl⟩
  | .tuple vs, h => by
      rw [Made] at h
      obtain ⟨ls, ds, hg, hu⟩ := gather_roundTrips vs (roundTripsAll hok vs h)
      refine ⟨ls, .tuple ds, ?_, fun rest => ?_⟩
      · rw [flat, flatEach_eq, hg]; rfl
      · rw [unflat, hu]; rfl
  | .list vs, h => by
      rw [Made] at h
      obtain ⟨ls, ds, hg, hu⟩ := gather_roundTrips vs (roundTripsAll hok vs h)
      refine ⟨ls, .list ds, ?_, fun rest => ?_⟩
      · rw [flat, flatEach_eq, hg]; rfl
      · rw [unflat, hu]; rfl
  | .dict jit keys vs, h => by
      rw [Made] at h
      obtain ⟨ls, ds, hg, hu⟩ := gather_roundTrips vs (roundTripsAll hok vs h.2)
      refine ⟨ls, .dict jit keys ds, ?_, fun rest => ?_⟩
      · rw [flat, flatEach_eq, hg]; rfl
      · rw [unflat, hu]; rfl
  | .obj c names vs, h => by
      rw [Made] at h
      obtain ⟨hc, rfl, hl, hvs⟩ := h
      have hne : c ≠ .model .IonSphereIPD := fun e => hok (e ▸ hc)
      obtain ⟨ch, aux, kvs, h1, h2, h3, h4⟩ := unflatten_flatten c hne vs hl
      have hall := roundTripsAll hok vs hvs
      obtain ⟨ls, ds, hg, hu⟩ := gather_roundTrips ch
        fun w hw => hall w (flattenAttrs_children_mem h1 w hw)
      refine ⟨ls, .obj c aux ds, ?_, fun rest => ?_⟩
      · rw [flat, flatEach_eq, flattenAttrs_map, h1]
        simp [hg]
      · rw [unflat, hu]
        simp [h2, h3, h4]

theorem roundTripsAll {α : Type} {ok : TCls → Prop} (hok : ¬ ok (.model .IonSphereIPD)) :
    (vs : List (Val α)) → MadeAll ok vs → ∀ v ∈ vs, RoundTrips v
  | [], _ => by simp
  | v :: vs, h => by
      rw [MadeAll] at h
      intro w hw
      rcases List.mem_cons.1 hw with e | hw
      · exact e ▸ roundTrips hok v h.1
      · exact roundTripsAll hok vs h.2 w hw

end

/-- Other leaves in the place of the flattened ones give a value with exactly these leaves and the
same tree definition. -/
def Refillable {α : Type} (v : Val α) : Prop :=
  ∀ ls d, flat v = some (ls, d) → ∀ ls' : List (Atom α), ls'.length = ls.length →
    ∃ v', (∀ rest, unflat d (ls' ++ rest) = some (v', rest)) ∧ flat v' = some (ls', d)

theorem gather_refillable {α : Type} (vs : List (Val α)) (h : ∀ v ∈ vs, Refillable v) :
    ∀ ls ds, gather (vs.map flat) = some (ls, ds) →
      ∀ ls' : List (Atom α), ls'.length = ls.length →
      ∃ vs' : List (Val α), vs'.length = vs.length ∧
        (∀ rest, unflatAll ds (ls' ++ rest) = some (vs', rest)) ∧
        gather (vs'.map flat) = some (ls', ds) := by
  induction vs with
  | nil =>
    intro ls ds hg ls' hl
    obtain ⟨rfl, rfl⟩ := Prod.mk.inj (Option.some.inj hg)
    obtain rfl := len0 hl
    exact ⟨[], rfl, fun _ => rfl, rfl⟩
  | cons v vs ih =>
    intro ls ds hg ls' hl
    rw [List.map_cons] at hg
    cases hf : flat v with
    | none => rw [hf, gather] at hg; cases hg
    | some p =>
      obtain ⟨l1, d⟩ := p
      cases hr : gather (vs.map flat) with
      | none => rw [hf, gather, hr] at hg; cases hg
      | some q =>
        obtain ⟨l2, ds'⟩ := q
        rw [hf, gather, hr] at hg
        obtain ⟨rfl, rfl⟩ := Prod.mk.inj (Option.some.inj hg)
        rw [List.length_append] at hl
        obtain ⟨v', hv1, hv2⟩ := h v (List.mem_cons_self ..) l1 d hf (ls'.take l1.length)
          (by rw [List.length_take]; omega)
        obtain ⟨vs', hlen, hu, hg'⟩ := ih (fun w hw => h w (List.mem_cons_of_mem _ hw)) l2 ds' hr
          (ls'.drop l1.length) (by rw [List.length_drop]; omega)
        refine ⟨v' :: vs', by simp [hlen], fun rest => ?_, ?_⟩
        · rw [unflatAll]
          have : ls' ++ rest = ls'.take l1.length ++ (ls'.drop l1.length ++ rest) := by
            rw [← List.append_assoc, List.take_append_drop]
          simp only [this, hv1, hu]
        · simp only [List.map_cons, hv2, gather, hg', List.take_append_drop]

mutual

theorem refillable {α : Type} {ok : TCls → Prop} :
    (v : Val α) → Made ok v → Refillable v
  | .none, _ => by
      intro ls d hf ls' hl
      obtain ⟨rfl, rfl⟩ := Prod.mk.inj (Option.some.inj hf)
      obtain rfl := len0 hl
      exact ⟨.none, fun _ => rfl, rfl⟩
  | .atom a, _ => by
      intro ls d hf ls' hl
      obtain ⟨rfl, rfl⟩ := Prod.mk.inj (Option.some.inj hf)
      obtain ⟨b, rfl⟩ := len1 hl
      exact ⟨.atom b, fun _ => rfl, rfl⟩
  | .tuple vs, h => by
      rw [Made] at h
      intro ls d hf ls' hl
      rw [flat, flatEach_eq] at hf
      obtain ⟨⟨l, ds⟩, hg, he⟩ := Option.map_eq_some_iff.1 hf
      obtain ⟨rfl, rfl⟩ := Prod.mk.inj he
      obtain ⟨vs', -, hu, hg'⟩ := gather_refillable vs (refillableAll vs h) _ ds hg ls' hl
      exact ⟨.tuple vs', fun rest => by rw [unflat, hu]; rfl, by rw [flat, flatEach_eq, hg']; rfl⟩
  | .list vs, h => by
      rw [Made] at h
      intro ls d hf ls' hl
      rw [flat, flatEach_eq] at hf
      obtain ⟨⟨l, ds⟩, hg, he⟩ := Option.map_eq_some_iff.1 hf
      obtain ⟨rfl, rfl⟩ := Prod.mk.inj he
      obtain ⟨vs', -, hu, hg'⟩ := gather_refillable vs (refillableAll vs h) _ ds hg ls' hl
      exact ⟨.list vs', fun rest => by rw [unflat, hu]; rfl, by rw [flat, flatEach_eq, hg']; rfl⟩
  | .dict jit keys vs, h => by
      rw [Made] at h
      intro ls d hf ls' hl
      rw [flat, flatEach_eq] at hf
      obtain ⟨⟨l, ds⟩, hg, he⟩ := Option.map_eq_some_iff.1 hf
      obtain ⟨rfl, rfl⟩ := Prod.mk.inj he
      obtain ⟨vs', -, hu, hg'⟩ := gather_refillable vs (refillableAll vs h.2) _ ds hg ls' hl
      exact ⟨.dict jit keys vs', fun rest => by rw [unflat, hu]; rfl,
        by rw [flat, flatEach_eq, hg']; rfl⟩
  | .obj c names vs, h => by
      rw [Made] at h
      obtain ⟨-, rfl, hl, hvs⟩ := h
      intro ls d hf ls' hll
      have hall := refillableAll vs hvs
      rw [flat, flatEach_eq, flattenAttrs_map] at hf
      cases hfa : flattenAttrs c (ctorAttrs c) vs with
      | none => rw [hfa] at hf; cases hf
      | some p =>
        obtain ⟨ch, aux⟩ := p
        rw [hfa] at hf
        simp only [Option.map_some] at hf
        cases hg : gather (ch.map flat) with
        | none => simp [hg] at hf
        | some q =>
          obtain ⟨l, ds⟩ := q
          simp [hg] at hf
          obtain ⟨rfl, rfl⟩ := hf
          obtain ⟨ch', hlen, hu, hg'⟩ := gather_refillable ch
            (fun w hw => hall w (flattenAttrs_children_mem hfa w hw)) _ ds hg ls' hll
          obtain ⟨kvs, hk, hf2⟩ := flatten_unflatten c vs ch ch' aux hl hfa hlen
          refine ⟨.obj c (builtNames c kvs) (builtVals c kvs), fun rest => ?_, ?_⟩
          · rw [unflat, hu]; simp [hk]
          · rw [flat, flatEach_eq, flattenAttrs_map, hf2]
            simp [hg']

theorem refillableAll {α : Type} {ok : TCls → Prop} :
    (vs : List (Val α)) → MadeAll ok vs → ∀ v ∈ vs, Refillable v
  | [], _ => by simp
  | v :: vs, h => by
      rw [MadeAll] at h
      intro w hw
      rcases List.mem_cons.1 hw with e | hw
      · exact e ▸ refillable v h.1
      · exact refillableAll vs h.2 w hw

end

/-- The two values agree in class and in every attribute that is ever read, at any depth. -/
inductive Alike {α : Type} : Val α → Val α → Prop where
  | refl (v : Val α) : Alike v v
  | tuple {vs ws : List (Val α)} (h : List.Forall₂ Alike vs ws) : Alike (.tuple vs) (.tuple ws)
  | list {vs ws : List (Val α)} (h : List.Forall₂ Alike vs ws) : Alike (.list vs) (.list ws)
  | dict {jit : Bool} {keys : List String} {vs ws : List (Val α)} (h : List.Forall₂ Alike vs ws) :
      Alike (.dict jit keys vs) (.dict jit keys ws)
  | obj {c : TCls} {n m : List String} {vs ws : List (Val α)}
      (has : ∀ a ∈ readAttrs c, (look n vs a).isSome ∧ (look m ws a).isSome)
      (h : ∀ a ∈ readAttrs c, ∀ v w, look n vs a = some v → look m ws a = some w → Alike v w) :
      Alike (.obj c n vs) (.obj c m ws)

theorem alike_children {β : Type} (R : β → β → Prop) (hR : ∀ b, R b b) (c : TCls)
    (vs ch ch' : List β) (aux : Aux β) (hl : vs.length = (ctorAttrs c).length)
    (h : flattenAttrs c (ctorAttrs c) vs = some (ch, aux)) (hch : List.Forall₂ R ch ch') :
    ∃ kvs, unflattenAttrs c ch' aux = some kvs ∧
      ∀ a ∈ readAttrs c, ∃ v w, look (ctorAttrs c) vs a = some v ∧
        look (builtNames c kvs) (builtVals c kvs) a = some w ∧ R v w := by
  have hlen := hch.length_eq.symm
  rcases c with c | _ | _ | _ | _ | _ | _ | _ | _ <;> try cases c
  all_goals explicit hl
  all_goals
    obtain ⟨rfl, rfl⟩ := Prod.mk.inj (Option.some.inj h)
    explicit hlen
    simp only [List.reverse_cons, List.reverse_nil, List.nil_append, List.cons_append,
      List.forall₂_cons, List.forall₂_nil_right_iff, and_true] at hch
    refine ⟨_, rfl, ?_⟩
    simp only [readAttrs, ctorAttrs, List.mem_cons, List.not_mem_nil, or_false, forall_eq_or_imp, forall_eq]
  all_goals
    repeat' constructor
  all_goals first
    | exact hR _
    | exact hch
    | exact hch.1
    | exact hch.2
    | exact hch.2.1
    | exact hch.2.2
    | exact hch.2.2.1
    | exact hch.2.2.2
    | exact hch.2.2.2.1
    | exact hch.2.2.2.2
    | exact hch.2.2.2.2.1
    | exact hch.2.2.2.2.2

/-- The round trip through leaves and tree definition gives a value that is alike. -/
def ComesBack {α : Type} (v : Val α) : Prop :=
  ∃ ls d v', flat v = some (ls, d) ∧ (∀ rest, unflat d (ls ++ rest) = some (v', rest)) ∧
    Alike v v'

theorem gather_comesBack {α : Type} (vs : List (Val α)) (h : ∀ v ∈ vs, ComesBack v) :
    ∃ ls ds vs', gather (vs.map flat) = some (ls, ds) ∧
      (∀ rest, unflatAll ds (ls ++ rest) = some (vs', rest)) ∧ List.Forall₂ Alike vs vs' := by
  induction vs with
  | nil => exact ⟨[], [], [], rfl, fun _ => rfl, .nil⟩
  | cons v vs ih =>
    obtain ⟨ls, d, v', hf, hu, ha⟩ := h v (List.mem_cons_self ..)
    obtain ⟨ls', ds, vs', hf', hu', ha'⟩ := ih fun w hw => h w (List.mem_cons_of_mem _ hw)
    refine ⟨ls ++ ls', d :: ds, v' :: vs', ?_, fun rest => ?_, .cons ha ha'⟩
    · rw [List.map_cons, hf, gather, hf']
    · simp only [unflatAll, List.append_assoc, hu, hu']

mutual

theorem comesBack {α : Type} {ok : TCls → Prop} :
    (v : Val α) → Made ok v → ComesBack v
  | .none, _ => ⟨[], .none, .none, rfl, fun _ => rfl, .refl _⟩
  | .atom a, _ => ⟨[a], .leaf, .atom a, rfl, fun _ => rfl, .refl _⟩
  | .tuple vs, h => by
      rw [Made] at h
      obtain ⟨ls, ds, vs', hg, hu, ha⟩ := gather_comesBack vs (comesBackAll vs h)
      refine ⟨ls, .tuple ds, .tuple vs', ?_, fun rest => ?_, .tuple ha⟩
      · rw [flat, flatEach_eq, hg]; rfl
      · rw [unflat, hu]; rfl
  | .list vs, h => by
      rw [Made] at h
      obtain ⟨ls, ds, vs', hg, hu, ha⟩ := gather_comesBack vs (comesBackAll vs h)
      refine ⟨ls, .list ds, .list vs', ?_, fun rest => ?_, .list ha⟩
      · rw [flat, flatEach_eq, hg]; rfl
      · rw [unflat, hu]; rfl
  | .dict jit keys vs, h => by
      rw [Made] at h
      obtain ⟨ls, ds, vs', hg, hu, ha⟩ := gather_comesBack vs (comesBackAll vs h.2)
      refine ⟨ls, .dict jit keys ds, .dict jit keys vs', ?_, fun rest => ?_, .dict ha⟩
      · rw [flat, flatEach_eq, hg]; rfl
      · rw [unflat, hu]; rfl
  | .obj c names vs, h => by
      rw [Made] at h
      obtain ⟨hc, rfl, hl, hvs⟩ := h
      have hall := comesBackAll vs hvs
      obtain ⟨ch, aux, h1⟩ := flatten_total c vs hl
      obtain ⟨ls, ds, ch', hg, hu, ha⟩ := gather_comesBack ch
        fun w hw => hall w (flattenAttrs_children_mem h1 w hw)
      obtain ⟨kvs, hk, hr⟩ := alike_children Alike .refl c vs ch ch' aux hl h1 ha
      refine ⟨ls, .obj c aux ds, .obj c (builtNames c kvs) (builtVals c kvs), ?_, fun rest => ?_,
        .obj ?_ ?_⟩
      · rw [flat, flatEach_eq, flattenAttrs_map, h1]
        simp [hg]
      · rw [unflat, hu]
        simp [hk]
      · intro a hm
        obtain ⟨v, w, e1, e2, -⟩ := hr a hm
        simp [e1, e2]
      · intro a hm v w e1 e2
        obtain ⟨v', w', e1', e2', hvw⟩ := hr a hm
        rw [e1] at e1'
        rw [e2] at e2'
        obtain rfl := Option.some.inj e1'
        obtain rfl := Option.some.inj e2'
        exact hvw

theorem comesBackAll {α : Type} {ok : TCls → Prop} :
    (vs : List (Val α)) → MadeAll ok vs → ∀ v ∈ vs, ComesBack v
  | [], _ => by simp
  | v :: vs, h => by
      rw [MadeAll] at h
      intro w hw
      rcases List.mem_cons.1 hw with e | hw
      · exact e ▸ comesBack v h.1
      · exact comesBackAll vs h.2 w hw

end

end Verif.Tree
