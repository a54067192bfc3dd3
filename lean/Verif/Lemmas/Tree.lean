/-
Helper lemmas for `Verif.Props.Tree`.
-/
import Verif.Model.Tree

set_option autoImplicit false

namespace Verif.Tree

open Verif.Registry (Cls)

/-! ### Lists of known length -/

theorem len0 {β : Type} {l : List β} (h : l.length = 0) : l = [] := List.length_eq_zero_iff.1 h

theorem lenS {β : Type} {l : List β} {n : Nat} (h : l.length = n + 1) :
    ∃ a t, l = a :: t ∧ t.length = n := by
  cases l with
  | nil => simp at h
  | cons a t => exact ⟨a, t, rfl, by simpa using h⟩

theorem len1 {β : Type} {l : List β} (h : l.length = 1) : ∃ a, l = [a] := by
  obtain ⟨a, t, rfl, h'⟩ := lenS h; exact ⟨a, by rw [len0 h']⟩

theorem len2 {β : Type} {l : List β} (h : l.length = 2) : ∃ a b, l = [a, b] := by
  obtain ⟨a, t, rfl, h'⟩ := lenS h; obtain ⟨b, rfl⟩ := len1 h'; exact ⟨a, b, rfl⟩

theorem len3 {β : Type} {l : List β} (h : l.length = 3) : ∃ a b c, l = [a, b, c] := by
  obtain ⟨a, t, rfl, h'⟩ := lenS h; obtain ⟨b, c, rfl⟩ := len2 h'; exact ⟨a, b, c, rfl⟩

theorem len4 {β : Type} {l : List β} (h : l.length = 4) : ∃ a b c d, l = [a, b, c, d] := by
  obtain ⟨a, t, rfl, h'⟩ := lenS h; obtain ⟨b, c, d, rfl⟩ := len3 h'; exact ⟨a, b, c, d, rfl⟩

theorem len5 {β : Type} {l : List β} (h : l.length = 5) : ∃ a b c d e, l = [a, b, c, d, e] := by
  obtain ⟨a, t, rfl, h'⟩ := lenS h; obtain ⟨b, c, d, e, rfl⟩ := len4 h'; exact ⟨a, b, c, d, e, rfl⟩

theorem len6 {β : Type} {l : List β} (h : l.length = 6) :
    ∃ a b c d e f, l = [a, b, c, d, e, f] := by
  obtain ⟨a, t, rfl, h'⟩ := lenS h; obtain ⟨b, c, d, e, f, rfl⟩ := len5 h'
  exact ⟨a, b, c, d, e, f, rfl⟩

theorem len7 {β : Type} {l : List β} (h : l.length = 7) :
    ∃ a b c d e f g, l = [a, b, c, d, e, f, g] := by
  obtain ⟨a, t, rfl, h'⟩ := lenS h; obtain ⟨b, c, d, e, f, g, rfl⟩ := len6 h'
  exact ⟨a, b, c, d, e, f, g, rfl⟩

theorem len8 {β : Type} {l : List β} (h : l.length = 8) :
    ∃ a b c d e f g i, l = [a, b, c, d, e, f, g, i] := by
  obtain ⟨a, t, rfl, h'⟩ := lenS h; obtain ⟨b, c, d, e, f, g, i, rfl⟩ := len7 h'
  exact ⟨a, b, c, d, e, f, g, i, rfl⟩

/-- Make a list of known length explicit. -/
macro "explicit" h:ident : tactic => `(tactic| first
  | (have hh := len0 $h; subst hh)
  | (obtain ⟨a1, hh⟩ := len1 $h; subst hh)
  | (obtain ⟨a1, a2, hh⟩ := len2 $h; subst hh)
  | (obtain ⟨a1, a2, a3, hh⟩ := len3 $h; subst hh)
  | (obtain ⟨a1, a2, a3, a4, hh⟩ := len4 $h; subst hh)
  | (obtain ⟨a1, a2, a3, a4, a5, hh⟩ := len5 $h; subst hh)
  | (obtain ⟨a1, a2, a3, a4, a5, a6, hh⟩ := len6 $h; subst hh)
  | (obtain ⟨a1, a2, a3, a4, a5, a6, a7, hh⟩ := len7 $h; subst hh)
  | (obtain ⟨a1, a2, a3, a4, a5, a6, a7, a8, hh⟩ := len8 $h; subst hh))

/-! ### One level of the pytree protocol -/

/-- Unflattening what was flattened gives back every attribute. -/
theorem unflatten_flatten {β : Type} (c : TCls) (hc : c ≠ .model .IonSphereIPD) (vs : List β)
    (hl : vs.length = (ctorAttrs c).length) :
    ∃ ch aux kvs, flattenAttrs c (ctorAttrs c) vs = some (ch, aux) ∧
      unflattenAttrs c ch aux = some kvs ∧ builtNames c kvs = ctorAttrs c ∧
      builtVals c kvs = vs := by
  rcases c with c | _ | _ | _ | _ | _ | _ | _ | _ <;> try cases c
  all_goals explicit hl
  all_goals first
    | exact ⟨_, _, _, rfl, rfl, rfl, rfl⟩
    | exact absurd rfl hc

/-- `_tree_flatten` finds every attribute it asks for. -/
theorem flatten_total {β : Type} (c : TCls) (vs : List β)
    (hl : vs.length = (ctorAttrs c).length) :
    ∃ ch aux, flattenAttrs c (ctorAttrs c) vs = some (ch, aux) := by
  rcases c with c | _ | _ | _ | _ | _ | _ | _ | _ <;> try cases c
  all_goals explicit hl
  all_goals exact ⟨_, _, rfl⟩

/-- Other children in the place of the flattened ones: the object that is rebuilt has exactly
these children and the same auxiliary data. -/
theorem flatten_unflatten {β : Type} (c : TCls) (vs ch ch' : List β)
    (aux : Aux β) (hl : vs.length = (ctorAttrs c).length)
    (h : flattenAttrs c (ctorAttrs c) vs = some (ch, aux)) (hch : ch'.length = ch.length) :
    ∃ kvs, unflattenAttrs c ch' aux = some kvs ∧
      flattenAttrs c (builtNames c kvs) (builtVals c kvs) = some (ch', aux) := by
  rcases c with c | _ | _ | _ | _ | _ | _ | _ | _ <;> try cases c
  all_goals explicit hl
  all_goals
    obtain ⟨rfl, rfl⟩ := Prod.mk.inj (Option.some.inj h)
    explicit hch
    exact ⟨_, rfl, rfl⟩

/-! ### Whole trees -/

theorem flatEach_eq {α : Type} (vs : List (Val α)) : flatEach vs = vs.map flat := by
  induction vs with
  | nil => rfl
  | cons v vs ih => rw [flatEach, ih, List.map_cons]

theorem look_map {β γ : Type} (f : β → γ) (names : List String) (vs : List β) (n : String) :
    look names (vs.map f) n = (look names vs n).map f := by
  unfold look
  induction names generalizing vs with
  | nil => rfl
  | cons m ms ih =>
    cases vs with
    | nil => rfl
    | cons v vs =>
      simp only [List.map_cons, List.zip_cons_cons, List.lookup_cons]
      split
      · rfl
      · exact ih vs

theorem mapM_look_map {β γ : Type} (f : β → γ) (names : List String) (vs : List β)
    (as : List String) :
    as.mapM (look names (vs.map f)) = (as.mapM (look names vs)).map (List.map f) := by
  induction as with
  | nil => rfl
  | cons a as ih =>
    simp only [List.mapM_cons, look_map, ih]
    cases look names vs a with
    | none => rfl
    | some x =>
      cases as.mapM (look names vs) with
      | none => rfl
      | some xs => rfl

/-- Apply a function to auxiliary data. -/
def Aux.map {β γ : Type} (f : β → γ) : Aux β → Aux γ
  | .tuple vs => .tuple (vs.map f)
  | .dict ks vs => .dict ks (vs.map f)
  | .bare v => .bare (f v)

theorem flattenAttrs_map {β γ : Type} (f : β → γ) (c : TCls) (names : List String)
    (vs : List β) :
    flattenAttrs c names (vs.map f) =
      (flattenAttrs c names vs).map fun p => (p.1.map f, p.2.map f) := by
  unfold flattenAttrs
  rw [mapM_look_map]
  cases h : (flatChildren c).mapM (look names vs) with
  | none => rfl
  | some ch =>
    cases flatAux c with
    | tuple as =>
      simp only [mapM_look_map]
      cases as.mapM (look names vs) <;> rfl
    | dict es =>
      simp only [mapM_look_map]
      cases (es.map Prod.snd).mapM (look names vs) <;> rfl
    | bare a =>
      simp only [look_map]
      cases look names vs a <;> rfl
    | ignored => rfl

theorem look_mem {β : Type} {names : List String} {vs : List β} {n : String} {v : β}
    (h : look names vs n = some v) : v ∈ vs := by
  unfold look at h
  induction names generalizing vs with
  | nil => simp at h
  | cons m ms ih =>
    cases vs with
    | nil => simp at h
    | cons w ws =>
      rw [List.zip_cons_cons, List.lookup_cons] at h
      split at h
      · simp_all
      · exact List.mem_cons_of_mem _ (ih h)

theorem mapM_look_mem {β : Type} {names : List String} {vs : List β} {as : List String}
    {xs : List β} (h : as.mapM (look names vs) = some xs) : ∀ x ∈ xs, x ∈ vs := by
  induction as generalizing xs with
  | nil =>
    obtain rfl := Option.some.inj h
    simp
  | cons a as ih =>
    rw [List.mapM_cons] at h
    cases hl : look names vs a with
    | none => rw [hl] at h; cases h
    | some y =>
      cases hm : as.mapM (look names vs) with
      | none => rw [hl, hm] at h; cases h
      | some ys =>
        rw [hl, hm] at h
        obtain rfl := Option.some.inj h
        intro x hx
        rcases List.mem_cons.1 hx with rfl | hx
        · exact look_mem hl
        · exact ih hm x hx

theorem flattenAttrs_children_mem {β : Type} {c : TCls} {names : List String} {vs ch : List β}
    {aux : Aux β} (h : flattenAttrs c names vs = some (ch, aux)) : ∀ x ∈ ch, x ∈ vs := by
  unfold flattenAttrs at h
  cases hm : (flatChildren c).mapM (look names vs) with
  | none => rw [hm] at h; cases h
  | some ys =>
    rw [hm] at h
    have : ys = ch := by
      revert h
      cases flatAux c with
      | tuple as =>
        cases hm2 : as.mapM (look names vs) with
        | none => simp [hm2]
        | some zs => simp [hm2]; exact fun h _ => h
      | dict es =>
        cases hm2 : (es.map Prod.snd).mapM (look names vs) with
        | none => simp [hm2]
        | some zs => simp [hm2]; exact fun h _ => h
      | bare a =>
        cases hm2 : look names vs a with
        | none => simp [hm2]
        | some zs => simp [hm2]; exact fun h _ => h
      | ignored => simp
    subst this
    exact mapM_look_mem hm

end Verif.Tree
